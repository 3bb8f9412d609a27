import Verif.Directive.Lemmas
/-!
# Lemmas about the directive scanner: macro definitions
-/

namespace Kefir.Directive

open Kefir.Lexer Kefir.PpToken

variable {sc : StrCodec} {t : Tries}

/-- The first token that is not white space. -/
theorem Steps.peel {c c' : Cursor} {τs rest : List Token} {τ : Token} (h : Steps sc t c τs c')
    (hs : significant τs = τ :: rest) :
    ∃ c1 τs', skipWhitespaces sc t c = some (.ok τ, c1) ∧ Steps sc t c1 τs' c' ∧ significant τs' = rest := by
  induction h with
  | nil => cases hs
  | @cons c c1 c' τ' τs hn he hx hs' ih =>
    rw [significant_cons] at hs
    by_cases hw : isWhite τ' = true
    · rw [if_pos hw] at hs
      have := white_eq hw hn
      subst this
      obtain ⟨c2, τs', e1, e2, e3⟩ := ih hs
      refine ⟨c2, τs', ?_, e2, e3⟩
      rw [skipWhitespaces, bind_some (nextToken_of hx), if_neg (by simp)]
      exact e1
    · rw [if_neg hw] at hs
      injection hs with h1 h2
      subst h1
      refine ⟨c1, τs, skipWhitespaces_token hx ?_, hs', h2⟩
      rintro rfl
      exact hw rfl

theorem paramTokens_nil (va : Bool) : paramTokens [] va = if va then [.punct .ellipsis] else [] := by
  cases va <;> rfl

theorem paramTokens_cons (x : List UInt8) (ps : List (List UInt8)) (va : Bool) :
    paramTokens (x :: ps) va = .identifier x ::
      (if ps = [] ∧ va = false then [] else .punct .comma :: paramTokens ps va) := by
  cases ps with
  | nil => cases va <;> rfl
  | cons y ps =>
    rw [if_neg (by simp)]
    rfl

theorem parameterLoop_eq {c c1 c2 : Cursor} {inner : List Token} {ps : List (List UInt8)} {va : Bool}
    (h : Steps sc t c inner c1) (he : Next sc t c1 (.punct .rightParenthese) c2)
    (hp : significant inner = paramTokens ps va) (params : List (List UInt8)) :
    (va = false ∧ parameterLoop sc t params c = some (.ok (params ++ ps, false, .punct .rightParenthese), c2)) ∨
    (va = true ∧ ∃ c3 inner', parameterLoop sc t params c = some (.ok (params ++ ps, true, .punct .ellipsis), c3) ∧
      Steps sc t c3 inner' c1 ∧ significant inner' = []) := by
  induction ps generalizing c inner params with
  | nil =>
    rw [paramTokens_nil] at hp
    cases va with
    | false =>
      left
      refine ⟨rfl, ?_⟩
      rw [parameterLoop, bind_some (skipWhitespaces_eq h hp he (by simp)), List.append_nil]
      rfl
    | true =>
      right
      obtain ⟨c3, inner', e1, e2, e3⟩ := h.peel hp
      refine ⟨rfl, c3, inner', ?_, e2, e3⟩
      rw [parameterLoop, bind_some e1, List.append_nil]
      rfl
  | cons x ps ih =>
    rw [paramTokens_cons] at hp
    obtain ⟨c3, inner', e1, e2, e3⟩ := h.peel hp
    rw [parameterLoop, bind_some e1]
    simp only []
    by_cases hc : ps = [] ∧ va = false
    · rw [if_pos hc] at e3
      obtain ⟨rfl, rfl⟩ := hc
      left
      refine ⟨rfl, ?_⟩
      rw [bind_some (skipWhitespaces_eq e2 e3 he (by simp)), if_pos rfl]
      rfl
    · rw [if_neg hc] at e3
      obtain ⟨c4, inner2, f1, f2, f3⟩ := e2.peel e3
      rw [bind_some f1, if_neg (by simp), if_pos rfl]
      have := ih f2 f3 (params ++ [x])
      rw [List.append_assoc] at this
      exact this

/-- `skip_whitespaces` behind the parenthesis, and the replacement list after it. -/
theorem replacement_after {c c1 c' : Cursor} {τs : List Token} {e : Token} (h : Steps sc t c τs c1)
    (he : LineEnd sc t c1 e c') :
    ∃ τ c2, skipWhitespaces sc t c = some (.ok τ, c2) ∧
      replacementList sc t τ c2 = some (.ok (trim τs), c') := by
  induction h with
  | nil =>
    exact ⟨_, _, skipWhitespaces_token he.1 (by rcases he.2 with h | h <;> simp [h]),
      replacementList_end he.2 _⟩
  | @cons c c2 c' τ τs hn hne hx hs ih =>
    by_cases hτ : τ = .ppWhitespace false
    · subst hτ
      obtain ⟨τ', c3, e1, e2⟩ := ih he
      refine ⟨τ', c3, ?_, e2⟩
      rw [skipWhitespaces, bind_some (nextToken_of hx), if_neg (by simp)]
      exact e1
    · exact ⟨τ, _, skipWhitespaces_token hx hτ, replacementList_eq hs he hne hn⟩

theorem defineParameters_eq {c c1 c2 : Cursor} {inner : List Token} {ps : List (List UInt8)} {va : Bool}
    (h : Steps sc t c inner c1) (he : Next sc t c1 (.punct .rightParenthese) c2)
    (hp : significant inner = paramTokens ps va) {τ : Token} {c3 : Cursor}
    (hw : skipWhitespaces sc t c2 = some (.ok τ, c3)) :
    defineParameters sc t c = some (.ok (ps, va, τ), c3) := by
  rw [defineParameters]
  rcases parameterLoop_eq h he hp [] with ⟨rfl, e⟩ | ⟨rfl, c4, inner', e, h1, h2⟩
  · rw [bind_some e]
    simp only []
    rw [if_neg (by simp), bind_some (pure_apply _ _)]
    simp only []
    rw [if_pos trivial, bind_some hw]
    rfl
  · rw [bind_some e]
    simp only []
    rw [if_pos (by simp), bind_some (skipWhitespaces_eq h1 h2 he (by simp))]
    simp only []
    rw [if_pos trivial, bind_some hw]
    rfl

/-- A macro definition. -/
theorem nextDefine_eq {c c' : Cursor} {τs : List Token} {d : Directive} (hl : LineTokens sc t c τs c')
    (hm : Meaning "define" τs d) : nextDefine sc t c = some (.ok d, c') := by
  obtain ⟨ce, e, hs, he⟩ := hl.split
  generalize hn : "define" = name at hm
  cases hm with
  | object ws x r hw hr =>
    obtain ⟨c1, h1, h2⟩ := hs.split
    cases h2 with
    | @cons _ c2 _ _ _ _ _ hx hs2 =>
      rw [nextDefine, bind_some (skipWhitespaces_eq h1 hw hx (by simp))]
      simp only []
      cases hs2 with
      | nil =>
        rw [bind_some (nextToken_of he.1), if_neg (by rcases he.2 with h | h <;> simp [h]),
          bind_some (replacementList_end he.2 _)]
        rfl
      | @cons _ c3 _ τ r' hn' hne hτ hs3 =>
        rw [bind_some (nextToken_of hτ), if_neg, bind_some (replacementList_eq hs3 he hne hn')]
        · rfl
        · rintro rfl
          exact absurd (hr _ _ rfl) (by decide)
  | function ws x inner r ps va hw hp =>
    obtain ⟨c1, h1, h2⟩ := hs.split
    cases h2 with
    | @cons _ c2 _ _ _ _ _ hx hs2 =>
      rw [nextDefine, bind_some (skipWhitespaces_eq h1 hw hx (by simp))]
      simp only []
      cases hs2 with
      | @cons _ c3 _ _ _ _ _ hpar hs3 =>
        rw [bind_some (nextToken_of hpar), if_pos rfl]
        obtain ⟨c4, h4, h5⟩ := hs3.split
        cases h5 with
        | @cons _ c5 _ _ _ _ _ hclose hs5 =>
          obtain ⟨τ, c6, e1, e2⟩ := replacement_after hs5 he
          rw [bind_some (defineParameters_eq h4 hclose hp e1)]
          simp only []
          rw [bind_some e2]
          rfl
  | _ => exact absurd hn (by decide)

end Kefir.Directive
