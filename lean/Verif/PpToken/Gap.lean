import Verif.PpToken.Complete
/-!
# The whitespace of a preprocessing token
-/

namespace Kefir.PpToken

open Kefir.Lexer

theorem Gap.trans {a b c : List Chr} {x y : Bool} (h1 : Gap a b x) (h2 : Gap b c y) :
    Gap a c (x || y) := by
  induction h1 with
  | nil => simpa using h2
  | newline h _ ih => simpa using Gap.newline h (ih h2)
  | blank h hn _ ih => exact .blank h hn (ih h2)

theorem Gap.one {a b : List Chr} (h : Blank a b) (hn : ¬ NewlineAt a b) : Gap a b false :=
  .blank h hn (.nil _)

theorem Gap.nl {a b : List Chr} (h : NewlineAt a b) : Gap a b true := .newline h (.nil _)

theorem Gap.blanks {a b : List Chr} {x : Bool} (h : Gap a b x) : Blanks a b := by
  induction h with
  | nil => exact .nil _
  | newline h _ ih =>
    refine .cons ?_ ih
    cases h with
    | newline => exact .space _ _ (by decide)
    | comment body _ hb => exact .line body _ hb
  | blank h _ _ ih => exact .cons h ih

theorem newlineAt_cases {t t' : List Chr} (h : NewlineAt t t') :
    (∃ r, t = ch '\n' :: r) ∨ ∃ body r, t = ch '/' :: ch '/' :: (body ++ ch '\n' :: r) := by
  cases h with
  | newline => exact Or.inl ⟨_, rfl⟩
  | comment body _ _ => exact Or.inr ⟨body, _, rfl⟩

/-- One phase of a round skips at most one element, and records what it was. -/
def Flagged (f : WsMatch → Lex WsMatch) : Prop :=
  ∀ m c, 0 ∉ c.text →
    (∃ k, f m c = some (.ok (m.max .blank), c.adv k) ∧ 1 ≤ k ∧ k ≤ c.text.length ∧
      Gap c.text (c.text.drop k) false) ∨
    (∃ k, f m c = some (.ok .newline, c.adv k) ∧ 1 ≤ k ∧ k ≤ c.text.length ∧
      Gap c.text (c.text.drop k) true) ∨
    f m c = some (.ok m, c) ∨
    (∃ c', f m c = some (.error .lexerError, c') ∧ Unterminated c.text)

theorem max_newline (m : WsMatch) : m.max .newline = .newline := by cases m <;> rfl

theorem skipWhitespaces_flagged : Flagged skipWhitespaces := by
  intro m c h0
  rw [skipWhitespaces, peek_bind]
  cases ht : c.text with
  | nil =>
    right; right; left
    have hx : c.at 0 = 0 := by rw [at_zero, ht]; rfl
    rw [hx, if_neg (by decide)]
    rfl
  | cons x r =>
    have hx : c.at 0 = x := by rw [at_zero, ht]; rfl
    rw [hx]
    by_cases hs : isspace x = true
    · rw [if_pos hs]
      by_cases hn : x = ch '\n'
      · right; left
        refine ⟨1, ?_, by decide, by simp, ?_⟩
        · rw [if_pos hn, max_newline]
          exact skip_bind (by rw [ht]; simp)
        · rw [hn]
          exact .nl (.newline r)
      · left
        refine ⟨1, ?_, by decide, by simp, ?_⟩
        · rw [if_neg hn]
          exact skip_bind (by rw [ht]; simp)
        · refine .one (.space x r ((isspace_iff x).1 hs)) fun h => ?_
          rcases newlineAt_cases h with ⟨r', hy⟩ | ⟨body, r', hy⟩
          · injection hy with hy _
            exact hn hy
          · injection hy with hy _
            rw [hy] at hs
            exact absurd hs (by decide)
    · right; right; left
      rw [if_neg hs]
      rfl

theorem skipMultilineComment_flagged : Flagged skipMultilineComment := by
  intro m c h0
  rw [skipMultilineComment, peek_bind, peek_bind]
  by_cases h : c.at 0 = ch '/' ∧ c.at 1 = ch '*'
  · obtain ⟨r, hr⟩ := two_chars (by decide) (by decide) h
    rw [if_pos h, skip_bind (by rw [hr]; simp)]
    have ht : (c.adv 2).text = r := by rw [Cursor.text_adv, hr]; rfl
    have h0' : 0 ∉ (c.adv 2).text := by
      rw [ht]; intro h'; apply h0; rw [hr]; simp [h']
    rw [bind_some (blockCommentLoop_eq _ h0'), peek_bind, peek_bind, ht]
    cases hp : closePos r with
    | some n =>
      obtain ⟨body, r', rfl, hl, hb⟩ := closePos_some hp
      have htx : (((c.adv 2).adv n).text) = str "*/" ++ r' := by
        rw [Cursor.text_adv, ht, ← hl, List.drop_left]
      rw [Option.getD_some]
      have a0 : ((c.adv 2).adv n).at 0 = ch '*' := by rw [at_zero, htx]; rfl
      have a1 : ((c.adv 2).adv n).at 1 = ch '/' := by simp [Cursor.at, htx, str]
      rw [if_pos ⟨a0, a1⟩]
      left
      refine ⟨2 + n + 2, ?_, by omega, ?_, ?_⟩
      · rw [skip_bind (by rw [htx]; simp [str]), pure_apply, Cursor.adv_adv, Cursor.adv_adv]
        congr 3
      · rw [hr]; simp [str, ← hl]; omega
      · have e : c.text = str "/*" ++ (body ++ (str "*/" ++ r')) := by rw [hr]; rfl
        have e2 : c.text.drop (2 + n + 2) = r' := by
          rw [e]
          have : 2 + n + 2 = (str "/*" ++ (body ++ str "*/")).length := by
            simp [str, hl]; omega
          rw [this]
          have : str "/*" ++ (body ++ (str "*/" ++ r')) = (str "/*" ++ (body ++ str "*/")) ++ r' := by
            simp
          rw [this, List.drop_left]
        rw [e2, e]
        refine .one (.block body r' hb) fun h => ?_
        rcases newlineAt_cases h with ⟨_, hy⟩ | ⟨_, _, hy⟩
        · injection hy with hy _
          exact absurd hy (by decide)
        · injection hy with _ hy
          injection hy with hy _
          exact absurd hy (by decide)
    | none =>
      right; right; right
      rw [Option.getD_none, if_neg]
      · exact ⟨_, rfl, r, hr, closePos_none hp⟩
      · rintro ⟨h1, -⟩
        have : ((c.adv 2).adv r.length).at 0 = 0 := by
          rw [at_zero, Cursor.text_adv, ht]; simp
        rw [this] at h1
        exact absurd h1 (by decide)
  · right; right; left
    rw [if_neg h]
    rfl

theorem skipOnelineComment_flagged : Flagged skipOnelineComment := by
  intro m c h0
  rw [skipOnelineComment, peek_bind, peek_bind]
  by_cases h : c.at 0 = ch '/' ∧ c.at 1 = ch '/'
  · obtain ⟨r, hr⟩ := two_chars (by decide) (by decide) h
    rw [if_pos h, skip_bind (by rw [hr]; simp)]
    have ht : (c.adv 2).text = r := by rw [Cursor.text_adv, hr]; rfl
    have h0' : 0 ∉ (c.adv 2).text := by
      rw [ht]; intro h'; apply h0; rw [hr]; simp [h']
    rw [bind_some (lineCommentLoop_eq _ h0'), peek_bind, ht]
    obtain ⟨hb, hcase⟩ := takeWhile_nl r
    generalize r.takeWhile (fun x => x ≠ ch '\n') = body at hb hcase
    rcases hcase with rfl | ⟨r', rfl⟩
    · left
      rw [if_neg]
      · refine ⟨2 + r.length, ?_, by omega, by rw [hr]; simp; omega, ?_⟩
        · rw [pure_apply, Cursor.adv_adv]
        · have : c.text.drop (2 + r.length) = [] := by rw [hr]; simp; omega
          rw [this, hr]
          refine .one (.lastLine r hb) fun h => ?_
          rcases newlineAt_cases h with ⟨_, hy⟩ | ⟨body, r', hy⟩
          · injection hy with hy _
            exact absurd hy (by decide)
          · injection hy with _ hy
            injection hy with _ hy
            exact hb (by rw [hy]; simp)
      · intro h1
        have : ((c.adv 2).adv r.length).at 0 = 0 := by
          rw [at_zero, Cursor.text_adv, ht]; simp
        rw [this] at h1
        exact absurd h1 (by decide)
    · have htx : ((c.adv 2).adv body.length).text = ch '\n' :: r' := by
        rw [Cursor.text_adv, ht, List.drop_left]
      rw [if_pos (by rw [at_zero, htx]; rfl)]
      right; left
      refine ⟨2 + body.length + 1, ?_, by omega, by rw [hr]; simp; omega, ?_⟩
      · rw [skip_bind (by rw [htx]; simp), pure_apply, Cursor.adv_adv, Cursor.adv_adv]
        rw [max_newline]
        congr 3
      · have e : c.text = str "//" ++ (body ++ ch '\n' :: r') := by rw [hr]; rfl
        have : c.text.drop (2 + body.length + 1) = r' := by
          have e3 : c.text = (str "//" ++ (body ++ [ch '\n'])) ++ r' := by rw [e]; simp
          have e4 : 2 + body.length + 1 = (str "//" ++ (body ++ [ch '\n'])).length := by
            simp [str]; omega
          rw [e3, e4, List.drop_left]
        rw [this, e]
        exact .nl (.comment body r' hb)
  · right; right; left
    rw [if_neg h]
    rfl

/-- The state between the phases of a round. -/
def Between (c : Cursor) (m : WsMatch) (k : Nat) : Prop :=
  k ≤ c.text.length ∧ Gap c.text (c.text.drop k) (m = .newline) ∧ (m = .noMatch ↔ k = 0)

theorem flagged_step {f : WsMatch → Lex WsMatch} (hf : Flagged f) {c : Cursor} (h0 : 0 ∉ c.text)
    {m : WsMatch} {k : Nat} (h : Between c m k) :
    (∃ m' k', f m (c.adv k) = some (.ok m', c.adv k') ∧ Between c m' k') ∨
    (∃ c' t', f m (c.adv k) = some (.error .lexerError, c') ∧ Blanks c.text t' ∧ Unterminated t') := by
  obtain ⟨h1, h2, h3⟩ := h
  rcases hf m (c.adv k) (drop_no_zero h0 k) with ⟨k', e, hk, hkl, hg⟩ | ⟨k', e, hk, hkl, hg⟩ | e | ⟨c', e, hu⟩
  · left
    rw [Cursor.text_adv] at hkl hg
    rw [List.length_drop] at hkl
    rw [List.drop_drop] at hg
    refine ⟨_, k + k', by rw [e, Cursor.adv_adv], by omega, ?_, ?_⟩
    · have := h2.trans hg
      cases m <;> exact this
    · cases m <;> simp [WsMatch.max] <;> omega
  · left
    rw [Cursor.text_adv] at hkl hg
    rw [List.length_drop] at hkl
    rw [List.drop_drop] at hg
    refine ⟨_, k + k', by rw [e, Cursor.adv_adv], by omega, ?_, ?_⟩
    · have := h2.trans hg
      simpa using this
    · simp; omega
  · exact Or.inl ⟨m, k, e, h1, h2, h3⟩
  · rw [Cursor.text_adv] at hu
    exact Or.inr ⟨c', _, e, h2.blanks, hu⟩

theorem round_flagged {c : Cursor} (h0 : 0 ∉ c.text) :
    (∃ m k, whitespaceRound c = some (.ok m, c.adv k) ∧ Between c m k) ∨
    (∃ c' t', whitespaceRound c = some (.error .lexerError, c') ∧ Blanks c.text t' ∧ Unterminated t') := by
  unfold whitespaceRound
  have hb0 : Between c .noMatch 0 := ⟨Nat.zero_le _, .nil _, by simp⟩
  rcases flagged_step skipWhitespaces_flagged h0 hb0 with ⟨m1, k1, e1, hb1⟩ | ⟨c', t', e, h⟩
  · rw [Cursor.adv_zero] at e1
    rw [bind_some e1]
    rcases flagged_step skipMultilineComment_flagged h0 hb1 with ⟨m2, k2, e2, hb2⟩ | ⟨c', t', e, h⟩
    · rw [bind_some e2]
      exact flagged_step skipOnelineComment_flagged h0 hb2
    · exact Or.inr ⟨c', t', bind_err e, h⟩
  · rw [Cursor.adv_zero] at e
    exact Or.inr ⟨c', t', bind_err e, h⟩

/-- A text that begins with whitespace or a comment. -/
theorem whitespace_match {c : Cursor} (h0 : 0 ∉ c.text) {r : List Chr} (hb : Blank c.text r) :
    (∃ nl k, matchWhitespace c = some (.ok (.ppWhitespace nl), c.adv k) ∧ 1 ≤ k ∧
      k ≤ c.text.length ∧ Gap c.text (c.text.drop k) nl) ∨
    (∃ c' t', matchWhitespace c = some (.error .lexerError, c') ∧ Blanks c.text t' ∧ Unterminated t') := by
  rcases round_flagged h0 with ⟨m, k, e, hkl, hg, hk⟩ | ⟨c', t', e, h⟩
  · left
    have hm : m ≠ .noMatch := by
      rintro rfl
      rcases whitespaceRound_eq c h0 with ⟨m', k', e', hm', -⟩ | ⟨-, hn⟩ | ⟨c', t', e', -⟩
      · rw [e] at e'
        injection e' with e'
        injection e' with e' _
        injection e' with e'
        exact hm' e'.symm
      · exact hn r hb
      · rw [e] at e'
        injection e' with e'
        injection e' with e' _
        cases e'
    refine ⟨_, k, ?_, ?_, hkl, hg⟩
    · rw [matchWhitespace, bind_some e, if_neg hm]
      rfl
    · have : k ≠ 0 := fun h => hm (hk.2 h)
      omega
  · exact Or.inr ⟨c', t', by rw [matchWhitespace, bind_err e], h⟩

end Kefir.PpToken
