import Verif.Lexer.Good
import Verif.Lexer.LexSpec
/-!
# Character constants: termination when the constant is closed
-/

namespace Kefir.Lexer

theorem Closed.plain {x : Chr} {t : List Chr} (h : Closed (x :: t)) (h1 : x ≠ ch '\'')
    (h2 : x ≠ ch '\\') : Closed t := by
  obtain ⟨body, rest, e, hb⟩ := h
  cases hb with
  | nil => injection e with e _; exact absurd e h1
  | plain c r _ _ hb => injection e with _ e; exact ⟨r, rest, e, hb⟩
  | escaped d r hb => injection e with e _; exact absurd e h2

theorem Closed.escaped {d : Chr} {t : List Chr} (h : Closed (ch '\\' :: d :: t)) : Closed t := by
  obtain ⟨body, rest, e, hb⟩ := h
  cases hb with
  | nil => injection e with e _; exact absurd e (by decide)
  | plain c r _ h2 hb => injection e with e _; exact absurd e.symm h2
  | escaped d r hb => injection e with _ e; injection e with _ e; exact ⟨r, rest, e, hb⟩

theorem digit_plain {b : Nat} {x : Nat} (h : IsDigit b x) : x ≠ 39 ∧ x ≠ 92 := by
  have : 48 ≤ x ∧ x ≤ 57 ∨ 97 ≤ x ∧ x ≤ 102 ∨ 65 ≤ x ∧ x ≤ 70 := h.1
  omega

theorem Closed.digits {b : Nat} {ds t : List Chr} (hd : ∀ x ∈ ds, IsDigit b x)
    (h : Closed (ds ++ t)) : Closed t := by
  induction ds with
  | nil => exact h
  | cons x ds ih =>
    have := digit_plain (hd x List.mem_cons_self)
    exact ih (fun y hy => hd y (List.mem_cons_of_mem _ hy)) (Closed.plain h this.1 this.2)

theorem Closed.escape {seq rest : List Chr} {v : Nat} (he : EscapeAt seq rest v)
    (h : Closed (seq ++ rest)) : Closed rest := by
  cases he with
  | simple c v rest hm => exact h.escaped
  | octal ds rest h1 h3 hd hr =>
    cases ds with
    | nil => cases h1
    | cons d ds =>
      exact Closed.digits (b := 8) (fun x hx => hd x (List.mem_cons_of_mem _ hx)) h.escaped
  | hexadecimal ds rest h1 hd hr => exact Closed.digits hd h.escaped
  | universal4 ds rest h1 hd => exact Closed.digits hd h.escaped
  | universal8 ds rest h1 hd => exact Closed.digits hd h.escaped

theorem Closed.ne_nil (h : Closed []) : False := by
  obtain ⟨body, rest, e, -⟩ := h
  cases body <;> cases e

/-! ## A failed escape sequence leaves the cursor -/

def Still {α : Type} (x : Lex α) (c : Cursor) : Prop :=
  ∀ c', x c = some (.error .noMatch, c') → c' = c

namespace Still
variable {α β : Type} {c : Cursor}

theorem pure (a : α) : Still (Pure.pure a) c := by intro c' h; cases h

theorem fail (e : Err) : Still (Kefir.Lexer.fail e : Lex α) c := by
  intro c' h; unfold Kefir.Lexer.fail at h; injection h with h; injection h with _ h; exact h.symm

theorem peek {k : Nat} {f : Chr → Lex β} (h : Still (f (c.at k)) c) :
    Still (Kefir.Lexer.peek k >>= f) c := by
  intro c' e; rw [peek_bind] at e; exact h c' e

theorem ite {p : Prop} [Decidable p] {x y : Lex α} (hx : p → Still x c) (hy : ¬ p → Still y c) :
    Still (if p then x else y) c := by
  split
  · exact hx ‹_›
  · exact hy ‹_›

theorem orElse {x y : Lex α} (hx : Still x c) (hy : Still y c) : Still (Kefir.Lexer.orElse x y) c := by
  intro c' h
  unfold Kefir.Lexer.orElse at h
  split at h
  · rename_i c1 e
    rw [hx _ e] at h
    exact hy c' h
  · exact hx c' h

theorem skip {k : Nat} {f : Unit → Lex β} (hf : ∀ c1 c', f () c1 ≠ some (.error .noMatch, c')) :
    Still (Kefir.Lexer.skip k >>= f) c := by
  intro c' h
  rcases skip_cases k c with e | ⟨e, c1, e1⟩
  · rw [bind_some e] at h
    exact absurd h (hf _ _)
  · rw [bind_err e1] at h
    cases h
    unfold Kefir.Lexer.skip nextRes at e1
    injection e1 with e1
    injection e1 with e1 _
    split at e1 <;> cases e1

end Still

theorem still_nextEscape (c : Cursor) : Still nextEscape c := by
  unfold nextEscape
  refine .peek (.ite (fun _ => ?_) (fun _ => .fail _))
  have hp : ∀ (a : Chr) (c1 c' : Cursor), (Pure.pure a : Lex Chr) c1 ≠ some (.error .noMatch, c') := by
    intro a c1 c' h; cases h
  refine .orElse ?_ (.orElse ?_ (.orElse ?_ ?_))
  · unfold nextSimpleEscape
    refine .peek ?_
    split
    · exact .skip (fun _ _ => hp _ _ _)
    · exact .fail _
  · unfold nextOctalEscape
    refine .peek (.peek (.peek (.ite (fun _ => ?_) (fun _ => .ite (fun _ => ?_) (fun _ =>
      .ite (fun _ => ?_) (fun _ => .fail _))))))
    · exact .skip (fun _ _ => hp _ _ _)
    · exact .skip (fun _ _ => hp _ _ _)
    · exact .skip (fun _ _ => hp _ _ _)
  · unfold nextHexEscape
    refine .peek (.ite (fun _ => ?_) (fun _ => .fail _))
    refine .skip (fun c1 c' => ?_)
    rw [peek_bind]
    split
    · rw [scanWhile_eq _ ishexdigit_zero]; intro h; cases h
    · intro h; cases h
  · unfold nextUniversal
    refine .peek (.peek (.ite (fun _ => ?_) (fun _ => .ite (fun _ => ?_) (fun _ => .fail _))))
    · refine .peek (.peek (.peek (.peek (.ite (fun _ => ?_) (fun _ => .fail _)))))
      exact .skip (fun _ _ => hp _ _ _)
    · refine .peek (.peek (.peek (.peek (.peek (.peek (.peek (.peek (.ite (fun _ => ?_)
        (fun _ => .fail _)))))))))
      exact .skip (fun _ _ => hp _ _ _)

/-- As `GoodAt`, and a NO_MATCH leaves the cursor at a backslash. -/
def GoodBody {α : Type} (c : Cursor) (o : Option (Res α × Cursor)) : Prop :=
  ∃ r k, o = some (r, c.adv k) ∧ k ≤ c.text.length ∧
    (r = .error .noMatch → (c.adv k).at 0 = ch '\\')

theorem GoodBody.shift {α : Type} {c : Cursor} {k : Nat} {o : Option (Res α × Cursor)}
    (hk : k ≤ c.text.length) (h : GoodBody (c.adv k) o) : GoodBody c o := by
  obtain ⟨r, j, e, hj, hn⟩ := h
  rw [Cursor.text_adv, List.length_drop] at hj
  exact ⟨r, k + j, by rw [e, Cursor.adv_adv], by omega, by rw [← Cursor.adv_adv]; exact hn⟩

/-- One step of the loops over a closed constant. -/
theorem closed_escape_step {c : Cursor} (h : Closed c.text) :
    (∃ v k, nextEscape c = some (.ok v, c.adv k) ∧ 2 ≤ k ∧ k ≤ c.text.length ∧ Closed (c.adv k).text) ∨
    (∃ e k, nextEscape c = some (.error e, c.adv k) ∧ k ≤ c.text.length ∧
      (e = .noMatch → c.adv k = c)) := by
  rcases escape_or_error c with ⟨seq, rest, w, he, ht⟩ | ⟨e', c', hx⟩
  · left
    refine ⟨_, _, nextEscape_ok he ht, ?_, by rw [ht]; simp, ?_⟩
    · cases he with
      | octal ds rest h1 => simp; omega
      | _ => simp
    · rw [Cursor.text_adv, ht, List.drop_left]
      exact Closed.escape he (ht ▸ h)
  · right
    obtain ⟨r, k, e, hk, -⟩ := good_nextEscape c
    rw [hx] at e
    cases e
    exact ⟨e', k, hx, hk, fun h => still_nextEscape c _ (h ▸ hx)⟩

theorem good_narrowLoop (cd : Codec) (v : BitVec 32) (c : Cursor) (h : Closed c.text) :
    GoodBody c (narrowLoop cd v c) := by
  generalize hn : c.text.length = n
  induction n using Nat.strongRecOn generalizing v c with
  | ind n ih =>
    -- the next round
    have hrec : ∀ k v', 1 ≤ k → k ≤ n → Closed (c.adv k).text →
        GoodBody (c.adv k) (narrowLoop cd v' (c.adv k)) := by
      intro k v' h1 h2 hc
      refine ih (n - k) (by omega) _ _ hc ?_
      rw [Cursor.text_adv, List.length_drop]; omega
    -- what a call of `nextCharacter` does
    have step : (∃ v' k, nextCharacter cd v c = some (.ok (v', true), c.adv k) ∧ 1 ≤ k ∧
          k ≤ c.text.length ∧ Closed (c.adv k).text) ∨
        (∃ v', nextCharacter cd v c = some (.ok (v', false), c)) ∨
        (∃ e k, nextCharacter cd v c = some (.error e, c.adv k) ∧ k ≤ c.text.length ∧
          (e = .noMatch → (c.adv k).at 0 = ch '\\')) := by
      unfold nextCharacter
      rw [peek_bind, peek_bind]
      by_cases h1 : c.at 0 = ch '\\'
      · rw [if_pos h1]
        rcases closed_escape_step h with ⟨e, k, he, hk1, hk2, hc⟩ | ⟨e, k, he, hk, hnm⟩
        · rw [bind_some he]
          split
          · split
            · exact Or.inl ⟨_, k, rfl, by omega, hk2, hc⟩
            · exact Or.inr (Or.inr ⟨_, k, rfl, hk2, fun h => by cases h⟩)
          · cases cd.enc e with
            | some bs => exact Or.inl ⟨_, k, rfl, by omega, hk2, hc⟩
            | none => exact Or.inr (Or.inr ⟨_, k, rfl, hk2, fun h => by cases h⟩)
        · rw [bind_err he]
          exact Or.inr (Or.inr ⟨_, k, rfl, hk, fun h => by rw [hnm h]; exact h1⟩)
      · rw [if_neg h1]
        by_cases h2 : c.at 0 = ch '\''
        · rw [if_pos h2]
          exact Or.inr (Or.inl ⟨v, rfl⟩)
        · rw [if_neg h2]
          cases ht : c.text with
          | nil => rw [ht] at h; exact h.ne_nil.elim
          | cons x t =>
            have hx : c.at 0 = x := by rw [at_zero, ht]; rfl
            have hc : Closed (c.adv 1).text := by
              rw [Cursor.text_adv, ht]
              rw [hx] at h1 h2
              exact Closed.plain (ht ▸ h) h2 h1
            rw [skip_bind (by rw [ht]; simp)]
            cases cd.enc (c.at 0) with
            | some bs => exact Or.inl ⟨_, 1, rfl, by omega, by simp, hc⟩
            | none => exact Or.inr (Or.inr ⟨_, 1, rfl, by simp, fun h => by cases h⟩)
    rw [narrowLoop]
    rcases step with ⟨v', k, e, h1, h2, hc⟩ | ⟨v', e⟩ | ⟨e', k, e, hk, hnm⟩
    · rw [bind_some e]
      exact GoodBody.shift h2 (hrec k v' h1 (by omega) hc)
    · rw [bind_some e]
      exact ⟨_, 0, by rw [Cursor.adv_zero]; rfl, Nat.zero_le _, fun h => by cases h⟩
    · rw [bind_err e]
      exact ⟨_, k, rfl, hk, fun h => by cases h; exact hnm rfl⟩

theorem good_wideLoop (v : Chr) (c : Cursor) (h : Closed c.text) :
    GoodBody c (wideLoop v c) := by
  generalize hn : c.text.length = n
  induction n using Nat.strongRecOn generalizing v c with
  | ind n ih =>
    have hrec : ∀ k v', 1 ≤ k → k ≤ n → Closed (c.adv k).text →
        GoodBody (c.adv k) (wideLoop v' (c.adv k)) := by
      intro k v' h1 h2 hc
      refine ih (n - k) (by omega) _ _ hc ?_
      rw [Cursor.text_adv, List.length_drop]; omega
    have step : (∃ v' k, nextWideCharacter v c = some (.ok (v', true), c.adv k) ∧ 1 ≤ k ∧
          k ≤ c.text.length ∧ Closed (c.adv k).text) ∨
        (∃ v', nextWideCharacter v c = some (.ok (v', false), c)) ∨
        (∃ e k, nextWideCharacter v c = some (.error e, c.adv k) ∧ k ≤ c.text.length ∧
          (e = .noMatch → (c.adv k).at 0 = ch '\\')) := by
      unfold nextWideCharacter
      rw [peek_bind]
      by_cases h1 : c.at 0 = ch '\\'
      · rw [if_pos h1]
        rcases closed_escape_step h with ⟨e, k, he, hk1, hk2, hc⟩ | ⟨e, k, he, hk, hnm⟩
        · rw [bind_some he]
          exact Or.inl ⟨_, k, rfl, by omega, hk2, hc⟩
        · rw [bind_err he]
          exact Or.inr (Or.inr ⟨_, k, rfl, hk, fun h => by rw [hnm h]; exact h1⟩)
      · rw [if_neg h1]
        by_cases h2 : c.at 0 = ch '\''
        · rw [if_pos h2]
          exact Or.inr (Or.inl ⟨v, rfl⟩)
        · rw [if_neg h2]
          cases ht : c.text with
          | nil => rw [ht] at h; exact h.ne_nil.elim
          | cons x t =>
            have hx : c.at 0 = x := by rw [at_zero, ht]; rfl
            have hc : Closed (c.adv 1).text := by
              rw [Cursor.text_adv, ht]
              rw [hx] at h1 h2
              exact Closed.plain (ht ▸ h) h2 h1
            rw [skip_bind (by rw [ht]; simp)]
            exact Or.inl ⟨_, 1, rfl, by omega, by simp, hc⟩
    rw [wideLoop]
    rcases step with ⟨v', k, e, h1, h2, hc⟩ | ⟨v', e⟩ | ⟨e', k, e, hk, hnm⟩
    · rw [bind_some e]
      exact GoodBody.shift h2 (hrec k v' h1 (by omega) hc)
    · rw [bind_some e]
      exact ⟨_, 0, by rw [Cursor.adv_zero]; rfl, Nat.zero_le _, fun h => by cases h⟩
    · rw [bind_err e]
      exact ⟨_, k, rfl, hk, fun h => by cases h; exact hnm rfl⟩

theorem closed_of_not_unclosed {t u pre : List Chr} (h : ¬ UnclosedChar t)
    (hp : pre ∈ [str "'", str "L'", str "u'", str "U'"]) (e : t = pre ++ u) : Closed u :=
  Classical.byContradiction fun hc => h ⟨pre, u, hp, e, hc⟩

/-- A matcher for one kind of character constant: as `GoodAt 1`, and a NO_MATCH leaves the cursor
where it was or at a backslash. -/
def GoodChar (c : Cursor) (o : Option (Res Token × Cursor)) : Prop :=
  ∃ r k, o = some (r, c.adv k) ∧ k ≤ c.text.length ∧ (∀ a, r = .ok a → 1 ≤ k) ∧
    (r = .error .noMatch → k = 0 ∨ (c.adv k).at 0 = ch '\\')

theorem goodChar_fail (e : Err) (c : Cursor) : GoodChar c ((fail e : Lex Token) c) :=
  ⟨_, 0, by rw [Cursor.adv_zero]; rfl, Nat.zero_le _, fun _ h => (by cases h), fun _ => Or.inl rfl⟩

theorem good_matchNarrowChar (cd : Codec) (c : Cursor) (h : ¬ UnclosedChar c.text) :
    GoodChar c (matchNarrowChar cd c) := by
  unfold matchNarrowChar
  rw [peek_bind]
  by_cases hq : c.at 0 = ch '\''
  case neg => rw [if_neg hq]; exact goodChar_fail _ _
  rw [if_pos hq]
  have hl := length_pos_of_at hq (by decide)
  obtain ⟨u, hu⟩ := text_cons (c := c) (by rw [hq]; decide)
  have hc : Closed (c.adv 1).text := by
    rw [Cursor.text_adv, hu]
    exact closed_of_not_unclosed (pre := str "'") h (by simp) (by rw [hu, hq]; rfl)
  rw [skip_bind (by omega), peek_bind]
  split
  · obtain ⟨r, k, e, hk, hn⟩ := good_narrowLoop cd 0 _ hc
    rw [Cursor.text_adv, List.length_drop] at hk
    rw [Cursor.adv_adv] at e hn
    cases r with
    | error e' =>
      rw [bind_err e]
      exact ⟨_, _, rfl, by omega, fun _ h => (by cases h), fun h => Or.inr (hn (by cases h; rfl))⟩
    | ok v =>
      rw [bind_some e, peek_bind]
      split
      · rename_i hq2
        have := length_pos_of_at hq2 (by decide)
        rw [skip_bind (by omega), Cursor.adv_adv]
        rw [Cursor.text_adv, List.length_drop] at this
        exact ⟨_, _, rfl, by omega, fun _ _ => by omega, fun h => by cases h⟩
      · exact ⟨_, _, rfl, by omega, fun _ h => (by cases h), fun h => by cases h⟩
  · exact ⟨_, _, rfl, by omega, fun _ h => (by cases h), fun h => by cases h⟩

theorem good_matchPrefixedChar (p : Chr) (mk : Chr → Token) (hp0 : p ≠ 0)
    (hp : p :: str "'" ∈ [str "'", str "L'", str "u'", str "U'"]) (c : Cursor)
    (h : ¬ UnclosedChar c.text) : GoodChar c (matchPrefixedChar p mk c) := by
  unfold matchPrefixedChar
  rw [peek_bind, peek_bind]
  by_cases hq : c.at 0 = p ∧ c.at 1 = ch '\''
  case neg => rw [if_neg hq]; exact goodChar_fail _ _
  rw [if_pos hq]
  have hl := length_pos_of_at hq.2 (by decide)
  obtain ⟨u, hu⟩ := two_chars hp0 (by decide) hq
  have hc : Closed (c.adv 2).text := by
    rw [Cursor.text_adv, hu]
    exact closed_of_not_unclosed (pre := p :: str "'") h hp (by rw [hu]; rfl)
  rw [skip_bind (by omega)]
  obtain ⟨r, k, e, hk, hn⟩ := good_wideLoop 0 _ hc
  rw [Cursor.text_adv, List.length_drop] at hk
  rw [Cursor.adv_adv] at e hn
  by_cases hq2 : (c.adv 2).at 0 ≠ ch '\''
  case neg =>
    have : scanWideChar (c.adv 2) = some (.error .lexerError, c.adv 2) := by
      rw [scanWideChar, peek_bind, if_neg hq2]; rfl
    rw [bind_err this]
    exact ⟨_, _, rfl, by omega, fun _ h => (by cases h), fun h => by cases h⟩
  cases r with
  | error e' =>
    have : scanWideChar (c.adv 2) = some (.error e', c.adv (2 + k)) := by
      rw [scanWideChar, peek_bind, if_pos hq2, bind_err e]
    rw [bind_err this]
    exact ⟨_, _, rfl, by omega, fun _ h => (by cases h), fun h => Or.inr (hn (by cases h; rfl))⟩
  | ok v =>
    by_cases hq3 : (c.adv (2 + k)).at 0 = ch '\''
    · have hl3 := length_pos_of_at hq3 (by decide)
      have : scanWideChar (c.adv 2) = some (.ok v, c.adv (2 + k + 1)) := by
        rw [scanWideChar, peek_bind, if_pos hq2, bind_some e, peek_bind, if_pos hq3,
          skip_bind (by omega), Cursor.adv_adv]; rfl
      rw [bind_some this]
      rw [Cursor.text_adv, List.length_drop] at hl3
      exact ⟨_, _, rfl, by omega, fun _ _ => by omega, fun h => by cases h⟩
    · have : scanWideChar (c.adv 2) = some (.error .lexerError, c.adv (2 + k)) := by
        rw [scanWideChar, peek_bind, if_pos hq2, bind_some e, peek_bind, if_neg hq3]; rfl
      rw [bind_err this]
      exact ⟨_, _, rfl, by omega, fun _ h => (by cases h), fun h => by cases h⟩

/-- At a backslash there is no prefixed character constant. -/
theorem prefixed_backslash (p : Chr) (mk : Chr → Token) (hp : p ≠ ch '\\') (c : Cursor)
    (h : c.at 0 = ch '\\') : matchPrefixedChar p mk c = some (.error .noMatch, c) := by
  unfold matchPrefixedChar
  rw [peek_bind, peek_bind, if_neg]
  · rfl
  · rintro ⟨h1, -⟩
    exact hp (by rw [← h1, h])

theorem goodChar_orElse {x y : Lex Token} {c : Cursor} (hx : GoodChar c (x c)) (hy : GoodChar c (y c))
    (hb : ∀ c1, c1.at 0 = ch '\\' → y c1 = some (.error .noMatch, c1)) :
    GoodChar c (orElse x y c) := by
  obtain ⟨r, k, e, hk, ho, hn⟩ := hx
  cases r with
  | ok a =>
    rw [orElse_ok e]
    exact ⟨_, k, rfl, hk, ho, fun h => by cases h⟩
  | error e' =>
    by_cases h : e' = .noMatch
    · subst h
      rw [orElse_noMatch e]
      rcases hn rfl with rfl | hbs
      · rw [Cursor.adv_zero]; exact hy
      · rw [hb _ hbs]
        exact ⟨_, k, rfl, hk, fun _ h => (by cases h), fun _ => Or.inr hbs⟩
    · refine ⟨.error e', k, ?_, hk, fun _ h => (by cases h), fun h' => absurd (by cases h'; rfl) h⟩
      unfold Kefir.Lexer.orElse
      rw [e]
      cases e' <;> first | rfl | exact absurd rfl h

theorem good_scanCharConst (cd : Codec) (c : Cursor) (h : ¬ UnclosedChar c.text) :
    GoodAt 1 c (scanCharConst cd c) := by
  suffices H : GoodChar c (scanCharConst cd c) by
    obtain ⟨r, k, e, hk, ho, -⟩ := H
    exact ⟨r, k, e, hk, ho⟩
  unfold scanCharConst
  refine goodChar_orElse (good_matchNarrowChar cd c h) (goodChar_orElse
    (good_matchPrefixedChar _ _ (by decide) (by decide) c h) (goodChar_orElse
    (good_matchPrefixedChar _ _ (by decide) (by decide) c h) (goodChar_orElse
    (good_matchPrefixedChar _ _ (by decide) (by decide) c h) (goodChar_fail _ _)
    (fun _ _ => rfl)) ?_) ?_) ?_
  · intro c1 h1
    rw [orElse_noMatch (prefixed_backslash _ _ (by decide) c1 h1)]; rfl
  · intro c1 h1
    rw [orElse_noMatch (prefixed_backslash _ _ (by decide) c1 h1),
      orElse_noMatch (prefixed_backslash _ _ (by decide) c1 h1)]; rfl
  · intro c1 h1
    rw [orElse_noMatch (prefixed_backslash _ _ (by decide) c1 h1),
      orElse_noMatch (prefixed_backslash _ _ (by decide) c1 h1),
      orElse_noMatch (prefixed_backslash _ _ (by decide) c1 h1)]; rfl

end Kefir.Lexer
