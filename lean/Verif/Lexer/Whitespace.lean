import Verif.Lexer.BlankSpec
import Verif.Lexer.IntConst
/-!
# Lemmas about whitespace and comments
-/

namespace Kefir.Lexer

theorem isspace_iff (c : Chr) : isspace c = true ↔ c ∈ whitespaceChars := by
  have h : whitespaceChars = [32, 9, 11, 10, 12, 13] := by decide
  rw [h]
  have e : isspace c = (decide (c = 32) || decide (c = 12) || decide (c = 11) || decide (c = 9) ||
    decide (c = 10) || decide (c = 13)) := rfl
  rw [e]
  simp only [Bool.or_eq_true, decide_eq_true_eq, List.mem_cons, List.not_mem_nil, or_false]
  constructor
  · rintro (((((h | h) | h) | h) | h) | h) <;> simp [h]
  · rintro (h | h | h | h | h | h) <;> simp [h]

/-- The position of the first `*/`. -/
def closePos : List Chr → Option Nat
  | [] => none
  | x :: r => if x = ch '*' ∧ r.head? = some (ch '/') then some 0 else (closePos r).map (· + 1)

theorem closePos_none {t : List Chr} (h : closePos t = none) : ¬ str "*/" <:+: t := by
  induction t with
  | nil => decide
  | cons x r ih =>
    rw [closePos] at h
    split at h
    · cases h
    · rename_i hn
      rw [Option.map_eq_none_iff] at h
      rw [List.infix_cons_iff]
      rintro (hp | hp)
      · apply hn
        obtain ⟨u, hu⟩ := hp
        have hu' : ch '*' :: ch '/' :: u = x :: r := hu
        injection hu' with h1 h2
        exact ⟨h1.symm, by rw [← h2]; rfl⟩
      · exact ih h hp

theorem closePos_some {t : List Chr} {n : Nat} (h : closePos t = some n) :
    ∃ body r, t = body ++ (str "*/" ++ r) ∧ body.length = n ∧ ¬ str "*/" <:+: body ++ str "*" := by
  induction t generalizing n with
  | nil => cases h
  | cons x r ih =>
    rw [closePos] at h
    split at h
    · rename_i hp
      cases h
      cases r with
      | nil => cases hp.2
      | cons y r =>
        have hy : y = ch '/' := by simpa using hp.2
        refine ⟨[], r, ?_, rfl, by decide⟩
        rw [hp.1, hy]; rfl
    · rename_i hn
      rw [Option.map_eq_some_iff] at h
      obtain ⟨m, hm, rfl⟩ := h
      obtain ⟨body, r', rfl, hl, hb⟩ := ih hm
      refine ⟨x :: body, r', rfl, by simp [hl], ?_⟩
      rw [List.cons_append, List.infix_cons_iff]
      rintro (hp | hp)
      · apply hn
        obtain ⟨u, hu⟩ := hp
        have hu' : ch '*' :: ch '/' :: u = x :: (body ++ str "*") := hu
        injection hu' with h1 h2
        refine ⟨h1.symm, ?_⟩
        cases body with
        | nil => 
          have h3 : ch '/' :: u = [ch '*'] := h2
          injection h3 with h3
          exact absurd h3 (by decide)
        | cons y body =>
          injection h2 with h3
          rw [← h3]; rfl
      · exact hb hp

theorem blockCommentLoop_eq (c : Cursor) (h0 : 0 ∉ c.text) :
    blockCommentLoop c = some (.ok (), c.adv ((closePos c.text).getD c.text.length)) := by
  generalize hn : c.text = t
  induction t generalizing c with
  | nil =>
    rw [blockCommentLoop, peek_bind, peek_bind, if_neg]
    · simp [closePos, pure_apply, Cursor.adv_zero]
    · rintro ⟨-, h⟩
      exact h (by rw [at_zero, hn]; rfl)
  | cons x r ih =>
    have hx : c.at 0 = x := by rw [at_zero, hn]; rfl
    have hx0 : x ≠ 0 := by intro h; apply h0; rw [hn, h]; simp
    have hx1 : c.at 1 = r.head?.getD 0 := by
      simp [Cursor.at, hn, List.getD_eq_getElem?_getD, List.head?_eq_getElem?]
    rw [blockCommentLoop, peek_bind, peek_bind, hx, hx1, closePos]
    by_cases hc : x = ch '*' ∧ r.head? = some (ch '/')
    · rw [if_pos hc, if_neg]
      · simp [pure_apply, Cursor.adv_zero]
      · rintro ⟨h1, -⟩
        apply h1
        rw [hc.2]
        exact ⟨hc.1, rfl⟩
    · rw [if_neg hc, if_pos, skip_bind (by rw [hn]; simp)]
      · have ht : (c.adv 1).text = r := by rw [Cursor.text_adv, hn]; rfl
        rw [ih (c.adv 1) (by rw [ht]; intro h; apply h0; rw [hn]; exact List.mem_cons_of_mem _ h) ht,
          Cursor.adv_adv]
        cases closePos r <;> simp [Nat.add_comm]
      · refine ⟨fun h => hc ⟨h.1, ?_⟩, hx0⟩
        cases hr : r.head? with
        | none => rw [hr] at h; exact absurd h.2 (by decide)
        | some y => rw [hr] at h; exact congrArg some h.2

theorem lineCommentLoop_eq (c : Cursor) (h0 : 0 ∉ c.text) :
    lineCommentLoop c =
      some (.ok (), c.adv (c.text.takeWhile (fun x => x ≠ ch '\n')).length) := by
  generalize hn : c.text = t
  induction t generalizing c with
  | nil =>
    rw [lineCommentLoop, peek_bind, if_neg]
    · simp [pure_apply, Cursor.adv_zero]
    · rintro ⟨-, h⟩
      exact h (by rw [at_zero, hn]; rfl)
  | cons x r ih =>
    have hx : c.at 0 = x := by rw [at_zero, hn]; rfl
    have hx0 : x ≠ 0 := by intro h; apply h0; rw [hn, h]; simp
    rw [lineCommentLoop, peek_bind, hx]
    by_cases hc : x = ch '\n'
    · rw [if_neg (fun h => h.1 hc), List.takeWhile_cons_of_neg (by simp [hc])]
      simp [pure_apply, Cursor.adv_zero]
    · rw [if_pos ⟨hc, hx0⟩, skip_bind (by rw [hn]; simp), List.takeWhile_cons_of_pos (by simp [hc])]
      have ht : (c.adv 1).text = r := by rw [Cursor.text_adv, hn]; rfl
      rw [ih (c.adv 1) (by rw [ht]; intro h; apply h0; rw [hn]; exact List.mem_cons_of_mem _ h) ht,
        Cursor.adv_adv]
      simp [Nat.add_comm]

/-- Two characters at the cursor. -/
theorem two_chars {c : Cursor} {a b : Chr} (ha : a ≠ 0) (hb : b ≠ 0) (h : c.at 0 = a ∧ c.at 1 = b) :
    ∃ r, c.text = a :: b :: r := by
  obtain ⟨h1, h2⟩ := h
  match ht : c.text with
  | [] => exact absurd (by rw [← h1]; simp [Cursor.at, ht]) ha
  | [x] => exact absurd (by rw [← h2]; simp [Cursor.at, ht]) hb
  | x :: y :: r =>
    refine ⟨r, ?_⟩
    rw [← h1, ← h2]
    simp [Cursor.at, ht]

theorem max_ne (m : WsMatch) : m.max .blank ≠ .noMatch ∧ m.max .newline ≠ .noMatch := by
  cases m <;> decide

/-- The three outcomes of one phase of a round: an element is skipped, nothing happens, or a comment
is not terminated. -/
def PhaseOutcome (f : WsMatch → Lex WsMatch) (applies : List Chr → Prop) : Prop :=
  ∀ m c, 0 ∉ c.text →
    (∃ m' k, f m c = some (.ok m', c.adv k) ∧ m' ≠ .noMatch ∧ 1 ≤ k ∧ k ≤ c.text.length ∧
      Blank c.text (c.text.drop k)) ∨
    (f m c = some (.ok m, c) ∧ ¬ applies c.text) ∨
    (∃ c', f m c = some (.error .lexerError, c') ∧ Unterminated c.text)

theorem skipWhitespaces_phase :
    PhaseOutcome skipWhitespaces (fun t => ∃ x r, t = x :: r ∧ x ∈ whitespaceChars) := by
  intro m c h0
  rw [skipWhitespaces, peek_bind]
  cases ht : c.text with
  | nil =>
    right; left
    have hx : c.at 0 = 0 := by rw [at_zero, ht]; rfl
    rw [hx, if_neg (by decide)]
    exact ⟨rfl, by rintro ⟨x, r, h, -⟩; cases h⟩
  | cons x r =>
    have hx : c.at 0 = x := by rw [at_zero, ht]; rfl
    rw [hx]
    by_cases hs : isspace x = true
    · left
      rw [if_pos hs]
      refine ⟨_, 1, skip_bind (by rw [ht]; simp), ?_, by decide, by simp, ?_⟩
      · split
        · exact (max_ne m).2
        · exact (max_ne m).1
      · exact .space x r ((isspace_iff x).1 hs)
    · right; left
      rw [if_neg hs]
      refine ⟨rfl, ?_⟩
      rintro ⟨y, r', h, hy⟩
      cases h
      exact hs ((isspace_iff x).2 hy)

theorem skipMultilineComment_phase :
    PhaseOutcome skipMultilineComment (fun t => str "/*" <+: t) := by
  intro m c h0
  rw [skipMultilineComment, peek_bind, peek_bind]
  by_cases h : c.at 0 = ch '/' ∧ c.at 1 = ch '*'
  · obtain ⟨r, hr⟩ := two_chars (by decide) (by decide) h
    rw [if_pos h, skip_bind (by rw [hr]; simp)]
    have ht : (c.adv 2).text = r := by rw [Cursor.text_adv, hr]; rfl
    have h0' : 0 ∉ (c.adv 2).text := by
      rw [ht]; intro h'; apply h0; rw [hr]; simp [h']
    rw [bind_some (blockCommentLoop_eq _ h0'), peek_bind, peek_bind, ht]
    cases hp : closePos r with
    | some n =>
      obtain ⟨body, r', rfl, hl, hb⟩ := closePos_some hp
      have htx : (((c.adv 2).adv n).text) = str "*/" ++ r' := by
        rw [Cursor.text_adv, ht, ← hl, List.drop_left]
      rw [Option.getD_some]
      have a0 : ((c.adv 2).adv n).at 0 = ch '*' := by rw [at_zero, htx]; rfl
      have a1 : ((c.adv 2).adv n).at 1 = ch '/' := by simp [Cursor.at, htx, str]
      rw [if_pos ⟨a0, a1⟩]
      left
      refine ⟨m.max .blank, 2 + n + 2, ?_, (max_ne m).1, by omega, ?_, ?_⟩
      · rw [skip_bind (by rw [htx]; simp [str]), pure_apply, Cursor.adv_adv, Cursor.adv_adv]
        congr 3
      · rw [hr]; simp [str, ← hl]; omega
      · have e : c.text = str "/*" ++ (body ++ (str "*/" ++ r')) := by rw [hr]; rfl
        have e2 : c.text.drop (2 + n + 2) = r' := by
          rw [e]
          have : 2 + n + 2 = (str "/*" ++ (body ++ str "*/")).length := by
            simp [str, hl]; omega
          rw [this]
          have : str "/*" ++ (body ++ (str "*/" ++ r')) = (str "/*" ++ (body ++ str "*/")) ++ r' := by
            simp
          rw [this, List.drop_left]
        rw [e2, e]
        exact .block body r' hb
    | none =>
      right; right
      rw [Option.getD_none, if_neg]
      · exact ⟨_, rfl, r, hr, closePos_none hp⟩
      · rintro ⟨h1, -⟩
        have : ((c.adv 2).adv r.length).at 0 = 0 := by
          rw [at_zero, Cursor.text_adv, ht]; simp
        rw [this] at h1
        exact absurd h1 (by decide)
  · right; left
    rw [if_neg h]
    refine ⟨rfl, ?_⟩
    rintro ⟨r, hr⟩
    apply h
    rw [at_zero, ← hr]
    exact ⟨rfl, by simp [Cursor.at, ← hr, str]⟩

theorem takeWhile_nl (r : List Chr) :
    let body := r.takeWhile (fun x => x ≠ ch '\n')
    ch '\n' ∉ body ∧ (r = body ∨ ∃ r', r = body ++ ch '\n' :: r') := by
  induction r with
  | nil => simp
  | cons x r ih =>
    by_cases hx : x = ch '\n'
    · subst hx
      simp only
      rw [List.takeWhile_cons_of_neg (by simp)]
      exact ⟨by simp, Or.inr ⟨r, rfl⟩⟩
    · simp only
      rw [List.takeWhile_cons_of_pos (by simp [hx])]
      refine ⟨?_, ?_⟩
      · simp only [List.mem_cons, not_or]
        exact ⟨fun h => hx h.symm, ih.1⟩
      · rcases ih.2 with h | ⟨r', h⟩
        · exact Or.inl (congrArg (x :: ·) h)
        · exact Or.inr ⟨r', congrArg (x :: ·) h⟩

theorem skipOnelineComment_phase :
    PhaseOutcome skipOnelineComment (fun t => str "//" <+: t) := by
  intro m c h0
  rw [skipOnelineComment, peek_bind, peek_bind]
  by_cases h : c.at 0 = ch '/' ∧ c.at 1 = ch '/'
  · obtain ⟨r, hr⟩ := two_chars (by decide) (by decide) h
    rw [if_pos h, skip_bind (by rw [hr]; simp)]
    have ht : (c.adv 2).text = r := by rw [Cursor.text_adv, hr]; rfl
    have h0' : 0 ∉ (c.adv 2).text := by
      rw [ht]; intro h'; apply h0; rw [hr]; simp [h']
    rw [bind_some (lineCommentLoop_eq _ h0'), peek_bind, ht]
    obtain ⟨hb, hcase⟩ := takeWhile_nl r
    generalize r.takeWhile (fun x => x ≠ ch '\n') = body at hb hcase
    left
    rcases hcase with rfl | ⟨r', rfl⟩
    · rw [if_neg]
      · refine ⟨m.max .blank, 2 + r.length, ?_, (max_ne m).1, by omega, by rw [hr]; simp; omega, ?_⟩
        · rw [pure_apply, Cursor.adv_adv]
        · have : c.text.drop (2 + r.length) = [] := by rw [hr]; simp; omega
          rw [this, hr]
          exact .lastLine r hb
      · intro h1
        have : ((c.adv 2).adv r.length).at 0 = 0 := by
          rw [at_zero, Cursor.text_adv, ht]; simp
        rw [this] at h1
        exact absurd h1 (by decide)
    · have htx : ((c.adv 2).adv body.length).text = ch '\n' :: r' := by
        rw [Cursor.text_adv, ht, List.drop_left]
      rw [if_pos (by rw [at_zero, htx]; rfl)]
      refine ⟨(m.max .blank).max .newline, 2 + body.length + 1, ?_, ?_, by omega, by rw [hr]; simp; omega, ?_⟩
      · rw [skip_bind (by rw [htx]; simp), pure_apply, Cursor.adv_adv, Cursor.adv_adv]
        congr 3
      · exact (max_ne _).2
      · have e : c.text = str "//" ++ (body ++ ch '\n' :: r') := by rw [hr]; rfl
        have : c.text.drop (2 + body.length + 1) = r' := by
          have e3 : c.text = (str "//" ++ (body ++ [ch '\n'])) ++ r' := by rw [e]; simp
          have e4 : 2 + body.length + 1 = (str "//" ++ (body ++ [ch '\n'])).length := by
            simp [str]; omega
          rw [e3, e4, List.drop_left]
        rw [this, e]
        exact .line body r' hb
  · right; left
    rw [if_neg h]
    refine ⟨rfl, ?_⟩
    rintro ⟨r, hr⟩
    apply h
    rw [at_zero, ← hr]
    exact ⟨rfl, by simp [Cursor.at, ← hr, str]⟩

theorem Blanks.trans {a b c : List Chr} (h1 : Blanks a b) (h2 : Blanks b c) : Blanks a c := by
  induction h1 with
  | nil => exact h2
  | cons h _ ih => exact .cons h (ih h2)

theorem Blanks.one {a b : List Chr} (h : Blank a b) : Blanks a b := .cons h (.nil _)

/-- A text at which no phase applies has no element and no open comment at its beginning. -/
theorem no_blank {t : List Chr} (h1 : ¬ ∃ x r, t = x :: r ∧ x ∈ whitespaceChars)
    (h2 : ¬ str "/*" <+: t) (h3 : ¬ str "//" <+: t) : ∀ r', ¬ Blank t r' := by
  intro r' h
  cases h with
  | space c r hc => exact h1 ⟨c, _, rfl, hc⟩
  | block body r hb => exact h2 (List.prefix_append ..)
  | line body r hb => exact h3 (List.prefix_append ..)
  | lastLine body hb => exact h3 (List.prefix_append ..)

theorem drop_no_zero {c : Cursor} (h : 0 ∉ c.text) (k : Nat) : 0 ∉ (c.adv k).text := by
  rw [Cursor.text_adv]
  exact fun h' => h (List.mem_of_mem_drop h')

/-- One round of the loop. -/
theorem whitespaceRound_eq (c : Cursor) (h0 : 0 ∉ c.text) :
    (∃ m k, whitespaceRound c = some (.ok m, c.adv k) ∧ m ≠ .noMatch ∧ 1 ≤ k ∧ k ≤ c.text.length ∧
      Blanks c.text (c.text.drop k)) ∨
    (whitespaceRound c = some (.ok .noMatch, c) ∧ ∀ r', ¬ Blank c.text r') ∨
    (∃ c' t', whitespaceRound c = some (.error .lexerError, c') ∧ Blanks c.text t' ∧
      Unterminated t') := by
  unfold whitespaceRound
  -- the phases after a match
  have after : ∀ (m : WsMatch) (k : Nat), m ≠ .noMatch → 1 ≤ k → k ≤ c.text.length →
      Blanks c.text (c.text.drop k) →
      (∃ m' k', skipOnelineComment m (c.adv k) = some (.ok m', c.adv k') ∧ m' ≠ .noMatch ∧ 1 ≤ k' ∧
        k' ≤ c.text.length ∧ Blanks c.text (c.text.drop k')) ∨
      (∃ c' t', skipOnelineComment m (c.adv k) = some (.error .lexerError, c') ∧ Blanks c.text t' ∧
        Unterminated t') := by
    intro m k hm hk hkl hb
    rcases skipOnelineComment_phase m (c.adv k) (drop_no_zero h0 k) with
      ⟨m', k', e, hm', hk', hkl', hb'⟩ | ⟨e, -⟩ | ⟨c', e, hu⟩
    · left
      rw [Cursor.text_adv] at hb' hkl'
      rw [List.drop_drop] at hb'
      refine ⟨m', k + k', by rw [e, Cursor.adv_adv], hm', by omega, ?_, hb.trans (.one hb')⟩
      rw [List.length_drop] at hkl'; omega
    · exact Or.inl ⟨m, k, e, hm, hk, hkl, hb⟩
    · rw [Cursor.text_adv] at hu
      exact Or.inr ⟨c', _, e, hb, hu⟩
  have after2 : ∀ (m : WsMatch) (k : Nat), m ≠ .noMatch → 1 ≤ k → k ≤ c.text.length →
      Blanks c.text (c.text.drop k) →
      (∃ m' k', (do let m ← skipMultilineComment m; skipOnelineComment m) (c.adv k) =
          some (.ok m', c.adv k') ∧ m' ≠ .noMatch ∧ 1 ≤ k' ∧
        k' ≤ c.text.length ∧ Blanks c.text (c.text.drop k')) ∨
      (∃ c' t', (do let m ← skipMultilineComment m; skipOnelineComment m) (c.adv k) =
          some (.error .lexerError, c') ∧ Blanks c.text t' ∧ Unterminated t') := by
    intro m k hm hk hkl hb
    rcases skipMultilineComment_phase m (c.adv k) (drop_no_zero h0 k) with
      ⟨m', k', e, hm', hk', hkl', hb'⟩ | ⟨e, -⟩ | ⟨c', e, hu⟩
    · rw [Cursor.text_adv] at hb' hkl'
      rw [List.drop_drop] at hb'
      rw [Cursor.adv_adv] at e
      rw [bind_some e]
      refine after m' (k + k') hm' (by omega) ?_ (hb.trans (.one hb'))
      rw [List.length_drop] at hkl'; omega
    · rw [bind_some e]
      exact after m k hm hk hkl hb
    · rw [Cursor.text_adv] at hu
      exact Or.inr ⟨c', _, bind_err e, hb, hu⟩
  rcases skipWhitespaces_phase .noMatch c h0 with ⟨m, k, e, hm, hk, hkl, hb⟩ | ⟨e, hn1⟩ | ⟨c', e, hu⟩
  · rw [bind_some e]
    rcases after2 m k hm hk hkl (.one hb) with h | h
    · exact Or.inl h
    · exact Or.inr (Or.inr h)
  · rw [bind_some e]
    rcases skipMultilineComment_phase .noMatch c h0 with
      ⟨m, k, e, hm, hk, hkl, hb⟩ | ⟨e, hn2⟩ | ⟨c', e, hu⟩
    · rw [bind_some e]
      rcases after m k hm hk hkl (.one hb) with h | h
      · exact Or.inl h
      · exact Or.inr (Or.inr h)
    · rw [bind_some e]
      rcases skipOnelineComment_phase .noMatch c h0 with
        ⟨m, k, e, hm, hk, hkl, hb⟩ | ⟨e, hn3⟩ | ⟨c', e, hu⟩
      · exact Or.inl ⟨m, k, e, hm, hk, hkl, .one hb⟩
      · exact Or.inr (Or.inl ⟨e, no_blank hn1 hn2 hn3⟩)
      · exact Or.inr (Or.inr ⟨c', _, e, .nil _, hu⟩)
    · exact Or.inr (Or.inr ⟨c', _, bind_err e, .nil _, hu⟩)
  · exact Or.inr (Or.inr ⟨c', _, bind_err e, .nil _, hu⟩)

end Kefir.Lexer
