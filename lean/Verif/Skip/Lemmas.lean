import Verif.Directive.Match
import Verif.Skip.Model
/-!
# Skipping lines
-/

namespace Kefir.Skip

open Kefir.Lexer Kefir.Directive Kefir.PpToken

/-! ## `match` as a function of the text -/

/-- Blanks at the beginning of a text. -/
def blanks (s : List Chr) : List Chr := s.takeWhile fun x => decide (IsBlank x)

theorem blanks_drop (s : List Chr) : s = blanks s ++ dropBlanks s := (List.takeWhile_append_dropWhile).symm

theorem blanks_mem {s : List Chr} {x : Chr} (h : x ∈ blanks s) : IsBlank x := by
  have := List.all_eq_true.mp (List.all_takeWhile (p := fun x => decide (IsBlank x)) (l := s)) x h
  exact of_decide_eq_true this

theorem dropBlanks_first {s r : List Chr} {x : Chr} (h : dropBlanks s = x :: r) : ¬ IsBlank x := by
  have := List.head?_dropWhile_not (fun x => decide (IsBlank x)) s
  rw [show List.dropWhile (fun x => decide (IsBlank x)) s = x :: r from h] at this
  simpa using this

theorem drop_blanks (s : List Chr) : s.drop (blanks s).length = dropBlanks s := by
  conv => lhs; rw [blanks_drop s]
  have h : blanks (blanks s ++ dropBlanks s) = blanks s := by rw [← blanks_drop]
  rw [h, List.drop_left]

theorem skipBlanks_text (c : Cursor) : skipBlanks c = some (.ok (), c.adv (blanks c.text).length) :=
  skipBlanks_eq (fun _ h => blanks_mem h) (blanks_drop c.text) fun _ _ h => dropBlanks_first h

/-- What `match` returns at a text: the type, the flag and the number of characters it goes on. -/
def matchText (s : List Chr) : Kind × Bool × Nat :=
  match dropBlanks s with
  | [] => (.sentinel, true, (blanks s).length)
  | x :: r =>
    if x ≠ ch '#' then (.ppToken, true, 0)
    else if (dropBlanks r).head? = some (ch '\n') then (.empty, true, (blanks s).length + 1 + (blanks r).length)
    else match knownDirectives.find? (fun e => e.1 = (leadingLetters (dropBlanks r)).take 63) with
      | some e => (e.2, false, (blanks s).length + 1 + (blanks r).length + ((leadingLetters (dropBlanks r)).take 63).length)
      | none => (.non, false, (blanks s).length)

theorem matchDirective_pure {c : Cursor} (h0 : 0 ∉ c.text) :
    matchDirective c = some (.ok ((matchText c.text).1, (matchText c.text).2.1), c.adv (matchText c.text).2.2) := by
  rw [matchDirective, save_bind, bind_some (skipBlanks_text c), peek_bind, matchText]
  cases hd : dropBlanks c.text with
  | nil =>
    have h : (c.adv (blanks c.text).length).text = [] := by rw [Cursor.text_adv, drop_blanks, hd]
    have : (c.adv (blanks c.text).length).at 0 = 0 := by rw [at_zero, h]; rfl
    rw [this, if_pos rfl]
    rfl
  | cons x r =>
    have hx0 : x ≠ 0 := by
      rintro rfl
      apply h0
      rw [blanks_drop c.text, hd]
      simp
    have hhd : (c.adv (blanks c.text).length).text = x :: r := by rw [Cursor.text_adv, drop_blanks, hd]
    rw [at_cons hhd, if_neg hx0]
    by_cases hx : x = ch '#'
    · have hr : ((c.adv (blanks c.text).length).adv 1).text = r := by rw [Cursor.text_adv, hhd]; rfl
      simp only [hx, ne_eq, not_true_eq_false, if_false]
      rw [save_bind, skip_bind (by rw [hhd]; simp), bind_some (skipBlanks_text _), hr, peek_bind, at_zero,
        Cursor.text_adv, hr, drop_blanks]
      have hh : (dropBlanks r).head?.getD 0 = ch '\n' ↔ (dropBlanks r).head? = some (ch '\n') := by
        cases dropBlanks r with
        | nil => exact ⟨fun h => absurd h (by decide), fun h => by cases h⟩
        | cons y r' => simp
      by_cases hn : (dropBlanks r).head? = some (ch '\n')
      · rw [if_pos (hh.mpr hn), if_pos hn]
        simp only [Cursor.adv_adv]
        rfl
      · rw [if_neg (fun h => hn (hh.mp h)), if_neg hn, bind_some (readName_eq ..), Cursor.text_adv, hr, drop_blanks,
          List.nil_append]
        cases knownDirectives.find? (fun e => e.1 = (leadingLetters (dropBlanks r)).take 63) with
        | none => rfl
        | some e =>
          simp only [Cursor.adv_adv]
          rfl
    · simp only [ne_eq, hx, not_false_eq_true, if_true]
      rw [restore_bind, Cursor.adv_zero]
      rfl

/-! ## `skip_line` -/

theorem skipLine_end {c : Cursor} (hn : ch '\n' ∉ c.text) (h0 : 0 ∉ c.text) :
    skipLine c = some (.ok (), c.adv c.text.length) := by
  generalize ht : c.text = s at hn h0
  induction s generalizing c with
  | nil =>
    rw [skipLine, peek_bind, at_zero, ht, List.length_nil, Cursor.adv_zero]
    rfl
  | cons x s ih =>
    have hx : x ≠ 0 := fun h => h0 (by rw [h]; exact List.mem_cons_self)
    have hxn : x ≠ ch '\n' := fun h => hn (by rw [h]; exact List.mem_cons_self)
    rw [skipLine, peek_bind, at_cons ht, if_neg hx,
      skip_bind (by rw [ht]; simp), if_pos hxn,
      ih (by rw [Cursor.text_adv, ht]; rfl) (fun h => hn (List.mem_cons_of_mem _ h))
        (fun h => h0 (List.mem_cons_of_mem _ h)), Cursor.adv_adv, List.length_cons, Nat.add_comm]

/-- A line of the text at `c`, up to its newline or the end of the text. -/
def LineAt (c : Cursor) (raw : List Chr) : Prop :=
  0 ∉ c.text ∧ ((∃ body r, raw = body ++ [ch '\n'] ∧ ch '\n' ∉ body ∧ c.text = raw ++ r) ∨
    (ch '\n' ∉ raw ∧ c.text = raw))

/-- From inside a line, `skip_line` goes to the next line. -/
theorem skipLine_from {c : Cursor} {raw : List Chr} (h : LineAt c raw) {k : Nat}
    (hk : k + (if raw.getLast? = some (ch '\n') then 1 else 0) ≤ raw.length) :
    skipLine (c.adv k) = some (.ok (), c.adv raw.length) := by
  obtain ⟨h0, h⟩ := h
  have h0k : 0 ∉ c.text.drop k := fun h => h0 (List.mem_of_mem_drop h)
  rcases h with ⟨body, r, rfl, hb, ht⟩ | ⟨hn, ht⟩
  · rw [if_pos (by simp), List.length_append, List.length_singleton] at hk
    have htk : (c.adv k).text = body.drop k ++ ch '\n' :: r := by
      rw [Cursor.text_adv, ht, List.append_assoc, List.drop_append_of_le_length (by omega)]
      rfl
    have h0b : 0 ∉ body.drop k := by
      intro h
      apply h0k
      rw [← Cursor.text_adv, htk]
      simp [h]
    rw [skipLine_eq htk (fun h => hb (List.mem_of_mem_drop h)) h0b, Cursor.adv_adv, List.length_drop,
      List.length_append, List.length_singleton, show k + (body.length - k + 1) = body.length + 1 by omega]
  · have hl : raw.getLast? ≠ some (ch '\n') := fun h => hn (List.mem_of_getLast? h)
    rw [if_neg hl, Nat.add_zero] at hk
    have htk : (c.adv k).text = raw.drop k := by rw [Cursor.text_adv, ht]
    rw [skipLine_end (by rw [htk]; exact fun h => hn (List.mem_of_mem_drop h)) (by rw [Cursor.text_adv]; exact h0k),
      htk, Cursor.adv_adv, List.length_drop, show k + (raw.length - k) = raw.length by omega]

/-! ## The lines of a text -/

theorem linesFrom_cons (m : Mode) (l : Line) (s : List Chr) :
    (linesFrom m l s = [] ∧ l.raw = [] ∧ s = []) ∨
    (∃ a ls s1 s2, linesFrom m l s = a :: ls ∧ s = s1 ++ ch '\n' :: s2 ∧ a.raw = l.raw ++ s1 ++ [ch '\n'] ∧ ls = lines s2) ∨
    (∃ a, linesFrom m l s = [a] ∧ a.raw = l.raw ++ s ∧ a.raw ≠ []) := by
  induction s generalizing m l with
  | nil =>
    rw [linesFrom]
    by_cases h : l.raw = []
    · exact Or.inl ⟨if_pos h, h, rfl⟩
    · exact Or.inr (Or.inr ⟨l, if_neg h, by simp, h⟩)
  | cons x r ih =>
    have go : ∀ m' l', l'.raw = l.raw ++ [x] → linesFrom m l (x :: r) = linesFrom m' l' r →
        (∃ a ls s1 s2, linesFrom m l (x :: r) = a :: ls ∧ x :: r = s1 ++ ch '\n' :: s2 ∧
          a.raw = l.raw ++ s1 ++ [ch '\n'] ∧ ls = lines s2) ∨
        (∃ a, linesFrom m l (x :: r) = [a] ∧ a.raw = l.raw ++ x :: r ∧ a.raw ≠ []) := by
      intro m' l' hl he
      rcases ih m' l' with ⟨_, h, _⟩ | ⟨a, ls, s1, s2, h1, h2, h3, h4⟩ | ⟨a, h1, h2, h3⟩
      · rw [hl] at h; simp at h
      · exact Or.inl ⟨a, ls, x :: s1, s2, by rw [he, h1], by rw [h2]; rfl, by rw [h3, hl]; simp, h4⟩
      · exact Or.inr ⟨a, by rw [he, h1], by rw [h2, hl]; simp, h3⟩
    have nl : x = ch '\n' → linesFrom m l (x :: r) = ⟨l.raw ++ [x], l.text⟩ :: lines r →
        (∃ a ls s1 s2, linesFrom m l (x :: r) = a :: ls ∧ x :: r = s1 ++ ch '\n' :: s2 ∧
          a.raw = l.raw ++ s1 ++ [ch '\n'] ∧ ls = lines s2) := by
      intro hx he
      exact ⟨_, _, [], r, he, by rw [hx]; rfl, by rw [hx]; simp, rfl⟩
    right
    have hdef := linesFrom.eq_def m l (x :: r)
    cases m <;> dsimp only at hdef <;> (try split at hdef) <;>
      first
      | exact Or.inl (nl (by assumption) hdef)
      | exact go _ _ rfl hdef
      | skip
    all_goals (split at hdef)
    all_goals first
      | exact go _ _ rfl hdef
      | skip
    all_goals (split at hdef)
    all_goals first
      | exact go _ _ rfl hdef
      | skip
    all_goals (split at hdef)
    all_goals first
      | exact go _ _ rfl hdef

end Kefir.Skip
