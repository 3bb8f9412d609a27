import Verif.Directive.Texts
import Verif.Skip.Run
/-!
# C94: skipped groups
-/

namespace Kefir.Skip

open Kefir.Lexer Kefir.Directive Kefir.PpToken

/-- C94 (partial): a group that is skipped is the one of 6.10.1p6.  From the beginning of a line, the
program goes to the `#elif`, `#else` or `#endif` that ends the group, or to the end of the file, whatever
the lines of the group are; it stands at the beginning of that line, ready for a directive (the flag).

Partial: the lines of the group and the one that ends it are plain.  Where they are not, the program may
stop too early or too late: `C94_comment_false`, `C94_comment_before_false`, `C94_digraph_false`,
`C94_name_false`, `C94_nested_else_false`.  A file has no null characters: the program takes them for the
end of the file. -/
theorem C94_skip_partial (c : Cursor) (h0 : 0 ∉ c.text)
    (hp : ∀ l ∈ (lines c.text).take ((group 0 (lines c.text)).length + 1), PlainLine l) :
    skipGroup true 0 c = some (.ok true, c.adv (size (group 0 (lines c.text)))) :=
  skip_lines _ h0 rfl hp

/-- C94: lines are what a file is made of: nothing is between them, nothing is left out. -/
theorem C94_lines (s : List Chr) : ((lines s).map Line.raw).flatten = s := by
  have : ∀ (n : Nat) (s : List Chr), s.length < n → ((lines s).map Line.raw).flatten = s := by
    intro n
    induction n with
    | zero => intro s h; omega
    | succ n ih =>
      intro s hs
      rcases linesFrom_cons .code ⟨[], []⟩ s with ⟨h, _, h2⟩ | ⟨a, ls, s1, s2, h1, h2, h3, h4⟩ | ⟨a, h1, h2, _⟩
      · rw [lines, h, h2]; rfl
      · rw [lines, h1, List.map_cons, List.flatten_cons, h3, h4, ih s2 ?_, h2]
        · simp
        · rw [h2, List.length_append, List.length_cons] at hs
          omega
      · rw [lines, h1, List.map_cons, List.flatten_cons, h2]
        simp
  exact this _ s (Nat.lt_succ_self _)

/-! ## Evaluation -/

/-- The number of characters up to the next line. -/
def lineLength (s : List Chr) : Nat :=
  (s.takeWhile fun x => decide (x ≠ ch '\n')).length + if ch '\n' ∈ s then 1 else 0

theorem skipLine_length {c : Cursor} (h0 : 0 ∉ c.text) : skipLine c = some (.ok (), c.adv (lineLength c.text)) := by
  by_cases h : ch '\n' ∈ c.text
  · obtain ⟨a, b, hab, ha⟩ := List.eq_append_cons_of_mem h
    have htw : (c.text.takeWhile fun x => decide (x ≠ ch '\n')) = a := by
      rw [hab, List.takeWhile_append_of_pos, List.takeWhile_cons_of_neg (by simp), List.append_nil]
      intro x hx
      exact decide_eq_true (fun h => ha (h ▸ hx))
    rw [lineLength, if_pos h, htw]
    exact skipLine_eq hab ha fun h => h0 (by rw [hab]; simp [h])
  · have htw : (c.text.takeWhile fun x => decide (x ≠ ch '\n')) = c.text := by
      have := List.takeWhile_append_of_pos (p := fun x => decide (x ≠ ch '\n')) (l₁ := c.text) (l₂ := [])
        (fun x hx => decide_eq_true (fun h' => h (h' ▸ hx)))
      simpa using this
    rw [lineLength, if_neg h, htw]
    exact skipLine_end h h0

/-- `skipGroup` as a function of the text, for a bounded number of steps: how far it goes. -/
def skipText : Nat → Nat → List Chr → Option Nat
  | 0, _, _ => none
  | n + 1, d, s =>
    let (k, _, i) := matchText s
    let next : Nat := i + lineLength (s.drop i)
    match k with
    | .ifD | .ifdef | .ifndef => (skipText n (d + 1) (s.drop next)).map (next + ·)
    | .elif | .elseD => if d = 0 then some 0 else (skipText n d (s.drop i)).map (i + ·)
    | .endif => if d > 0 then (skipText n (d - 1) (s.drop next)).map (next + ·) else some 0
    | .sentinel => some i
    | _ => (skipText n d (s.drop next)).map (next + ·)

theorem skipGroup_text {n d j : Nat} {flag : Bool} {c : Cursor} (h0 : 0 ∉ c.text)
    (h : skipText n d c.text = some j) : ∃ flag', skipGroup flag d c = some (.ok flag', c.adv j) := by
  induction n generalizing d j flag c with
  | zero => cases h
  | succ n ih =>
    have hm := matchDirective_pure h0
    rw [skipText] at h
    revert h hm
    generalize matchText c.text = m
    obtain ⟨k, f, i⟩ := m
    intro h hm
    have drop0 : ∀ i, 0 ∉ (c.adv i).text := fun i => by
      rw [Cursor.text_adv]; exact fun h => h0 (List.mem_of_mem_drop h)
    have hl : skipLine (c.adv i) = some (.ok (), c.adv (i + lineLength (c.text.drop i))) := by
      rw [skipLine_length (drop0 i), Cursor.adv_adv, Cursor.text_adv]
    dsimp only at h hm
    have go : ∀ d' i' flag', (skipText n d' (c.text.drop i')).map (i' + ·) = some j →
        ∃ flag'', skipGroup flag' d' (c.adv i') = some (.ok flag'', c.adv j) := by
      intro d' i' flag' h
      cases hs : skipText n d' (c.text.drop i') with
      | none => rw [hs] at h; cases h
      | some v =>
        rw [hs] at h
        injection h with h
        subst h
        obtain ⟨f', hf'⟩ := ih (flag := flag') (drop0 i') (by rw [Cursor.text_adv]; exact hs)
        exact ⟨f', by rw [hf', Cursor.adv_adv]⟩
    cases k
    case ifD => rw [step_begin hm (by simp) hl]; exact go _ _ _ h
    case ifdef => rw [step_begin hm (by simp) hl]; exact go _ _ _ h
    case ifndef => rw [step_begin hm (by simp) hl]; exact go _ _ _ h
    case elif =>
      rw [step_alternative hm (by simp)]
      dsimp only at h
      split at h
      · injection h with h; subst h
        exact ⟨flag, by rw [if_pos (by assumption), Cursor.adv_zero]⟩
      · rw [if_neg (by assumption)]; exact go _ _ _ h
    case elseD =>
      rw [step_alternative hm (by simp)]
      dsimp only at h
      split at h
      · injection h with h; subst h
        exact ⟨flag, by rw [if_pos (by assumption), Cursor.adv_zero]⟩
      · rw [if_neg (by assumption)]; exact go _ _ _ h
    case endif =>
      dsimp only at h
      split at h
      · rw [step_end hm (by assumption) hl]; exact go _ _ _ h
      · injection h with h; subst h
        obtain rfl : d = 0 := by omega
        exact ⟨flag, by rw [step_stop hm, Cursor.adv_zero]⟩
    case sentinel =>
      injection h with h; subst h
      exact ⟨f, step_sentinel hm⟩
    all_goals
      rw [step_other hm (by simp) (by simp) (by simp) (by simp) hl]
      exact go _ _ _ h

theorem skipGroup_at {T : List Chr} {n j : Nat} (h0 : Simple T) (h : skipText n 0 T = some j) :
    ∃ flag, skipGroup true 0 (pos T 0) = some (.ok flag, pos T j) := by
  obtain ⟨f, hf⟩ := skipGroup_text (n := n) (flag := true) (c := pos T 0) (d := 0) (j := j)
    (by rw [pos_text h0]; exact h0.2) (by rw [pos_text h0]; exact h)
  rw [pos_adv, Nat.zero_add] at hf
  exact ⟨f, hf⟩

/-! ## Where the program does something else -/

/-- C94 is false where a comment goes over the end of a line: the `#endif` in the comment ends the group,
the program goes on inside the comment. -/
theorem C94_comment_false : ∃ T flag, Simple T ∧ lines T = [⟨str "/*\n#endif\n*/x", str " x"⟩] ∧
    size (group 0 (lines T)) = 13 ∧ skipGroup true 0 (pos T 0) = some (.ok flag, pos T 3) := by
  have h0 : Simple (str "/*\n#endif\n*/x") := by decide
  obtain ⟨f, hf⟩ := skipGroup_at (n := 5) (j := 3) h0 (by decide)
  exact ⟨_, f, h0, by decide, by decide, hf⟩

/-- C94 is false where a comment precedes the `#`: the group goes on after its `#endif`. -/
theorem C94_comment_before_false : ∃ T flag, Simple T ∧ T = str "/**/#endif\nx" ∧
    size (group 0 (lines T)) = 0 ∧ skipGroup true 0 (pos T 0) = some (.ok flag, pos T 12) := by
  have h0 : Simple (str "/**/#endif\nx") := by decide
  obtain ⟨f, hf⟩ := skipGroup_at (n := 5) (j := 12) h0 (by decide)
  exact ⟨_, f, h0, rfl, by decide, hf⟩

/-- C94 is false where `#` is spelled `%:`: the group goes on after its `%:endif`. -/
theorem C94_digraph_false : ∃ T flag, Simple T ∧ T = str "%:endif\nx" ∧
    size (group 0 (lines T)) = 0 ∧ skipGroup true 0 (pos T 0) = some (.ok flag, pos T 9) := by
  have h0 : Simple (str "%:endif\nx") := by decide
  obtain ⟨f, hf⟩ := skipGroup_at (n := 5) (j := 9) h0 (by decide)
  exact ⟨_, f, h0, rfl, by decide, hf⟩

/-- C94 is false where a name begins with the name of a directive and goes on with a digit: the program
takes the directive `#else1`, which is none, for the end of the group. -/
theorem C94_name_false : ∃ T flag, Simple T ∧ T = str "x\n#else1\ny" ∧
    size (group 0 (lines T)) = 10 ∧ skipGroup true 0 (pos T 0) = some (.ok flag, pos T 2) := by
  have h0 : Simple (str "x\n#else1\ny") := by decide
  obtain ⟨f, hf⟩ := skipGroup_at (n := 5) (j := 2) h0 (by decide)
  exact ⟨_, f, h0, rfl, by decide, hf⟩

/-- C94 is false where a `#` follows the name of an `#elif` or `#else` in a nested conditional: the rest of
the line is not ignored, it is taken for a directive.  Here it ends the nested conditional, and the
`#endif` of that ends the group. -/
theorem C94_nested_else_false : ∃ T flag, Simple T ∧ T = str "#if\n#else #endif\n#endif\nx\n#endif" ∧
    size (group 0 (lines T)) = 26 ∧ skipGroup true 0 (pos T 0) = some (.ok flag, pos T 17) := by
  have h0 : Simple (str "#if\n#else #endif\n#endif\nx\n#endif") := by decide
  obtain ⟨f, hf⟩ := skipGroup_at (n := 9) (j := 17) h0 (by decide)
  exact ⟨_, f, h0, rfl, by decide, hf⟩

/-! ## A concrete file -/

/-- Lines that would be wrong if they were not skipped, a nested conditional, a comment. -/
def sample : List Chr := str "don't\n # error \"\n#ifdef X // #endif\n#elif ?? /**/\n#else\n\n  # endif\n#else /* X */\n"

theorem plain_sample : ∀ l ∈ (lines sample).take ((group 0 (lines sample)).length + 1), PlainLine l := by
  have h : ∀ l ∈ (lines sample).take ((group 0 (lines sample)).length + 1),
      ch '\n' ∉ l.raw.dropLast ∧ directiveName l.raw = directiveName l.text ∧
      ¬ ((dropBlanks l.raw).head? = some (ch '%')) ∧
      (∀ r ∈ (afterHash l.raw).toList, leadingLetters r ∈ begins ++ alternatives ++ ends →
        directiveName l.raw = some (leadingLetters r)) ∧
      (∀ r ∈ (afterHash l.raw).toList, ∀ n ∈ alternatives, ¬ (dropBlanks (r.drop n.length)).head? = some (ch '#')) := by
    decide +kernel
  intro l hl
  obtain ⟨h1, h2, h3, h4, h5⟩ := h l hl
  refine ⟨h1, h2, ?_, ?_, ?_⟩
  · intro r hr
    rw [hr] at h3
    exact absurd rfl h3
  · intro r hr hmem
    exact h4 r (by rw [hr]; simp) hmem
  · intro r n s hr hn hrs r' hs
    have := h5 r (by rw [hr]; simp) n hn
    rw [hrs, List.drop_left, hs] at this
    exact this rfl

/-- The group ends before the last line. -/
example : skipGroup true 0 (pos sample 0) = some (.ok true, pos sample 67) := by
  have h0 : Simple sample := by decide +kernel
  have ht : (pos sample 0).text = sample := pos_text h0 0
  have h := C94_skip_partial (pos sample 0) (by rw [ht]; exact h0.2) (by rw [ht]; exact plain_sample)
  rw [ht, pos_adv] at h
  have hs : size (group 0 (lines sample)) = 67 := by decide +kernel
  rw [hs] at h
  exact h

example : sample.drop 67 = str "#else /* X */\n" := by decide +kernel

end Kefir.Skip
