import Verif.Directive.Refute
/-!
# C88: preprocessing directives
-/

namespace Kefir.Directive

open Kefir.Lexer Kefir.PpToken

/-- C88 (partial): the scanner of directives, called again and again from the beginning of a file, returns
the directives of the file and the tokens of its other lines, in order: `ds'` is `ds` up to white space.
Which they are is what `File` says, the grammar of 6.10.

Partial: `File … True` is about plain lines; the full statement has `File … False`.  It fails where a line
is not plain: `C88_digraph_false`, `C88_pragma_false`, `C88_name_false`, `C88_comment_before_false`,
`C88_comment_inside_false`, `C88_comment_after_false`, `C88_double_hash_false`. -/
theorem C88_directives_partial (sc : StrCodec) (t : Tries) (c : Cursor) (ds : List Directive)
    (h : File sc t True c ds) :
    ∃ ds', Scans sc t true c ds' ∧ ds'.filterMap Directive.observe = ds :=
  reads_file h

/-- C88: there is only one sequence of results. -/
theorem C88_deterministic (sc : StrCodec) (t : Tries) (newline : Bool) (c : Cursor) (ds ds' : List Directive)
    (h : Scans sc t newline c ds) (h' : Scans sc t newline c ds') : ds = ds' := by
  induction h generalizing ds' with
  | stop h =>
    cases h' with
    | stop _ => rfl
    | next h2 hd _ =>
      rw [h] at h2
      simp only [Option.some.injEq, Prod.mk.injEq, Except.ok.injEq] at h2
      exact absurd h2.1.1.symm hd
  | next h hd _ ih =>
    cases h' with
    | stop h2 =>
      rw [h] at h2
      simp only [Option.some.injEq, Prod.mk.injEq, Except.ok.injEq] at h2
      exact absurd h2.1.1 hd
    | next h2 hd2 hs2 =>
      rw [h] at h2
      simp only [Option.some.injEq, Prod.mk.injEq, Except.ok.injEq] at h2
      obtain ⟨⟨rfl, rfl⟩, rfl⟩ := h2
      rw [ih _ hs2]

/-! ## A concrete file -/

/-- A function-like macro, a condition, a line of text.  -/
def sample : List Chr := str "#define F(x) x\n#ifdef F\nx;\n#endif"

theorem sample_plain {sc : StrCodec} (hg : GoodCodec sc) {t : Tries} (htr : PunctTrie t) :
    File sc t True (pos sample 0)
      [.define (nameBytes "F") (some ([nameBytes "x"], false)) [.identifier (nameBytes "x")],
       .ifdef (nameBytes "F"), .token (.identifier (nameBytes "x")), .token (.punct .semicolon), .endif] := by
  have h0 : Simple sample := by decide
  have white : ∀ n, White sc t (pos sample n) (pos sample n) := fun n => ⟨[], .nil _, rfl⟩
  have only : ∀ n, OnlyBlanks (pos sample n) (pos sample n) := fun n => OnlyBlanks.refl _
  -- the tokens
  have t0 := at_punct (sc := sc) (T := sample) hg htr 0 .hash 1 h0 (by decide) (by decide) (by decide) (by decide)
    (by intro x hx; cases hx; exact ⟨by intro q; cases q <;> decide, by decide⟩)
  have t1 := at_name (sc := sc) (T := sample) hg htr 1 "define" 7 h0 (by decide) (by decide) (by decide) (by decide)
  have t7 := at_blank (sc := sc) (t := t) h0 7 false (ch ' ') (by decide) (by decide) (by decide) (by decide)
  have t8 := at_name (sc := sc) (T := sample) hg htr 8 "F" 9 h0 (by decide) (by decide) (by decide) (by decide)
  have t9 := at_punct (sc := sc) (T := sample) hg htr 9 .leftParenthese 10 h0 (by decide) (by decide) (by decide) (by decide)
    (by intro x hx; cases hx; exact ⟨by intro q; cases q <;> decide, by decide⟩)
  have t10 := at_name (sc := sc) (T := sample) hg htr 10 "x" 11 h0 (by decide) (by decide) (by decide) (by decide)
  have t11 := at_punct (sc := sc) (T := sample) hg htr 11 .rightParenthese 12 h0 (by decide) (by decide) (by decide) (by decide)
    (by intro x hx; cases hx; exact ⟨by intro q; cases q <;> decide, by decide⟩)
  have t12 := at_blank (sc := sc) (t := t) h0 12 false (ch ' ') (by decide) (by decide) (by decide) (by decide)
  have t13 := at_name (sc := sc) (T := sample) hg htr 13 "x" 14 h0 (by decide) (by decide) (by decide) (by decide)
  have t14 := at_blank (sc := sc) (t := t) h0 14 true (ch '\n') (by decide) (by decide) (by decide) (by decide)
  have t15 := at_punct (sc := sc) (T := sample) hg htr 15 .hash 16 h0 (by decide) (by decide) (by decide) (by decide)
    (by intro x hx; cases hx; exact ⟨by intro q; cases q <;> decide, by decide⟩)
  have t16 := at_name (sc := sc) (T := sample) hg htr 16 "ifdef" 21 h0 (by decide) (by decide) (by decide) (by decide)
  have t21 := at_blank (sc := sc) (t := t) h0 21 false (ch ' ') (by decide) (by decide) (by decide) (by decide)
  have t22 := at_name (sc := sc) (T := sample) hg htr 22 "F" 23 h0 (by decide) (by decide) (by decide) (by decide)
  have t23 := at_blank (sc := sc) (t := t) h0 23 true (ch '\n') (by decide) (by decide) (by decide) (by decide)
  have t24 := at_name (sc := sc) (T := sample) hg htr 24 "x" 25 h0 (by decide) (by decide) (by decide) (by decide)
  have t25 := at_punct (sc := sc) (T := sample) hg htr 25 .semicolon 26 h0 (by decide) (by decide) (by decide) (by decide)
    (by intro x hx; cases hx; exact ⟨by intro q; cases q <;> decide, by decide⟩)
  have t26 := at_blank (sc := sc) (t := t) h0 26 true (ch '\n') (by decide) (by decide) (by decide) (by decide)
  have t27 := at_punct (sc := sc) (T := sample) hg htr 27 .hash 28 h0 (by decide) (by decide) (by decide) (by decide)
    (by intro x hx; cases hx; exact ⟨by intro q; cases q <;> decide, by decide⟩)
  have t28 := at_name (sc := sc) (T := sample) hg htr 28 "endif" 33 h0 (by decide) (by decide) (by decide) (by decide)
  have e33 : (pos sample 33).text = [] := by rw [pos_text h0]; decide
  have hash : ∀ n, (sample.drop n).head? = some (ch '#') → Next sc t (pos sample n) (.punct .hash) (pos sample (n + 1)) →
      Hash sc t True (pos sample n) (pos sample n) (pos sample (n + 1)) := by
    intro n hn h
    refine ⟨white n, Or.inl h, fun _ => ⟨only n, ?_, (pos_adv ..).symm⟩⟩
    rw [pos_text h0]
    cases hd : sample.drop n with
    | nil => rw [hd] at hn; cases hn
    | cons x r =>
      rw [hd] at hn
      injection hn with hn
      exact ⟨r, by rw [hn]⟩
  have plainName : ∀ (n m : Nat) (name : String), sample.drop n = str name ++ sample.drop m →
      m = n + (str name).length → (∀ x ∈ (sample.drop m).head?, ¬ IsNondigit x) →
      PlainName name (pos sample n) (pos sample m) := by
    intro n m name h1 h2 h3
    refine ⟨sample.drop m, by rw [pos_text h0, h1], by rw [pos_adv, h2], ?_⟩
    intro x r hx
    exact h3 x (by rw [hx]; rfl)
  refine .directive (hash 0 (by decide) t0) (white 1) t1 (.tokens (τs := [.ppWhitespace false] ++
      .identifier (nameBytes "F") :: .punct .leftParenthese :: ([.identifier (nameBytes "x")] ++
      .punct .rightParenthese :: [.ppWhitespace false, .identifier (nameBytes "x")])) (c' := pos sample 15)
      ?_ (.function _ _ _ _ [nameBytes "x"] false rfl rfl) ?_ ?_)
      (fun _ => ⟨only 1, plainName 1 7 "define" (by decide) (by decide) (by decide)⟩) ?_
  · exact .newline (.cons (by simp) (by simp) t7 (.cons (by simp) (by simp) t8 (.cons (by simp) (by simp) t9
      (.cons (by simp) (by simp) t10 (.cons (by simp) (by simp) t11 (.cons (by simp) (by simp) t12
      (.cons (by simp) (by simp) t13 (.nil _)))))))) t14
  · intro h; exact absurd h (by decide)
  · exact fun _ => ⟨by decide, fun h => absurd h (by decide)⟩
  refine .directive (hash 15 (by decide) t15) (white 16) t16 (.named (c1 := pos sample 22) (c' := pos sample 24)
      ⟨_, .cons (by simp) (by simp) t21 (.nil _), rfl⟩ t22 (.newline (.nil _) t23) rfl
      (x := nameBytes "F") (d := .ifdef (nameBytes "F")) (by simp [named]) ?_)
      (fun _ => ⟨only 16, plainName 16 21 "ifdef" (by decide) (by decide) (by decide)⟩) ?_
  · intro _
    refine Or.inr ⟨[], sample.drop 24, by rw [pos_text h0]; decide, by simp, by simp, Or.inl (pos_adv sample 23 1).symm⟩
  refine .text (τs := [.identifier (nameBytes "x"), .punct .semicolon]) (c' := pos sample 27)
    (.newline (.cons (by simp) (by simp) t24 (.cons (by simp) (by simp) t25 (.nil _))) t26)
    (by rw [pos_text h0]; decide) ?_ ?_ ?_
  · intro τ r h
    injection h with h _
    subst h
    exact ⟨by simp, by simp⟩
  · intro _
    exact Or.inr ⟨ch 'x', ⟨[], sample.drop 25, by simp, by rw [pos_text h0]; decide, fun h => absurd h.1 (by decide)⟩,
      by decide, by decide⟩
  refine .directive (hash 27 (by decide) t27) (white 28) t28 (.bare (c' := pos sample 33)
      (.lastLine (.nil _) e33) rfl (d := .endif) (by decide) ?_)
      (fun _ => ⟨only 28, plainName 28 33 "endif" (by decide) (by decide) (by decide)⟩) (.stop _ e33)
  intro _
  exact Or.inl ⟨by rw [e33]; simp, by rw [e33]; simp, e33⟩

/-- What the scanner returns for it. -/
example (t : Tries) (htr : PunctTrie t) : ∃ ds', Scans asciiStrings t true (pos sample 0) ds' ∧
    ds'.filterMap Directive.observe =
      [.define (nameBytes "F") (some ([nameBytes "x"], false)) [.identifier (nameBytes "x")],
       .ifdef (nameBytes "F"), .token (.identifier (nameBytes "x")), .token (.punct .semicolon), .endif] :=
  C88_directives_partial _ _ _ _ (sample_plain asciiStrings_good htr)

end Kefir.Directive
