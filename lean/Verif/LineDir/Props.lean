import Verif.LineDir.Texts
/-!
# C98: line control
-/

namespace Kefir.LineDir

open Kefir.Lexer Kefir.PpToken Kefir.Directive

/-- **C98** (partial: the first token after macro replacement is not white space, and the next line does
not begin with a comment).  A directive `#line` whose tokens are, after macro replacement, a number `n` and
perhaps a file name is accepted.  From then on, wherever a token is read that `p` separates from the
beginning of the next line, `__LINE__` in its place is the decimal constant of `n` plus the number of
newlines in `p`; `__FILE__` is the file name, or the name that was valid before. -/
theorem C98_line_partial (sc : StrCodec) (t : Tries) (subst : List Token → Except Err (List Token))
    (file : List UInt8) (c c' : Cursor) (τs τs' : List Token) (n : Nat) (name : Option (List UInt8))
    (hl : LineDirective sc t True c τs c') (hs : subst τs = .ok τs') (hc : Control (significant τs') n name)
    (hf : ∀ τ r, τs' = τ :: r → isWhite τ = false) :
    ∃ file' c'', lineStep sc t subst file c = some (.ok file', c'') ∧
      c''.rest = c'.rest ∧ c''.stop = c'.stop ∧
      fileMacro file' = .string .multibyte (name.getD file) ∧
      ∀ k τ d, ppNext sc t (c''.adv k) = some (.ok τ, d) →
        ∃ p, c'.rest = p ++ (c''.adv k).rest ∧ (splice p).length = min k c'.text.length ∧
          (n + newlines p < 2 ^ 32 →
            ∃ bs, lineMacro τ = .ppNumber bs ∧ Constant bs (n + newlines p)) := by
  refine ⟨name.getD file, { c' with line := n }, ?_, rfl, rfl, rfl, ?_⟩
  · rw [lineStep, bind_some (scannerNext_line trivial hl)]
    exact processLine_control hs hc hf c'
  · intro k τ d hτ
    obtain ⟨p, h1, h2, h3⟩ := adv_line { c' with line := n } k
    refine ⟨p, h1, h2, fun hlt => ⟨_, rfl, ?_⟩⟩
    rw [ppNext_line hτ, h3]
    show Constant (printU (n + newlines p)) (n + newlines p)
    unfold printU
    rw [Nat.mod_eq_of_lt hlt]
    exact (decimal_constant _).1

/-- **C98** for a file without `#line`: `__LINE__` in place of a token that `p` separates from the
beginning of the file is the decimal constant of one plus the number of newlines in `p`. -/
theorem C98_first_lines (sc : StrCodec) (t : Tries) (src : List UInt8) (k : Nat) (τ : LocToken) (d : Cursor)
    (h : ppNext sc t ((view sc.cd (start src)).adv k) = some (.ok τ, d)) :
    ∃ p, (decodeAll sc.cd src).1 = p ++ ((view sc.cd (start src)).adv k).rest ∧
      (1 + newlines p < 2 ^ 32 → ∃ bs, lineMacro τ = .ppNumber bs ∧ Constant bs (1 + newlines p)) := by
  obtain ⟨p, h1, -, h3⟩ := adv_line (view sc.cd (start src)) k
  refine ⟨p, h1, fun hlt => ⟨_, rfl, ?_⟩⟩
  rw [ppNext_line h, h3]
  show Constant (printU (1 + newlines p)) (1 + newlines p)
  unfold printU
  rw [Nat.mod_eq_of_lt hlt]
  exact (decimal_constant _).1

/-- A decimal constant has one value: the text that `__LINE__` gives determines the line. -/
theorem C98_number_unique (bs : List UInt8) (m n : Nat) (h : Constant bs m) (h' : Constant bs n) : m = n :=
  (denotes_facts h.1).2.symm.trans (denotes_facts h'.1).2

/-! ## A concrete case -/

def sample : List Chr := str "#line 7 \"a.c\"\nX"

theorem sample_simple : Simple sample := by decide

theorem sample_line (sc : StrCodec) (hg : GoodCodec sc) (t : Tries) (htr : PunctTrie t) :
    LineDirective sc t True (pos sample 0)
      [.ppNumber [55], .ppWhitespace false, .string .multibyte [97, 46, 99]] (pos sample 14) := by
  have h0 := sample_simple
  have n1 := at_number (sc := sc) hg htr 6 (ch '7') 55 (T := sample) (x := ch ' ') (r := str "\"a.c\"\nX") h0
    (by decide) (by decide) (by decide) (by decide)
  have n2 := at_blank (sc := sc) (t := t) (T := sample) h0 7 false (ch ' ') (by decide) (by decide) (by decide)
    (by decide)
  have n4 := at_blank (sc := sc) (t := t) (T := sample) h0 13 true (ch '\n') (by decide) (by decide) (by decide)
    (by decide)
  have n3 := at_string (sc := sc) hg htr (T := sample) 8 [97, 46, 99] [34, 97, 46, 99, 34] 13 h0 (by decide)
    (by decide) (by rfl) (by decide) (by decide) (r := str "a.c\"\nX") (by decide) (by decide)
  refine ⟨pos sample 0, pos sample 1, pos sample 5, pos sample 6, pos sample 13, pos sample 14, OnlyBlanks.refl _,
    ⟨str "line 7 \"a.c\"\nX", ?_⟩, ?_, ⟨str " 7 \"a.c\"\nX", ?_, ?_, ?_⟩, ⟨[ch ' '], ?_, ?_, ?_⟩,
    ⟨ch '7', str " \"a.c\"\nX", ?_, ?_⟩,
    .cons (by simp) (by simp) n1 (.cons (by simp) (by simp) n2 (.cons (by simp) (by simp) n3 (.nil _))),
    ⟨[], str "X", ?_, by decide, ?_⟩, n4, fun _ => rfl⟩
  · rw [pos_text h0]; decide
  · rw [pos_adv]; exact OnlyBlanks.refl _
  · rw [pos_text h0]; decide
  · rw [pos_adv]; rfl
  · intro x r h
    have : x = ch ' ' := by injection h.symm
    rw [this]; decide
  · intro x hx
    rw [List.mem_singleton.1 hx]
    exact ⟨by decide, by decide⟩
  · rw [pos_text h0, pos_text h0]; decide
  · rw [pos_adv]; rfl
  · rw [pos_text h0]; decide
  · exact fun h => absurd h.1 (by decide)
  · rw [pos_text h0]; decide
  · rw [pos_adv]; rfl

/-- After `#line 7 "a.c"`, `X` in the next line is in line 7 of the file `a.c`. -/
example (sc : StrCodec) (hg : GoodCodec sc) (t : Tries) (htr : PunctTrie t) :
    ∃ c'', lineStep sc t .ok [98] (pos sample 0) = some (.ok [97, 46, 99], c'') ∧
      ∃ τ d, ppNext sc t c'' = some (.ok τ, d) ∧ τ.token = .identifier (nameBytes "X") ∧
        lineMacro τ = .ppNumber [55] := by
  refine ⟨{ pos sample 14 with line := 7 }, ?_, ?_⟩
  · rw [lineStep, bind_some (scannerNext_line trivial (sample_line sc hg t htr))]
    have hctl : Control (significant [.ppNumber [55], .ppWhitespace false, .string .multibyte [97, 46, 99]]) 7
        (some [97, 46, 99]) := .named (.one (by decide)) (by decide) (by decide)
    exact processLine_control rfl hctl (by rintro τ r h; cases h; rfl) _
  · have hx : ({ pos sample 14 with line := 7 } : Cursor).text = str "X" :=
      (pos_text sample_simple 14).trans (by decide)
    obtain ⟨i, j, h⟩ := next_name (sc := sc) hg htr "X" (rest := []) (by rw [hx]; rfl) (by rw [hx]; decide)
      (by decide) (by simp)
    refine ⟨_, _, h, rfl, ?_⟩
    have := ppNext_line h
    simp only at this
    subst this
    have : printU 7 = [55] := by decide
    exact congrArg Token.ppNumber this

/-! ## Where line control fails -/

/-- C98 is false where a comment begins the next line: after

    #line 7
    /*
    */X

`X` is in line 8, `__LINE__` gives 7.  The comment is read together with the newline, before the line is
set. -/
theorem C98_comment_false (sc : StrCodec) (hg : GoodCodec sc) (t : Tries) (htr : PunctTrie t) (file : List UInt8) :
    ∃ c c' c'' τs τ d p, LineDirective sc t False c τs c' ∧ Control (significant τs) 7 none ∧
      (∀ τ r, τs = τ :: r → isWhite τ = false) ∧ lineStep sc t .ok file c = some (.ok file, c'') ∧
      c'.rest = p ++ c''.rest ∧ newlines p = 1 ∧ ppNext sc t c'' = some (.ok τ, d) ∧
      τ.token = .identifier (nameBytes "X") ∧
      ∀ bs, lineMacro τ = .ppNumber bs → ¬ Constant bs (7 + newlines p) := by
  let T : List Chr := str "#line 7\n/*\n*/X"
  have h0 : Simple T := by decide
  have n1 := at_number (sc := sc) hg htr 6 (ch '7') 55 (T := T) (x := ch '\n') (r := str "/*\n*/X") h0
    (by decide) (by decide) (by decide) (by decide)
  have n2 : Next sc t (pos T 7) (.ppWhitespace true) (pos T 13) := by
    have := next_newline_comment (sc := sc) (t := t) (c := pos T 7) (body := str "\n") (rest := str "X")
      (by rw [pos_text h0]; decide) (by rw [pos_text h0]; decide) (by decide) (by decide)
    rw [pos_adv] at this
    exact this
  have hm : matchDirective (pos T 0) = some (.ok (.line, false), pos T 5) := by
    refine matchDirective_known (ch := pos T 0) (r := str "line 7\n/*\n*/X") (c1 := pos T 1) (name := str "line")
      (r' := str " 7\n/*\n*/X") (OnlyBlanks.refl _) (by rw [pos_text h0]; decide)
      (by rw [pos_adv]; exact OnlyBlanks.refl _) (by decide) (by rw [pos_text h0]; decide)
      (by rw [pos_adv]; rfl) ?_
    intro x r h
    have : x = ch ' ' := by injection h.symm
    rw [this]; decide
  have hb : OnlyBlanks (pos T 5) (pos T 6) := by
    refine ⟨[ch ' '], ?_, ?_, ?_⟩
    · intro x hx
      rw [List.mem_singleton.1 hx]
      exact ⟨by decide, by decide⟩
    · rw [pos_text h0, pos_text h0]; decide
    · rw [pos_adv]; rfl
  have h6 : (pos T 6).text = ch '7' :: str "\n/*\n*/X" := by rw [pos_text h0]; decide
  have h7 : ¬ IsBlank (ch '7') := fun h => absurd h.1 (by decide)
  have hscan : scannerNext sc t true (pos T 0) = some (.ok (.line [.ppNumber [55]], true), pos T 13) := by
    rw [scannerNext, if_neg (by simp), bind_some hm]
    simp only []
    rw [bind_some (skipBlanks_only hb (first_not_blank h6 h7)),
      bind_some (scanPpTokens_line (.newline (.cons (by simp) (by simp) n1 (.nil _)) n2) [])]
    rfl
  have hctl : Control (significant [Token.ppNumber [55]]) 7 none := .number (.one (by decide)) (by decide)
  have hx : ({ pos T 13 with line := 7 } : Cursor).text = str "X" := (pos_text h0 13).trans (by decide)
  obtain ⟨i, j, h⟩ := next_name (sc := sc) hg htr "X" (rest := []) (by rw [hx]; rfl) (by rw [hx]; decide)
    (by decide) (by simp)
  refine ⟨pos T 0, pos T 8, { pos T 13 with line := 7 }, [.ppNumber [55]], _, _, str "/*\n*/", ?_, hctl, ?_, ?_,
    by decide, by decide, h, rfl, ?_⟩
  · refine ⟨pos T 0, pos T 1, pos T 5, pos T 6, pos T 7, pos T 13, OnlyBlanks.refl _,
      ⟨str "line 7\n/*\n*/X", ?_⟩, ?_, ⟨str " 7\n/*\n*/X", ?_, ?_, ?_⟩, hb, ⟨ch '7', str "\n/*\n*/X", h6, h7⟩,
      .cons (by simp) (by simp) n1 (.nil _), ⟨[], str "/*\n*/X", ?_, by decide, ?_⟩, n2, False.elim⟩
    · rw [pos_text h0]; decide
    · rw [pos_adv]; exact OnlyBlanks.refl _
    · rw [pos_text h0]; decide
    · rw [pos_adv]; rfl
    · intro x r h
      have : x = ch ' ' := by injection h.symm
      rw [this]; decide
    · rw [pos_text h0]; decide
    · rw [pos_adv]; rfl
  · rintro τ r h; cases h; rfl
  · rw [lineStep, bind_some hscan]
    exact processLine_control rfl hctl (by rintro τ r h; cases h; rfl) _
  · intro bs hbs hc
    have hi := ppNext_line h
    simp only at hi
    subst hi
    cases hbs
    have := C98_number_unique _ _ _ hc (decimal_constant 7).1
    exact absurd this (by decide)

/-- C98 is false where a comment stands before the number: `#line/**/5` is refused. -/
theorem C98_leading_comment_false (sc : StrCodec) (hg : GoodCodec sc) (t : Tries) (htr : PunctTrie t)
    (file : List UInt8) :
    ∃ c c' c'' τs e, LineDirective sc t True c τs c' ∧ Control (significant τs) 5 none ∧
      lineStep sc t .ok file c = some (.error e, c'') := by
  let T : List Chr := str "#line/**/5\n"
  have h0 : Simple T := by decide
  have n1 := at_comment (sc := sc) (t := t) (T := T) 5 [] 9 h0 (by decide) (by decide) (by decide) (by decide)
  have n2 := at_number (sc := sc) hg htr 9 (ch '5') 53 (T := T) (x := ch '\n') (r := []) h0
    (by decide) (by decide) (by decide) (by decide)
  have n3 := at_blank (sc := sc) (t := t) (T := T) h0 10 true (ch '\n') (by decide) (by decide) (by decide) (by decide)
  have hl : LineDirective sc t True (pos T 0) [.ppWhitespace false, .ppNumber [53]] (pos T 11) := by
    refine ⟨pos T 0, pos T 1, pos T 5, pos T 5, pos T 10, pos T 11, OnlyBlanks.refl _,
      ⟨str "line/**/5\n", ?_⟩, ?_, ⟨str "/**/5\n", ?_, ?_, ?_⟩, OnlyBlanks.refl _,
      ⟨ch '/', str "**/5\n", ?_, fun h => absurd h.1 (by decide)⟩,
      .cons (by simp) (by simp) n1 (.cons (by simp) (by simp) n2 (.nil _)), ⟨[], [], ?_, by decide, ?_⟩, n3,
      fun _ => rfl⟩
    · rw [pos_text h0]; decide
    · rw [pos_adv]; exact OnlyBlanks.refl _
    · rw [pos_text h0]; decide
    · rw [pos_adv]; rfl
    · intro x r h
      have : x = ch '/' := by injection h.symm
      rw [this]; decide
    · rw [pos_text h0]; decide
    · rw [pos_text h0]; decide
    · rw [pos_adv]; rfl
  refine ⟨_, _, pos T 11, _, .lexerError, hl, .number (.one (by decide)) (by decide), ?_⟩
  rw [lineStep, bind_some (scannerNext_line trivial hl)]
  rfl

end Kefir.LineDir
