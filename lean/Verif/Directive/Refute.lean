import Verif.Directive.Texts
/-!
# Where the scanner of directives does not follow 6.10
-/

namespace Kefir.Directive

open Kefir.Lexer Kefir.PpToken

variable {sc : StrCodec} {t : Tries}

theorem scans_token {newline : Bool} {c c' : Cursor} {τ : Token} {ds : List Directive} (h : Next sc t c τ c')
    (hn : τ ≠ .ppWhitespace true) (he : τ ≠ .sentinel) (ht : newline = true → NoHash c.text ∧ c.text ≠ [])
    (hs : Scans sc t false c' ds) : Scans sc t newline c (.token τ :: ds) := by
  refine .next (flag := false) (c' := c') ?_ (by simp) hs
  cases newline with
  | false => rw [scannerNext_false, nextPpToken_of h he, decide_eq_false hn]
  | true =>
    obtain ⟨h1, h2⟩ := ht rfl
    rcases scannerNext_noHash (sc := sc) (t := t) h1 with ⟨h3, -⟩ | h3
    · exact absurd h3 h2
    · rw [h3, nextPpToken_of h he, decide_eq_false hn]

theorem scans_end {newline : Bool} {c : Cursor} (h : c.text = []) : Scans sc t newline c [] := by
  cases newline with
  | false => exact .stop (by rw [scannerNext_false, nextPpToken_end h])
  | true => exact .stop (c' := c) (by rw [scannerNext, if_neg (by simp), bind_some (matchDirective_end h)]; rfl)

/-- A line that is taken for a directive with an unknown name. -/
theorem scans_non {c : Cursor} {τs : List Token} {c' : Cursor}
    (hm : matchDirective c = some (.ok (.non, false), c)) (hl : LineTokens sc t c τs c') {ds : List Directive}
    (hs : Scans sc t true c' ds) : Scans sc t true c (.non τs :: ds) := by
  refine .next (flag := true) (c' := c') ?_ (by simp) hs
  rw [scannerNext, if_neg (by simp), bind_some hm]
  simp only []
  rw [bind_some (scanPpTokens_line hl [])]
  rfl

theorem pos_end {T : List Chr} (h0 : Simple T) {n : Nat} (h : T.length ≤ n) : (pos T n).text = [] := by
  rw [pos_text h0, List.drop_eq_nil_of_le h]

/-- C88 is false of `#` written as a digraph: `%:` alone on a line is an empty directive, the scanner
returns it as a token. -/
theorem C88_digraph_false (sc : StrCodec) (t : Tries) (htr : PunctTrie t) :
    ∃ c, File sc t False c [.empty] ∧ Scans sc t true c [.token (.punct .digraphHash)] := by
  have h0 : Simple (str "%:") := by decide
  have e2 : (pos (str "%:") 2).text = [] := pos_end h0 (by decide)
  have t0 := at_digraph (sc := sc) htr h0 0 (by decide)
  refine ⟨pos (str "%:") 0, ?_, ?_⟩
  · exact .empty (ch := pos (str "%:") 0) ⟨⟨[], .nil _, rfl⟩, Or.inr t0, False.elim⟩
      (.lastLine (.nil _) e2) rfl False.elim (.stop _ e2)
  · refine scans_token t0 (by simp) (by simp) ?_ (scans_end e2)
    intro _
    refine ⟨Or.inr ⟨ch '%', ⟨[], [ch ':'], by simp, ?_, fun h => absurd h.1 (by decide)⟩, by decide, by decide⟩, ?_⟩
    · rw [pos_text h0]; decide
    · rw [pos_text h0]; decide

/-- C88 is false of `#pragma`: the scanner does not know the name. -/
theorem C88_pragma_false (sc : StrCodec) (hg : GoodCodec sc) (t : Tries) (htr : PunctTrie t) :
    ∃ c, File sc t False c [.pragma []] ∧
      Scans sc t true c [.non [.punct .hash, .identifier (nameBytes "pragma")]] := by
  have h0 : Simple (str "#pragma") := by decide
  have e7 : (pos (str "#pragma") 7).text = [] := pos_end h0 (by decide)
  have t0 := at_punct (sc := sc) (T := str "#pragma") hg htr 0 .hash 1 h0 (by decide) (by decide) (by decide)
    (by decide) (by intro x hx; cases hx; exact ⟨by intro q; cases q <;> decide, by decide⟩)
  have t1 := at_name (sc := sc) (T := str "#pragma") hg htr 1 "pragma" 7 h0 (by decide) (by decide) (by decide)
    (by decide)
  refine ⟨pos (str "#pragma") 0, ?_, ?_⟩
  · exact .directive (ch := pos (str "#pragma") 0) ⟨⟨[], .nil _, rfl⟩, Or.inl t0, False.elim⟩
      ⟨[], .nil _, rfl⟩ t1 (.tokens (.lastLine (.nil _) e7) (.pragma []) (fun h => absurd h (by decide)) False.elim)
      False.elim (.stop _ e7)
  · refine scans_non ?_
      (.lastLine (.cons (by simp) (by simp) t0 (.cons (by simp) (by simp) t1 (.nil _))) e7) (scans_end e7)
    refine matchDirective_unknown (r := str "pragma") (c1 := pos (str "#pragma") 1) (x := ch 'p') (r' := str "ragma")
      (OnlyBlanks.refl _) (by rw [pos_text h0]; decide) (by rw [pos_adv]; exact OnlyBlanks.refl _)
      (by rw [pos_text h0]; decide) (by decide) ?_
    rw [pos_text h0]
    decide

/-- C88 is false where a digit follows the name: `#if0` is no directive of 6.10, the scanner returns the
directive `#if 0`. -/
theorem C88_name_false (sc : StrCodec) (hg : GoodCodec sc) (t : Tries) (htr : PunctTrie t) :
    ∃ c, File sc t False c [.non [.punct .hash, .identifier (nameBytes "if0")]] ∧
      Scans sc t true c [.ifD [.ppNumber [48]]] := by
  have h0 : Simple (str "#if0") := by decide
  have e4 : (pos (str "#if0") 4).text = [] := pos_end h0 (by decide)
  have t0 := at_punct (sc := sc) (T := str "#if0") hg htr 0 .hash 1 h0 (by decide) (by decide) (by decide)
    (by decide) (by intro x hx; cases hx; exact ⟨by intro q; cases q <;> decide, by decide⟩)
  have t1 := at_name (sc := sc) (T := str "#if0") hg htr 1 "if0" 4 h0 (by decide) (by decide) (by decide)
    (by decide)
  have t3 := at_digit (sc := sc) (T := str "#if0") hg htr 3 (ch '0') 48 h0 (by decide) (by decide) (by decide)
  refine ⟨pos (str "#if0") 0, ?_, ?_⟩
  · exact .non (ch := pos (str "#if0") 0) (τ := .identifier (nameBytes "if0")) (r := [])
      ⟨⟨[], .nil _, rfl⟩, Or.inl t0, False.elim⟩
      (.lastLine (.cons (by simp) (by simp) t0 (.cons (by simp) (by simp) t1 (.nil _))) e4) rfl rfl (by decide)
      False.elim (.stop _ e4)
  · refine .next (flag := true) (c' := pos (str "#if0") 4) ?_ (by simp) (scans_end e4)
    have hm : matchDirective (pos (str "#if0") 0) = some (.ok (.ifD, false), pos (str "#if0") 3) :=
      matchDirective_known (r := str "if0") (c1 := pos (str "#if0") 1) (name := str "if") (r' := str "0")
        (OnlyBlanks.refl _) (by rw [pos_text h0]; decide) (by rw [pos_adv]; exact OnlyBlanks.refl _) (by decide)
        (by rw [pos_text h0]; decide) (by rw [pos_adv]; rfl) (by intro x r h; injection h with h _; subst h; decide)
    rw [scannerNext, if_neg (by simp), bind_some hm]
    simp only []
    rw [bind_some (scanPpTokens_line (.lastLine (.cons (by simp) (by simp) t3 (.nil _)) e4) [])]
    rfl

/-- C88 is false where a comment precedes the `#`: the scanner returns a token. -/
theorem C88_comment_before_false (sc : StrCodec) (hg : GoodCodec sc) (t : Tries) (htr : PunctTrie t) :
    ∃ c, File sc t False c [.empty] ∧
      Scans sc t true c [.token (.ppWhitespace false), .token (.punct .hash)] := by
  have h0 : Simple (str "/**/#") := by decide
  have e5 : (pos (str "/**/#") 5).text = [] := pos_end h0 (by decide)
  have t0 := at_comment (sc := sc) (t := t) (T := str "/**/#") 0 [] 4 h0 (by decide) (by decide) (by decide)
    (by decide)
  have t4 := at_punct (sc := sc) (T := str "/**/#") hg htr 4 .hash 5 h0 (by decide) (by decide) (by decide)
    (by decide) (by intro x hx; cases hx)
  refine ⟨pos (str "/**/#") 0, ?_, ?_⟩
  · exact .empty (ch := pos (str "/**/#") 4)
      ⟨⟨_, .cons (by simp) (by simp) t0 (.nil _), rfl⟩, Or.inl t4, False.elim⟩
      (.lastLine (.nil _) e5) rfl False.elim (.stop _ e5)
  · refine scans_token t0 (by simp) (by simp) ?_
      (scans_token t4 (by simp) (by simp) (fun h => by cases h) (scans_end e5))
    intro _
    refine ⟨Or.inr ⟨ch '/', ⟨[], str "**/#", by simp, ?_, fun h => absurd h.1 (by decide)⟩, by decide, by decide⟩, ?_⟩
    · rw [pos_text h0]; decide
    · rw [pos_text h0]; decide

/-- C88 is false where a comment precedes the name: the scanner does not recognise the directive. -/
theorem C88_comment_inside_false (sc : StrCodec) (hg : GoodCodec sc) (t : Tries) (htr : PunctTrie t) :
    ∃ c, File sc t False c [.ifD []] ∧
      Scans sc t true c [.non [.punct .hash, .ppWhitespace false, .identifier (nameBytes "if")]] := by
  have h0 : Simple (str "#/**/if") := by decide
  have e7 : (pos (str "#/**/if") 7).text = [] := pos_end h0 (by decide)
  have t0 := at_punct (sc := sc) (T := str "#/**/if") hg htr 0 .hash 1 h0 (by decide) (by decide) (by decide)
    (by decide) (by intro x hx; cases hx; exact ⟨by intro q; cases q <;> decide, by decide⟩)
  have t1 := at_comment (sc := sc) (t := t) (T := str "#/**/if") 1 [] 5 h0 (by decide) (by decide) (by decide)
    (by decide)
  have t5 := at_name (sc := sc) (T := str "#/**/if") hg htr 5 "if" 7 h0 (by decide) (by decide) (by decide)
    (by decide)
  refine ⟨pos (str "#/**/if") 0, ?_, ?_⟩
  · exact .directive (ch := pos (str "#/**/if") 0) ⟨⟨[], .nil _, rfl⟩, Or.inl t0, False.elim⟩
      ⟨_, .cons (by simp) (by simp) t1 (.nil _), rfl⟩ t5
      (.tokens (.lastLine (.nil _) e7) (.ifD []) (fun h => absurd h (by decide)) False.elim) False.elim (.stop _ e7)
  · refine scans_non ?_
      (.lastLine (.cons (by simp) (by simp) t0 (.cons (by simp) (by simp) t1 (.cons (by simp) (by simp) t5 (.nil _)))) e7)
      (scans_end e7)
    refine matchDirective_unknown (r := str "/**/if") (c1 := pos (str "#/**/if") 1) (x := ch '/') (r' := str "**/if")
      (OnlyBlanks.refl _) (by rw [pos_text h0]; decide) (by rw [pos_adv]; exact OnlyBlanks.refl _)
      (by rw [pos_text h0]; decide) (by decide) ?_
    rw [pos_text h0]
    decide

/-- C88 is false where a comment with a newline follows `#else`: the scanner ends the directive inside the
comment, and here it reads a directive from the comment. -/
theorem C88_comment_after_false (sc : StrCodec) (hg : GoodCodec sc) (t : Tries) (htr : PunctTrie t) :
    ∃ c, File sc t False c [.elseD] ∧ Scans sc t true c [.elseD, .endif] := by
  have h0 : Simple (str "#else/*\n#endif*/") := by decide
  have e16 : (pos (str "#else/*\n#endif*/") 16).text = [] := pos_end h0 (by decide)
  have t0 := at_punct (sc := sc) (T := str "#else/*\n#endif*/") hg htr 0 .hash 1 h0 (by decide) (by decide) (by decide)
    (by decide) (by intro x hx; cases hx; exact ⟨by intro q; cases q <;> decide, by decide⟩)
  have t1 := at_name (sc := sc) (T := str "#else/*\n#endif*/") hg htr 1 "else" 5 h0 (by decide) (by decide) (by decide)
    (by decide)
  have t5 := at_comment (sc := sc) (t := t) (T := str "#else/*\n#endif*/") 5 (str "\n#endif") 16 h0 (by decide) (by decide)
    (by decide) (by decide)
  refine ⟨pos (str "#else/*\n#endif*/") 0, ?_, ?_⟩
  · exact .directive (ch := pos (str "#else/*\n#endif*/") 0) ⟨⟨[], .nil _, rfl⟩, Or.inl t0, False.elim⟩
      ⟨[], .nil _, rfl⟩ t1
      (.bare (.lastLine (.cons (by simp) (by simp) t5 (.nil _)) e16) rfl (by decide) False.elim) False.elim
      (.stop _ e16)
  · have hm : matchDirective (pos (str "#else/*\n#endif*/") 0) =
        some (.ok (.elseD, false), pos (str "#else/*\n#endif*/") 5) :=
      matchDirective_known (r := str "else/*\n#endif*/") (c1 := pos (str "#else/*\n#endif*/") 1)
        (name := str "else") (r' := str "/*\n#endif*/")
        (OnlyBlanks.refl _) (by rw [pos_text h0]; decide) (by rw [pos_adv]; exact OnlyBlanks.refl _) (by decide)
        (by rw [pos_text h0]; decide) (by rw [pos_adv]; rfl) (by intro x r h; injection h with h _; subst h; decide)
    have hs : skipLine (pos (str "#else/*\n#endif*/") 5) = some (.ok (), pos (str "#else/*\n#endif*/") 8) := by
      rw [skipLine_eq (s := str "/*") (r := str "#endif*/") (by rw [pos_text h0]; decide) (by decide) (by decide),
        pos_adv]
      rfl
    have hm2 : matchDirective (pos (str "#else/*\n#endif*/") 8) =
        some (.ok (.endif, false), pos (str "#else/*\n#endif*/") 14) :=
      matchDirective_known (r := str "endif*/") (c1 := pos (str "#else/*\n#endif*/") 9)
        (name := str "endif") (r' := str "*/")
        (OnlyBlanks.refl _) (by rw [pos_text h0]; decide) (by rw [pos_adv]; exact OnlyBlanks.refl _) (by decide)
        (by rw [pos_text h0]; decide) (by rw [pos_adv]; rfl) (by intro x r h; injection h with h _; subst h; decide)
    obtain ⟨c', hs2, hc'⟩ := skipLine_last (c := pos (str "#else/*\n#endif*/") 14)
      (by rw [pos_text h0]; decide) (by rw [pos_text h0]; decide)
    refine .next (flag := true) (c' := pos (str "#else/*\n#endif*/") 8) ?_ (by simp)
      (.next (flag := true) (c' := c') ?_ (by simp) (scans_end hc'))
    · rw [scannerNext, if_neg (by simp), bind_some hm]
      simp only []
      rw [bind_some hs]
      rfl
    · rw [scannerNext, if_neg (by simp), bind_some hm2]
      simp only []
      rw [bind_some hs2]
      rfl

/-- C88 is false of `##` at the beginning of a line, which is a token of a text line: the scanner takes it
for a directive. -/
theorem C88_double_hash_false (sc : StrCodec) (hg : GoodCodec sc) (t : Tries) (htr : PunctTrie t) :
    ∃ c, File sc t False c [.token (.punct .doubleHash)] ∧
      Scans sc t true c [.non [.punct .doubleHash]] := by
  have h0 : Simple (str "##") := by decide
  have e2 : (pos (str "##") 2).text = [] := pos_end h0 (by decide)
  have t0 := at_punct (sc := sc) (T := str "##") hg htr 0 .doubleHash 2 h0 (by decide) (by decide) (by decide)
    (by decide) (by intro x hx; cases hx)
  have hl : LineTokens sc t (pos (str "##") 0) [.punct .doubleHash] (pos (str "##") 2) :=
    .lastLine (.cons (by simp) (by simp) t0 (.nil _)) e2
  refine ⟨pos (str "##") 0, ?_, ?_⟩
  · refine .text (ds := []) hl (by rw [pos_text h0]; decide) ?_ False.elim (.stop _ e2)
    intro τ r h
    injection h with h _
    subst h
    exact ⟨by simp, by simp⟩
  · refine scans_non ?_ hl (scans_end e2)
    refine matchDirective_unknown (r := str "#") (c1 := pos (str "##") 1) (x := ch '#') (r' := [])
      (OnlyBlanks.refl _) (by rw [pos_text h0]; decide) (by rw [pos_adv]; exact OnlyBlanks.refl _)
      (by rw [pos_text h0]; decide) (by decide) ?_
    rw [pos_text h0]
    decide

/-- The loop that reads a header name does not end at the end of the text. -/
theorem headerLoop_diverges (cd : Codec) {term : Chr} (hterm : term ≠ 0) (hz : cd.enc 0 ≠ none) {c : Cursor}
    (hr : c.rest = []) (hs : c.stop = .nul) (acc : List UInt8) : headerLoop cd term acc c = none := by
  have ht : c.text = [] := by unfold Cursor.text; rw [hr]; rfl
  have h0 : c.at 0 = 0 := by rw [at_zero, ht]; rfl
  have hc : c.adv 1 = c := by
    unfold Cursor.adv
    rw [hr, advList_nil]
    cases c
    simp at hr ⊢
    exact hr
  have hsk : skip 1 c = some (.ok (), c) := by
    unfold skip nextRes
    rw [hs, hc, ht]
    rfl
  obtain ⟨b, hb⟩ := Option.ne_none_iff_exists'.1 hz
  revert acc
  refine headerLoop.fixpoint_induct cd term (fun f => ∀ v, f v c = none) ?_ ?_
  · exact Lean.Order.admissible_pi_apply (fun _ (g : Lex (List UInt8)) => g c = none) fun _ =>
      Lean.Order.admissible_apply (fun _ o => o = none) c (Lean.Order.admissible_flatOrder _ rfl)
  · intro f hf acc
    simp only []
    rw [peek_bind, h0, if_neg (by decide), if_pos hterm.symm, bind_some hsk, hb]
    exact hf _

/-- C88: the scanner never returns where a file ends inside a header name. -/
theorem C88_header_end_false (sc : StrCodec) (t : Tries) (hz : sc.cd.enc 0 ≠ none) :
    scannerNext sc t true (atText (str "#include <")) = none := by
  have h0 : Simple (str "#include <") := by decide
  have hp : atText (str "#include <") = pos (str "#include <") 0 := by unfold pos; rw [Cursor.adv_zero]
  rw [hp]
  have hm : matchDirective (pos (str "#include <") 0) =
      some (.ok (.«include», false), pos (str "#include <") 8) :=
    matchDirective_known (r := str "include <") (c1 := pos (str "#include <") 1)
      (name := str "include") (r' := str " <")
      (OnlyBlanks.refl _) (by rw [pos_text h0]; decide) (by rw [pos_adv]; exact OnlyBlanks.refl _) (by decide)
      (by rw [pos_text h0]; decide) (by rw [pos_adv]; rfl) (by intro x r h; injection h with h _; subst h; decide)
  have hb : skipBlanks (pos (str "#include <") 8) = some (.ok (), pos (str "#include <") 9) := by
    rw [skipBlanks_eq (bl := [ch ' ']) (r := str "<")
      (by intro x hx; rw [List.mem_singleton.1 hx]; exact ⟨by decide, by decide⟩) (by rw [pos_text h0]; decide)
      (by intro x r h; injection h with h _; subst h; exact fun h => absurd h.1 (by decide)), pos_adv]
    rfl
  have hh : matchHeaderName sc.cd (pos (str "#include <") 9) = none := by
    have ht : (pos (str "#include <") 9).text = ch '<' :: [] := by rw [pos_text h0]; decide
    unfold matchHeaderName apply
    rw [scanHeaderName, peek_bind, at_cons ht, if_pos rfl, skip_bind (by rw [ht]; simp), bind_apply,
      headerLoop_diverges sc.cd (by decide) hz (by decide) (by decide)]
  have hi : nextInclude sc t (pos (str "#include <") 8) = none := by
    rw [nextInclude, save_bind, bind_apply]
    unfold attempt
    rw [bind_some hb, hh]
  rw [scannerNext, if_neg (by simp), bind_some hm]
  simp only []
  rw [bind_apply, hi]

end Kefir.Directive
