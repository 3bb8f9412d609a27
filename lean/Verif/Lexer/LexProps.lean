import Verif.Lexer.CharGood
import Verif.Lexer.CursorProps
import Verif.Lexer.IntProps
/-!
# Properties C10 (failed matchers) and C38 (lexing terminates)
-/

namespace Kefir.Lexer

theorem apply_noMatch {α : Type} {x : Lex α} {c c' : Cursor}
    (h : apply x c = some (.error .noMatch, c')) : c' = c := by
  unfold apply at h
  split at h
  · injection h with h
    injection h with h1 h2
    exact h2.symm
  · rename_i hn
    exact absurd h (hn c')

/-- The token matchers of the lexer and of the preprocessor's lexer, other than whitespace. -/
def tokenMatchers (sc : StrCodec) (t : Tries) : List (Lex Token) :=
  [matchInteger, matchFloat, matchChar sc.cd, matchConstant sc.cd, matchStringLiteral sc true,
   matchStringLiteral sc false, matchIdentifierOrKeyword sc.cd t, matchIdentifier sc.cd,
   matchPunctuator t, matchPpNumber sc.cd, matchHeaderName sc.cd]

/-- **C10** A matcher that reports NO_MATCH leaves the cursor (position and location) as it was. -/
theorem C10_no_match_restores (sc : StrCodec) (t : Tries) (m : Lex Token) (hm : m ∈ tokenMatchers sc t)
    (c c' : Cursor) (h : m c = some (.error .noMatch, c')) : c' = c := by
  simp only [tokenMatchers, List.mem_cons, List.not_mem_nil, or_false] at hm
  rcases hm with rfl | rfl | rfl | rfl | rfl | rfl | rfl | rfl | rfl | rfl | rfl <;>
    exact apply_noMatch h

theorem splice_mem {x : Chr} {l : List Chr} (h : x ∈ splice l) : x ∈ l := by
  generalize hn : l.length = n
  induction n using Nat.strongRecOn generalizing l with
  | ind n ih =>
    match l with
    | [] => exact h
    | [a] => exact h
    | a :: b :: r =>
      rw [splice] at h
      split at h
      · exact List.mem_cons_of_mem _ (List.mem_cons_of_mem _
          (ih r.length (by simp at hn; omega) h rfl))
      · cases h with
        | head => exact List.mem_cons_self
        | tail _ h => exact List.mem_cons_of_mem _ (ih (b :: r).length (by simp at hn ⊢; omega) h rfl)

/-- A decoded source has no null character in it. -/
theorem view_no_zero (cd : Codec) (s : ByteCursor) : 0 ∉ (view cd s).text := by
  intro h0
  exact decodeAll_ne_zero cd s.bytes 0 (splice_mem h0) rfl

/-- **C10** for whitespace, on a source decoded from bytes. -/
theorem C10_whitespace (cd : Codec) (s : ByteCursor) (c' : Cursor)
    (h : matchWhitespace (view cd s) = some (.error .noMatch, c')) : c' = view cd s := by
  have h0 := view_no_zero cd s
  rw [matchWhitespace] at h
  rcases whitespaceRound_eq (view cd s) h0 with ⟨m, k, e, hm, -⟩ | ⟨e, -⟩ | ⟨c'', t', e, -⟩
  · rw [bind_some e, if_neg hm] at h
    cases h
  · rw [bind_some e, if_pos rfl] at h
    injection h with h
    injection h with _ h
    exact h.symm
  · rw [bind_err e] at h
    cases h

/-- **C10** for the whole lexer. -/
theorem C10_next (sc : StrCodec) (t : Tries) (c c' : Cursor)
    (h : lexNext sc t c = some (.error .noMatch, c')) : c' = c := apply_noMatch h

/-! ## Termination -/

/-- `TokenStart c c'`: `c'` is where a token begins when the tokens of the text at `c` are taken one
after the other (after the whitespace before it). -/
inductive TokenStart (sc : StrCodec) (t : Tries) : Cursor → Cursor → Prop where
  | here {c c' : Cursor} (h : skipWhitespace c = some (.ok (), c')) : TokenStart sc t c c'
  | later {c c1 c' : Cursor} {tok : LocToken} (h : lexNext sc t c = some (.ok tok, c1))
      (ht : TokenStart sc t c1 c') : TokenStart sc t c c'

theorem good_token (sc : StrCodec) (t : Tries) (ht : PunctTrie t) (c : Cursor) (h0 : 0 ∉ c.text)
    (hu : ¬ UnclosedChar c.text) :
    GoodAt 1 c ((orElse (matchConstant sc.cd) (orElse (matchStringLiteral sc true)
      (orElse (matchIdentifierOrKeyword sc.cd t) (orElse (matchPunctuator t) (fail .lexerError))))) c) := by
  refine .orElse' (.apply ?_) (fun _ => apply_noMatch) ?_
  · refine .orElse' (.apply (good_scanFloat c)) (fun _ => apply_noMatch) ?_
    refine .orElse' (.apply (good_scanIntegral c)) (fun _ => apply_noMatch) ?_
    refine .orElse' (.apply ?_) (fun _ => apply_noMatch) (.fail _)
    exact good_scanCharConst _ _ hu
  refine .orElse' (.apply (good_scanString sc true c h0)) (fun _ => apply_noMatch) ?_
  refine .orElse' (.apply (good_scanIdentifier sc.cd _ c)) (fun _ => apply_noMatch) ?_
  exact .orElse' (good_scanPunctuator ht c) (fun _ => apply_noMatch) (.fail _)

/-- **C38** (in part) One step of lexing: unless the next token is a character constant that is never
closed, taking a token returns, and a token other than the end sentinel consumes at least one
character.  Missing: unclosed character constants, see `C38_unclosed_false`. -/
theorem C38_progress_partial (sc : StrCodec) (t : Tries) (ht : PunctTrie t) (c : Cursor)
    (h0 : 0 ∉ c.text)
    (hu : ∀ c', skipWhitespace c = some (.ok (), c') → ¬ UnclosedChar c'.text) :
    ∃ r k, lexNext sc t c = some (r, c.adv k) ∧ k ≤ c.text.length ∧
      ∀ tok, r = .ok tok → tok.token = .sentinel ∨ 1 ≤ k := by
  suffices H : ∃ r k, lexNextImpl sc t c = some (r, c.adv k) ∧ k ≤ c.text.length ∧
      ∀ tok, r = .ok tok → tok.token = .sentinel ∨ 1 ≤ k by
    obtain ⟨r, k, e, hk, ho⟩ := H
    unfold lexNext apply
    rw [e]
    split
    · exact ⟨_, 0, by rw [Cursor.adv_zero], Nat.zero_le _, fun _ h => by cases h⟩
    · exact ⟨r, k, rfl, hk, ho⟩
  unfold lexNextImpl
  obtain ⟨r, k, e, hk, -⟩ := good_skipWhitespace c h0
  cases r with
  | error e' =>
    rw [bind_err e]
    exact ⟨_, k, rfl, hk, fun _ h => by cases h⟩
  | ok u =>
    rw [bind_some e, location_bind, peek_bind]
    split
    · exact ⟨_, k, rfl, hk, fun _ h => Or.inl (by cases h; rfl)⟩
    · obtain ⟨r, j, e', hj, ho⟩ := good_token sc t ht (c.adv k) (drop_no_zero h0 k) (hu _ e)
      rw [Cursor.text_adv, List.length_drop] at hj
      rw [Cursor.adv_adv] at e'
      cases r with
      | error e'' =>
        rw [bind_err e']
        exact ⟨_, k + j, rfl, by omega, fun _ h => by cases h⟩
      | ok tok =>
        rw [bind_some e']
        exact ⟨_, k + j, rfl, by omega, fun _ _ => Or.inr (by have := ho tok rfl; omega)⟩

/-- **C38** (in part) Taking all tokens of a source text comes to an end, unless it arrives at a
character constant that is never closed.  Missing: unclosed character constants, see
`C38_unclosed_false`. -/
theorem C38_terminates_partial (sc : StrCodec) (t : Tries) (ht : PunctTrie t) (src : List UInt8)
    (hu : ∀ c', TokenStart sc t (view sc.cd (start src)) c' → ¬ UnclosedChar c'.text) :
    ∃ r c', populate sc t [] (view sc.cd (start src)) = some (r, c') := by
  have h0 := view_no_zero sc.cd (start src)
  generalize view sc.cd (start src) = c at h0 hu
  generalize ([] : List LocToken) = acc
  generalize hn : c.text.length = n
  induction n using Nat.strongRecOn generalizing c acc with
  | ind n ih =>
    obtain ⟨r, k, e, hk, ho⟩ := C38_progress_partial sc t ht c h0 (fun c' h => hu c' (.here h))
    rw [populate]
    cases r with
    | error e' =>
      rw [bind_err e]
      exact ⟨_, _, rfl⟩
    | ok tok =>
      rw [bind_some e]
      split
      · exact ⟨_, _, rfl⟩
      · rename_i hs
        have hk1 := (ho tok rfl).resolve_left hs
        refine ih (n - k) (by omega) (c.adv k) (drop_no_zero h0 k) (fun c' h => hu c' (.later e h)) _ ?_
        rw [Cursor.text_adv, List.length_drop]; omega

/-! ### The part of C38 that is false -/

/-- At the end of a text that ends with a null character the loop over a character constant does not
return: it reads null characters for ever. -/
theorem narrowLoop_diverges (cd : Codec) (hz : cd.enc 0 ≠ none) (v : BitVec 32) (c : Cursor)
    (hr : c.rest = []) (hs : c.stop = .nul) : narrowLoop cd v c = none := by
  have key : ∀ (f : BitVec 32 → Lex (BitVec 32)), (∀ v, f v c = none) → ∀ v,
      ((do let r ← nextCharacter cd v
           if r.2 = true then f r.1 else pure r.1) : Lex (BitVec 32)) c = none := by
    intro f hf v
    have ht : c.text = [] := by unfold Cursor.text; rw [hr]; rfl
    have h0 : c.at 0 = 0 := by rw [at_zero, ht]; rfl
    have hc : c.adv 1 = c := by
      unfold Cursor.adv
      rw [hr, advList_nil]
      cases c
      simp at hr ⊢
      exact hr
    have hsk : skip 1 c = some (.ok (), c) := by
      unfold skip nextRes
      rw [hs, hc, ht]
      rfl
    obtain ⟨bs, hb⟩ := Option.ne_none_iff_exists'.1 hz
    have hn : nextCharacter cd v c = some (.ok (foldBytes v bs, true), c) := by
      unfold nextCharacter
      rw [peek_bind, peek_bind, h0, if_neg (by decide), if_neg (by decide), bind_some hsk, hb]
      rfl
    rw [bind_some hn]
    exact hf _
  revert v
  refine narrowLoop.fixpoint_induct cd (fun f => ∀ v, f v c = none) ?_ ?_
  · exact Lean.Order.admissible_pi_apply (fun _ (g : Lex (BitVec 32)) => g c = none) fun _ =>
      Lean.Order.admissible_apply (fun _ o => o = none) c (Lean.Order.admissible_flatOrder _ rfl)
  · exact fun f hf v => key f hf v

/-- **C38 is false of the code**: the text `'a` (followed by the null character that ends it) makes the
lexer run for ever. -/
theorem C38_unclosed_false (sc : StrCodec) (t : Tries) (hz : sc.cd.enc 0 ≠ none)
    (ha : sc.cd.enc (ch 'a') ≠ none) : lexNext sc t (atText (str "'a")) = none := by
  generalize hc : atText (str "'a") = c
  have ht : c.text = str "'a" := by rw [← hc]; decide
  have h0 : c.at 0 = ch '\'' := by rw [← hc]; decide
  have h1 : c.at 1 = ch 'a' := by rw [← hc]; decide
  have hd : isdigit (c.at 0) = false := by rw [h0]; decide
  -- no whitespace
  have hw : skipWhitespace c = some (.ok (), c) := by
    have : whitespaceRound c = some (.ok .noMatch, c) := by
      have a : skipWhitespaces .noMatch c = some (.ok .noMatch, c) := by
        rw [skipWhitespaces, peek_bind, h0, if_neg (by decide)]; rfl
      have b : skipMultilineComment .noMatch c = some (.ok .noMatch, c) := by
        rw [skipMultilineComment, peek_bind, peek_bind, h0, h1, if_neg (by decide)]; rfl
      have d : skipOnelineComment .noMatch c = some (.ok .noMatch, c) := by
        rw [skipOnelineComment, peek_bind, peek_bind, h0, h1, if_neg (by decide)]; rfl
      rw [whitespaceRound, bind_some a, bind_some b, d]
    rw [skipWhitespace, bind_some this, if_neg (by simp)]; rfl
  -- not a number
  have hf : matchFloat c = some (.error .noMatch, c) := by
    have a : matchHexFloat c = some (.error .noMatch, c) := by
      rw [matchHexFloat, peek_bind, peek_bind, h0, h1, if_neg (by decide)]; rfl
    have b : matchFractional isdigit isDecExp [] c =
        some (.error .noMatch, c) := by
      have hs := scanWhile_eq isdigit isdigit_zero push ([] : List Chr) c
      have htw : c.text.takeWhile isdigit = [] := by rw [ht]; decide
      rw [htw] at hs
      rw [matchFractional, bind_some hs]
      simp only [List.length_nil, Cursor.adv_zero]
      rw [peek_bind, h0, if_neg (by decide), if_neg (by decide)]; rfl
    have d : scanFloat c = some (.error .noMatch, c) := by
      rw [scanFloat, orElse_noMatch a, matchDecimalFloat, bind_err b]
    rw [matchFloat, Kefir.Lexer.apply, d]
  have hi : matchInteger c = some (.error .noMatch, c) := by
    apply C05_no_digit_no_constant
    intro x r h
    rw [ht] at h
    cases h
    decide
  -- the character constant
  have hn : matchNarrowChar sc.cd c = none := by
    have l2 : c.text.length = 2 := by rw [ht]; rfl
    have c1 : (c.adv 1).at 0 = ch 'a' := by rw [Cursor.at_adv]; exact h1
    obtain ⟨bs, hb⟩ := Option.ne_none_iff_exists'.1 ha
    have step : nextCharacter sc.cd 0 (c.adv 1) = some (.ok (foldBytes 0 bs, true), c.adv 2) := by
      rw [nextCharacter, peek_bind, peek_bind, c1, if_neg (by decide), if_neg (by decide),
        skip_bind (by rw [Cursor.text_adv, List.length_drop]; omega), hb, Cursor.adv_adv]
      rfl
    have loop : narrowLoop sc.cd 0 (c.adv 1) = none := by
      rw [narrowLoop, bind_some step]
      exact narrowLoop_diverges sc.cd hz _ _ (by rw [← hc]; decide) (by rw [← hc]; decide)
    rw [matchNarrowChar, peek_bind, if_pos h0, skip_bind (by omega), peek_bind, c1,
      if_pos (by decide), bind_apply, loop]
  have hcc : matchChar sc.cd c = none := by
    rw [matchChar, Kefir.Lexer.apply, scanCharConst, Kefir.Lexer.orElse, hn]
  have hk : matchConstant sc.cd c = none := by
    rw [matchConstant, Kefir.Lexer.apply, orElse_noMatch hf, orElse_noMatch hi, Kefir.Lexer.orElse, hcc]
  rw [lexNext, Kefir.Lexer.apply, lexNextImpl, bind_some hw, location_bind, peek_bind, h0,
    if_neg (by decide), bind_apply, Kefir.Lexer.orElse, hk]

/-- The text of `C38_unclosed_false` is what the cursor sees of the bytes `'a`, and it begins with an
unclosed character constant. -/
example : view ascii (start [0x27, 0x61, 0]) = atText (str "'a") ∧ ascii.enc 0 ≠ none ∧
    ascii.enc (ch 'a') ≠ none := by decide +kernel

/-- Non-vacuity of `C38_progress_partial`: `'a'` is closed. -/
example : ¬ UnclosedChar (str "'a'") := by
  rintro ⟨pre, u, hp, e, hc⟩
  simp only [List.mem_cons, List.not_mem_nil, or_false] at hp
  rcases hp with rfl | rfl | rfl | rfl <;> cases e
  exact hc ⟨str "a", [], rfl, .plain _ _ (by decide) (by decide) .nil⟩

/-- Non-vacuity of `C10_no_match_restores`: on `..x` the punctuator matcher has moved when it gives up. -/
example : ∃ t, matchPunctuator t (atText (str "..x")) = some (.error .noMatch, atText (str "..x")) := by
  obtain ⟨p, hp⟩ := punctTrie_exists
  refine ⟨⟨p, Trie.empty⟩, (C08_dead_end_unmatched ⟨p, Trie.empty⟩ hp _ ?_).1⟩
  decide

end Kefir.Lexer
