import Verif.Lexer.LexProps
import Verif.Lexer.BlankProps
/-!
# Property C52: token locations
-/

namespace Kefir.Lexer

/-- **C52** The location recorded in a token is the line and the column of the first character of the
token: of the end of the physical text up to the whitespace before it.  `n` is the number of logical
characters already consumed. -/
theorem C52_token_location (sc : StrCodec) (t : Tries) (src : List UInt8) (n : Nat) (tok : LocToken)
    (c' : Cursor) (h : lexNext sc t ((view sc.cd (start src)).adv n) = some (.ok tok, c')) :
    ∃ k before rest, (decodeAll sc.cd src).1 = before ++ rest ∧
      (splice before).length = min (n + k) (splice (decodeAll sc.cd src).1).length ∧
      BlankRun ((splice (decodeAll sc.cd src).1).drop n) ((splice (decodeAll sc.cd src).1).drop (n + k)) ∧
      tok.line = lineAfter before ∧ tok.col = columnAfter before := by
  have hview : (view sc.cd (start src)).text = splice (decodeAll sc.cd src).1 := rfl
  generalize hc : (view sc.cd (start src)).adv n = c at h
  have ht : c.text = (splice (decodeAll sc.cd src).1).drop n := by
    rw [← hc, Cursor.text_adv, hview]
  have h0 : 0 ∉ c.text := by rw [← hc]; exact drop_no_zero (view_no_zero sc.cd (start src)) n
  -- the implementation succeeded too
  have hi : lexNextImpl sc t c = some (.ok tok, c') := by
    unfold lexNext Kefir.Lexer.apply at h
    split at h
    · cases h
    · exact h
  obtain ⟨r, hb, h1, h2⟩ := C09_skip_whitespace c h0
  by_cases hu : Unterminated r
  · obtain ⟨c2, e⟩ := h2 hu
    rw [lexNextImpl, bind_err e] at hi
    cases hi
  · obtain ⟨k, e, hr⟩ := h1 hu
    have hloc : tok.line = (c.adv k).line ∧ tok.col = (c.adv k).col := by
      rw [lexNextImpl, bind_some e, location_bind, peek_bind] at hi
      split at hi
      · cases hi; exact ⟨rfl, rfl⟩
      · rw [bind_apply] at hi
        split at hi
        · cases hi
        · cases hi; exact ⟨rfl, rfl⟩
        · cases hi
    obtain ⟨before, b1, b2, b3, b4⟩ := C04_locations sc.cd src [n + k]
    have hv := view_advances sc.cd (start src) [n + k]
    have hs : [n + k].sum = n + k := by simp
    rw [hs] at hv b2
    have hk : c.adv k = view sc.cd (advances sc.cd (start src) [n + k]) := by
      rw [hv, ← hc, Cursor.adv_adv]
    refine ⟨k, before, _, b1, b2, ?_, ?_, ?_⟩
    · rw [← ht, ← List.drop_drop, ← ht, ← Cursor.text_adv, hr]
      exact hb
    · rw [hloc.1, hk]; exact b3
    · rw [hloc.2, hk]; exact b4

/-- Non-vacuity: in the source made of two newlines the next token (the end sentinel) is there. -/
example (t : Tries) (sc : StrCodec) (hsc : sc.cd = ascii) :
    ∃ tok c', lexNext sc t ((view sc.cd (start [10, 10, 0])).adv 0) = some (.ok tok, c') := by
  rw [Cursor.adv_zero, hsc]
  generalize hc : view ascii (start [10, 10, 0]) = c
  have ht : c.text = [10, 10] := by rw [← hc]; decide +kernel
  obtain ⟨r, hb, h1, -⟩ := C09_skip_whitespace c (by rw [ht]; decide)
  have hr : r = [] := by
    refine C09_run_unique hb ⟨?_, ?_⟩
    · rw [ht]
      exact .cons (.space _ _ (by decide)) (.cons (.space _ _ (by decide)) (.nil _))
    · intro r' h
      generalize he : ([] : List Chr) = t at h
      cases h <;> cases he
  have hu : ¬ Unterminated r := by
    rw [hr]; rintro ⟨b, e, -⟩; cases e
  obtain ⟨k, e, hk⟩ := h1 hu
  refine ⟨⟨.sentinel, (c.adv k).line, (c.adv k).col⟩, c.adv k, ?_⟩
  · rw [lexNext, Kefir.Lexer.apply, lexNextImpl, bind_some e, location_bind, peek_bind,
      if_pos (by rw [at_zero, hk, hr]; rfl)]
    rfl

end Kefir.Lexer
