import Verif.PpToken.Join
/-!
# C82: adjacent string literals become one (C17 5.1.1.2, phase 6)

* `C82_translation_partial` — whitespace is dropped, every other token converted, and adjacent string
  literals become one literal with the characters of all of them.  Full claim: for all literals.  Missing:
  literals with numeric escapes that do not encode characters (`C82_high_byte_false`,
  `C82_escape_false`), characters from U+10000 on in UTF-16 literals; literals with different prefixes are
  left apart (`C82_prefixes_false`).
-/

namespace Kefir.PpToken

open Kefir.Lexer

/-- **C82** Phases 6 and 7: if the tokens translate as `Translated` says, the result is just that. -/
theorem C82_translation_partial (sc : StrCodec) (hf : FitStrings sc) (t : Tries) (τs out : List Token)
    (h : Translated sc (fun τ τ' => convertToken sc.cd t τ = some (.ok τ')) τs out) :
    convertTokens sc t τs = some (.ok out) := by
  unfold convertTokens
  rw [noString_last h hf [] (Or.inl trivial)]
  simp

theorem asciiStrings_fit : FitStrings asciiStrings where
  trip :=
    { nul_enc := rfl
      nul_dec := fun r => rfl
      enc_dec := by
        intro c bs h0 h r
        change (if c < 128 then some [UInt8.ofNat c] else none) = some bs at h
        split at h
        · rename_i hlt
          injection h with h
          subst h
          have key : ∀ c : Fin 128, c.val ≠ 0 → UInt8.ofNat c.val ≠ 0 ∧ (UInt8.ofNat c.val).toNat = c.val := by
            decide +kernel
          obtain ⟨h1, h2⟩ := key ⟨c, hlt⟩ h0
          show (if UInt8.ofNat c = 0 then Dec.nul else if (UInt8.ofNat c).toNat < 128 then
            Dec.chr (UInt8.ofNat c).toNat 1 else Dec.bad) = _
          rw [if_neg h1, h2, if_pos hlt]
          rfl
        · cases h }
  utf16 := by
    intro c _
    show (if c < 128 then some (leBytes 2 c) else none) =
      (if c < 128 then some [UInt8.ofNat c] else none).map _
    split
    · rw [littleEndian_two]; rfl
    · rfl
  wide := by
    intro c
    show (if c < 128 then some (leBytes 4 c) else none) =
      (if c < 128 then some [UInt8.ofNat c] else none).map _
    split
    · rw [littleEndian_four]; rfl
    · rfl
  surrogate := by
    intro c h1 h2
    show (if c < 128 then some [UInt8.ofNat c] else none) = none
    rw [if_neg (by omega)]

/-- `= "a" u"b" "c" ;` is translated to `= u"abc" ;`. -/
example (t : Tries) : convertTokens asciiStrings t
    [.punct .assign, .ppWhitespace false, .string .multibyte (lit "a"), .ppWhitespace false,
      .string .unicode16 [98, 0], .ppWhitespace true, .string .multibyte (lit "c"), .ppWhitespace false,
      .punct .semicolon] =
    some (.ok [.punct .assign, .string .unicode16 [97, 0, 98, 0, 99, 0], .punct .semicolon]) := by
  apply C82_translation_partial _ asciiStrings_fit
  refine .token (fun h => h) rfl (.blank ?_)
  have hr : Run asciiStrings .unicode16 [.string .multibyte (lit "a"), .ppWhitespace false,
      .string .unicode16 [98, 0], .ppWhitespace true, .string .multibyte (lit "c")] (str "abc") := by
    exact .more (cs := str "a") (cs' := str "bc") (Or.inl rfl) (by decide +kernel) (.blank
      (.more (cs := str "b") (cs' := str "c") (Or.inr rfl) (by decide +kernel) (.blank
        (.one (Or.inl rfl) (by decide +kernel)))))
  exact .strings (bs' := [98, 0]) (bs := [97, 0, 98, 0, 99, 0]) hr (by decide) (by decide +kernel)
    (by decide) trivial (.blank (.token (fun h => h) rfl .done))

/-! ## What goes wrong with numeric escapes -/

/-- C82 is false of `"a" "\xff"`: the second literal is decoded again when it is appended, and a byte
that encodes no character is refused. -/
theorem C82_high_byte_false (sc : StrCodec) (t : Tries) (hd : sc.cd.dec [0xff] = .bad) :
    convertTokens sc t [.string .multibyte (lit "a"), .string .multibyte [0xff]] =
      some (.error .invalidState) := by
  have hr : reencode sc .multibyte [0xff] (lit "a") = (.error .invalidState, lit "a") := by
    rw [reencode]
    split
    · rfl
    · rename_i h; rw [hd] at h; cases h
    · rename_i h; rw [hd] at h; cases h
  have hj : joinStrings sc .multibyte .multibyte (lit "a") [0xff] = .error .invalidState := by
    unfold joinStrings mergeStrings
    simp only
    rw [if_neg (by simp)]
    simp only
    rw [hr]
  unfold convertTokens
  rw [convertLoop, append_fresh (dst := []) trivial]
  simp only
  rw [convertLoop]
  unfold appendString
  simp only
  rw [if_pos (Or.inl trivial), hj]

/-- C82 is false of `"\xC3\xA9" u"x"`, if the encoding is UTF-8: the escapes stand for two elements of
the joined literal, but become one. -/
theorem C82_escape_false (sc : StrCodec) (t : Tries) (hd : sc.cd.dec [0xC3, 0xA9] = .chr 0xE9 2)
    (he : sc.enc16 0xE9 = some [0xE9, 0]) (hx : sc.cd.enc 120 = some [120])
    (hx2 : sc.cd.dec [120] = .chr 120 1) (hx16 : sc.enc16 120 = some [120, 0]) :
    convertTokens sc t [.string .multibyte [0xC3, 0xA9], .string .unicode16 [120, 0]] =
      some (.ok [.string .unicode16 [0xE9, 0, 120, 0]]) := by
  have nilr : ∀ m acc, reencode sc m [] acc = (.ok (), acc) := by intro m acc; rw [reencode]
  have hr : reencode sc .unicode16 [0xC3, 0xA9] [] = (.ok (), [0xE9, 0]) := by
    rw [reencode]
    split
    · rename_i h; rw [hd] at h; cases h
    · rename_i h; rw [hd] at h; cases h
    · rename_i h
      rw [hd] at h
      injection h with h1 h2
      subst h1 h2
      show (match sc.enc16 0xE9 with
        | some x => reencode sc .unicode16 (([0xC3, 0xA9] : List UInt8).drop 2) ([] ++ x)
        | none => (.error .invalidState, [])) = _
      rw [he]
      exact nilr _ _
  have hr2 : ∀ acc, reencode sc .unicode16 [120] acc = (.ok (), acc ++ [120, 0]) := by
    intro acc
    rw [reencode]
    split
    · rename_i h; rw [hx2] at h; cases h
    · rename_i h; rw [hx2] at h; cases h
    · rename_i h
      rw [hx2] at h
      injection h with h1 h2
      subst h1 h2
      show (match sc.enc16 120 with
        | some x => reencode sc .unicode16 (([120] : List UInt8).drop 1) (acc ++ x)
        | none => (.error .invalidState, acc)) = _
      rw [hx16]
      exact nilr _ _
  have hm : mergeStrings sc .unicode16 .unicode16 [0xE9, 0] [120, 0] = .ok [0xE9, 0, 120, 0] := by
    show merge16 sc .unicode16 none [120] [0xE9, 0] = _
    rw [merge16, show c16Step none 120 = some (none, some 120) by decide]
    simp only
    rw [hx]
    simp only
    rw [hr2]
    rfl
  have hj : joinStrings sc .multibyte .unicode16 [0xC3, 0xA9] [120, 0] =
      .ok (.unicode16, [0xE9, 0, 120, 0]) := by
    have hcv : convertBuffer sc .unicode16 ⟨.multibyte, [0xC3, 0xA9]⟩ = (.ok (), ⟨.unicode16, [0xE9, 0]⟩) := by
      unfold convertBuffer
      rw [if_neg (by simp)]
      simp only
      rw [hr]
    unfold joinStrings
    simp only
    rw [if_pos ⟨trivial, by decide⟩, hcv]
    simp only
    rw [hm]
  unfold convertTokens
  rw [convertLoop, append_fresh (dst := []) trivial]
  simp only
  rw [convertLoop]
  unfold appendString
  simp only
  rw [if_pos (Or.inl trivial), hj]
  rfl

/-- C82 is false of literals with different prefixes: 6.4.5p2 forbids `u8` beside a wide prefix, and the
other combinations make one literal or none; they are passed on as two tokens. -/
theorem C82_prefixes_false (sc : StrCodec) (t : Tries) (m m' : Mode) (b b' : List UInt8)
    (h : m ≠ .multibyte) (h' : m' ≠ .multibyte) (hne : m ≠ m') :
    convertTokens sc t [.string m b, .string m' b'] = some (.ok [.string m b, .string m' b']) := by
  unfold convertTokens
  rw [convertLoop, append_fresh (dst := []) trivial]
  simp only
  rw [convertLoop]
  unfold appendString
  simp only
  rw [if_neg (by
    rintro (e | e | e)
    · exact h e
    · exact h' e
    · exact hne e)]
  rfl

end Kefir.PpToken
