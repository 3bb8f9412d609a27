import Verif.PpToken.FormatTrip
/-!
# C79: printed text is read back as the tokens it was printed from
-/

namespace Kefir.PpToken

open Kefir.Lexer

/-- C79: a list of tokens is printed as a text from which the tokenizer reads the same tokens, digraphs
and, where they are not wanted, newlines aside.

Partial: the tokens have to be `Printable` and `Separated`.  `C79_wide_character_false`,
`C79_unicode_character_false`, `C79_multicharacter_false`, `C79_high_byte_false`, `C79_null_digit_false`,
`C79_wide_quote_false`, `C79_universal_name_false` and `C79_adjacent_false` show what happens otherwise. -/
theorem C79_round_trip_partial (sc : StrCodec) (hg : GoodCodec sc) (ha : AsciiCodec sc.cd) (t : Tries)
    (htr : PunctTrie t) (l : Locale) (hl : GoodLocale l) (ws : WsFormat) (ts : List Token)
    (hp : ∀ τ ∈ ts, Printable l τ) (hs : Separated ts) :
    ∃ out, format l ws ts = .ok out ∧ Reads sc t (view sc.cd (start out)) (ts.map (normalise ws)) := by
  obtain ⟨out, h1, h2⟩ := text_of hg hl ws hp hs
  have ht : (view sc.cd (start out)).text = chars out := by
    show splice (decodeAll sc.cd out).1 = _
    rw [decode_ascii ha out h2.bytes, h2.splice]
  exact ⟨out, h1, reads_text hg hl ws htr hp hs h1 (view_no_zero _ _) ht⟩

/-! ## Where the property fails -/

theorem view_text {cd : Codec} (ha : AsciiCodec cd) {out : List UInt8}
    (h : ∀ b ∈ out, 1 ≤ b.toNat ∧ b.toNat < 128) :
    (view cd (start out)).text = splice (chars out) := by
  show splice (decodeAll cd out).1 = _
  rw [decode_ascii ha out h]

/-- What is read first contradicts the list. -/
theorem not_reads {sc : StrCodec} {t : Tries} {c c' : Cursor} {τ τ' : Token} {τs : List Token}
    (h0 : 0 ∉ c.text) (hb : ∀ r, ¬ Blank c.text r) (hu : ¬ Unterminated c.text)
    (h : ppToken sc t c = some (.ok τ', c')) (hne : τ' ≠ τ) : ¬ Reads sc t c (τ :: τs) := by
  have h' := ppNext_of_token (whitespace_none h0 hb hu) h
  intro hr
  cases hr with
  | next _ h2 _ =>
    rw [h'] at h2
    injection h2 with h2
    injection h2 with h2 _
    injection h2 with h2
    injection h2 with h2 _ _
    exact hne h2

/-- C79 is false of wide character constants: `L'a'` is printed as `'a'`. -/
theorem C79_wide_character_false (sc : StrCodec) (hg : GoodCodec sc) (ha : AsciiCodec sc.cd) (t : Tries)
    (l : Locale) (hl : GoodLocale l) (ws : WsFormat) :
    ∃ out, format l ws [.wideChar 97] = .ok out ∧
      ¬ Reads sc t (view sc.cd (start out)) [.wideChar 97] := by
  have hf : format l ws [.wideChar 97] = .ok (lit "'a'") := by
    have hw : formatWchar l 97 = lit "a" := by
      rw [formatWchar, show escapeText 97 = none from rfl]
      simp only
      rw [hl 97 (by decide) (by decide)]
      rfl
    rw [format, formatToken, hw]
    rfl
  refine ⟨_, hf, ?_⟩
  have ht : (view sc.cd (start (lit "'a'"))).text = str "'a'" := by
    rw [view_text ha (by decide)]; decide
  generalize view sc.cd (start (lit "'a'")) = c at ht ⊢
  obtain ⟨hb, hu⟩ := no_blank_cons (x := ch '\'') (r := str "a'") (by decide) (by decide)
  have hm := narrow_char hg (s := str "a") (rest := []) (c := c) (bs := lit "a")
    (.plain (by decide) (by decide) (by decide) .nil) (by simp)
    (encoded_ascii hg (lit "a") (by decide)) ht
  refine not_reads (by rw [ht]; decide) (by rw [ht]; exact hb) (by rw [ht]; exact hu)
    (τ' := .charConst (foldBytes 0 (lit "a"))) (c' := c.adv 3) ?_ (by simp)
  rw [ppToken, peek_bind, if_neg (by rw [at_cons (x := ch '\'') ht]; decide), orElse_ok hm]
  rfl

/-- C79 is false of character constants of the types `char16_t` and `char32_t`: `u'a'` is printed as
`a`, without prefix and quotes. -/
theorem C79_unicode_character_false (sc : StrCodec) (hg : GoodCodec sc) (ha : AsciiCodec sc.cd) (t : Tries)
    (l : Locale) (hl : l.c16 97 = some [97] ∧ l.c32 97 = some [97]) (ws : WsFormat) :
    (∃ out, format l ws [.unicode16Char 97] = .ok out ∧
      ¬ Reads sc t (view sc.cd (start out)) [.unicode16Char 97]) ∧
    (∃ out, format l ws [.unicode32Char 97] = .ok out ∧
      ¬ Reads sc t (view sc.cd (start out)) [.unicode32Char 97]) := by
  have hr : ∀ τ, τ ≠ .identifier (lit "a") → ¬ Reads sc t (view sc.cd (start (lit "a"))) [τ] := by
    intro τ hτ
    have ht : (view sc.cd (start (lit "a"))).text = str "a" := by
      rw [view_text ha (by decide)]; decide
    generalize view sc.cd (start (lit "a")) = c at ht ⊢
    obtain ⟨hb, hu⟩ := no_blank_cons (x := ch 'a') (r := []) (by decide) (by decide)
    have hno : ∀ o ∈ openings, ¬ o <+: c.text := by rw [ht]; decide
    obtain ⟨hq0, hq1⟩ := not_opening_two hno
    have hat : c.at 0 = ch 'a' := at_cons ht
    have hm := identifier_match hg (.letter (ch 'a') (by decide)) .nil (bs := lit "a")
      (encoded_ascii hg (lit "a") (by decide)) (rest := []) nofun noUcn_nil (by decide)
      (c := c) ht
    refine not_reads (by rw [ht]; decide) (by rw [ht]; exact hb) (by rw [ht]; exact hu)
      (τ' := .identifier (lit "a")) (c' := c.adv 1) ?_ (Ne.symm hτ)
    rw [ppToken, peek_bind, if_neg (by rw [hat]; decide), orElse_noMatch (char_none hq0 hq1),
      orElse_noMatch (number_none (by rw [hat]; decide) (fun h => absurd (hat ▸ h.1) (by decide))),
      orElse_noMatch (string_none hno), orElse_ok hm]
    rfl
  refine ⟨⟨lit "a", ?_, hr _ (by simp)⟩, ⟨lit "a", ?_, hr _ (by simp)⟩⟩
  · rw [format, formatToken, hl.1]; rfl
  · rw [format, formatToken, hl.2]; rfl

/-- C79 is false of character constants with more than one character: `'ab'` is printed as `'b'`. -/
theorem C79_multicharacter_false (sc : StrCodec) (hg : GoodCodec sc) (ha : AsciiCodec sc.cd) (t : Tries)
    (l : Locale) (ws : WsFormat) :
    ∃ out, format l ws [.charConst 0x6162#32] = .ok out ∧
      ¬ Reads sc t (view sc.cd (start out)) [.charConst 0x6162#32] := by
  refine ⟨lit "'b'", rfl, ?_⟩
  have ht : (view sc.cd (start (lit "'b'"))).text = str "'b'" := by
    rw [view_text ha (by decide)]; decide
  generalize view sc.cd (start (lit "'b'")) = c at ht ⊢
  obtain ⟨hb, hu⟩ := no_blank_cons (x := ch '\'') (r := str "b'") (by decide) (by decide)
  have hm := narrow_char hg (s := str "b") (rest := []) (c := c) (bs := [98])
    (.plain (by decide) (by decide) (by decide) .nil) (by simp)
    (encoded_ascii hg [98] (by decide)) ht
  refine not_reads (by rw [ht]; decide) (by rw [ht]; exact hb) (by rw [ht]; exact hu)
    (τ' := .charConst (foldBytes 0 [98])) (c' := c.adv 3) ?_ (by decide)
  rw [ppToken, peek_bind, if_neg (by rw [at_cons (x := ch '\'') ht]; decide), orElse_ok hm]
  rfl

/-- A printed string literal that is read as something else. -/
theorem string_not_reads {sc : StrCodec} (hg : GoodCodec sc) (ha : AsciiCodec sc.cd) (t : Tries)
    {m : Mode} {out : List UInt8} {s rest : List Chr} {es : List Elem} {bs bs' : List UInt8} {τs : List Token}
    (hout : ∀ b ∈ out, 1 ≤ b.toNat ∧ b.toNat < 128)
    (ht : splice (chars out) = (stringPrefix m ++ str "\"") ++ (s ++ ch '"' :: rest))
    (h3 : Body (ch '"') s es) (h4 : Bytes sc.encode m es bs')
    (h5 : ∀ v, .code v ∈ es → v < 2 ^ 31) (hne : bs' ≠ bs) :
    ¬ Reads sc t (view sc.cd (start out)) (.string m bs :: τs) := by
  have ht' := (view_text ha hout).trans ht
  have h0 := view_no_zero sc.cd (start out)
  have hbl : (∀ r, ¬ Blank (view sc.cd (start out)).text r) ∧ ¬ Unterminated (view sc.cd (start out)).text := by
    rw [ht']
    cases m <;> exact no_blank_cons (by decide) (by decide)
  refine not_reads h0 hbl.1 hbl.2 (string_token hg t h3 h4 (fun _ => h5) h0 ht') ?_
  intro h
  injection h with _ h
  exact hne h

/-- C79 is false of strings with bytes outside ASCII: the byte C3 is printed with the eleven octal digits
of a negative number, of which an escape sequence takes three. -/
theorem C79_high_byte_false (sc : StrCodec) (hg : GoodCodec sc) (ha : AsciiCodec sc.cd) (t : Tries)
    (l : Locale) (ws : WsFormat) :
    ∃ out, format l ws [.string .multibyte [0xC3]] = .ok out ∧
      ¬ Reads sc t (view sc.cd (start out)) [.string .multibyte [0xC3]] := by
  refine ⟨lit "\"\\37777777703\"", by rfl, ?_⟩
  have hplain : ∀ (s : List Chr), (∀ x ∈ s, x ≠ ch '"' ∧ x ≠ ch '\\' ∧ x ≠ ch '\n') →
      Body (ch '"') s (s.map .chr) := by
    intro s
    induction s with
    | nil => intro _; exact .nil
    | cons x s ih =>
      intro h
      obtain ⟨h1, h2, h3⟩ := h x List.mem_cons_self
      exact .plain h1 h2 h3 (ih (fun y hy => h y (List.mem_cons_of_mem _ hy)))
  have henc : ∀ bs : List UInt8, (∀ b ∈ bs, b.toNat < 128) →
      Bytes sc.encode .multibyte ((chars bs).map .chr) bs := fun bs h => encoded_ascii hg bs h
  refine string_not_reads hg ha t (m := .multibyte) (s := str "\\37777777703") (rest := [])
    (es := .code 255 :: (str "77777703").map .chr) (bs' := 255 :: lit "77777703") (by decide) (by decide) ?_ ?_ ?_
    (by decide)
  · exact .escape (a := str "\\377") (.octal (str "377") (str "77777703") (by decide) (by decide) (by decide)
      (Or.inl rfl)) (hplain _ (by decide))
  · exact .cons (b := [255]) (by rfl) (henc (lit "77777703") (by decide))
  · intro v hv
    have : v = 255 := by simpa [str] using hv
    rw [this]; decide

/-- C79 is false of a null character before an octal digit: it is printed as `\0`, which the digit
continues. -/
theorem C79_null_digit_false (sc : StrCodec) (hg : GoodCodec sc) (ha : AsciiCodec sc.cd) (t : Tries)
    (l : Locale) (ws : WsFormat) :
    ∃ out, format l ws [.string .multibyte [0, 49]] = .ok out ∧
      ¬ Reads sc t (view sc.cd (start out)) [.string .multibyte [0, 49]] := by
  refine ⟨lit "\"\\01\"", by rfl, ?_⟩
  refine string_not_reads hg ha t (m := .multibyte) (s := str "\\01") (rest := [])
    (es := [.code 1]) (bs' := [1]) (by decide) (by decide) ?_ ?_ ?_ (by decide)
  · exact .escape (a := str "\\01") (.octal (str "01") [] (by decide) (by decide) (by decide)
      (Or.inr nofun)) .nil
  · exact .cons (b := [1]) (by rfl) .nil
  · intro v hv
    have : v = 1 := by simpa using hv
    rw [this]; decide

/-- C79 is false of a wide string with a quote: it is printed without a backslash and ends the literal. -/
theorem C79_wide_quote_false (sc : StrCodec) (hg : GoodCodec sc) (ha : AsciiCodec sc.cd) (t : Tries)
    (l : Locale) (hl : GoodLocale l) (ws : WsFormat) :
    ∃ out, format l ws [.string .wide [34, 0, 0, 0]] = .ok out ∧
      ¬ Reads sc t (view sc.cd (start out)) [.string .wide [34, 0, 0, 0]] := by
  have hf : format l ws [.string .wide [34, 0, 0, 0]] = .ok (lit "L\"\"\"") := by
    have hw : formatWideUnit l 34 = lit "\"" := by
      rw [formatWideUnit, hl 34 (by decide) (by decide)]
      rfl
    rw [format, formatToken, formatString, show units32 [34, 0, 0, 0] = [34] from rfl, List.flatMap_cons, hw]
    rfl
  refine ⟨_, hf, ?_⟩
  exact string_not_reads hg ha t (m := .wide) (s := []) (rest := str "\"") (es := []) (bs' := [])
    (by decide) (by decide) .nil .nil (by simp) (by decide)

/-- C79 is false of an identifier with a universal character name, if the encoding is UTF-8: the
character is printed encoded, and the tokenizer does not accept it. -/
theorem C79_universal_name_false (sc : StrCodec) (hg : GoodCodec sc) (t : Tries) (htr : PunctTrie t)
    (hd : sc.cd.dec [0xC3, 0xA9] = .chr 0xE9 2) (l : Locale) (ws : WsFormat) :
    ∃ out, format l ws [.identifier [0xC3, 0xA9]] = .ok out ∧
      ¬ Reads sc t (view sc.cd (start out)) [.identifier [0xC3, 0xA9]] := by
  refine ⟨[0xC3, 0xA9], rfl, ?_⟩
  have ht : (view sc.cd (start [0xC3, 0xA9])).text = [0xE9] := by
    show splice (decodeAll sc.cd [0xC3, 0xA9]).1 = _
    rw [decodeAll_chr hd]
    simp only [List.drop_succ_cons, List.drop_zero]
    rw [decodeAll_bad sc.cd.dec_nil]
    rfl
  generalize view sc.cd (start [0xC3, 0xA9]) = c at ht
  obtain ⟨hb, hu⟩ := no_blank_cons (x := 0xE9) (r := []) (by decide) (by decide)
  have hno : ¬ ∃ s τ, s <+: c.text ∧ Spelled sc.encode s τ := by
    rw [ht]
    rintro ⟨s, τ, hs, hsp⟩
    cases s with
    | nil => exact spelled_nil hsp
    | cons x r =>
      obtain ⟨r', hs⟩ := hs
      injection hs with hx hr
      subst hx
      have hr : r = [] := (List.append_eq_nil_iff.1 hr).1
      subst hr
      rcases spelled_first hsp with h | ⟨a, r, v, h, hu⟩ | h | ⟨-, d, r, h, hd⟩ | ⟨o, ho, h⟩ | ⟨p, h⟩
      · exact absurd h (by decide)
      · exact absurd (ucn_two h hu).1 (by decide)
      · exact absurd h (by decide)
      · cases h
      · have : ∀ o ∈ openings, ¬ o <+: [0xE9] := by decide
        exact absurd h (this o ho)
      · have : ∀ p : Punct, p.spelling ≠ [0xE9] := by intro p; cases p <;> decide
        exact absurd h (this p)
  obtain ⟨c', he⟩ := C78_no_token_partial sc hg t htr c (by rw [ht]; decide) (by rw [ht]; simp)
    (by rw [ht]; exact hb) (by rw [ht]; exact hu) hno (by rw [ht]; decide) (by rw [ht]; decide)
  intro hr
  cases hr with
  | next _ h2 _ =>
    rw [he] at h2
    injection h2 with h2
    injection h2 with h2 _
    cases h2

/-- C79 is false of tokens that run into each other: with `#define m -` the line `-m 1` is printed as
`-- 1`, which subtracts one from nothing.  The printed text needs a space. -/
theorem C79_adjacent_false (sc : StrCodec) (hg : GoodCodec sc) (ha : AsciiCodec sc.cd) (t : Tries)
    (htr : PunctTrie t) (l : Locale) (hl : GoodLocale l) (ws : WsFormat) :
    ∃ out, format l ws [.punct .minus, .punct .minus] = .ok out ∧
      ¬ Reads sc t (view sc.cd (start out)) [.punct .minus, .punct .minus] := by
  obtain ⟨out, h1, h2⟩ := C79_round_trip_partial sc hg ha t htr l hl ws [.punct .doubleMinus]
    (fun τ h => by rw [List.mem_singleton.1 h]; exact .punctuator _) trivial
  refine ⟨out, h1, ?_⟩
  intro hr
  cases h2 with
  | next _ g _ =>
    cases hr with
    | next _ g' _ =>
      rw [g] at g'
      injection g' with g'
      injection g' with g' _
      injection g' with g'
      injection g' with g' _ _
      cases g'

/-! ## Non-vacuity -/

/-- A locale. -/
def asciiLocale : Locale where
  wide v := if 0x20 ≤ v ∧ v ≤ 0x7e then some [UInt8.ofNat v] else none
  c16 v := if v < 128 then some [UInt8.ofNat v] else none
  c32 v := if v < 128 then some [UInt8.ofNat v] else none

theorem asciiLocale_good : GoodLocale asciiLocale := fun v h1 h2 => by simp [asciiLocale, h1, h2]

theorem ascii_ascii : AsciiCodec ascii where
  chr b r h1 h2 := by
    have : b ≠ 0 := by rintro rfl; exact absurd h1 (by decide)
    show (if b = 0 then _ else if b.toNat < 128 then _ else _) = _
    rw [if_neg this, if_pos h2]

/-- `x=1+'\n';` and a newline, then `L"a\x1"`. -/
example : ∃ t out, format asciiLocale .original [.identifier (lit "x"), .punct .assign, .ppNumber (lit "1"),
      .punct .plus, .charConst 10#32, .punct .semicolon, .ppWhitespace true,
      .string .wide [97, 0, 0, 0, 1, 0, 0, 0]] = .ok out ∧
    Reads asciiStrings t (view ascii (start out)) [.identifier (lit "x"), .punct .assign,
      .ppNumber (lit "1"), .punct .plus, .charConst 10#32, .punct .semicolon, .ppWhitespace true,
      .string .wide [97, 0, 0, 0, 1, 0, 0, 0]] := by
  obtain ⟨tr, htr⟩ := punctTrie_exists
  refine ⟨⟨tr, .empty⟩, C79_round_trip_partial asciiStrings asciiStrings_good ascii_ascii ⟨tr, .empty⟩ htr asciiLocale
    asciiLocale_good .original _ ?_ ?_⟩
  · intro τ h
    simp only [List.mem_cons, List.not_mem_nil, or_false] at h
    rcases h with rfl | rfl | rfl | rfl | rfl | rfl | rfl | rfl
    · exact .identifier _ _ _ rfl (by decide) (by decide) (by decide)
    · exact .punctuator _
    · exact .number _ _ _ rfl (by decide) .nil (by decide)
    · exact .punctuator _
    · exact .character _ (by decide)
    · exact .punctuator _
    · exact .whitespace _
    · refine .wide [97, 1] (by decide) ?_
      intro p q v x h h1 h2
      have : p = [] := by
        cases p with
        | nil => rfl
        | cons y p =>
          have := congrArg List.length h
          simp at this
          omega
      subst this
      injection h with h _
      subst h
      exact absurd h1 (by decide)
  · have hpu : ∀ (p : Punct) (x : Chr), (∀ q : Punct, ¬ (primary p).spelling ++ [x] <+: q.spelling) →
        p ≠ .dot → p ≠ .slash → ¬ Continues (.punct p) x := by
      rintro p x h1 h2 h3 (⟨q, h⟩ | ⟨h, -⟩ | ⟨h, -⟩)
      · exact h1 q h
      · exact h2 h
      · exact h3 h
    refine ⟨?_, ?_, ?_, ?_, ?_, ?_, ?_, trivial⟩
    · rintro (h | h | h)
      · exact absurd h (by decide)
      · exact absurd h (by decide)
      · exact absurd h (by decide)
    · exact hpu _ _ (by intro q; cases q <;> decide) (by decide) (by decide)
    · rintro (h | h | h | ⟨-, e, he, h⟩)
      · exact absurd h (by decide)
      · exact absurd h (by decide)
      · exact absurd h (by decide)
      · have : ∀ e ∈ str "eEpP", ¬ (List.map UInt8.toNat (lit "1")).getLast? = some e := by decide
        exact this e he h
    · exact hpu _ _ (by intro q; cases q <;> decide) (by decide) (by decide)
    · exact id
    · exact hpu _ _ (by intro q; cases q <;> decide) (by decide) (by decide)
    · exact (by decide : ch 'L' ≠ ch ' ')

end Kefir.PpToken
