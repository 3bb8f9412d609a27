import Verif.PpToken.FormatProps
/-!
# C80: the `#` operator keeps the spelling of its operand

C17 6.10.3.2p2: the string literal that replaces `#` and a parameter "contains the spelling of the
preprocessing token sequence for the corresponding argument.  Each occurrence of white space between the
argument's preprocessing tokens becomes a single space character in the character string literal.  (…)
the original spelling of each preprocessing token in the argument is retained".
-/

namespace Kefir.PpToken

open Kefir.Lexer

/-- The characters of a literal that are printed as they are. -/
def Unescaped (c : Chr) : Prop := 0x20 ≤ c ∧ c ≤ 0x7e ∧ c ∉ str "'\"?\\"

/-- The tokens that keep their spelling: identifiers and numbers without universal character names,
punctuators other than digraphs, and literals without escape sequences, `?` and inner quotes. -/
inductive Kept (enc : Mode → Chr → Option (List UInt8)) : Token → List Chr → Prop where
  | word {τ : Token} {s : List Chr} (h : Spelled enc s τ) (hb : ch '\\' ∉ s)
      (hk : (∃ bs, τ = .identifier bs) ∨ (∃ bs, τ = .ppNumber bs) ∨ ∃ p, τ = .punct p ∧ primary p = p) :
      Kept enc τ s
  | character {c : Chr} {v : BitVec 32} (hc : Unescaped c)
      (h : Spelled enc (str "'" ++ ([c] ++ str "'")) (.charConst v)) :
      Kept enc (.charConst v) (str "'" ++ ([c] ++ str "'"))
  | string {m : Mode} {s : List Chr} {bs : List UInt8} (hm : m = .multibyte ∨ m = .unicode8)
      (hc : ∀ c ∈ s, Unescaped c)
      (h : Spelled enc (stringPrefix m ++ (str "\"" ++ (s ++ str "\""))) (.string m bs)) :
      Kept enc (.string m bs) (stringPrefix m ++ (str "\"" ++ (s ++ str "\"")))
  | whitespace (nl : Bool) : Kept enc (.ppWhitespace nl) (str " ")

theorem unescaped_facts {c : Nat} (h : Unescaped c) : c < 128 ∧ chars (formatChar (UInt8.ofNat c)) = [c] ∧
    c ≠ ch '\\' := by
  have key : ∀ c : Fin 128, 0x20 ≤ c.val → c.val ≤ 0x7e → c.val ∉ str "'\"?\\" →
      chars (formatChar (UInt8.ofNat c.val)) = [c.val] ∧ c.val ≠ ch '\\' := by decide +kernel
  obtain ⟨h1, h2, h3⟩ := h
  have hc : c < 128 := Nat.lt_of_le_of_lt h2 (by decide)
  exact ⟨hc, key ⟨c, hc⟩ h1 h2 h3⟩

theorem body_plain {q : Chr} {s : List Chr} {es : List Elem} (h : Body q s es) (hb : ch '\\' ∉ s) :
    es = s.map .chr := by
  induction h with
  | nil => rfl
  | plain _ _ _ _ ih => rw [ih (fun h => hb (List.mem_cons_of_mem _ h))]; rfl
  | escape h _ _ =>
    obtain ⟨x, r, hr, -⟩ := escape_head h
    exact absurd (by rw [hr]; simp) hb

theorem bytes_plain {sc : StrCodec} (hg : GoodCodec sc) {m : Mode} (hm : unitSize m = 1) {s : List Chr}
    {bs : List UInt8} (h : Bytes sc.encode m (s.map .chr) bs) (hs : ∀ x ∈ s, x < 128) :
    bs = s.map UInt8.ofNat ∧ chars bs = s := by
  induction s generalizing bs with
  | nil => cases h; exact ⟨rfl, rfl⟩
  | cons x s ih =>
    cases h with
    | @cons _ _ b bs' he hs' =>
    have hx := hs x List.mem_cons_self
    have hb : b = [UInt8.ofNat x] := by
      have h1 : sc.encode m x = some b := he
      rw [hg.ascii m x hx, hm, byte_value (Nat.lt_trans hx (by decide))] at h1
      injection h1 with h1
      exact h1.symm
    obtain ⟨g1, g2⟩ := ih hs' (fun y hy => hs y (List.mem_cons_of_mem _ hy))
    subst hb
    refine ⟨by rw [g1]; rfl, ?_⟩
    rw [chars_append, g2]
    have : ∀ y : Nat, y < 128 → (UInt8.ofNat y).toNat = y := by intro y hy; simp; omega
    show [(UInt8.ofNat x).toNat] ++ s = _
    rw [this x hx]; rfl

theorem idTail_plain {s cs : List Chr} (h : IdTail s cs) (hb : ch '\\' ∉ s) :
    s = cs ∧ ∀ x ∈ s, IsNondigit x ∨ IsDigit 10 x := by
  induction h with
  | nil => exact ⟨rfl, by simp⟩
  | digit hd _ ih =>
    obtain ⟨h1, h2⟩ := ih (fun h => hb (List.mem_cons_of_mem _ h))
    refine ⟨by rw [h1], fun x hx => ?_⟩
    rcases List.mem_cons.1 hx with rfl | hx
    · exact Or.inr hd
    · exact h2 x hx
  | nondigit ha _ ih =>
    obtain ⟨h1, h2⟩ := ih (fun h => hb (List.mem_append_right _ h))
    cases ha with
    | letter c hc =>
      refine ⟨by rw [h1]; rfl, fun x hx => ?_⟩
      rcases List.mem_cons.1 hx with rfl | hx
      · exact Or.inl hc
      · exact h2 x hx
    | ucn hu =>
      obtain ⟨r, ha⟩ := ucn_head hu
      exact absurd (by rw [ha]; simp) hb

theorem graphic_lt {x : Nat} (h : Graphic x) : x < 128 := by unfold Graphic at h; omega

theorem kept_word {sc : StrCodec} (hg : GoodCodec sc) (l : Locale) (ws : WsFormat) {τ : Token} {s : List Chr}
    (h : Spelled sc.encode s τ) (hb : ch '\\' ∉ s)
    (hk : (∃ bs, τ = .identifier bs) ∨ (∃ bs, τ = .ppNumber bs) ∨ ∃ p, τ = .punct p ∧ primary p = p) :
    ∃ bs, formatToken l ws τ = .ok bs ∧ chars bs = s := by
  cases h with
  | @identifier a c s cs bs hn ht he =>
    refine ⟨bs, rfl, ?_⟩
    cases hn with
    | letter c hc =>
      obtain ⟨h1, h2⟩ := idTail_plain ht (fun h => hb (List.mem_append_right _ h))
      subst h1
      exact (bytes_plain hg rfl (s := c :: s) he (fun x hx => by
        rcases List.mem_cons.1 hx with rfl | hx
        · exact graphic_lt (graphic_id (Or.inl hc)).1
        · exact graphic_lt (graphic_id (h2 x hx)).1)).2
    | ucn hu =>
      obtain ⟨r, ha⟩ := ucn_head hu
      exact absurd (by rw [ha]; simp) hb
  | @number d s cs bs hd ht he =>
    refine ⟨bs, rfl, ?_⟩
    obtain ⟨h1, h2⟩ := numTail_chars ht (fun h => hb (List.mem_cons_of_mem _ h))
    subst h1
    exact (bytes_plain hg rfl (s := d :: s) he (fun x hx => by
      rcases List.mem_cons.1 hx with rfl | hx
      · exact graphic_lt (graphic_id (Or.inr hd)).1
      · exact graphic_lt (graphic_num (h2 x hx)).1)).2
  | @dotNumber d s cs bs hd ht he =>
    refine ⟨bs, rfl, ?_⟩
    obtain ⟨h1, h2⟩ := numTail_chars ht (fun h => hb (List.mem_cons_of_mem _ (List.mem_cons_of_mem _ h)))
    subst h1
    exact (bytes_plain hg rfl (s := ch '.' :: d :: s) he (fun x hx => by
      rcases List.mem_cons.1 hx with rfl | hx
      · decide
      rcases List.mem_cons.1 hx with rfl | hx
      · exact graphic_lt (graphic_id (Or.inr hd)).1
      · exact graphic_lt (graphic_num (h2 x hx)).1)).2
  | punctuator p =>
    rcases hk with ⟨_, h⟩ | ⟨_, h⟩ | ⟨p', h, hp⟩
    · cases h
    · cases h
    · injection h with h
      subst h
      exact ⟨_, rfl, by rw [punct_text, hp]⟩
  | _ => rcases hk with ⟨_, h⟩ | ⟨_, h⟩ | ⟨_, h, -⟩ <;> cases h

theorem flatMap_unescaped (s : List Chr) (h : ∀ c ∈ s, Unescaped c) :
    chars ((s.map UInt8.ofNat).flatMap formatChar) = s := by
  induction s with
  | nil => rfl
  | cons x s ih =>
    rw [List.map_cons, List.flatMap_cons, chars_append, (unescaped_facts (h x List.mem_cons_self)).2.1,
      ih (fun y hy => h y (List.mem_cons_of_mem _ hy))]
    rfl

theorem kept_token {sc : StrCodec} (hg : GoodCodec sc) (l : Locale) {τ : Token} {s : List Chr}
    (h : Kept sc.encode τ s) : ∃ bs, formatToken l .singleSpace τ = .ok bs ∧ chars bs = s := by
  cases h with
  | word h hb hk => exact kept_word hg l _ h hb hk
  | whitespace nl =>
    refine ⟨lit " ", ?_, rfl⟩
    rw [formatToken, if_neg (by simp)]
  | @character c v hc h =>
    obtain ⟨h1, h2, h3⟩ := unescaped_facts hc
    refine ⟨_, rfl, ?_⟩
    have hv : UInt8.ofNat v.toNat = UInt8.ofNat c := by
      generalize hs : str "'" ++ ([c] ++ str "'") = s at h
      generalize hτ : Token.charConst v = τ at h
      cases h with
      | @character s' es bs v' hbody _ hbytes hval =>
        injection hτ with hτ
        subst hτ
        have hs' : [c] = s' := by
          injection hs with _ hs
          exact List.append_cancel_right hs
        subst hs'
        have hes := body_plain hbody (by simpa using Ne.symm h3)
        subst hes
        obtain ⟨hbs, -⟩ := bytes_plain hg (m := .multibyte) rfl hbytes (by simpa using h1)
        have := hval (UInt8.ofNat c) hbs
        have hcn : (UInt8.ofNat c).toNat = c := by
          have : ∀ y : Nat, y < 128 → (UInt8.ofNat y).toNat = y := by intro y hy; simp; omega
          exact this c h1
        rw [hcn, if_pos h1] at this
        have hvn : v.toNat = c := by
          have h4 : (c : Nat) < 2 ^ 31 := Nat.lt_of_lt_of_le h1 (by decide)
          generalize (c : Nat) = n at this h4
          rw [BitVec.toInt_eq_toNat_cond] at this
          split at this <;> omega
        rw [hvn]
      | _ => cases hτ
    rw [hv, chars_append, chars_append, h2]
    rfl
  | @string m s bs hm hc h =>
    have hnb : ch '\\' ∉ s := fun hx => (unescaped_facts (hc _ hx)).2.2 rfl
    have hbs : bs = s.map UInt8.ofNat := by
      generalize ht : stringPrefix m ++ (str "\"" ++ (s ++ str "\"")) = t at h
      generalize hτ : Token.string m bs = τ at h
      cases h with
      | @string m' s' es bs' hbody hbytes =>
        injection hτ with e1 e2
        subst e1 e2
        have hs' : s = s' := by
          have h1 := List.append_cancel_left ht
          exact List.append_cancel_right (List.append_cancel_left h1)
        subst hs'
        have hes := body_plain hbody hnb
        subst hes
        exact (bytes_plain hg (by rcases hm with rfl | rfl <;> rfl) hbytes
          (fun x hx => (unescaped_facts (hc x hx)).1)).1
      | _ => cases hτ
    refine ⟨_, rfl, ?_⟩
    obtain ⟨body, h1, h2⟩ := string_chars l m bs
    have hbody : body = bs.flatMap formatChar := by rcases hm with rfl | rfl <;> exact h2
    rw [h1, hbody, hbs, flatMap_unescaped s hc, List.append_assoc]
    rfl

/-- C80: `#` makes a string literal of the spelling of the tokens of the argument, with one space for
each whitespace token.

Partial: of tokens as described by `Kept`.  `C80_escape_false`, `C80_digraph_false`, `C80_quote_false`,
`C80_prefix_false` and `C80_whitespace_false` show where the spelling is not retained. -/
theorem C80_stringify_partial (sc : StrCodec) (hg : GoodCodec sc) (l : Locale)
    (ps : List (Token × List Chr)) (h : ∀ p ∈ ps, Kept sc.encode p.1 p.2) :
    ∃ bs, stringify l (ps.map Prod.fst) = .ok (.string .multibyte bs) ∧
      bs.map UInt8.toNat = (ps.map Prod.snd).flatten := by
  have : ∃ bs, format l .singleSpace (ps.map Prod.fst) = .ok bs ∧ chars bs = (ps.map Prod.snd).flatten := by
    induction ps with
    | nil => exact ⟨[], rfl, rfl⟩
    | cons p ps ih =>
      obtain ⟨b, h1, h2⟩ := ih (fun q hq => h q (List.mem_cons_of_mem _ hq))
      obtain ⟨a, h3, h4⟩ := kept_token hg l (h p List.mem_cons_self)
      refine ⟨a ++ b, ?_, ?_⟩
      · rw [List.map_cons, format, h3, h1]
      · rw [chars_append, h4, h2]; rfl
  obtain ⟨bs, h1, h2⟩ := this
  exact ⟨bs, by rw [stringify, h1], h2⟩

/-- `x + 'a'`. -/
example : ∃ bs, stringify asciiLocale [.identifier (lit "x"), .ppWhitespace true, .punct .plus,
      .ppWhitespace false, .charConst 97#32] = .ok (.string .multibyte bs) ∧
    bs.map UInt8.toNat = str "x + 'a'" := by
  have h := C80_stringify_partial asciiStrings asciiStrings_good asciiLocale
    [(.identifier (lit "x"), str "x"), (.ppWhitespace true, str " "), (.punct .plus, str "+"),
      (.ppWhitespace false, str " "), (.charConst 97#32, str "'" ++ ([97] ++ str "'"))] ?_
  · obtain ⟨bs, h1, h2⟩ := h
    exact ⟨bs, h1, h2.trans (by decide)⟩
  · intro p hp
    simp only [List.mem_cons, List.not_mem_nil, or_false] at hp
    rcases hp with rfl | rfl | rfl | rfl | rfl
    · exact .word (.identifier (.letter (ch 'x') (by decide)) .nil
        (encoded_ascii asciiStrings_good (lit "x") (by decide))) (by decide) (Or.inl ⟨_, rfl⟩)
    · exact .whitespace _
    · exact .word (.punctuator .plus) (by decide) (Or.inr (Or.inr ⟨_, rfl, rfl⟩))
    · exact .whitespace _
    · refine .character (by unfold Unescaped; decide) (.character (es := [.chr 97]) (bs := [97])
        (.plain (by decide) (by decide) (by decide) .nil) (by simp)
        (encoded_ascii asciiStrings_good [97] (by decide)) ?_)
      rintro b ⟨⟩
      decide

/-! ## Where the spelling is not retained -/

/-- C80 is false of longer whitespace: two blanks between tokens are read as two tokens, and become two
spaces. -/
theorem C80_whitespace_false (sc : StrCodec) (t : Tries) (l : Locale) :
    (∃ c, ppNext sc t (atText (str "  b")) = some (.ok ⟨.ppWhitespace false, 1, 1⟩, c) ∧
      ∃ c', ppNext sc t c = some (.ok ⟨.ppWhitespace false, 1, 2⟩, c') ∧ c'.text = str "b") ∧
    stringify l [.identifier (lit "a"), .ppWhitespace false, .ppWhitespace false, .identifier (lit "b")] =
      .ok (.string .multibyte (lit "a  b")) := by
  refine ⟨⟨(atText (str "  b")).adv 1, rfl, ((atText (str "  b")).adv 1).adv 1, rfl, rfl⟩, rfl⟩

/-- A string literal spelled with the given elements. -/
theorem spelled_string {enc : Mode → Chr → Option (List UInt8)} {s : List Chr} {es : List Elem}
    {bs : List UInt8} (h : Body (ch '"') s es) (hb : Bytes enc .multibyte es bs) :
    Spelled enc (str "\"" ++ (s ++ str "\"")) (.string .multibyte bs) := .string (m := .multibyte) h hb

/-- C80 is false of escape sequences: `"\x41"` as operand of `#` becomes `"A"` (in quotes). -/
theorem C80_escape_false (sc : StrCodec) (l : Locale) :
    Spelled sc.encode (str "\"\\x41\"") (.string .multibyte [65]) ∧
    stringify l [.string .multibyte [65]] = .ok (.string .multibyte (lit "\"A\"")) := by
  refine ⟨spelled_string (s := str "\\x41") (.escape (a := str "\\x41") (.hexadecimal (str "41") [] (by decide)
    (by decide) nofun) .nil) (.cons (b := [65]) rfl .nil), rfl⟩

/-- C80 is false of question marks and quotes: `"?'"` becomes `"\?\'"` (in quotes). -/
theorem C80_quote_false (sc : StrCodec) (hg : GoodCodec sc) (l : Locale) :
    Spelled sc.encode (str "\"?'\"") (.string .multibyte (lit "?'")) ∧
    stringify l [.string .multibyte (lit "?'")] = .ok (.string .multibyte (lit "\"\\?\\'\"")) := by
  refine ⟨spelled_string (s := str "?'") (.plain (by decide) (by decide) (by decide)
    (.plain (by decide) (by decide) (by decide) .nil)) (encoded_ascii hg (lit "?'") (by decide)), rfl⟩

/-- C80 is false of digraphs: 6.4.6p3 makes them behave as the other punctuators "except for their
spelling", but `<:` becomes `[`. -/
theorem C80_digraph_false (sc : StrCodec) (l : Locale) :
    Spelled sc.encode (str "<:") (.punct .digraphLeftBracket) ∧
    stringify l [.punct .digraphLeftBracket] = .ok (.string .multibyte (lit "[")) :=
  ⟨.punctuator .digraphLeftBracket, rfl⟩

/-- C80 is false of prefixed character constants: `L'a'` becomes `'a'`. -/
theorem C80_prefix_false (sc : StrCodec) (l : Locale) (hl : GoodLocale l) :
    Spelled sc.encode (str "L'a'") (.wideChar 97) ∧
    stringify l [.wideChar 97] = .ok (.string .multibyte (lit "'a'")) := by
  refine ⟨.wideCharacter (s := str "a") (es := [.chr 97]) (.plain (by decide) (by decide) (by decide) .nil)
    (by simp) ?_, ?_⟩
  · refine ⟨fun x hx => by simp at hx, ?_⟩
    rintro e h -
    injection h with h
    rw [← h]
    rfl
  · have hw : formatWchar l 97 = lit "a" := by
      rw [formatWchar, show escapeText 97 = none from rfl]
      simp only
      rw [hl 97 (by decide) (by decide)]
      rfl
    rw [stringify, format, formatToken, hw]
    rfl

end Kefir.PpToken
