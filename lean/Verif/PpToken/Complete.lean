import Verif.PpToken.Match
import Verif.Lexer.BlankProps
/-!
# The longest preprocessing token is read
-/

namespace Kefir.PpToken

open Kefir.Lexer

/-! ## Shapes of tokens -/

theorem hexDigit_facts {x : Nat} (h : IsDigit 16 x) : x ≠ 39 ∧ x ≠ 34 := by
  obtain ⟨h, -⟩ := h
  have : 48 ≤ x ∧ x ≤ 57 ∨ 97 ≤ x ∧ x ≤ 102 ∨ 65 ≤ x ∧ x ≤ 70 := h
  omega

theorem ucn_noQuote {a : List Chr} {v : Chr} (h : Ucn a v) : ∀ x ∈ a, x ≠ ch '\'' ∧ x ≠ ch '"' := by
  cases h with
  | short ds _ hd _ =>
    intro x hx
    rcases List.mem_cons.1 hx with rfl | hx
    · decide
    rcases List.mem_cons.1 hx with rfl | hx
    · decide
    exact hexDigit_facts (hd x hx)
  | long ds _ hd _ =>
    intro x hx
    rcases List.mem_cons.1 hx with rfl | hx
    · decide
    rcases List.mem_cons.1 hx with rfl | hx
    · decide
    exact hexDigit_facts (hd x hx)

theorem nondigit_noQuote {a : List Chr} {v : Chr} (h : Nondigit a v) :
    ∀ x ∈ a, x ≠ ch '\'' ∧ x ≠ ch '"' := by
  cases h with
  | letter _ hx =>
    intro x hm
    rw [List.mem_singleton] at hm
    subst hm
    constructor <;> (rintro rfl; revert hx; decide)
  | ucn hu => exact ucn_noQuote hu

theorem digit_noQuote {x : Chr} (h : IsDigit 10 x) : x ≠ ch '\'' ∧ x ≠ ch '"' := by
  constructor <;> (rintro rfl; revert h; decide)

theorem idTail_noQuote {s cs : List Chr} (h : IdTail s cs) : ∀ x ∈ s, x ≠ ch '\'' ∧ x ≠ ch '"' := by
  induction h with
  | nil => intro x hx; cases hx
  | digit hd _ ih =>
    intro x hx
    rcases List.mem_cons.1 hx with rfl | hx
    · exact digit_noQuote hd
    · exact ih x hx
  | nondigit hn _ ih =>
    intro x hx
    rcases List.mem_append.1 hx with hx | hx
    · exact nondigit_noQuote hn x hx
    · exact ih x hx

theorem numTail_noQuote {s cs : List Chr} (h : NumTail s cs) : ∀ x ∈ s, x ≠ ch '\'' ∧ x ≠ ch '"' := by
  induction h with
  | nil => intro x hx; cases hx
  | digit hd _ ih =>
    intro x hx
    rcases List.mem_cons.1 hx with rfl | hx
    · exact digit_noQuote hd
    · exact ih x hx
  | nondigit hn _ ih =>
    intro x hx
    rcases List.mem_append.1 hx with hx | hx
    · exact nondigit_noQuote hn x hx
    · exact ih x hx
  | exponent he hg _ ih =>
    intro x hx
    rcases List.mem_cons.1 hx with rfl | hx
    · constructor <;> (rintro rfl; revert he; decide)
    rcases List.mem_cons.1 hx with rfl | hx
    · constructor <;> (rintro rfl; revert hg; decide)
    · exact ih x hx
  | dot _ ih =>
    intro x hx
    rcases List.mem_cons.1 hx with rfl | hx
    · decide
    · exact ih x hx

theorem opening_quote : ∀ o ∈ openings, ∃ x ∈ o, x = ch '\'' ∨ x = ch '"' := by decide

theorem noQuote_opening {s : List Chr} (h : ∀ x ∈ s, x ≠ ch '\'' ∧ x ≠ ch '"') {o : List Chr}
    (ho : o ∈ openings) (hp : o <+: s) : False := by
  obtain ⟨x, hx, hq⟩ := opening_quote o ho
  have := h x (hp.subset hx)
  rcases hq with hq | hq
  · exact this.1 hq
  · exact this.2 hq

theorem punct_opening (p : Punct) : ∀ o ∈ openings, ¬ o <+: p.spelling := by
  cases p <;> decide

theorem punct_first (p : Punct) : ∃ x r, p.spelling = x :: r ∧ x ≠ 0 ∧ isnondigit x = false ∧
    isdigit x = false ∧ x ≠ ch '\\' ∧ x ≠ ch '\'' ∧ x ≠ ch '"' := by
  cases p <;> exact ⟨_, _, rfl, by decide⟩

theorem idTail_append {s cs s' cs' : List Chr} (h : IdTail s cs) (h' : IdTail s' cs') :
    IdTail (s ++ s') (cs ++ cs') := by
  induction h with
  | nil => exact h'
  | digit hd _ ih => exact .digit hd ih
  | nondigit hn _ ih => rw [List.append_assoc]; exact .nondigit hn ih

theorem nondigit_length {a : List Chr} {x : Chr} (h : Nondigit a x) : 1 ≤ a.length := by
  cases h with
  | letter _ _ => exact Nat.le_refl 1
  | ucn hu =>
    obtain ⟨r, ha⟩ := ucn_head hu
    rw [ha]
    exact Nat.succ_le_succ (Nat.zero_le _)

theorem idTail_length {s cs : List Chr} (h : IdTail s cs) : cs.length ≤ s.length := by
  induction h with
  | nil => simp
  | digit hd _ ih => simpa using ih
  | nondigit hn _ ih =>
    have := nondigit_length hn
    simp
    omega

theorem bytes_append {enc : Mode → Chr → Option (List UInt8)} {m : Mode} {es es' : List Elem}
    {bs bs' : List UInt8} (h : Bytes enc m es bs) (h' : Bytes enc m es' bs') :
    Bytes enc m (es ++ es') (bs ++ bs') := by
  induction h with
  | nil => exact h'
  | cons he _ ih => rw [List.append_assoc]; exact .cons he ih

/-! ## Whitespace -/

theorem blanks_cases {a b : List Chr} (h : Blanks a b) : a = b ∨ ∃ c, Blank a c := by
  cases h with
  | nil => exact Or.inl rfl
  | cons hb _ => exact Or.inr ⟨_, hb⟩

theorem whitespace_none {c : Cursor} (h0 : 0 ∉ c.text) (hb : ∀ r, ¬ Blank c.text r)
    (hu : ¬ Unterminated c.text) : matchWhitespace c = some (.error .noMatch, c) := by
  rcases whitespaceRound_eq c h0 with ⟨m, k, -, -, h1, h2, hbs⟩ | ⟨e, -⟩ | ⟨c', t', -, hbs, hun⟩
  · rcases blanks_cases hbs with h | ⟨r, hr⟩
    · have := congrArg List.length h
      simp at this
      omega
    · exact absurd hr (hb r)
  · rw [matchWhitespace, bind_some e, if_pos rfl]
    rfl
  · rcases blanks_cases hbs with h | ⟨r, hr⟩
    · exact absurd (h ▸ hun) hu
    · exact absurd hr (hb r)

/-! ## Literals -/

theorem foldBytes_value (bs : List UInt8) : NarrowValue bs (foldBytes 0 bs) := by
  rintro b rfl
  have key : ∀ b : UInt8, (foldBytes 0 [b]).toInt =
      if b.toNat < 128 then (b.toNat : Int) else (b.toNat : Int) - 256 := by
    intro b
    have : ∀ n : Fin 256, (foldBytes 0 [UInt8.ofNat n.val]).toInt =
        if (UInt8.ofNat n.val).toNat < 128 then ((UInt8.ofNat n.val).toNat : Int)
        else ((UInt8.ofNat n.val).toNat : Int) - 256 := by decide +kernel
    have hb := this ⟨b.toNat, b.toNat_lt⟩
    simpa using hb
  exact key b

/-- A token that begins with an opening is read as it is spelled. -/
theorem literal_token {sc : StrCodec} (hg : GoodCodec sc) (t : Tries) {c : Cursor} (h0 : 0 ∉ c.text)
    {o s rest : List Chr} {τ : Token} (ho : o ∈ openings) (hos : o <+: s)
    (hsp : Spelled sc.encode s τ) (ht : c.text = s ++ rest)
    (hw : ∀ b es, s = str "L\"" ++ (b ++ str "\"") → Body (ch '"') b es →
      ∀ v, .code v ∈ es → v < 2 ^ 31) :
    ∃ τ', Spelled sc.encode s τ' ∧ ppToken sc t c = some (.ok τ', c.adv s.length) := by
  have hne : ∀ x r, c.text = x :: r → c.at 0 ≠ 0 := by
    intro x r h hz
    rw [at_cons h] at hz
    rw [h, hz] at h0
    exact h0 List.mem_cons_self
  cases hsp with
  | identifier hn htl _ =>
    refine (noQuote_opening (fun x hx => ?_) ho hos).elim
    rcases List.mem_append.1 hx with hx | hx
    · exact nondigit_noQuote hn x hx
    · exact idTail_noQuote htl x hx
  | number hd htl _ =>
    refine (noQuote_opening (fun x hx => ?_) ho hos).elim
    rcases List.mem_cons.1 hx with rfl | hx
    · exact digit_noQuote hd
    · exact numTail_noQuote htl x hx
  | dotNumber hd htl _ =>
    refine (noQuote_opening (fun x hx => ?_) ho hos).elim
    rcases List.mem_cons.1 hx with rfl | hx
    · decide
    rcases List.mem_cons.1 hx with rfl | hx
    · exact digit_noQuote hd
    · exact numTail_noQuote htl x hx
  | punctuator p => exact absurd hos (punct_opening p o ho)
  | @character s es bs v hb hn hs hv =>
    have ht' : c.text = ch '\'' :: (s ++ ch '\'' :: rest) := by rw [ht]; simp [str]
    refine ⟨_, .character hb hn hs (foldBytes_value bs), ?_⟩
    rw [ppToken, peek_bind, if_neg (hne _ _ ht'), orElse_ok (narrow_char hg hb hn hs ht')]
    congr 2
    congr 1
    simp [str]
  | @wideCharacter s es v hb hn hv =>
    have ht' : c.text = ch 'L' :: ch '\'' :: (s ++ ch '\'' :: rest) := by rw [ht]; simp [str]
    obtain ⟨w, e, hw'⟩ := char_wide (cd := sc.cd) hb hn (fun x hx => hv.1 x hx) ht'
    refine ⟨_, .wideCharacter hb hn ⟨hv.1, fun e he _ => hw' e he⟩, ?_⟩
    rw [ppToken, peek_bind, if_neg (hne _ _ ht'), orElse_ok e]
    congr 2
    congr 1
    simp [str]
  | @character16 s es v hb hn hv =>
    have ht' : c.text = ch 'u' :: ch '\'' :: (s ++ ch '\'' :: rest) := by rw [ht]; simp [str]
    obtain ⟨w, e, hw'⟩ := char_16 (cd := sc.cd) hb hn
      (fun x hx => Nat.lt_trans (hv.1 x hx) (by decide)) ht'
    refine ⟨.unicode16Char (w % 2 ^ 16), .character16 hb hn ⟨hv.1, fun e he hlt => ?_⟩, ?_⟩
    · rw [hw' e he]
      exact Nat.mod_eq_of_lt hlt
    rw [ppToken, peek_bind, if_neg (hne _ _ ht'), orElse_ok e]
    congr 2
    congr 1
    simp [str]
  | @character32 s es v hb hn hv =>
    have ht' : c.text = ch 'U' :: ch '\'' :: (s ++ ch '\'' :: rest) := by rw [ht]; simp [str]
    obtain ⟨w, e, hw'⟩ := char_32 (cd := sc.cd) hb hn (fun x hx => hv.1 x hx) ht'
    refine ⟨_, .character32 hb hn ⟨hv.1, fun e he _ => hw' e he⟩, ?_⟩
    rw [ppToken, peek_bind, if_neg (hne _ _ ht'), orElse_ok e]
    congr 2
    congr 1
    simp [str]
  | @string m s es bs hb hs =>
    have ht' : c.text = (stringPrefix m ++ str "\"") ++ (s ++ ch '"' :: rest) := by
      rw [ht]; simp [str]
    have hst := string_match hg hb hs
      (fun hm => hw s es (by subst hm; simp [stringPrefix, str]) hb) h0 ht'
    have hfirst : ∃ x y r, c.text = x :: r ∧ x ≠ ch '\'' ∧ isdigit x = false ∧ x ≠ ch '.' ∧
        (x = ch '"' ∨ (r.head?.getD 0 = y ∧ y ≠ ch '\'')) := by
      cases m with
      | multibyte => exact ⟨_, 0, _, ht', by decide, by decide, by decide, Or.inl rfl⟩
      | unicode8 => exact ⟨_, ch '8', _, ht', by decide, by decide, by decide, Or.inr ⟨rfl, by decide⟩⟩
      | unicode16 => exact ⟨_, ch '"', _, ht', by decide, by decide, by decide, Or.inr ⟨rfl, by decide⟩⟩
      | unicode32 => exact ⟨_, ch '"', _, ht', by decide, by decide, by decide, Or.inr ⟨rfl, by decide⟩⟩
      | wide => exact ⟨_, ch '"', _, ht', by decide, by decide, by decide, Or.inr ⟨rfl, by decide⟩⟩
    obtain ⟨x, y, r, hx, hx1, hx2, hx3, hx4⟩ := hfirst
    have hat := at_cons hx
    have hat1 : c.at 1 = r.head?.getD 0 := by
      simp [Cursor.at, hx, List.getD_eq_getElem?_getD]
      cases r <;> rfl
    refine ⟨_, .string hb hs, ?_⟩
    rw [ppToken, peek_bind, if_neg (hne _ _ hx), orElse_noMatch (char_none (by rw [hat]; exact hx1) ?_),
      orElse_noMatch (number_none (by rw [hat]; exact hx2) (fun h => hx3 (hat ▸ h.1))), orElse_ok hst]
    · congr 2
      congr 1
      simp [str]
      omega
    · rintro p hp ⟨h1, h2⟩
      rcases hx4 with h | ⟨h, h'⟩
      · rw [hat, h] at h1
        rw [← h1] at hp
        exact absurd hp (by decide)
      · rw [hat1, h] at h2
        exact h' h2

/-! ## The other tokens -/

theorem not_opening_two {c : Cursor} (h : ∀ o ∈ openings, ¬ o <+: c.text) :
    c.at 0 ≠ ch '\'' ∧ ∀ p ∈ str "LuU", ¬ (c.at 0 = p ∧ c.at 1 = ch '\'') := by
  constructor
  · intro hq
    obtain ⟨r, hr⟩ := text_cons (c := c) (by rw [hq]; decide)
    exact h (str "'") (by decide) ⟨r, by rw [hr, hq]; rfl⟩
  · rintro p hp ⟨h1, h2⟩
    have hp0 : p ≠ 0 := by rintro rfl; revert hp; decide
    have ho : [p, ch '\''] ∈ openings := by
      have : ∀ p ∈ str "LuU", [p, ch '\''] ∈ openings := by decide
      exact this p hp
    have ht := two_chars hp0 (by decide) ⟨h1, h2⟩
    obtain ⟨r, hr⟩ := ht
    exact h _ ho ⟨r, hr.symm⟩

theorem plain_token {sc : StrCodec} (hg : GoodCodec sc) {t : Tries} (htr : PunctTrie t) {c : Cursor}
    (h0 : 0 ∉ c.text) {s : List Chr} (hl : Longest sc.encode c.text s)
    (hno : ∀ o ∈ openings, ¬ o <+: c.text) (hd : ¬ DeadEnd c.text)
    (hbs : ¬ s ++ str "\\u" <+: c.text ∧ ¬ s ++ str "\\U" <+: c.text)
    (hid : (∃ bs, Spelled sc.encode s (.identifier bs)) → s.length ≤ 255) :
    ∃ τ', Spelled sc.encode s τ' ∧ ppToken sc t c = some (.ok τ', c.adv s.length) := by
  obtain ⟨⟨⟨rest, ht⟩, τ, hsp⟩, hmax⟩ := hl
  have ht := ht.symm
  have hsp' := hsp
  obtain ⟨hq0, hq1⟩ := not_opening_two hno
  have hne : ∀ x r, c.text = x :: r → c.at 0 ≠ 0 := by
    intro x r h hz
    rw [at_cons h] at hz
    rw [h, hz] at h0
    exact h0 List.mem_cons_self
  have hbs' : NoUcn rest := by
    constructor
    · intro h
      exact hbs.1 (by rw [ht]; exact (List.prefix_append_right_inj s).2 h)
    · intro h
      exact hbs.2 (by rw [ht]; exact (List.prefix_append_right_inj s).2 h)
  cases hsp with
  | @identifier a x s cs bs hn htl hb =>
    have hr : ∀ y r, rest = y :: r → ¬ IsNondigit y ∧ ¬ IsDigit 10 y := by
      rintro y r rfl
      have hext : ∀ (_ : IdTail [y] [y]) (_ : y < 128), False := by
        intro h1 h2
        have := hmax (a ++ (s ++ [y])) ⟨r, by rw [ht]; simp⟩
          ⟨_, .identifier hn (idTail_append htl h1)
            (by
              have := bytes_append hb (.cons (e := .chr y) (hg.ascii .multibyte y h2) .nil)
              unfold Encoded
              simpa using this)⟩
        simp at this
        exact absurd this (Nat.not_succ_le_self _)
      refine ⟨fun h => ?_, fun h => ?_⟩
      · exact hext (.nondigit (.letter y h) .nil) (identChar_lt (Or.inl h)).1
      · exact hext (.digit h .nil) (digit_facts h).1
    have hlen : cs.length < 255 := by
      have h1 := hid ⟨bs, .identifier hn htl hb⟩
      have h2 := idTail_length htl
      have h3 := nondigit_length hn
      simp at h1
      omega
    have hfirst : ∃ x r, c.text = x :: r ∧ isdigit x = false ∧ x ≠ ch '.' := by
      cases hn with
      | letter _ hx =>
        refine ⟨x, s ++ rest, by rw [ht]; rfl, ?_, ?_⟩
        · have key : ∀ y, isdigit y = true → ¬ IsNondigit y := by
            intro y hy
            have h2 : y ≤ 57 := ((isdigit_iff y).1 hy).2
            have : ∀ z : Nat, z ≤ 57 → ¬ IsNondigit z := by unfold IsNondigit; omega
            exact this y h2
          exact Bool.eq_false_iff.2 fun h => key x h hx
        · rintro rfl; revert hx; decide
      | ucn hu =>
        obtain ⟨r, ha⟩ := ucn_head hu
        exact ⟨ch '\\', _, by rw [ht, ha]; rfl, by decide, by decide⟩
    obtain ⟨y, r, hy, hy1, hy2⟩ := hfirst
    have hat := at_cons hy
    refine ⟨_, hsp', ?_⟩
    rw [ppToken, peek_bind, if_neg (hne _ _ hy), orElse_noMatch (char_none hq0 hq1),
      orElse_noMatch (number_none (by rw [hat]; exact hy1) (fun h => hy2 (hat ▸ h.1))),
      orElse_noMatch (string_none hno), orElse_ok (identifier_match hg hn htl hb hr hbs' hlen ht)]
  | @number d s cs bs hd' htl hb =>
    have hstop : NumStop sc.encode s rest := by
      intro s' cs' bs' h1 h2 h3
      cases hb with
      | cons he hs =>
      have := hmax (d :: s') (by rw [ht]; exact (List.prefix_append_right_inj [d]).2 h2)
        ⟨_, .number hd' h1 (.cons he h3)⟩
      simpa using this
    have ht' : c.text = d :: (s ++ rest) := ht
    have hat := at_cons ht'
    cases hb with
    | @cons _ _ b bs he hs =>
    have he' : sc.cd.enc d = some b := he
    have hloop := number_loop hg htl hbs' hstop hs b (c := c.adv 1) (by rw [Cursor.text_adv, ht']; rfl)
    have hm : matchPpNumber sc.cd c = some (.ok (.ppNumber (b ++ bs)), c.adv (d :: s).length) := by
      refine apply_ok ?_
      rw [scanPpNumber, peek_bind, peek_bind, hat, if_pos ((digit10_iff d).1 hd'), he']
      simp only
      rw [skip_bind (by rw [ht']; simp), bind_some hloop, pure_apply, Cursor.adv_adv]
      simp [Nat.add_comm]
    refine ⟨_, hsp', ?_⟩
    rw [ppToken, peek_bind, if_neg (hne _ _ ht'), orElse_noMatch (char_none hq0 hq1), orElse_ok hm]
  | @dotNumber d s cs bs hd' htl hb =>
    have hstop : NumStop sc.encode s rest := by
      intro s' cs' bs' h1 h2 h3
      cases hb with
      | cons he hs =>
      cases hs with
      | cons he2 hs =>
      have := hmax (ch '.' :: d :: s') (by rw [ht]; exact (List.prefix_append_right_inj [ch '.', d]).2 h2)
        ⟨_, .dotNumber hd' h1 (.cons he (.cons he2 h3))⟩
      simpa using this
    have ht' : c.text = ch '.' :: d :: (s ++ rest) := ht
    have hat := at_cons ht'
    have hat1 := at_cons1 ht'
    cases hb with
    | @cons _ _ b bs he hs =>
    cases hs with
    | @cons _ _ b2 bs he2 hs =>
    have he' : sc.cd.enc (ch '.') = some b := he
    have he2' : sc.cd.enc d = some b2 := he2
    have hloop := number_loop hg htl hbs' hstop hs (b ++ b2) (c := c.adv 2)
      (by rw [Cursor.text_adv, ht']; rfl)
    have hm : matchPpNumber sc.cd c =
        some (.ok (.ppNumber (b ++ (b2 ++ bs))), c.adv (ch '.' :: d :: s).length) := by
      refine apply_ok ?_
      rw [scanPpNumber, peek_bind, peek_bind, hat, hat1, if_neg (by decide),
        if_pos ⟨rfl, (digit10_iff d).1 hd'⟩, he', he2']
      simp only
      rw [skip_bind (by rw [ht']; simp), bind_some hloop, pure_apply, Cursor.adv_adv, List.append_assoc]
      congr 2
      congr 1
      simp
      omega
    refine ⟨_, hsp', ?_⟩
    rw [ppToken, peek_bind, if_neg (hne _ _ ht'), orElse_noMatch (char_none hq0 hq1), orElse_ok hm]
  | punctuator p =>
    obtain ⟨x, r, hx, -, hx1, hx2, hx3, -, -⟩ := punct_first p
    have ht' : c.text = x :: (r ++ rest) := by rw [ht, hx]; rfl
    have hat := at_cons ht'
    have hnum : ¬ (c.at 0 = ch '.' ∧ isdigit (c.at 1) = true) := by
      rintro ⟨h1, h2⟩
      have hd1 := (digit10_iff _).2 h2
      have hne1 : c.at 1 ≠ 0 := digit_ne_zero hd1
      obtain ⟨_, htt⟩ := two_chars (c := c) (by decide) hne1 ⟨h1, rfl⟩
      have hm2 := hmax [ch '.', c.at 1] ⟨_, htt.symm⟩
        ⟨_, .dotNumber hd1 .nil (.cons (hg.ascii .multibyte _ (by decide))
          (.cons (hg.ascii .multibyte _ (digit_facts hd1).1) .nil))⟩
      have hp2 : str ".." <+: p.spelling := by
        have hx' : x = ch '.' := by rw [← hat, h1]
        have : ∀ p : Punct, ch '.' = p.spelling.headD 0 → 2 ≤ p.spelling.length →
            str ".." <+: p.spelling := by intro p; cases p <;> decide
        refine this p (by rw [hx, hx']; rfl) hm2
      have h3 : str ".." <+: c.text := hp2.trans (by rw [ht]; exact List.prefix_append _ _)
      obtain ⟨r', hr'⟩ := h3
      have : c.at 1 = ch '.' := at_cons1 hr'.symm
      rw [this] at h2
      exact absurd h2 (by decide)
    refine ⟨_, hsp', ?_⟩
    rcases C08_longest_punctuator_partial t htr c hd with ⟨q, ⟨hq1', hq2⟩, hq⟩ | ⟨hn, -⟩
    · have h1 := hmax q.spelling hq1' ⟨_, .punctuator q⟩
      have h2 := hq2 p (by rw [ht]; exact List.prefix_append _ _)
      have hpq : q.spelling = p.spelling := by
        have hp : p.spelling <+: c.text := by rw [ht]; exact List.prefix_append _ _
        exact (List.prefix_of_prefix_length_le hq1' hp h1).eq_of_length (Nat.le_antisymm h1 h2)
      have hqp : q = p := by
        have inj : ∀ a ∈ puncts_all, ∀ b ∈ puncts_all, a.spelling = b.spelling → a = b := by
          decide +kernel
        have mem : ∀ a : Punct, a ∈ puncts_all := by intro a; cases a <;> decide
        exact inj q (mem q) p (mem p) hpq
      subst hqp
      rw [ppToken, peek_bind, if_neg (hne _ _ ht'), orElse_noMatch (char_none hq0 hq1),
        orElse_noMatch (number_none (by rw [hat]; exact hx2) hnum),
        orElse_noMatch (string_none hno),
        orElse_noMatch (identifier_none (by rw [hat]; exact hx1) (by rw [hat]; exact hx3)),
        orElse_ok hq]
    · exact absurd (by rw [ht]; exact List.prefix_append _ _) (hn p)
  | @character s es bs v hb hn hs hv =>
    exact absurd ⟨s ++ str "'" ++ rest, by rw [ht]; simp⟩ (hno (str "'") (by decide))
  | @wideCharacter s es v hb hn hv =>
    exact absurd ⟨s ++ str "'" ++ rest, by rw [ht]; simp⟩ (hno (str "L'") (by decide))
  | @character16 s es v hb hn hv =>
    exact absurd ⟨s ++ str "'" ++ rest, by rw [ht]; simp⟩ (hno (str "u'") (by decide))
  | @character32 s es v hb hn hv =>
    exact absurd ⟨s ++ str "'" ++ rest, by rw [ht]; simp⟩ (hno (str "U'") (by decide))
  | @string m s es bs hb hs =>
    refine absurd ⟨s ++ str "\"" ++ rest, by rw [ht]; simp⟩ (hno (stringPrefix m ++ str "\"") ?_)
    cases m <;> decide

end Kefir.PpToken
