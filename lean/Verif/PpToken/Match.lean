import Verif.PpToken.Literal
/-!
# The token matchers on the texts of the specification
-/

namespace Kefir.PpToken

open Kefir.Lexer

theorem apply_ok {α : Type} {x : Lex α} {c c' : Cursor} {a : α} (h : x c = some (.ok a, c')) :
    apply x c = some (.ok a, c') := by
  unfold apply
  rw [h]

theorem apply_no {α : Type} {x : Lex α} {c c' : Cursor} (h : x c = some (.error .noMatch, c')) :
    apply x c = some (.error .noMatch, c) := by
  unfold apply
  rw [h]

/-! ## Character constants -/

theorem narrow_char {sc : StrCodec} (hg : GoodCodec sc) {s rest : List Chr} {es : List Elem}
    {bs : List UInt8} (hb : Body (ch '\'') s es) (hn : es ≠ []) (hs : Bytes sc.encode .multibyte es bs)
    {c : Cursor} (ht : c.text = ch '\'' :: (s ++ ch '\'' :: rest)) :
    matchChar sc.cd c = some (.ok (.charConst (foldBytes 0 bs)), c.adv (s.length + 2)) := by
  refine apply_ok (orElse_ok ?_)
  have ht1 : (c.adv 1).text = s ++ ch '\'' :: rest := by rw [Cursor.text_adv, ht]; rfl
  obtain ⟨x, r, hx, hxq⟩ := body_head hb (by decide) hn
  have hx1 : (c.adv 1).at 0 = x := at_cons (by rw [ht1, hx]; rfl)
  have hl := narrow_loop hg hb hs 0 ht1
  have ht2 : ((c.adv 1).adv s.length).text = ch '\'' :: rest := by rw [Cursor.text_adv, ht1]; simp
  rw [matchNarrowChar, peek_bind, if_pos (at_cons ht), skip_bind (by rw [ht]; simp), peek_bind,
    hx1, if_pos hxq, bind_some hl, peek_bind, if_pos (at_cons ht2), skip_bind (by rw [ht2]; simp),
    pure_apply, Cursor.adv_adv, Cursor.adv_adv]
  congr 2
  congr 1
  omega

theorem prefixed_char {s rest : List Chr} {es : List Elem} (hb : Body (ch '\'') s es) (hn : es ≠ [])
    (hc : ∀ x, .code x ∈ es → x < 2 ^ 32) (p : Chr) (mk : Chr → Token) {c : Cursor}
    (ht : c.text = p :: ch '\'' :: (s ++ ch '\'' :: rest)) :
    ∃ w, matchPrefixedChar p mk c = some (.ok (mk w), c.adv (s.length + 3)) ∧
      ∀ e, es = [e] → w = e.value := by
  have ht1 : (c.adv 2).text = s ++ ch '\'' :: rest := by rw [Cursor.text_adv, ht]; rfl
  obtain ⟨x, r, hx, hxq⟩ := body_head hb (by decide) hn
  have hx1 : (c.adv 2).at 0 = x := at_cons (by rw [ht1, hx]; rfl)
  obtain ⟨w, hl, -, hw⟩ := wide_loop hb hc 0 ht1
  have ht2 : ((c.adv 2).adv s.length).text = ch '\'' :: rest := by rw [Cursor.text_adv, ht1]; simp
  have hscan : scanWideChar (c.adv 2) = some (.ok w, c.adv (s.length + 3)) := by
    rw [scanWideChar, peek_bind, hx1, if_pos hxq, bind_some hl, peek_bind, if_pos (at_cons ht2),
      skip_bind (by rw [ht2]; simp), pure_apply, Cursor.adv_adv, Cursor.adv_adv]
    congr 2
    congr 1
    omega
  refine ⟨w, ?_, hw⟩
  rw [matchPrefixedChar, peek_bind, peek_bind, if_pos ⟨at_cons ht, at_cons1 ht⟩,
    skip_bind (by rw [ht]; simp), bind_some hscan]
  rfl

theorem narrow_none {cd : Codec} {c : Cursor} (h : c.at 0 ≠ ch '\'') :
    matchNarrowChar cd c = some (.error .noMatch, c) := by
  rw [matchNarrowChar, peek_bind, if_neg h]
  rfl

theorem prefixed_none {p : Chr} {mk : Chr → Token} {c : Cursor} (h : ¬ (c.at 0 = p ∧ c.at 1 = ch '\'')) :
    matchPrefixedChar p mk c = some (.error .noMatch, c) := by
  rw [matchPrefixedChar, peek_bind, peek_bind, if_neg h]
  rfl

/-- No character constant. -/
theorem char_none {cd : Codec} {c : Cursor} (h0 : c.at 0 ≠ ch '\'')
    (h1 : ∀ p ∈ str "LuU", ¬ (c.at 0 = p ∧ c.at 1 = ch '\'')) :
    matchChar cd c = some (.error .noMatch, c) := by
  refine apply_no (c' := c) ?_
  rw [scanCharConst, orElse_noMatch (narrow_none h0), orElse_noMatch (prefixed_none (h1 _ (by decide))),
    orElse_noMatch (prefixed_none (h1 _ (by decide))), orElse_noMatch (prefixed_none (h1 _ (by decide)))]
  rfl

theorem char_wide {s rest : List Chr} {es : List Elem} {cd : Codec} (hb : Body (ch '\'') s es)
    (hn : es ≠ []) (hc : ∀ x, .code x ∈ es → x < 2 ^ 32) {c : Cursor}
    (ht : c.text = ch 'L' :: ch '\'' :: (s ++ ch '\'' :: rest)) :
    ∃ w, matchChar cd c = some (.ok (.wideChar w), c.adv (s.length + 3)) ∧
      ∀ e, es = [e] → w = e.value := by
  obtain ⟨w, e, hw⟩ := prefixed_char hb hn hc (ch 'L') .wideChar ht
  refine ⟨w, apply_ok ?_, hw⟩
  rw [scanCharConst, orElse_noMatch (narrow_none (by rw [at_cons ht]; decide)), orElse_ok e]

theorem char_16 {s rest : List Chr} {es : List Elem} {cd : Codec} (hb : Body (ch '\'') s es)
    (hn : es ≠ []) (hc : ∀ x, .code x ∈ es → x < 2 ^ 32) {c : Cursor}
    (ht : c.text = ch 'u' :: ch '\'' :: (s ++ ch '\'' :: rest)) :
    ∃ w, matchChar cd c = some (.ok (.unicode16Char (w % 2 ^ 16)), c.adv (s.length + 3)) ∧
      ∀ e, es = [e] → w = e.value := by
  obtain ⟨w, e, hw⟩ := prefixed_char hb hn hc (ch 'u') (fun v => .unicode16Char (v % 2 ^ 16)) ht
  refine ⟨w, apply_ok ?_, hw⟩
  rw [scanCharConst, orElse_noMatch (narrow_none (by rw [at_cons ht]; decide)),
    orElse_noMatch (prefixed_none (fun h => absurd ((at_cons ht).symm.trans h.1) (by decide))), orElse_ok e]

theorem char_32 {s rest : List Chr} {es : List Elem} {cd : Codec} (hb : Body (ch '\'') s es)
    (hn : es ≠ []) (hc : ∀ x, .code x ∈ es → x < 2 ^ 32) {c : Cursor}
    (ht : c.text = ch 'U' :: ch '\'' :: (s ++ ch '\'' :: rest)) :
    ∃ w, matchChar cd c = some (.ok (.unicode32Char w), c.adv (s.length + 3)) ∧
      ∀ e, es = [e] → w = e.value := by
  obtain ⟨w, e, hw⟩ := prefixed_char hb hn hc (ch 'U') .unicode32Char ht
  refine ⟨w, apply_ok ?_, hw⟩
  rw [scanCharConst, orElse_noMatch (narrow_none (by rw [at_cons ht]; decide)),
    orElse_noMatch (prefixed_none (fun h => absurd ((at_cons ht).symm.trans h.1) (by decide))),
    orElse_noMatch (prefixed_none (fun h => absurd ((at_cons ht).symm.trans h.1) (by decide))), orElse_ok e]

/-! ## String literals -/

theorem literal_sequence {sc : StrCodec} (hg : GoodCodec sc) {m : Mode} {pre s rest : List Chr}
    {es : List Elem} {bs : List UInt8} (hp : 0 ∉ pre) (hb : Body (ch '"') s es)
    (hs : Bytes sc.encode m es bs) (hw : m = .wide → ∀ v, .code v ∈ es → v < 2 ^ 31) {c : Cursor}
    (h0 : 0 ∉ c.text) (ht : c.text = pre ++ (s ++ ch '"' :: rest)) :
    literalSequence sc m pre [] false c =
      some (.ok (.ok (), bs), c.adv (pre.length + (s.length + 1))) := by
  have hpre : pre.isPrefixOf c.text = true := by
    rw [List.isPrefixOf_iff_prefix, ht]
    exact List.prefix_append _ _
  have hl := literal_loop hg hb hs hw [] (c := c.adv pre.length) (drop_no_zero h0 _)
    (rest := rest) (by rw [Cursor.text_adv, ht]; simp)
  have hm := matchString_zero pre hp c
  rw [hpre] at hm
  have hnext : nextLiteral sc m pre [] c =
      some (.ok (.ok (), bs), c.adv (pre.length + (s.length + 1))) := by
    rw [nextLiteral, bind_some hm, if_pos rfl, attempt_bind (skip_ok (by rw [ht]; simp))]
    simp only
    rw [hl, Cursor.adv_adv]
    rfl
  rw [literalSequence, bind_some hnext]
  rfl

theorem narrow_string_none {sc : StrCodec} {b : Bool} {c : Cursor} (h : c.at 0 ≠ ch '"') :
    narrowString sc b c = some (.error .noMatch, c) := by
  rw [narrowString, peek_bind, if_neg h]
  rfl

theorem prefixed_string_none {sc : StrCodec} {b : Bool} {m : Mode} {pre : List Chr} {c : Cursor}
    (hp : 0 ∉ pre) (h : ¬ pre <+: c.text) : prefixedString sc pre m b c = some (.error .noMatch, c) := by
  have hm := matchString_zero pre hp c
  rw [Bool.eq_false_iff.2 (fun hx => h (List.isPrefixOf_iff_prefix.1 hx))] at hm
  rw [prefixedString, bind_some hm, if_neg (by decide)]
  rfl

theorem prefixed_string {sc : StrCodec} (hg : GoodCodec sc) {m : Mode} {pre s rest : List Chr}
    {es : List Elem} {bs : List UInt8} (hp : 0 ∉ pre) (hb : Body (ch '"') s es)
    (hs : Bytes sc.encode m es bs) (hw : m = .wide → ∀ v, .code v ∈ es → v < 2 ^ 31) {c : Cursor}
    (h0 : 0 ∉ c.text) (ht : c.text = pre ++ (s ++ ch '"' :: rest)) :
    prefixedString sc pre m false c = some (.ok (.string m bs), c.adv (pre.length + (s.length + 1))) := by
  have hm := matchString_zero pre hp c
  have hpre : pre.isPrefixOf c.text = true := by
    rw [List.isPrefixOf_iff_prefix, ht]
    exact List.prefix_append _ _
  rw [hpre] at hm
  rw [prefixedString, bind_some hm, if_pos rfl, bind_some (literal_sequence hg hp hb hs hw h0 ht)]
  rfl

theorem not_prefix {a b t : List Chr} (h : b <+: t) (h1 : ¬ a <+: b) (h2 : ¬ b <+: a) : ¬ a <+: t := by
  intro h'
  rcases Nat.le_total a.length b.length with hl | hl
  · exact h1 (List.prefix_of_prefix_length_le h' h hl)
  · exact h2 (List.prefix_of_prefix_length_le h h' hl)

/-- A string literal is read as its bytes. -/
theorem string_match {sc : StrCodec} (hg : GoodCodec sc) {m : Mode} {s rest : List Chr}
    {es : List Elem} {bs : List UInt8} (hb : Body (ch '"') s es)
    (hs : Bytes sc.encode m es bs) (hw : m = .wide → ∀ v, .code v ∈ es → v < 2 ^ 31) {c : Cursor}
    (h0 : 0 ∉ c.text) (ht : c.text = (stringPrefix m ++ str "\"") ++ (s ++ ch '"' :: rest)) :
    matchStringLiteral sc false c = some (.ok (.string m bs),
      c.adv ((stringPrefix m ++ str "\"").length + (s.length + 1))) := by
  have hpre : stringPrefix m ++ str "\"" <+: c.text := by rw [ht]; exact List.prefix_append _ _
  refine apply_ok ?_
  unfold scanString
  cases m with
  | multibyte =>
    apply orElse_ok
    rw [narrowString, peek_bind, if_pos (at_cons (by rw [ht]; rfl)),
      bind_some (literal_sequence (pre := str "\"") hg (by decide) hb hs hw h0 ht)]
    rfl
  | unicode8 =>
    rw [orElse_noMatch (narrow_string_none (by rw [at_cons (by rw [ht]; rfl)]; decide)),
      orElse_ok (prefixed_string (pre := str "u8\"") hg (by decide) hb hs hw h0 ht)]
    rfl
  | unicode16 =>
    rw [orElse_noMatch (narrow_string_none (by rw [at_cons (by rw [ht]; rfl)]; decide)),
      orElse_noMatch (prefixed_string_none (by decide) (not_prefix hpre (by decide) (by decide))),
      orElse_ok (prefixed_string (pre := str "u\"") hg (by decide) hb hs hw h0 ht)]
    rfl
  | unicode32 =>
    rw [orElse_noMatch (narrow_string_none (by rw [at_cons (by rw [ht]; rfl)]; decide)),
      orElse_noMatch (prefixed_string_none (by decide) (not_prefix hpre (by decide) (by decide))),
      orElse_noMatch (prefixed_string_none (by decide) (not_prefix hpre (by decide) (by decide))),
      orElse_ok (prefixed_string (pre := str "U\"") hg (by decide) hb hs hw h0 ht)]
    rfl
  | wide =>
    rw [orElse_noMatch (narrow_string_none (by rw [at_cons (by rw [ht]; rfl)]; decide)),
      orElse_noMatch (prefixed_string_none (by decide) (not_prefix hpre (by decide) (by decide))),
      orElse_noMatch (prefixed_string_none (by decide) (not_prefix hpre (by decide) (by decide))),
      orElse_noMatch (prefixed_string_none (by decide) (not_prefix hpre (by decide) (by decide))),
      orElse_ok (prefixed_string (pre := str "L\"") hg (by decide) hb hs hw h0 ht)]
    rfl

theorem string_none {sc : StrCodec} {c : Cursor} (h : ∀ o ∈ openings, ¬ o <+: c.text) :
    matchStringLiteral sc false c = some (.error .noMatch, c) := by
  refine apply_no (c' := c) ?_
  have hq : c.at 0 ≠ ch '"' := by
    intro hq
    obtain ⟨r, hr⟩ := text_cons (c := c) (by rw [hq]; decide)
    exact h (str "\"") (by decide) ⟨r, by rw [hr, hq]; rfl⟩
  unfold scanString
  rw [orElse_noMatch (narrow_string_none hq),
    orElse_noMatch (prefixed_string_none (by decide) (h _ (by decide))),
    orElse_noMatch (prefixed_string_none (by decide) (h _ (by decide))),
    orElse_noMatch (prefixed_string_none (by decide) (h _ (by decide))),
    orElse_noMatch (prefixed_string_none (by decide) (h _ (by decide)))]
  rfl

/-! ## Identifiers -/

theorem nextUniversal_ok {a rest : List Chr} {v : Chr} (h : Ucn a v) {c : Cursor}
    (ht : c.text = a ++ rest) : nextUniversal c = some (.ok v, c.adv a.length) := by
  have hx : ∃ x r, a = ch '\\' :: x :: r ∧ (x = ch 'u' ∨ x = ch 'U') := by
    cases h with
    | short ds _ _ _ => exact ⟨_, ds, rfl, Or.inl rfl⟩
    | long ds _ _ _ => exact ⟨_, ds, rfl, Or.inr rfl⟩
  obtain ⟨x, r, ha, hx⟩ := hx
  have ht' : c.text = ch '\\' :: x :: (r ++ rest) := by rw [ht, ha]; rfl
  have h1 : c.at 1 = x := at_cons1 ht'
  have he := nextEscape_ok (ucn_escapeAt h rest) ht
  rw [Nat.mod_eq_of_lt (ucn_lt h), nextEscape, peek_bind, if_pos (at_cons ht'),
    orElse_noMatch (nextSimple_no (by rw [h1]; rcases hx with rfl | rfl <;> decide)),
    orElse_noMatch (nextOctal_no' (by rw [h1]; rcases hx with rfl | rfl <;> decide)),
    orElse_noMatch (nextHex_no (by rw [h1]; rcases hx with rfl | rfl <;> decide))] at he
  exact he

/-- The text does not begin like a universal character name. -/
def NoUcn (t : List Chr) : Prop := ¬ str "\\u" <+: t ∧ ¬ str "\\U" <+: t

theorem nextUniversal_stop {c : Cursor} (h : NoUcn c.text) :
    nextUniversal c = some (.error .noMatch, c) := by
  have key : ∀ x, x ≠ 0 → ¬ [ch '\\', x] <+: c.text → ¬ (c.at 0 = ch '\\' ∧ c.at 1 = x) := by
    intro x hx hn h'
    obtain ⟨r, hr⟩ := two_chars (by decide) hx h'
    exact hn ⟨r, hr.symm⟩
  rw [nextUniversal, peek_bind, peek_bind, if_neg (key (ch 'u') (by decide) h.1),
    if_neg (key (ch 'U') (by decide) h.2)]
  rfl

theorem noUcn_cons {x : Chr} {r : List Chr} (h : x ≠ ch '\\') : NoUcn (x :: r) := by
  constructor <;> (rintro ⟨r', hr⟩; injection hr with hr _; exact h hr.symm)

theorem noUcn_nil : NoUcn [] := by
  constructor <;> (rintro ⟨r', hr⟩; cases hr)

theorem nextUniversal_no {c : Cursor} (h : c.at 0 ≠ ch '\\') :
    nextUniversal c = some (.error .noMatch, c) := by
  refine nextUniversal_stop ?_
  cases ht : c.text with
  | nil => exact noUcn_nil
  | cons x r => exact noUcn_cons (by rw [at_cons ht] at h; exact h)

theorem ucn_head {a : List Chr} {v : Chr} (h : Ucn a v) : ∃ r, a = ch '\\' :: r := by
  cases h with
  | short ds _ _ _ => exact ⟨_, rfl⟩
  | long ds _ _ _ => exact ⟨_, rfl⟩

theorem scanNondigit_ok {a rest : List Chr} {x : Chr} (h : Nondigit a x) {c : Cursor}
    (ht : c.text = a ++ rest) : scanNondigit c = some (.ok x, c.adv a.length) := by
  cases h with
  | letter _ hx =>
    rw [scanNondigit, peek_bind, at_cons ht, if_pos ((isnondigit_iff x).2 hx),
      skip_bind (by rw [ht]; simp)]
    rfl
  | ucn hu =>
    obtain ⟨r, ha⟩ := ucn_head hu
    rw [scanNondigit, peek_bind, at_cons (by rw [ht, ha]; rfl), if_neg (by decide), nextUniversal_ok hu ht]

theorem scanIdDigit_nondigit {a rest : List Chr} {x : Chr} (h : Nondigit a x) {c : Cursor}
    (ht : c.text = a ++ rest) : scanIdDigit c = some (.ok x, c.adv a.length) := by
  have : isdigit (c.at 0) = false := by
    cases h with
    | letter _ hx =>
      rw [at_cons ht, Bool.eq_false_iff]
      intro hd
      have := (isdigit_iff x).1 hd
      have h2 : x ≤ 57 := this.2
      have key : ∀ y : Nat, y ≤ 57 → ¬ IsNondigit y := by
        unfold IsNondigit
        omega
      exact key x h2 hx
    | ucn hu =>
      obtain ⟨r, ha⟩ := ucn_head hu
      rw [at_cons (by rw [ht, ha]; rfl)]
      decide
  rw [scanIdDigit, peek_bind, if_neg (by rw [this]; decide), scanNondigit_ok h ht]

theorem scanIdDigit_end {c : Cursor} (hr : ∀ x r, c.text = x :: r → ¬ IsNondigit x ∧ ¬ IsDigit 10 x)
    (hu : NoUcn c.text) : scanIdDigit c = some (.error .noMatch, c) := by
  have h1 : isdigit (c.at 0) = false ∧ isnondigit (c.at 0) = false := by
    cases ht : c.text with
    | nil =>
      have : c.at 0 = 0 := by rw [at_zero, ht]; rfl
      rw [this]
      decide
    | cons x r =>
      rw [at_cons ht]
      obtain ⟨h1, h2⟩ := hr x r ht
      exact ⟨Bool.eq_false_iff.2 fun h => h2 ((digit10_iff x).2 h),
        Bool.eq_false_iff.2 fun h => h1 ((isnondigit_iff x).1 h)⟩
  rw [scanIdDigit, peek_bind, if_neg (by rw [h1.1]; decide), scanNondigit, peek_bind,
    if_neg (by rw [h1.2]; decide), nextUniversal_stop hu]

theorem identifier_loop {s cs : List Chr} (h : IdTail s cs) {rest : List Chr}
    (hr : ∀ x r, rest = x :: r → ¬ IsNondigit x ∧ ¬ IsDigit 10 x) (hu : NoUcn rest) (id : List Chr)
    (hl : id.length + cs.length ≤ 255) {c : Cursor} (ht : c.text = s ++ rest) :
    identifierLoop id c = some (.ok (id ++ cs), c.adv s.length) := by
  induction h generalizing id c with
  | nil =>
    rw [identifierLoop, attempt_bind (scanIdDigit_end (by rw [ht]; exact hr) (by rw [ht]; exact hu))]
    simp [pure_apply, Cursor.adv_zero]
  | @digit x s cs hx _ ih =>
    have hs : scanIdDigit c = some (.ok x, c.adv 1) := by
      rw [scanIdDigit, peek_bind, at_cons ht, if_pos ((digit10_iff x).1 hx),
        skip_bind (by rw [ht]; simp)]
      rfl
    rw [identifierLoop, attempt_bind hs]
    simp only
    rw [if_pos (by simp at hl; omega), ih (id ++ [x]) (by simp at hl ⊢; omega)
      (by rw [Cursor.text_adv, ht]; rfl), Cursor.adv_adv]
    simp [Nat.add_comm]
  | @nondigit a x s cs hx _ ih =>
    rw [List.append_assoc] at ht
    rw [identifierLoop, attempt_bind (scanIdDigit_nondigit hx ht)]
    simp only
    rw [if_pos (by simp at hl; omega), ih (id ++ [x]) (by simp at hl ⊢; omega)
      (by rw [Cursor.text_adv, ht]; simp), Cursor.adv_adv]
    simp

theorem nondigit_ne_zero {a : List Chr} {x : Chr} (h : Nondigit a x) : x ≠ 0 := by
  cases h with
  | letter _ hx => rintro rfl; revert hx; decide
  | ucn hu =>
    have hv : ValidUcn x := by cases hu <;> assumption
    rintro rfl
    revert hv
    decide

theorem digit_ne_zero {x : Chr} (h : IsDigit 10 x) : x ≠ 0 := by rintro rfl; revert h; decide

theorem idTail_ne_zero {s cs : List Chr} (h : IdTail s cs) : 0 ∉ cs := by
  induction h with
  | nil => simp
  | digit hx _ ih => simp [ih, Ne.symm (digit_ne_zero hx)]
  | nondigit hx _ ih => simp [ih, Ne.symm (nondigit_ne_zero hx)]

theorem encodeAll_of {sc : StrCodec} (hg : GoodCodec sc) {cs : List Chr} {bs : List UInt8} (h0 : 0 ∉ cs)
    (h : Encoded sc.encode cs bs) : encodeAll sc.cd (cs ++ [0]) = some (bs ++ [0]) ∧ 0 ∉ bs := by
  induction cs generalizing bs with
  | nil =>
    cases h
    have : sc.cd.enc 0 = some [0] := hg.ascii .multibyte 0 (by decide)
    simp [encodeAll, this]
  | cons x cs ih =>
    unfold Encoded at h
    rw [List.map_cons] at h
    cases h with
    | @cons _ _ b bs he hs =>
    have hx : x ≠ 0 := by rintro rfl; exact h0 List.mem_cons_self
    obtain ⟨h1, h2⟩ := ih (fun h => h0 (List.mem_cons_of_mem _ h)) hs
    have he' : sc.cd.enc x = some b := he
    refine ⟨?_, ?_⟩
    · rw [List.cons_append, encodeAll, he', h1]
      simp
    · simp [h2, hg.noZero x b hx he']

/-- An identifier is read to its end. -/
theorem identifier_match {sc : StrCodec} (hg : GoodCodec sc) {a s cs rest : List Chr} {x : Chr}
    {bs : List UInt8} (h : Nondigit a x) (hs : IdTail s cs) (hb : Encoded sc.encode (x :: cs) bs)
    (hr : ∀ x r, rest = x :: r → ¬ IsNondigit x ∧ ¬ IsDigit 10 x) (hu : NoUcn rest)
    (hl : cs.length < 255) {c : Cursor} (ht : c.text = (a ++ s) ++ rest) :
    matchIdentifier sc.cd c = some (.ok (.identifier bs), c.adv (a ++ s).length) := by
  rw [List.append_assoc] at ht
  have h1 := scanNondigit_ok h ht
  have h2 := identifier_loop hs hr hu [x] (by simp; omega) (c := c.adv a.length)
    (by rw [Cursor.text_adv, ht]; simp)
  have hz : 0 ∉ x :: cs := by
    simp [Ne.symm (nondigit_ne_zero h), idTail_ne_zero hs]
  obtain ⟨h3, h4⟩ := encodeAll_of hg hz hb
  refine apply_ok ?_
  rw [scanIdentifier, bind_some h1, bind_some h2]
  simp only
  rw [show [x] ++ cs ++ [0] = x :: cs ++ [0] from rfl, h3]
  simp only
  rw [takeWhile_append_zero bs (fun b hb h => h4 (h ▸ hb)), pure_apply, Cursor.adv_adv]
  simp

theorem identifier_none {cd : Codec} {c : Cursor} (h1 : isnondigit (c.at 0) = false)
    (h2 : c.at 0 ≠ ch '\\') : matchIdentifier cd c = some (.error .noMatch, c) := by
  refine apply_no (c' := c) ?_
  have : scanNondigit c = some (.error .noMatch, c) := by
    rw [scanNondigit, peek_bind, if_neg (by rw [h1]; decide), nextUniversal_no h2]
  rw [scanIdentifier, bind_err this]

/-! ## Numbers -/

theorem numTail_head {x : Chr} {s cs : List Chr} (h : NumTail (x :: s) cs) : x ≠ ch '+' ∧ x ≠ ch '-' := by
  generalize hs : x :: s = t at h
  cases h with
  | nil => cases hs
  | digit hx _ =>
    injection hs with h1 _
    subst h1
    constructor <;> (rintro rfl; revert hx; decide)
  | nondigit hx _ =>
    cases hx with
    | letter _ hx =>
      injection hs with h1 _
      subst h1
      constructor <;> (rintro rfl; revert hx; decide)
    | ucn hu =>
      obtain ⟨r, ha⟩ := ucn_head hu
      rw [ha] at hs
      injection hs with h1 _
      subst h1
      decide
  | exponent he _ _ =>
    injection hs with h1 _
    subst h1
    constructor <;> (rintro rfl; revert he; decide)
  | dot _ =>
    injection hs with h1 _
    subst h1
    decide

/-- The longest continuation of a number. -/
def NumStop (enc : Mode → Chr → Option (List UInt8)) (s rest : List Chr) : Prop :=
  ∀ s' cs' bs', NumTail s' cs' → s' <+: s ++ rest → Encoded enc cs' bs' → s'.length ≤ s.length

theorem ascii_encoded {sc : StrCodec} (hg : GoodCodec sc) {x : Chr} (h : x < 128) :
    sc.cd.enc x = some (littleEndian 1 x) := hg.ascii .multibyte x h

theorem NumStop.tail {sc : StrCodec} {a s rest : List Chr} {x : Chr}
    {b : List UInt8} (h : NumStop sc.encode (a ++ s) rest) (hb : sc.cd.enc x = some b)
    (hext : ∀ s' cs', NumTail s' cs' → NumTail (a ++ s') (x :: cs')) : NumStop sc.encode s rest := by
  intro s' cs' bs' ht hp he
  have := h (a ++ s') (x :: cs') (b ++ bs') (hext s' cs' ht)
    (by rw [List.append_assoc]; exact (List.prefix_append_right_inj a).2 hp) (.cons hb he)
  simp at this
  exact this

theorem exp_facts : ∀ e ∈ str "eEpP", e < 128 ∧ isnondigit e = true ∧
    (e = ch 'e' ∨ e = ch 'E' ∨ e = ch 'p' ∨ e = ch 'P') := by decide
theorem sign_facts : ∀ g ∈ str "+-", g < 128 ∧ (g = ch '+' ∨ g = ch '-') := by decide

theorem digit_facts {x : Chr} (h : IsDigit 10 x) : x < 128 ∧
    ¬ (x = ch 'e' ∨ x = ch 'E' ∨ x = ch 'p' ∨ x = ch 'P') := by
  have h' := (isdigit_iff x).1 ((digit10_iff x).1 h)
  have h1 : 48 ≤ x := h'.1
  have h2 : x ≤ 57 := h'.2
  refine ⟨Nat.lt_of_le_of_lt h2 (by decide), ?_⟩
  rintro (rfl | rfl | rfl | rfl) <;> revert h2 <;> decide

theorem number_loop {sc : StrCodec} (hg : GoodCodec sc) {s cs : List Chr} (h : NumTail s cs)
    {rest : List Chr} (hr : NoUcn rest) (hmax : NumStop sc.encode s rest)
    {bs : List UInt8} (hb : Encoded sc.encode cs bs) (acc : List UInt8) {c : Cursor}
    (ht : c.text = s ++ rest) :
    ppNumberLoop sc.cd acc c = some (.ok (acc ++ bs), c.adv s.length) := by
  induction h generalizing acc c bs with
  | nil =>
    cases hb
    have hone : ∀ x, (IsDigit 10 x ∨ IsNondigit x ∨ x = ch '.') → ∀ r, rest ≠ x :: r := by
      rintro x hx r rfl
      have hlt : x < 128 := by
        rcases hx with hx | hx | rfl
        · exact (digit_facts hx).1
        · exact (identChar_lt (Or.inl hx)).1
        · decide
      have := hmax [x] [x] (littleEndian 1 x ++ [])
        (by
          rcases hx with hx | hx | rfl
          · exact .digit hx .nil
          · exact .nondigit (.letter x hx) .nil
          · exact .dot .nil) ⟨r, rfl⟩ (.cons (ascii_encoded hg hlt) .nil)
      simp at this
    have htwo : ¬ ((c.at 0 = ch 'e' ∨ c.at 0 = ch 'E' ∨ c.at 0 = ch 'p' ∨ c.at 0 = ch 'P') ∧
        (c.at 1 = ch '+' ∨ c.at 1 = ch '-')) := by
      rintro ⟨h0, -⟩
      have hne : c.at 0 ≠ 0 := by rcases h0 with h | h | h | h <;> rw [h] <;> decide
      obtain ⟨r, hr⟩ := text_cons hne
      rw [ht] at hr
      refine hone (c.at 0) (Or.inr (Or.inl ?_)) r hr
      rcases h0 with h | h | h | h <;> rw [h] <;> decide
    have hstop : ¬ (isdigit (c.at 0) = true ∨ isnondigit (c.at 0) = true ∨ c.at 0 = ch '.') := by
      intro h0
      have hne : c.at 0 ≠ 0 := by
        intro hz
        rw [hz] at h0
        revert h0; decide
      obtain ⟨r, hr⟩ := text_cons hne
      rw [ht] at hr
      refine hone (c.at 0) ?_ r hr
      rcases h0 with h | h | h
      · exact Or.inl ((digit10_iff _).2 h)
      · exact Or.inr (Or.inl ((isnondigit_iff _).1 h))
      · exact Or.inr (Or.inr h)
    rw [ppNumberLoop, peek_bind, peek_bind, if_neg htwo, if_neg hstop, 
      attempt_bind (nextUniversal_stop (by rw [ht]; exact hr))]
    simp [pure_apply, Cursor.adv_zero]
  | @digit x s cs hx htail ih =>
    cases hb with
    | @cons _ _ b bs he hs =>
    have he' : sc.cd.enc x = some b := he
    have := ih (hmax.tail (a := [x]) he' fun _ _ h => .digit hx h) hs (acc ++ b) (c := c.adv 1)
      (by rw [Cursor.text_adv, ht]; rfl)
    rw [ppNumberLoop, peek_bind, peek_bind, at_cons ht, if_neg (fun h => (digit_facts hx).2 h.1),
      if_pos (Or.inl ((digit10_iff x).1 hx)), he']
    simp only
    rw [skip_bind (by rw [ht]; simp), this, Cursor.adv_adv]
    simp [Nat.add_comm]
  | @nondigit a x s cs hx htail ih =>
    cases hb with
    | @cons _ _ b bs he hs =>
    have he' : sc.cd.enc x = some b := he
    have hrec := ih (hmax.tail he' fun _ _ h => .nondigit hx h) hs (acc ++ b) (c := c.adv a.length)
      (by rw [Cursor.text_adv, ht]; simp)
    cases hx with
    | letter _ hx =>
      have hno : ¬ ((x = ch 'e' ∨ x = ch 'E' ∨ x = ch 'p' ∨ x = ch 'P') ∧
          (c.at 1 = ch '+' ∨ c.at 1 = ch '-')) := by
        rintro ⟨h0, h1⟩
        have hxm : x ∈ str "eEpP" := by rcases h0 with rfl | rfl | rfl | rfl <;> decide
        cases s with
        | cons y s =>
          have : c.at 1 = y := at_cons1 ht
          rw [this] at h1
          have := numTail_head htail
          rcases h1 with h | h
          · exact this.1 h
          · exact this.2 h
        | nil =>
          have hne : c.at 1 ≠ 0 := by rcases h1 with h | h <;> rw [h] <;> decide
          have hg1 : c.at 1 ∈ str "+-" := by rcases h1 with h | h <;> rw [h] <;> decide
          have hat : (c.adv 1).at 0 = c.at 1 := by rw [Cursor.at_adv]
          obtain ⟨r, hr'⟩ := text_cons (c := c.adv 1) (by rw [hat]; exact hne)
          rw [hat, Cursor.text_adv, ht] at hr'
          simp only [List.singleton_append, List.drop_succ_cons, List.drop_zero,
            List.append_nil] at hr'
          have hlen := hmax [x, c.at 1] [x, c.at 1] _ (.exponent hxm hg1 .nil)
            ⟨r, by rw [hr']; rfl⟩
            (.cons (ascii_encoded hg (exp_facts x hxm).1)
              (.cons (ascii_encoded hg (sign_facts _ hg1).1) .nil))
          simp at hlen
      rw [ppNumberLoop, peek_bind, peek_bind, at_cons ht, if_neg hno,
        if_pos (Or.inr (Or.inl ((isnondigit_iff x).2 hx))), he']
      simp only
      have hrec' : ppNumberLoop sc.cd (acc ++ b) (c.adv 1) = _ := hrec
      rw [skip_bind (by rw [ht]; simp), hrec', Cursor.adv_adv]
      simp [Nat.add_comm]
    | ucn hu =>
      obtain ⟨r, ha⟩ := ucn_head hu
      rw [List.append_assoc] at ht
      have h0 : c.at 0 = ch '\\' := at_cons (by rw [ht, ha]; rfl)
      rw [ppNumberLoop, peek_bind, peek_bind, h0, if_neg (fun h => absurd h.1 (by decide)),
        if_neg (by decide), attempt_bind (nextUniversal_ok hu ht)]
      simp only
      rw [he']
      simp only
      rw [hrec, Cursor.adv_adv]
      simp
  | @exponent e g s cs he hg' htail ih =>
    cases hb with
    | @cons _ _ b1 bs hb1 hs =>
    cases hs with
    | @cons _ _ b2 bs hb2 hs =>
    have hb1' : sc.cd.enc e = some b1 := hb1
    have hb2' : sc.cd.enc g = some b2 := hb2
    have hstop : NumStop sc.encode s rest := by
      intro s' cs' bs' ht' hp hen
      have := hmax (e :: g :: s') (e :: g :: cs') _ (.exponent he hg' ht')
        ((List.prefix_append_right_inj [e, g]).2 hp) (.cons hb1 (.cons hb2 hen))
      simp at this
      exact this
    have hrec := ih hstop hs (acc ++ b1 ++ b2) (c := c.adv 2) (by rw [Cursor.text_adv, ht]; rfl)
    rw [ppNumberLoop, peek_bind, peek_bind, at_cons ht, at_cons1 ht,
      if_pos ⟨(exp_facts e he).2.2, (sign_facts g hg').2⟩, hb1', hb2']
    simp only
    rw [skip_bind (by rw [ht]; simp), hrec, Cursor.adv_adv]
    simp only [List.append_assoc, List.length_cons]
    congr 2
    congr 1
    omega
  | @dot s cs htail ih =>
    cases hb with
    | @cons _ _ b bs he hs =>
    have he' : sc.cd.enc (ch '.') = some b := he
    have := ih (hmax.tail (a := [ch '.']) he' fun _ _ h => .dot h) hs (acc ++ b) (c := c.adv 1)
      (by rw [Cursor.text_adv, ht]; rfl)
    rw [ppNumberLoop, peek_bind, peek_bind, at_cons ht, if_neg (fun h => absurd h.1 (by decide)),
      if_pos (Or.inr (Or.inr rfl)), he']
    simp only
    rw [skip_bind (by rw [ht]; simp), this, Cursor.adv_adv]
    simp [Nat.add_comm]

theorem number_none {cd : Codec} {c : Cursor} (h1 : isdigit (c.at 0) = false)
    (h2 : ¬ (c.at 0 = ch '.' ∧ isdigit (c.at 1) = true)) :
    matchPpNumber cd c = some (.error .noMatch, c) := by
  refine apply_no (c' := c) ?_
  rw [scanPpNumber, peek_bind, peek_bind, if_neg (by rw [h1]; decide), if_neg h2]
  rfl

end Kefir.PpToken
