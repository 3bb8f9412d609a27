import Verif.PpToken.FormatText
/-!
# Printed tokens are read back (lemmas for C79)
-/

namespace Kefir.PpToken

open Kefir.Lexer

theorem opening_chars : ∀ o ∈ openings, o = o.dropLast ++ [o.getLastD 0] ∧
    (∀ y ∈ o.dropLast, IsNondigit y ∨ IsDigit 10 y) ∧ (o.getLastD 0 = 39 ∨ o.getLastD 0 = 34) := by decide

/-- No literal begins with an identifier that is not its prefix. -/
theorem identifier_no_opening {s rest : List Chr} (hs : ∀ x ∈ s, IsNondigit x ∨ IsDigit 10 x)
    (hr : ∀ x r, rest = x :: r → ¬ IsNondigit x ∧ ¬ IsDigit 10 x ∧ s ++ [x] ∉ openings) :
    ∀ o ∈ openings, ¬ o <+: s ++ rest := by
  intro o ho h
  obtain ⟨h1, h2, h3⟩ := opening_chars o ho
  rcases Nat.le_total o.length s.length with hl | hl
  · have hp := List.prefix_of_prefix_length_le h (List.prefix_append s rest) hl
    have hm : o.getLastD 0 ∈ s := hp.subset (by rw [h1]; simp)
    obtain ⟨-, -, -, -, g1, g2⟩ := graphic_id (hs _ hm)
    exact h3.elim g1 g2
  · obtain ⟨u, hu⟩ := List.prefix_of_prefix_length_le (List.prefix_append s rest) h hl
    have hur : u <+: rest := by
      rw [← hu] at h
      exact (List.prefix_append_right_inj s).1 h
    cases u with
    | nil =>
      rw [List.append_nil] at hu
      have hm : o.getLastD 0 ∈ s := by rw [hu, h1]; simp
      obtain ⟨-, -, -, -, g1, g2⟩ := graphic_id (hs _ hm)
      exact h3.elim g1 g2
    | cons x u =>
      obtain ⟨r, hr'⟩ := hur
      obtain ⟨g1, g2, g3⟩ := hr x (u ++ r) hr'.symm
      cases u with
      | nil => exact g3 (by rw [hu]; exact ho)
      | cons y u =>
        have hm : x ∈ o.dropLast := by
          rw [← hu, List.dropLast_append_of_ne_nil (by simp)]
          simp
        rcases h2 x hm with h | h
        · exact g1 h
        · exact g2 h

theorem encoded_ascii {sc : StrCodec} (hg : GoodCodec sc) (bs : List UInt8)
    (h : ∀ b ∈ bs, b.toNat < 128) : Encoded sc.encode (chars bs) bs := by
  induction bs with
  | nil => exact .nil
  | cons b bs ih =>
    have hb := h b List.mem_cons_self
    refine Bytes.cons (b := [b]) ?_ (ih (fun x hx => h x (List.mem_cons_of_mem _ hx)))
    show sc.encode .multibyte b.toNat = _
    rw [hg.ascii .multibyte _ hb, show unitSize .multibyte = 1 from rfl, byte_value (by omega)]
    simp

theorem ascii_bytes {bs : List UInt8} (h : ∀ x ∈ chars bs, Graphic x) : ∀ b ∈ bs, b.toNat < 128 := by
  intro b hb
  have := h b.toNat (List.mem_map_of_mem hb)
  unfold Graphic at this
  omega

theorem idTail_self {s : List Chr} (h : ∀ x ∈ s, IsNondigit x ∨ IsDigit 10 x) : IdTail s s := by
  induction s with
  | nil => exact .nil
  | cons x s ih =>
    have ih := ih (fun y hy => h y (List.mem_cons_of_mem _ hy))
    rcases h x List.mem_cons_self with hx | hx
    · exact .nondigit (.letter x hx) ih
    · exact .digit hx ih

/-- What stands in front of the characters of a number. -/
theorem numTail_at {t cs u v : List Chr} {x : Chr} (h : NumTail t cs) (ht : t = u ++ x :: v) :
    IsNondigit x ∨ IsDigit 10 x ∨ x = ch '.' ∨ x = ch '\\' ∨
    (x ∈ str "+-" ∧ ∃ e ∈ str "eEpP", u.getLast? = some e) ∨ IsDigit 16 x := by
  have lastCons : ∀ {a : List Chr} {u' : List Chr} {e : Chr}, u'.getLast? = some e →
      (a ++ u').getLast? = some e := by
    intro a u' e h
    rw [List.getLast?_append, h]; rfl
  induction h generalizing u with
  | nil => simp at ht
  | @digit c s cs hd _ ih =>
    cases u with
    | nil => injection ht with h1 _; exact Or.inr (Or.inl (h1 ▸ hd))
    | cons y u =>
      injection ht with h1 h2
      rcases ih h2 with h | h | h | h | ⟨h, e, he, hl⟩ | h
      · exact Or.inl h
      · exact Or.inr (Or.inl h)
      · exact Or.inr (Or.inr (Or.inl h))
      · exact Or.inr (Or.inr (Or.inr (Or.inl h)))
      · exact Or.inr (Or.inr (Or.inr (Or.inr (Or.inl ⟨h, e, he, lastCons (a := [y]) hl⟩))))
      · exact Or.inr (Or.inr (Or.inr (Or.inr (Or.inr h))))
  | @nondigit a c s cs ha _ ih =>
    rcases List.append_eq_append_iff.1 ht with ⟨w, h1, h2⟩ | ⟨w, h1, h2⟩
    · rcases ih h2 with h | h | h | h | ⟨h, e, he, hl⟩ | h
      · exact Or.inl h
      · exact Or.inr (Or.inl h)
      · exact Or.inr (Or.inr (Or.inl h))
      · exact Or.inr (Or.inr (Or.inr (Or.inl h)))
      · exact Or.inr (Or.inr (Or.inr (Or.inr (Or.inl ⟨h, e, he, by rw [h1]; exact lastCons hl⟩))))
      · exact Or.inr (Or.inr (Or.inr (Or.inr (Or.inr h))))
    · cases w with
      | nil =>
        rcases ih (u := []) (by simpa using h2.symm) with h | h | h | h | ⟨h, e, he, hl⟩ | h
        · exact Or.inl h
        · exact Or.inr (Or.inl h)
        · exact Or.inr (Or.inr (Or.inl h))
        · exact Or.inr (Or.inr (Or.inr (Or.inl h)))
        · cases hl
        · exact Or.inr (Or.inr (Or.inr (Or.inr (Or.inr h))))
      | cons y w =>
        injection h2 with h2 _
        have hx : x ∈ a := by rw [h1, h2]; simp
        cases ha with
        | letter _ hc => rw [List.mem_singleton.1 hx]; exact Or.inl hc
        | ucn hu =>
          cases hu with
          | short ds _ hd _ =>
            rcases List.mem_cons.1 hx with rfl | hx
            · exact Or.inr (Or.inr (Or.inr (Or.inl rfl)))
            rcases List.mem_cons.1 hx with rfl | hx
            · exact Or.inl (by decide)
            · exact Or.inr (Or.inr (Or.inr (Or.inr (Or.inr (hd x hx)))))
          | long ds _ hd _ =>
            rcases List.mem_cons.1 hx with rfl | hx
            · exact Or.inr (Or.inr (Or.inr (Or.inl rfl)))
            rcases List.mem_cons.1 hx with rfl | hx
            · exact Or.inl (by decide)
            · exact Or.inr (Or.inr (Or.inr (Or.inr (Or.inr (hd x hx)))))
  | @exponent e g s cs he hg _ ih =>
    cases u with
    | nil =>
      injection ht with h1 _
      exact Or.inl (h1 ▸ (isnondigit_iff _).1 (exp_facts _ he).2.1)
    | cons y u =>
      injection ht with h1 h2
      cases u with
      | nil =>
        injection h2 with h2 _
        exact Or.inr (Or.inr (Or.inr (Or.inr (Or.inl ⟨h2 ▸ hg, e, he, by rw [h1]; rfl⟩))))
      | cons z u =>
        injection h2 with _ h3
        rcases ih h3 with h | h | h | h | ⟨h, e, he, hl⟩ | h
        · exact Or.inl h
        · exact Or.inr (Or.inl h)
        · exact Or.inr (Or.inr (Or.inl h))
        · exact Or.inr (Or.inr (Or.inr (Or.inl h)))
        · exact Or.inr (Or.inr (Or.inr (Or.inr (Or.inl ⟨h, e, he, lastCons (a := [y, z]) hl⟩))))
        · exact Or.inr (Or.inr (Or.inr (Or.inr (Or.inr h))))
  | @dot s cs _ ih =>
    cases u with
    | nil => injection ht with h1 _; exact Or.inr (Or.inr (Or.inl h1.symm))
    | cons y u =>
      injection ht with h1 h2
      rcases ih h2 with h | h | h | h | ⟨h, e, he, hl⟩ | h
      · exact Or.inl h
      · exact Or.inr (Or.inl h)
      · exact Or.inr (Or.inr (Or.inl h))
      · exact Or.inr (Or.inr (Or.inr (Or.inl h)))
      · exact Or.inr (Or.inr (Or.inr (Or.inr (Or.inl ⟨h, e, he, lastCons (a := [y]) hl⟩))))
      · exact Or.inr (Or.inr (Or.inr (Or.inr (Or.inr h))))

theorem digit16_id {x : Nat} (h : IsDigit 16 x) : IsNondigit x ∨ IsDigit 10 x := by
  have h' : 48 ≤ x ∧ x ≤ 57 ∨ 97 ≤ x ∧ x ≤ 102 ∨ 65 ≤ x ∧ x ≤ 70 := h.1
  by_cases hd : 48 ≤ x ∧ x ≤ 57
  · exact Or.inr ((digit10_iff x).2 ((isdigit_iff x).2 hd))
  · left; unfold IsNondigit; omega

/-- A number ends where nothing continues it. -/
theorem number_stop {enc : Mode → Chr → Option (List UInt8)} {s rest : List Chr} {bs : List UInt8}
    {p : List Chr} (hbs : chars bs = p ++ s)
    (hr : ∀ x r, rest = x :: r → ¬ Continues (.ppNumber bs) x ∧ x ≠ ch '\\') : NumStop enc s rest := by
  intro s' cs' bs' hn hp _
  rcases Nat.le_total s'.length s.length with hl | hl
  · exact hl
  · obtain ⟨u, hu⟩ := List.prefix_of_prefix_length_le (List.prefix_append s rest) hp hl
    cases u with
    | nil => rw [← hu]; simp
    | cons x u =>
      have hur : x :: u <+: rest := by
        rw [← hu] at hp
        exact (List.prefix_append_right_inj s).1 hp
      obtain ⟨r, hr'⟩ := hur
      obtain ⟨h1, h2⟩ := hr x (u ++ r) hr'.symm
      exfalso
      rcases numTail_at hn hu.symm with h | h | h | h | ⟨h, e, he, hl⟩ | h
      · exact h1 (Or.inl h)
      · exact h1 (Or.inr (Or.inl h))
      · exact h1 (Or.inr (Or.inr (Or.inl h)))
      · exact h2 h
      · refine h1 (Or.inr (Or.inr (Or.inr ⟨h, e, he, ?_⟩)))
        rw [show List.map UInt8.toNat bs = p ++ s from hbs, List.getLast?_append, hl]
        rfl
      · rcases digit16_id h with h | h
        · exact h1 (Or.inl h)
        · exact h1 (Or.inr (Or.inl h))

/-- The first character of a literal. -/
theorem opening_first : ∀ o ∈ openings, ∀ x, o.head? = some x → x ∈ str "'\"LuU" := by decide

theorem first_no_opening {x : Chr} {r : List Chr} (h : x ∉ str "'\"LuU") :
    ∀ o ∈ openings, ¬ o <+: x :: r := by
  intro o ho hp
  cases o with
  | nil => exact absurd ho (by decide)
  | cons y o =>
    obtain ⟨q, hq⟩ := hp
    injection hq with hq _
    exact h (hq ▸ opening_first _ ho y rfl)

theorem digit_first {d : Chr} (h : IsDigit 10 d) : d ∉ str "'\"LuU" := by
  intro hd
  have : ∀ x ∈ str "'\"LuU", ¬ IsDigit 10 x := by decide
  exact this d hd h

/-- A string literal is read as a string literal. -/
theorem string_token {sc : StrCodec} (hg : GoodCodec sc) (t : Tries) {m : Mode} {s rest : List Chr}
    {es : List Elem} {bs : List UInt8} (h3 : Body (ch '"') s es)
    (h4 : Bytes sc.encode m es bs) (h5 : m = .wide → ∀ v, .code v ∈ es → v < 2 ^ 31) {c : Cursor}
    (h0 : 0 ∉ c.text) (ht' : c.text = (stringPrefix m ++ str "\"") ++ (s ++ ch '"' :: rest)) :
    ppToken sc t c = some (.ok (.string m bs),
      c.adv ((stringPrefix m ++ str "\"").length + (s.length + 1))) := by
  have hne : ∀ x r, c.text = x :: r → c.at 0 ≠ 0 := by
    intro x r h hz
    rw [at_cons h] at hz
    rw [h, hz] at h0
    exact h0 List.mem_cons_self
  have hm := string_match hg h3 h4 h5 h0 ht'
  have hq : stringPrefix m ++ str "\"" <+: c.text := by rw [ht']; exact List.prefix_append _ _
  have hc : matchChar sc.cd c = some (.error .noMatch, c) := by
    refine char_none ?_ ?_
    · rw [at_zero, ht']; cases m <;> simp [stringPrefix, str, ch]
    · rintro p hp ⟨h1, h2⟩
      have hp0 : p ≠ 0 := by rintro rfl; revert hp; decide
      have hp2 : [p, ch '\''] <+: c.text := by
        obtain ⟨r, hr⟩ := two_chars hp0 (by decide) ⟨h1, h2⟩
        exact ⟨r, hr.symm⟩
      refine not_prefix hq ?_ ?_ hp2
      · have : ∀ p ∈ str "LuU", ∀ m : Mode, ¬ [p, ch '\''] <+: stringPrefix m ++ str "\"" := by
          intro p hp m
          revert p
          cases m <;> decide
        exact this p hp m
      · have : ∀ p ∈ str "LuU", ∀ m : Mode, ¬ stringPrefix m ++ str "\"" <+: [p, ch '\''] := by
          intro p hp m
          revert p
          cases m <;> decide
        exact this p hp m
  have hnum : matchPpNumber sc.cd c = some (.error .noMatch, c) := by
    refine number_none ?_ ?_
    · rw [at_zero, ht']; cases m <;> rfl
    · intro h
      have := h.1
      rw [at_zero, ht'] at this
      cases m <;> (change _ = _ at this; simp [stringPrefix, str, ch] at this)
  have hx : ∃ x r, c.text = x :: r := by rw [ht']; cases m <;> exact ⟨_, _, rfl⟩
  obtain ⟨x, r, hx⟩ := hx
  rw [ppToken, peek_bind, if_neg (hne x r hx), orElse_noMatch hc, orElse_noMatch hnum, orElse_ok hm]

/-- The token of a printed text is read from it. -/
theorem read_token {sc : StrCodec} (hg : GoodCodec sc) {l : Locale} (hl : GoodLocale l) (ws : WsFormat)
    {t : Tries} (htr : PunctTrie t) {τ : Token} (h : Printable l τ) (hnw : ∀ nl, τ ≠ .ppWhitespace nl)
    {bs : List UInt8} (hf : formatToken l ws τ = .ok bs) {c : Cursor} (h0 : 0 ∉ c.text) {rest : List Chr}
    (ht : c.text = chars bs ++ rest)
    (hr : ∀ x r, rest = x :: r → ¬ Continues τ x ∧ x ≠ ch '\\') :
    ppToken sc t c = some (.ok (normalise ws τ), c.adv bs.length) := by
  have hne : ∀ x r, c.text = x :: r → c.at 0 ≠ 0 := by
    intro x r h hz
    rw [at_cons h] at hz
    rw [h, hz] at h0
    exact h0 List.mem_cons_self
  have hu : NoUcn rest := by
    cases rest with
    | nil => exact noUcn_nil
    | cons x r => exact noUcn_cons (hr x r rfl).2
  obtain ⟨bs', hf', hshape⟩ := printed hg hl ws h
  rw [hf] at hf'
  injection hf' with hf'
  subst hf'
  have hsolid : Solid (chars bs) := by
    rcases hshape with ⟨nl, h, -⟩ | ⟨-, h, -⟩
    · exact absurd h (hnw nl)
    · exact h
  clear hshape
  have hstr : ∀ m bs0, τ = .string m bs0 →
      ppToken sc t c = some (.ok (normalise ws τ), c.adv bs.length) := by
    rintro m bs0 rfl
    obtain ⟨body, es, h1, h2, h3, h4, h5⟩ := printable_string hg hl h
    injection hf with hf
    rw [hf] at h1
    have ht' : c.text = (stringPrefix m ++ str "\"") ++ (chars body ++ ch '"' :: rest) := by
      rw [ht, h1]; simp
    have hm := string_token hg t h3 h4 h5 h0 ht'
    have hlen : (stringPrefix m ++ str "\"").length + ((chars body).length + 1) = bs.length := by
      rw [← chars_length bs, h1]; simp only [List.length_append, List.length_singleton]
    rw [hlen] at hm
    exact hm
  cases h with
  | identifier bs0 x s h hx hs hlen =>
    injection hf with hf
    subst hf
    have h : chars bs0 = x :: s := h
    have hid : ∀ y ∈ x :: s, IsNondigit y ∨ IsDigit 10 y := by
      intro y hy
      rcases List.mem_cons.1 hy with rfl | hy
      · exact Or.inl hx
      · exact hs y hy
    have hno : ∀ o ∈ openings, ¬ o <+: c.text := by
      rw [ht, h]
      refine identifier_no_opening hid fun y r hy => ?_
      have hc := (hr y r hy).1
      refine ⟨fun h => hc (Or.inl h), fun h => hc (Or.inr (Or.inl h)), fun h' => hc (Or.inr (Or.inr ?_))⟩
      rw [show List.map UInt8.toNat bs0 = x :: s from h]
      exact h'
    obtain ⟨hq0, hq1⟩ := not_opening_two hno
    have ht' : c.text = x :: (s ++ rest) := by rw [ht, h]; rfl
    have hat := at_cons ht'
    have henc := encoded_ascii hg bs0 (ascii_bytes hsolid.graphic)
    rw [h] at henc
    have hlen' : s.length < 255 := by
      have := congrArg List.length h
      rw [chars_length] at this
      simp at this
      omega
    have hm := identifier_match hg (.letter x hx) (idTail_self hs) henc
      (fun y r hy => ⟨fun h => (hr y r hy).1 (Or.inl h), fun h => (hr y r hy).1 (Or.inr (Or.inl h))⟩) hu
      hlen' (c := c) (by rw [ht, h]; rfl)
    have hnd : isdigit x = false ∧ x ≠ ch '.' := by
      have h1 : ∀ y : Nat, IsNondigit y → ¬ (48 ≤ y ∧ y ≤ 57) ∧ y ≠ 46 := by unfold IsNondigit; omega
      exact ⟨Bool.eq_false_iff.2 fun h => (h1 x hx).1 ((isdigit_iff x).1 h), (h1 x hx).2⟩
    rw [ppToken, peek_bind, if_neg (hne _ _ ht'), orElse_noMatch (char_none hq0 hq1),
      orElse_noMatch (number_none (by rw [hat]; exact hnd.1) (fun h => hnd.2 (hat ▸ h.1))),
      orElse_noMatch (string_none hno), orElse_ok hm]
    have : ([x] ++ s).length = bs0.length := by rw [← chars_length bs0, h]; rfl
    rw [this]
    rfl
  | number bs0 d s h hd hs hb =>
    injection hf with hf
    subst hf
    have h : chars bs0 = d :: s := h
    have ht' : c.text = d :: (s ++ rest) := by rw [ht, h]; rfl
    have hat := at_cons ht'
    have hno : ∀ o ∈ openings, ¬ o <+: c.text := by
      rw [ht']; exact first_no_opening (digit_first hd)
    obtain ⟨hq0, hq1⟩ := not_opening_two hno
    have henc := encoded_ascii hg bs0 (ascii_bytes hsolid.graphic)
    have hstop : NumStop sc.encode s rest := number_stop (p := [d]) h hr
    rw [h] at henc
    generalize hbs : bs0 = bs1 at henc
    cases henc with
    | @cons _ _ b bs2 he hs2 =>
    have he' : sc.cd.enc d = some b := he
    have hloop := number_loop hg hs hu hstop hs2 b (c := c.adv 1) (by rw [Cursor.text_adv, ht']; rfl)
    have hm : matchPpNumber sc.cd c = some (.ok (.ppNumber (b ++ bs2)), c.adv (d :: s).length) := by
      refine apply_ok ?_
      rw [scanPpNumber, peek_bind, peek_bind, hat, if_pos ((digit10_iff d).1 hd), he']
      simp only
      rw [skip_bind (by rw [ht']; simp), bind_some hloop, pure_apply, Cursor.adv_adv]
      simp [Nat.add_comm]
    rw [ppToken, peek_bind, if_neg (hne _ _ ht'), orElse_noMatch (char_none hq0 hq1), orElse_ok hm]
    rw [← h, hbs, chars_length]
    rfl
  | dotNumber bs0 d s h hd hs hb =>
    injection hf with hf
    subst hf
    have h : chars bs0 = ch '.' :: d :: s := h
    have ht' : c.text = ch '.' :: d :: (s ++ rest) := by rw [ht, h]; rfl
    have hat := at_cons ht'
    have hat1 := at_cons1 ht'
    have hno : ∀ o ∈ openings, ¬ o <+: c.text := by
      rw [ht']; exact first_no_opening (by decide)
    obtain ⟨hq0, hq1⟩ := not_opening_two hno
    have henc := encoded_ascii hg bs0 (ascii_bytes hsolid.graphic)
    have hstop : NumStop sc.encode s rest := number_stop (p := [ch '.', d]) h hr
    rw [h] at henc
    generalize hbs : bs0 = bs1 at henc
    cases henc with
    | @cons _ _ b bs2 he hs2 =>
    cases hs2 with
    | @cons _ _ b2 bs3 he2 hs3 =>
    have he' : sc.cd.enc (ch '.') = some b := he
    have he2' : sc.cd.enc d = some b2 := he2
    have hloop := number_loop hg hs hu hstop hs3 (b ++ b2) (c := c.adv 2)
      (by rw [Cursor.text_adv, ht']; rfl)
    have hm : matchPpNumber sc.cd c =
        some (.ok (.ppNumber (b ++ (b2 ++ bs3))), c.adv (ch '.' :: d :: s).length) := by
      refine apply_ok ?_
      rw [scanPpNumber, peek_bind, peek_bind, hat, hat1, if_neg (by decide),
        if_pos ⟨rfl, (digit10_iff d).1 hd⟩, he', he2']
      simp only
      rw [skip_bind (by rw [ht']; simp), bind_some hloop, pure_apply, Cursor.adv_adv, List.append_assoc]
      congr 2
      congr 1
      simp
      omega
    rw [ppToken, peek_bind, if_neg (hne _ _ ht'), orElse_noMatch (char_none hq0 hq1), orElse_ok hm]
    rw [← h, hbs, chars_length]
    rfl
  | punctuator p =>
    injection hf with hf
    subst hf
    rw [punct_text] at ht
    have hlen : (lit (punctText p)).length = (primary p).spelling.length := by
      rw [← chars_length, punct_text]
    rw [hlen]
    have hdot : primary p = .dot → p = .dot := by cases p <;> decide
    have hdig : ∀ q, primary p = q → q ∉ [Punct.digraphHash, .digraphDoubleHash, .digraphRightBrace] := by
      rintro q rfl; cases p <;> decide
    have hc : ∀ x r, rest = x :: r → ¬ ∃ q : Punct, (primary p).spelling ++ [x] <+: q.spelling :=
      fun x r h h' => (hr x r h).1 (Or.inl h')
    have hcd : primary p = .dot → ∀ x r, rest = x :: r → ¬ IsDigit 10 x :=
      fun h x r h' hd => (hr x r h').1 (Or.inr (Or.inl ⟨hdot h, hd⟩))
    show ppToken sc t c = some (Except.ok (Token.punct (primary p)), c.adv (primary p).spelling.length)
    clear hsolid hstr hr hdot hlen
    generalize primary p = p' at *
    obtain ⟨x, r, hx, -, hx1, hx2, hx3, -, -⟩ := punct_first p'
    have ht' : c.text = x :: (r ++ rest) := by rw [ht, hx]; rfl
    have hat := at_cons ht'
    have hno : ∀ o ∈ openings, ¬ o <+: c.text := by
      rw [ht']
      have : ∀ p : Punct, ∀ x, p.spelling.head? = some x → x ∉ str "'\"LuU" := by
        intro p; cases p <;> (intro x hx; injection hx with hx; subst hx; decide)
      exact first_no_opening (this p' x (by rw [hx]; rfl))
    obtain ⟨hq0, hq1⟩ := not_opening_two hno
    have hdots : x = ch '.' → p' = .dot ∨ p' = .ellipsis := by
      have : ∀ p : Punct, p.spelling.headD 0 = ch '.' → p = .dot ∨ p = .ellipsis := by
        intro p; cases p <;> decide
      intro h
      exact this p' (by rw [hx, h]; rfl)
    have hpercent : x = ch '%' → p' = .percent ∨ p' = .assignModulo := by
      have : ∀ p : Punct, p.spelling.headD 0 = ch '%' →
          p ∉ [Punct.digraphHash, .digraphDoubleHash, .digraphRightBrace] →
          p = .percent ∨ p = .assignModulo := by
        intro p; cases p <;> decide
      intro h
      exact this p' (by rw [hx, h]; rfl) (hdig p' rfl)
    have hnum : ¬ (c.at 0 = ch '.' ∧ isdigit (c.at 1) = true) := by
      rintro ⟨h1, h2⟩
      rcases hdots (hat ▸ h1) with rfl | rfl
      · have hd1 := (digit10_iff _).2 h2
        obtain ⟨r', htt⟩ := two_chars (c := c) (by decide) (digit_ne_zero hd1) ⟨h1, rfl⟩
        rw [ht] at htt
        injection htt with _ htt
        exact hcd rfl _ _ htt hd1
      · have : c.at 1 = ch '.' := at_cons1 (x := ch '.') (r := ch '.' :: rest) (by rw [ht]; rfl)
        rw [this] at h2
        exact absurd h2 (by decide)
    have hdead : ¬ DeadEnd c.text := by
      rintro (⟨⟨r', h1⟩, h2⟩ | ⟨⟨r', h1⟩, h2⟩)
      · have h1' : x :: (r ++ rest) = ch '.' :: ch '.' :: r' := by rw [← ht', ← h1]; rfl
        injection h1' with h3 h4
        rcases hdots h3 with rfl | rfl
        · rw [ht] at h1
          injection h1 with _ h1
          exact hc _ _ h1.symm ⟨.ellipsis, by decide⟩
        · exact h2 ⟨rest, by rw [ht]; rfl⟩
      · have h1' : x :: (r ++ rest) = ch '%' :: ch ':' :: ch '%' :: r' := by rw [← ht', ← h1]; rfl
        injection h1' with h3 h4
        rcases hpercent h3 with rfl | rfl
        · rw [ht] at h1
          injection h1 with _ h1
          exact hc _ _ h1.symm ⟨.digraphHash, by decide⟩
        · rw [ht] at h1
          injection h1 with _ h1
          injection h1 with h1 _
          exact absurd h1 (by decide)
    have hpre : p'.spelling <+: c.text := by rw [ht]; exact List.prefix_append _ _
    rcases C08_longest_punctuator_partial t htr c hdead with ⟨q, ⟨hq1', hq2⟩, hq⟩ | ⟨hn, -⟩
    · have h2 := hq2 p' hpre
      obtain ⟨u, hu'⟩ := List.prefix_of_prefix_length_le hpre hq1' h2
      have hqp : q = p' := by
        cases u with
        | nil =>
          rw [List.append_nil] at hu'
          have inj : ∀ a ∈ puncts_all, ∀ b ∈ puncts_all, a.spelling = b.spelling → a = b := by
            decide +kernel
          have mem : ∀ a : Punct, a ∈ puncts_all := by intro a; cases a <;> decide
          exact inj q (mem q) p' (mem p') hu'.symm
        | cons y u =>
          have hur : y :: u <+: rest := by
            rw [← hu', ht] at hq1'
            exact (List.prefix_append_right_inj _).1 hq1'
          obtain ⟨r', hr'⟩ := hur
          exact absurd ⟨q, u, by rw [← hu']; simp⟩ (hc y (u ++ r') hr'.symm)
      subst hqp
      rw [ppToken, peek_bind, if_neg (hne _ _ ht'), orElse_noMatch (char_none hq0 hq1),
        orElse_noMatch (number_none (by rw [hat]; exact hx2) hnum),
        orElse_noMatch (string_none hno),
        orElse_noMatch (identifier_none (by rw [hat]; exact hx1) (by rw [hat]; exact hx3)),
        orElse_ok hq]
    · exact absurd hpre (hn p')
  | whitespace nl => exact absurd rfl (hnw nl)
  | character v hv =>
    injection hf with hf
    subst hf
    have hb := charConst_byte hv
    obtain ⟨e, h1, h2⟩ := char_body hg (m := .multibyte) rfl (Or.inl rfl) (UInt8.ofNat v.toNat)
      (by rw [hb]; exact hv) (s := []) (fun _ _ _ h => nomatch h) .nil .nil
    rw [List.append_nil] at h1
    have ht' : c.text = ch '\'' :: (chars (formatChar (UInt8.ofNat v.toNat)) ++ ch '\'' :: rest) := by
      rw [ht, chars_append, chars_append, List.append_assoc, List.append_assoc]; rfl
    have hm := narrow_char hg h1 (by simp) h2 ht'
    have hv' : foldBytes 0 [UInt8.ofNat v.toNat] = v := by
      have := foldBytes_value [UInt8.ofNat v.toNat] _ rfl
      rw [hb, if_pos hv] at this
      apply BitVec.eq_of_toInt_eq
      rw [this, BitVec.toInt_eq_toNat_cond, if_pos (by omega)]
    rw [hv'] at hm
    rw [ppToken, peek_bind, if_neg (hne _ _ ht'), orElse_ok hm]
    congr 2
    congr 1
    simp [chars_length, lit, str]
  | narrow m bs hm hb hz => exact hstr _ _ rfl
  | unicode16 us hu => exact hstr _ _ rfl
  | unicode32 us hu => exact hstr _ _ rfl
  | wide us hu hz => exact hstr _ _ rfl

end Kefir.PpToken
