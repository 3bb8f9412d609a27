import Verif.PpToken.FloatScan
/-!
# Numbers as a whole
-/

namespace Kefir.PpToken

open Kefir.Lexer

/-! ## Character classes -/

theorem hex_zero : ishexdigit 0 = false := by decide
theorem dec_dot : isdigit (ch '.') = false := by decide
theorem hex_dot : ishexdigit (ch '.') = false := by decide
theorem decExp_zero : isDecExp 0 = false := by decide
theorem hexExp_zero : isHexExp 0 = false := by decide

theorem decExp_iff (x : Chr) : x ∈ str "eE" ↔ isDecExp x = true := by
  have : str "eE" = [ch 'e', ch 'E'] := by decide
  rw [this]
  simp [isDecExp]

theorem hexExp_iff (x : Chr) : x ∈ str "pP" ↔ isHexExp x = true := by
  have : str "pP" = [ch 'p', ch 'P'] := by decide
  rw [this]
  simp [isHexExp]

theorem suffix_dec : ∀ x ∈ floatSuffixes, ∀ y ∈ x.1, y ∉ str "eE" := by decide
theorem suffix_hex : ∀ x ∈ floatSuffixes, ∀ y ∈ x.1, y ∉ str "pP" := by decide

theorem decLetters : ∀ x ∈ str "eE", isdigit x = false ∧ x ≠ ch '.' := by decide
theorem hexLetters : ∀ x ∈ str "pP", ishexdigit x = false ∧ x ≠ ch '.' := by decide

theorem digit_not10 {x : Chr} (h : ¬ IsDigit 10 x) : isdigit x = false := by
  rw [digit10_iff] at h
  simpa using h

theorem dec_is_hex {x : Chr} (h : isdigit x = true) : ishexdigit x = true := by
  unfold ishexdigit
  rw [h, Bool.or_true]

section

variable {isd ise : Chr → Bool} {letters : List Chr}

theorem body_dot (hd0 : isd 0 = false) (hp : isd (ch '.') = false) (h0 : ise 0 = false)
    (hi : ∀ x, x ∈ letters ↔ ise x = true) (hsuf : ∀ x ∈ floatSuffixes, ∀ y ∈ x.1, y ∉ letters)
    {c : Cursor} {a b e lit : List Chr} {x : List Chr × FloatTy}
    (ha : ∀ x ∈ a, isd x = true) (hb : ∀ x ∈ b, isd x = true) (hn : a ≠ [] ∨ b ≠ [])
    (he : e = [] ∨ Exponent letters e) (hx : x ∈ floatSuffixes)
    (hr : ∀ y s, e ++ x.1 = y :: s → isd y = false)
    (ht : c.text = a ++ ch '.' :: (b ++ (e ++ x.1))) :
    floatBody isd ise lit c = some (.ok (.floatConst x.2 (lit ++ (a ++ ch '.' :: (b ++ e)))),
      c.adv ((a ++ ch '.' :: (b ++ e)) ++ x.1).length) := by
  have h1 := frac_dot (ise := ise) (lit := lit) hd0 hp ht ha hb hr
  rw [if_pos hn] at h1
  unfold floatBody
  have ht' : c.text = (a ++ ch '.' :: b) ++ (e ++ x.1) := by rw [ht]; simp
  rw [bind_some h1, tail_ok h0 hi hsuf he hx (text_after ht'), Cursor.adv_adv, ← List.length_append]
  simp only [List.append_assoc, List.cons_append]

theorem body_whole (hd0 : isd 0 = false) (h0 : ise 0 = false)
    (hi : ∀ x, x ∈ letters ↔ ise x = true) (hsuf : ∀ x ∈ floatSuffixes, ∀ y ∈ x.1, y ∉ letters)
    (hlet : ∀ x ∈ letters, isd x = false ∧ x ≠ ch '.')
    {c : Cursor} {a e lit : List Chr} {x : List Chr × FloatTy}
    (ha : ∀ x ∈ a, isd x = true) (hn : a ≠ []) (he : Exponent letters e) (hx : x ∈ floatSuffixes)
    (ht : c.text = a ++ (e ++ x.1)) :
    floatBody isd ise lit c = some (.ok (.floatConst x.2 (lit ++ (a ++ e))),
      c.adv ((a ++ e) ++ x.1).length) := by
  obtain ⟨l, s, hl, hm⟩ := exp_head he
  have h1 := frac_whole (ise := ise) (lit := lit) hd0 ht ha
    (fun y s' h => by rw [hl] at h; injection h with h _; rw [← h]; exact (hlet l hm).1)
    (fun s' h => by rw [hl] at h; injection h with h _; exact (hlet l hm).2 h)
  rw [if_pos ⟨hn, by rw [hl]; exact (hi l).1 hm⟩] at h1
  unfold floatBody
  rw [bind_some h1, tail_ok h0 hi hsuf (Or.inr he) hx (text_after ht), Cursor.adv_adv]
  simp [Nat.add_assoc]

/-- What was read as a floating constant. -/
theorem body_inv (hd0 : isd 0 = false) (hp : isd (ch '.') = false) (h0 : ise 0 = false)
    (hi : ∀ x, x ∈ letters ↔ ise x = true) {c c' : Cursor} {lit : List Chr} {τ : Token}
    (h : floatBody isd ise lit c = some (.ok τ, c')) :
    ∃ m e x r, x ∈ floatSuffixes ∧ c.text = ((m ++ e) ++ x.1) ++ r ∧ τ = .floatConst x.2 (lit ++ (m ++ e)) ∧
      c' = c.adv ((m ++ e) ++ x.1).length ∧
      ((∃ a b, m = a ++ ch '.' :: b ∧ (∀ x ∈ a, isd x = true) ∧ (∀ x ∈ b, isd x = true) ∧
          (a ≠ [] ∨ b ≠ []) ∧ (e = [] ∨ Exponent letters e) ∧ ∀ y s, e ++ x.1 = y :: s → isd y = false) ∨
        ((∀ x ∈ m, isd x = true) ∧ m ≠ [] ∧ Exponent letters e)) := by
  obtain ⟨a, r, har, ha, hr⟩ := split_class isd c.text
  unfold floatBody at h
  by_cases hdot : ∃ s, r = ch '.' :: s
  · obtain ⟨s, rfl⟩ := hdot
    obtain ⟨b, r2, rfl, hb, hr2⟩ := split_class isd s
    have h1 := frac_dot (ise := ise) (lit := lit) hd0 hp har ha hb hr2
    by_cases hn : a ≠ [] ∨ b ≠ []
    · rw [if_pos hn] at h1
      rw [bind_some h1] at h
      obtain ⟨e, x, r3, he, hx, ht, rfl, rfl⟩ := tail_inv h0 hi h
      have har' : c.text = (a ++ ch '.' :: b) ++ r2 := by rw [har]; simp
      rw [text_after har'] at ht
      refine ⟨a ++ ch '.' :: b, e, x, r3, hx, by rw [har, ht]; simp, by simp, by
        rw [Cursor.adv_adv, ← List.length_append]; simp only [List.append_assoc], Or.inl ⟨a, b, rfl, ha, hb, hn, ?_, ?_⟩⟩
      · rcases he with he | he
        · exact Or.inl he.1
        · exact Or.inr he
      · intro y s hy
        refine hr2 y (s ++ r3) ?_
        rw [ht, ← List.append_assoc, hy]
        rfl
    · rw [if_neg hn] at h1
      rw [bind_err h1] at h
      cases h
  · have h1 := frac_whole (ise := ise) (lit := lit) hd0 har ha hr (fun s e => hdot ⟨s, e⟩)
    by_cases hn : a ≠ [] ∧ ise (r.head?.getD 0) = true
    · rw [if_pos hn] at h1
      rw [bind_some h1] at h
      obtain ⟨e, x, r3, he, hx, ht, rfl, rfl⟩ := tail_inv h0 hi h
      have hat : ise ((c.adv a.length).at 0) = true := by rw [text_at (text_after har)]; exact hn.2
      rw [text_after har] at ht
      refine ⟨a, e, x, r3, hx, by rw [har, ht]; simp, by simp, by
        rw [Cursor.adv_adv]; simp [Nat.add_assoc], Or.inr ⟨ha, hn.1, ?_⟩⟩
      rcases he with he | he
      · rw [hat] at he
        cases he.2
      · exact he
    · rw [if_neg hn] at h1
      rw [bind_err h1] at h
      cases h

theorem exp_never (h0 : ise 0 = false) {c c' : Cursor} {lit : List Chr}
    (hm : matchExponent ise lit c = some (.error .noMatch, c')) : False := by
  unfold matchExponent at hm
  rw [peek_bind] at hm
  split at hm
  · rename_i hi
    obtain ⟨u, hu⟩ := text_cons (c := c) (by intro e; rw [e, h0] at hi; cases hi)
    rw [skip_bind (by rw [hu]; simp), peek_bind] at hm
    split at hm
    · rename_i hs
      obtain ⟨u2, hu2⟩ := text_cons (c := c.adv 1) (by rcases hs with hs | hs <;> rw [hs] <;> decide)
      rw [bind_apply, skip_bind (by rw [hu2]; simp), pure_apply] at hm
      simp only at hm
      rw [bind_some (scanWhile_eq _ isdigit_zero _ _ _)] at hm
      split at hm <;> cases hm
    · rw [bind_some (pure_apply _ _), bind_some (scanWhile_eq _ isdigit_zero _ _ _)] at hm
      split at hm <;> cases hm
  · cases hm

theorem tail_never (h0 : ise 0 = false) {c c' : Cursor} {lit : List Chr}
    (h : (do let lit ← matchExponent ise lit
             let t ← matchFloatSuffix
             pure (.floatConst t lit) : Lex Token) c = some (.error .noMatch, c')) : False := by
  rw [bind_apply] at h
  generalize hm : matchExponent ise lit c = m at h
  rcases m with _ | ⟨er | lit', c2⟩
  · cases h
  · simp only [Option.some.injEq, Prod.mk.injEq, Except.error.injEq] at h
    rw [h.1] at hm
    exact exp_never h0 hm
  · obtain ⟨x, r3, hx, hr3, hs⟩ := suffix_inv c2
    simp only at h
    rw [bind_some hs] at h
    cases h

theorem body_none (hd0 : isd 0 = false) {c : Cursor} {lit a r : List Chr}
    (ht : c.text = a ++ r) (ha : ∀ x ∈ a, isd x = true) (hr : ∀ x s, r = x :: s → isd x = false)
    (hp : ∀ s, r ≠ ch '.' :: s) (hn : a = [] ∨ ise (r.head?.getD 0) = false) :
    floatBody isd ise lit c = some (.error .noMatch, c.adv a.length) := by
  have h1 := frac_whole (ise := ise) (lit := lit) hd0 ht ha hr hp
  rw [if_neg (by
    rintro ⟨h1, h2⟩
    rcases hn with hn | hn
    · exact h1 hn
    · rw [h2] at hn; cases hn)] at h1
  exact bind_err h1

end

theorem hexFloat_body {c : Cursor} {x : Chr} {t : List Chr} (hx : x = ch 'x' ∨ x = ch 'X')
    (ht : c.text = ch '0' :: x :: t) :
    matchHexFloat c = floatBody ishexdigit isHexExp [ch '0', x] (c.adv 2) := by
  unfold matchHexFloat
  rw [peek_bind, peek_bind, at_cons (x := ch '0') ht, at_cons1 (x := ch '0') ht, if_pos ⟨rfl, hx⟩,
    skip_bind (by rw [ht]; simp)]
  rfl

theorem hex_none {c : Cursor} (h : ∀ x t, c.text = ch '0' :: x :: t → ¬ (x = ch 'x' ∨ x = ch 'X')) :
    matchHexFloat c = some (.error .noMatch, c) := by
  unfold matchHexFloat
  rw [peek_bind, peek_bind, if_neg, fail_eq]
  rintro ⟨h1, h2⟩
  have h2' : c.at 1 ≠ 0 := by rcases h2 with h2 | h2 <;> rw [h2] <;> decide
  obtain ⟨r, hr⟩ := two_chars (c := c) (a := ch '0') (b := c.at 1) (by decide) h2' ⟨h1, rfl⟩
  exact h _ r hr h2

/-- Whether a text begins like a hexadecimal constant. -/
theorem hex_or (t : List Chr) : (∃ x s, t = ch '0' :: x :: s ∧ (x = ch 'x' ∨ x = ch 'X')) ∨
    ∀ x s, t = ch '0' :: x :: s → ¬ (x = ch 'x' ∨ x = ch 'X') := by
  by_cases h : ∃ x s, t = ch '0' :: x :: s ∧ (x = ch 'x' ∨ x = ch 'X')
  · exact Or.inl h
  · exact Or.inr fun x s e hx => h ⟨x, s, e, hx⟩

theorem orElse_other {α : Type} {x y : Lex α} {c : Cursor} {r : Option (Res α × Cursor)} (h : x c = r)
    (hr : ∀ c', r ≠ some (.error .noMatch, c')) : orElse x y c = r := by
  unfold orElse
  rw [h]
  split
  · rename_i c'
    exact absurd rfl (hr c')
  · rfl

/-! ## Soundness for floating constants -/

theorem digits10 {l : List Chr} (h : ∀ x ∈ l, isdigit x = true) : ∀ x ∈ l, IsDigit 10 x :=
  fun x hx => (digit10_iff x).2 (h x hx)

theorem digits16 {l : List Chr} (h : ∀ x ∈ l, ishexdigit x = true) : ∀ x ∈ l, IsDigit 16 x :=
  fun x hx => (digit16_iff x).2 (h x hx)

theorem undigits10 {l : List Chr} (h : ∀ x ∈ l, IsDigit 10 x) : ∀ x ∈ l, isdigit x = true :=
  fun x hx => (digit10_iff x).1 (h x hx)

theorem undigits16 {l : List Chr} (h : ∀ x ∈ l, IsDigit 16 x) : ∀ x ∈ l, ishexdigit x = true :=
  fun x hx => (digit16_iff x).1 (h x hx)

theorem decimal_sound {c c' : Cursor} {τ : Token} (h : matchDecimalFloat c = some (.ok τ, c')) :
    ∃ s r, c.text = s ++ r ∧ c' = c.adv s.length ∧ Number s τ := by
  rw [decimal_body] at h
  obtain ⟨m, e, x, r, hx, ht, rfl, rfl, hm⟩ :=
    body_inv isdigit_zero dec_dot decExp_zero decExp_iff h
  refine ⟨m ++ e ++ x.1, r, ht, rfl, ?_⟩
  rcases hm with ⟨a, b, rfl, ha, hb, hn, he, -⟩ | ⟨ha, hn, he⟩
  · have := Number.floating (FloatForm.fraction (digits10 ha) (digits10 hb) hn he) hx
    simpa using this
  · exact Number.floating (FloatForm.whole (digits10 ha) hn he) hx

theorem suffix_single : ∀ x ∈ floatSuffixes, x.1 = [] ∨ ∃ y, x.1 = [y] := by
  have : ∀ x ∈ floatSuffixes, x.1.length ≤ 1 := by decide
  intro x hx
  have := this x hx
  match h : x.1 with
  | [] => exact Or.inl rfl
  | [y] => exact Or.inr ⟨y, rfl⟩
  | y :: z :: l => rw [h] at this; simp at this

theorem float_sound {c c' : Cursor} {τ : Token} (h : scanFloat c = some (.ok τ, c')) :
    ∃ s r, c.text = s ++ r ∧ c' = c.adv s.length ∧ (Number s τ ∨ Lax s τ) := by
  rcases hex_or c.text with ⟨y, t, ht, hy⟩ | hno
  · have hb := hexFloat_body hy ht
    have ht2 : (c.adv 2).text = t := by rw [Cursor.text_adv, ht]; rfl
    unfold scanFloat orElse at h
    rw [hb] at h
    generalize hf : floatBody ishexdigit isHexExp [ch '0', y] (c.adv 2) = f at h
    rcases f with _ | ⟨_ | τ', c1⟩
    · cases h
    · rename_i er
      by_cases her : er = .noMatch
      · subst her
        simp only at h
        -- the decimal scanner starts where the hexadecimal one gave up
        obtain ⟨a, r, har, ha, hr⟩ := split_class ishexdigit t
        by_cases hdot : ∃ s, r = ch '.' :: s
        · obtain ⟨s, rfl⟩ := hdot
          obtain ⟨b, r2, rfl, hbb, hr2⟩ := split_class ishexdigit s
          have h1 := frac_dot (ise := isHexExp) (lit := [ch '0', y]) (c := c.adv 2) hex_zero hex_dot
            (by rw [ht2]; exact har) ha hbb hr2
          by_cases hn : a ≠ [] ∨ b ≠ []
          · exfalso
            rw [if_pos hn] at h1
            unfold floatBody at hf
            rw [bind_some h1] at hf
            exact tail_never hexExp_zero hf
          · have ha0 : a = [] := Classical.byContradiction fun h' => hn (Or.inl h')
            have hb0 : b = [] := Classical.byContradiction fun h' => hn (Or.inr h')
            subst ha0 hb0
            rw [if_neg hn] at h1
            unfold floatBody at hf
            rw [bind_err h1] at hf
            injection hf with hf
            injection hf with _ hf
            subst hf
            rw [decimal_body] at h
            obtain ⟨m, e, x, r3, hx, ht3, rfl, rfl, hm⟩ :=
              body_inv isdigit_zero dec_dot decExp_zero decExp_iff h
            have hr2t : r2 = ((m ++ e) ++ x.1) ++ r3 := by
              rw [← ht3, Cursor.text_adv, ht2, har]; rfl
            rcases hm with ⟨a', b', rfl, ha', hb', hn', he', -⟩ | ⟨ha', hn', he'⟩
            · have : a' = [] := by
                cases a' with
                | nil => rfl
                | cons z l =>
                  have hz := hr2 z _ hr2t
                  rw [dec_is_hex (ha' z (List.mem_cons_self ..))] at hz
                  cases hz
              subst this
              have hb'' : b' ≠ [] := by
                rcases hn' with hn' | hn'
                · exact absurd rfl hn'
                · exact hn'
              refine ⟨ch '0' :: y :: ch '.' :: ((ch '.' :: (b' ++ e)) ++ x.1), r3, ?_, ?_,
                Or.inr (Lax.twoDots hy (digits10 hb') hb'' he' hx)⟩
              · rw [ht, har, hr2t]; simp
              · rw [Cursor.adv_adv, Cursor.adv_adv]
                congr 1
                simp
                omega
            · cases m with
              | nil => exact absurd rfl hn'
              | cons z l =>
                have hz := hr2 z _ hr2t
                rw [dec_is_hex (ha' z (List.mem_cons_self ..))] at hz
                cases hz
        · exfalso
          have hp : ∀ s, r ≠ ch '.' :: s := fun s e => hdot ⟨s, e⟩
          have h1 := frac_whole (ise := isHexExp) (lit := [ch '0', y]) (c := c.adv 2) hex_zero
            (by rw [ht2]; exact har) ha hr hp
          have hend : c1 = (c.adv 2).adv a.length → False := by
            rintro rfl
            have hnone := body_none (isd := isdigit) (ise := isDecExp) (lit := []) isdigit_zero (a := [])
              (c := (c.adv 2).adv a.length) (r := r)
              (by rw [Cursor.text_adv, ht2, har, List.drop_left]; rfl) (by simp)
              (fun z s e => by
                have hz := hr z s e
                cases hd : isdigit z with
                | false => rfl
                | true => rw [dec_is_hex hd] at hz; cases hz) hp (Or.inl rfl)
            rw [decimal_body, hnone] at h
            cases h
          by_cases hn : a ≠ [] ∧ isHexExp (r.head?.getD 0) = true
          · rw [if_pos hn] at h1
            unfold floatBody at hf
            rw [bind_some h1] at hf
            exact tail_never hexExp_zero hf
          · rw [if_neg hn] at h1
            unfold floatBody at hf
            rw [bind_err h1] at hf
            injection hf with hf
            injection hf with _ hf
            exact hend hf.symm
      · cases er <;> first | exact absurd rfl her | cases h
    · simp only at h
      injection h with h
      injection h with h1 h2
      injection h1 with h1
      subst h1 h2
      obtain ⟨m, e, x, r, hx, ht', rfl, rfl, hm⟩ :=
        body_inv hex_zero hex_dot hexExp_zero hexExp_iff hf
      rw [ht2] at ht'
      refine ⟨ch '0' :: y :: (m ++ e ++ x.1), r, by rw [ht, ht']; rfl, by
        rw [Cursor.adv_adv]
        congr 1
        simp only [List.length_cons, List.length_append]
        omega, ?_⟩
      rcases hm with ⟨a, b, rfl, ha, hb, hn, he | he, hr⟩ | ⟨ha, hn, he⟩
      · right
        subst he
        have := Lax.noExponent (x := x) hy (digits16 ha) (digits16 hb) hn hx (by
          intro z hz
          rcases suffix_single x hx with hs | ⟨w, hs⟩
          · rw [hs] at hz; cases hz
          · rw [hs] at hz
            have : z = w := by simpa using hz
            subst this
            have := hr z [] hs
            rw [digit16_iff, this]
            exact Bool.false_ne_true)
        simpa using this
      · left
        have := Number.floating (FloatForm.hexFraction hy (digits16 ha) (digits16 hb) hn he) hx
        simpa using this
      · left
        have := Number.floating (FloatForm.hexWhole hy (digits16 ha) hn he) hx
        simpa using this
  · unfold scanFloat at h
    rw [orElse_noMatch (hex_none hno)] at h
    obtain ⟨s, r, h1, h2, h3⟩ := decimal_sound h
    exact ⟨s, r, h1, h2, Or.inl h3⟩

end Kefir.PpToken
