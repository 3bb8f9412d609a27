import Verif.PpToken.FormatSpec
import Verif.PpToken.Props
/-!
# Printed literals are spelled as literals (lemmas for C79)
-/

namespace Kefir.PpToken

open Kefir.Lexer

/-- The characters of printed bytes. -/
def chars (bs : List UInt8) : List Chr := bs.map UInt8.toNat

theorem chars_append (a b : List UInt8) : chars (a ++ b) = chars a ++ chars b := List.map_append

theorem chars_length (a : List UInt8) : (chars a).length = a.length := List.length_map _

/-! ## Numbers -/

theorem digitByte_hex : ∀ d : Fin 16, IsDigit 16 (digitByte d.val).toNat ∧
    digitVal (digitByte d.val).toNat = d.val := by decide

theorem positional_snoc (base : Nat) (ds : List Chr) (d : Chr) :
    positional base (ds ++ [d]) = positional base ds * base + digitVal d := by
  induction ds with
  | nil => simp [positional]
  | cons x ds ih =>
    simp only [List.cons_append, positional, ih, List.length_append, List.length_singleton,
      Nat.pow_succ, Nat.add_mul, Nat.mul_assoc, Nat.add_assoc]

theorem hex_digits (n v : Nat) (h : v < 16 ^ (n + 1)) :
    (∀ x ∈ chars (radixDigits (n + 1) 16 v), IsDigit 16 x) ∧
    positional 16 (chars (radixDigits (n + 1) 16 v)) = v ∧ radixDigits (n + 1) 16 v ≠ [] := by
  induction n generalizing v with
  | zero =>
    have hv : v < 16 := by simpa using h
    have hd := digitByte_hex ⟨v, hv⟩
    rw [radixDigits, if_pos hv]
    refine ⟨?_, ?_, by simp⟩
    · intro x hx
      have := List.mem_singleton.1 hx
      rw [this]; exact hd.1
    · simp [chars, positional, hd.2]
  | succ n ih =>
    rw [radixDigits]
    by_cases hv : v < 16
    · have hd := digitByte_hex ⟨v, hv⟩
      rw [if_pos hv]
      refine ⟨?_, ?_, by simp⟩
      · intro x hx
        have := List.mem_singleton.1 hx
        rw [this]; exact hd.1
      · simp [chars, positional, hd.2]
    · rw [if_neg hv]
      have hd := digitByte_hex ⟨v % 16, Nat.mod_lt _ (by decide)⟩
      obtain ⟨h1, h2, -⟩ := ih (v / 16) (by rw [Nat.pow_succ] at h; omega)
      refine ⟨?_, ?_, by simp⟩
      · intro x hx
        rw [chars_append] at hx
        rcases List.mem_append.1 hx with hx | hx
        · exact h1 x hx
        · have := List.mem_singleton.1 hx
          rw [this]; exact hd.1
      · rw [chars_append]
        have : chars [digitByte (v % 16)] = [(digitByte (v % 16)).toNat] := rfl
        rw [this, positional_snoc, h2, hd.2]
        show v / 16 * 16 + v % 16 = v
        omega

theorem hexText_digits {v : Nat} (h : v < 2 ^ 32) :
    (∀ x ∈ chars (hexText v), IsDigit 16 x) ∧ positional 16 (chars (hexText v)) = v ∧
    hexText v ≠ [] :=
  hex_digits 31 v (Nat.lt_of_lt_of_le h (by decide))

/-! ## Narrow characters -/

/-- How a printed ASCII character is spelled. -/
theorem char_table : ∀ b : Fin 128, let t := chars (formatChar (UInt8.ofNat b.val))
    (t = [b.val] ∧ b.val ≠ ch '\'' ∧ b.val ≠ ch '"' ∧ b.val ≠ ch '\\' ∧ b.val ≠ ch '\n') ∨
    (t = [ch '\\', t.getD 1 0] ∧ (t.getD 1 0, b.val) ∈ simpleEscapes) ∨
    (t = ch '\\' :: t.tail ∧ (t.tail.length = 3 ∨ (b.val = 0 ∧ t.tail.length = 1)) ∧
      (∀ x ∈ t.tail, IsDigit 8 x) ∧ positional 8 t.tail = b.val) := by decide +kernel

theorem char_body {sc : StrCodec} (hg : GoodCodec sc) {m : Mode} (hm : unitSize m = 1) {q : Chr}
    (hq : q = ch '\'' ∨ q = ch '"') (b : UInt8) (hb : b.toNat < 128) {s : List Chr} {es : List Elem}
    {bs : List UInt8} (hz : b = 0 → ∀ x r, s = x :: r → ¬ IsDigit 8 x)
    (h : Body q s es) (hs : Bytes sc.encode m es bs) :
    ∃ e, Body q (chars (formatChar b) ++ s) (e :: es) ∧ Bytes sc.encode m (e :: es) (b :: bs) := by
  have hbo : UInt8.ofNat b.toNat = b := by simp
  have hle : littleEndian (unitSize m) b.toNat = [b] := by
    rw [hm, byte_value (by omega), hbo]
  have hchr : elemBytes sc.encode m (.chr b.toNat) = some [b] := by
    show sc.encode m b.toNat = _
    rw [hg.ascii m _ hb, hle]
  have hcode : elemBytes sc.encode m (.code b.toNat) = some [b] := by
    show (if _ then _ else _) = _
    rw [if_pos (by rw [hm]; omega), hle]
  have := char_table ⟨b.toNat, hb⟩
  simp only [hbo] at this
  rcases this with ⟨h1, h2, h3, h4, h5⟩ | ⟨h1, h2⟩ | ⟨h1, h2, h3, h4⟩
  · refine ⟨.chr b.toNat, ?_, .cons hchr hs⟩
    rw [h1]
    refine .plain ?_ h4 h5 h
    rcases hq with rfl | rfl
    · exact h2
    · exact h3
  · refine ⟨.chr b.toNat, ?_, .cons hchr hs⟩
    rw [h1]
    exact .escape (.simple _ _ s h2) h
  · refine ⟨.code b.toNat, ?_, .cons hcode hs⟩
    rw [h1]
    have := Escape.octal (chars (formatChar b)).tail s (by omega) (by omega) h3 (by
      rcases h2 with h2 | ⟨h2, -⟩
      · exact Or.inl h2
      · exact Or.inr (hz (by rw [← hbo, h2]; rfl)))
    rw [h4] at this
    exact .escape this h

/-- What a printed character begins with: itself, or a backslash. -/
theorem char_first : ∀ b : Fin 128, ∃ r, chars (formatChar (UInt8.ofNat b.val)) =
    (if (formatChar (UInt8.ofNat b.val)).length = 1 then b.val else ch '\\') :: r := by
  have : ∀ b : Fin 128, (chars (formatChar (UInt8.ofNat b.val))).head? =
    some (if (formatChar (UInt8.ofNat b.val)).length = 1 then b.val else ch '\\') := by decide +kernel
  intro b
  have := this b
  cases h : chars (formatChar (UInt8.ofNat b.val)) with
  | nil => rw [h] at this; cases this
  | cons x r => rw [h] at this; injection this with this; exact ⟨r, by rw [this]⟩

theorem string_body {sc : StrCodec} (hg : GoodCodec sc) {m : Mode} (hm : unitSize m = 1)
    (bs : List UInt8) (hb : ∀ b ∈ bs, b.toNat < 128)
    (hz : ∀ p q x, bs = p ++ 0 :: x :: q → ¬ IsDigit 8 x.toNat) :
    ∃ es, Body (ch '"') (chars (bs.flatMap formatChar)) es ∧ Bytes sc.encode m es bs := by
  induction bs with
  | nil => exact ⟨[], .nil, .nil⟩
  | cons b bs ih =>
    obtain ⟨es, h1, h2⟩ := ih (fun x hx => hb x (List.mem_cons_of_mem _ hx))
      (fun p q x h => hz (b :: p) q x (by rw [h]; rfl))
    rw [List.flatMap_cons, chars_append]
    have hz' : b = 0 → ∀ x r, chars (bs.flatMap formatChar) = x :: r → ¬ IsDigit 8 x := by
      intro hb0 x r hx
      cases bs with
      | nil => cases hx
      | cons b' bs =>
        subst hb0
        have hd := hz [] bs b' rfl
        have hb' := hb b' (List.mem_cons_of_mem _ List.mem_cons_self)
        obtain ⟨r', hr'⟩ := char_first ⟨b'.toNat, hb'⟩
        simp only [UInt8.ofNat_toNat] at hr'
        rw [List.flatMap_cons, chars_append, hr'] at hx
        injection hx with hx _
        rw [← hx]
        split
        · exact hd
        · decide
    obtain ⟨e, h3, h4⟩ := char_body hg hm (Or.inr rfl) b (hb b List.mem_cons_self) hz' h1 h2
    exact ⟨_, h3, h4⟩

/-! ## Strings of numbers -/

theorem units_of_two (us : List Nat) (h : ∀ u ∈ us, u < 256 ^ 2) :
    units16 (us.flatMap (littleEndian 2)) = us := by
  induction us with
  | nil => rfl
  | cons u us ih =>
    have hu := h u List.mem_cons_self
    rw [List.flatMap_cons, littleEndian_two]
    simp only [leBytes, List.cons_append, List.nil_append, units16]
    rw [ih (fun x hx => h x (List.mem_cons_of_mem _ hx))]
    congr 1
    simp
    omega

theorem units_of_four (us : List Nat) (h : ∀ u ∈ us, u < 256 ^ 4) :
    units32 (us.flatMap (littleEndian 4)) = us := by
  induction us with
  | nil => rfl
  | cons u us ih =>
    have hu := h u List.mem_cons_self
    rw [List.flatMap_cons, littleEndian_four]
    simp only [leBytes, List.cons_append, List.nil_append, units32]
    rw [ih (fun x hx => h x (List.mem_cons_of_mem _ hx))]
    congr 1
    simp
    omega

theorem hex_body {enc : Mode → Chr → Option (List UInt8)} {m : Mode} {v : Nat}
    (hv : v < 256 ^ unitSize m) {s : List Chr} {es : List Elem} {bs : List UInt8}
    (hr : ∀ x r, s = x :: r → ¬ IsDigit 16 x) (h : Body (ch '"') s es) (hs : Bytes enc m es bs) :
    Body (ch '"') (chars (lit "\\x" ++ hexText v) ++ s) (.code v :: es) ∧
    Bytes enc m (.code v :: es) (littleEndian (unitSize m) v ++ bs) := by
  obtain ⟨h1, h2, h3⟩ := hexText_digits (Nat.lt_of_lt_of_le hv (pow_unit m))
  have := Escape.hexadecimal (chars (hexText v)) s (by simpa [chars] using h3) h1 hr
  rw [h2] at this
  refine ⟨?_, .cons ?_ hs⟩
  · rw [chars_append]
    exact .escape this h
  · show (if _ then _ else _) = _
    rw [if_pos hv]

theorem number_body {enc : Mode → Chr → Option (List UInt8)} {m : Mode} (us : List Nat)
    (h : ∀ u ∈ us, u < 256 ^ unitSize m) :
    Body (ch '"') (chars (us.flatMap (fun u => lit "\\x" ++ hexText u))) (us.map .code) ∧
    Bytes enc m (us.map .code) (us.flatMap (littleEndian (unitSize m))) := by
  induction us with
  | nil => exact ⟨.nil, .nil⟩
  | cons u us ih =>
    obtain ⟨h1, h2⟩ := ih (fun x hx => h x (List.mem_cons_of_mem _ hx))
    rw [List.flatMap_cons, chars_append, List.flatMap_cons]
    refine hex_body (h u List.mem_cons_self) ?_ h1 h2
    intro x r hx
    cases us with
    | nil => cases hx
    | cons u' us =>
      rw [List.flatMap_cons, chars_append, chars_append] at hx
      injection hx with hx _
      rw [← hx]
      decide

theorem wide_body {sc : StrCodec} (hg : GoodCodec sc) {l : Locale} (hl : GoodLocale l) (us : List Nat)
    (h : ∀ v ∈ us, (0x20 ≤ v ∧ v ≤ 0x7e ∧ v ≠ ch '"' ∧ v ≠ ch '\\') ∨ (l.wide v = none ∧ v < 2 ^ 31))
    (hz : ∀ p q v x, us = p ++ v :: x :: q → l.wide v = none → l.wide x ≠ none → ¬ IsDigit 16 x) :
    ∃ es, Body (ch '"') (chars (us.flatMap (formatWideUnit l))) es ∧
      Bytes sc.encode .wide es (us.flatMap (littleEndian 4)) ∧ ∀ v, .code v ∈ es → v < 2 ^ 31 := by
  induction us with
  | nil => exact ⟨[], .nil, .nil, by simp⟩
  | cons u us ih =>
    obtain ⟨es, h1, h2, h3⟩ := ih (fun x hx => h x (List.mem_cons_of_mem _ hx))
      (fun p q v x h => hz (u :: p) q v x (by rw [h]; rfl))
    rw [List.flatMap_cons, chars_append, List.flatMap_cons]
    rcases h u List.mem_cons_self with ⟨hu1, hu2, hu3, hu4⟩ | ⟨hu1, hu2⟩
    · have hf : formatWideUnit l u = [UInt8.ofNat u] := by rw [formatWideUnit, hl u hu1 hu2]
      have hn : chars [UInt8.ofNat u] = [u] := by
        simp [chars]; omega
      rw [hf, hn]
      refine ⟨.chr u :: es, .plain hu3 hu4 ?_ h1, .cons (hg.ascii .wide u ?_) h2, ?_⟩
      · have : ∀ x : Nat, 0x20 ≤ x → x ≠ 10 := by omega
        exact this u hu1
      · have : ∀ x : Nat, x ≤ 0x7e → x < 128 := by omega
        exact this u hu2
      · intro v hv
        rcases List.mem_cons.1 hv with hv | hv
        · cases hv
        · exact h3 v hv
    · have hf : formatWideUnit l u = lit "\\x" ++ hexText u := by rw [formatWideUnit, hu1]
      rw [hf]
      have hv : u < 256 ^ unitSize .wide := Nat.lt_of_lt_of_le hu2 (by decide)
      have hstop : ∀ x r, chars (us.flatMap (formatWideUnit l)) = x :: r → ¬ IsDigit 16 x := by
        intro x r hx
        cases us with
        | nil => cases hx
        | cons u' us =>
          rw [List.flatMap_cons, chars_append] at hx
          rcases h u' (List.mem_cons_of_mem _ List.mem_cons_self) with ⟨g1, g2, g3, g4⟩ | ⟨g1, g2⟩
          · have hw := hl u' g1 g2
            have hf' : formatWideUnit l u' = [UInt8.ofNat u'] := by rw [formatWideUnit, hw]
            have hn : chars [UInt8.ofNat u'] = [u'] := by
              simp [chars]; omega
            rw [hf', hn] at hx
            injection hx with hx _
            rw [← hx]
            exact hz [] us u u' rfl hu1 (by rw [hw]; simp)
          · have hf' : formatWideUnit l u' = lit "\\x" ++ hexText u' := by rw [formatWideUnit, g1]
            rw [hf', chars_append] at hx
            injection hx with hx _
            rw [← hx]
            decide
      obtain ⟨h4, h5⟩ := hex_body hv hstop h1 h2
      refine ⟨_, h4, h5, ?_⟩
      intro v hv
      rcases List.mem_cons.1 hv with hv | hv
      · injection hv with hv
        rw [hv]; exact hu2
      · exact h3 v hv

end Kefir.PpToken
