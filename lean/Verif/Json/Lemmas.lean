import Verif.Json.Model

/-! Helper lemmas about the JSON printer. -/

namespace Kefir.Json

open Kefir.Lexer (Codec Dec)

/-- The locale encodes 7-bit characters as themselves and the others in bytes from 0x80 on (true of
UTF-8 and of the "C" locale). -/
structure Utf8Like (cd : Codec) : Prop where
  chr : ∀ {bs c n}, cd.dec bs = .chr c n →
    (∃ r, bs = UInt8.ofNat c :: r ∧ c < 128 ∧ n = 1) ∨ (128 ≤ c ∧ ∀ x ∈ bs.take n, 128 ≤ x)
  nul : ∀ {x r}, cd.dec (x :: r) = .nul → x = 0

/-- Bytes without the control characters that JSON has no short escape for. -/
def CStrOk (s : Text) : Prop :=
  ∀ x ∈ s, 0x20 ≤ x ∨ x = 0x08 ∨ x = 0x09 ∨ x = 0x0a ∨ x = 0x0c ∨ x = 0x0d

/-- The same for the raw printing call, which also escapes the null character, but spoils `?`. -/
def RawOk (s : Text) : Prop :=
  ∀ x ∈ s, (0x20 ≤ x ∧ x ≠ 0x3f) ∨ x = 0x08 ∨ x = 0x09 ∨ x = 0x0a ∨ x = 0x0c ∨ x = 0x0d ∨ x = 0

/-- Bytes that need no escape. -/
def PlainOk (s : Text) : Prop := ∀ x ∈ s, 0x20 ≤ x ∧ x ≠ 0x22 ∧ x ≠ 0x5c

/-- The arguments of a call can be represented: floating-point numbers are finite, so that they are
printed as JSON numbers; strings have no control characters without a short escape. -/
def Call.Ok : Call → Prop
  | .objectKey k => CStrOk k
  | .string s => CStrOk s
  | .rawString s => RawOk s
  | .float t => Number t
  | .longDouble t => Number t
  | .hexfloat t => PlainOk t
  | .hexLongDouble t => PlainOk t
  | _ => True

theorem u8_all {P : UInt8 → Prop} (h : ∀ n < 256, P (UInt8.ofNat n)) (x : UInt8) : P x := by
  have := h x.toNat x.toNat_lt
  rwa [UInt8.ofNat_toNat] at this

theorem StrBody.append {t1 s1 t2 s2} (h1 : StrBody t1 s1) (h2 : StrBody t2 s2) :
    StrBody (t1 ++ t2) (s1 ++ s2) := by
  induction h1 with
  | nil => exact h2
  | plain a b c _ ih => exact .plain a b c ih
  | esc a _ ih => exact .esc a ih
  | uni a b c _ ih => exact .uni a b c ih

theorem StrBody.plains {s} (h : PlainOk s) : StrBody s s := by
  induction s with
  | nil => exact .nil
  | cons x s ih =>
    obtain ⟨h1, h2, h3⟩ := h x List.mem_cons_self
    exact .plain h1 h2 h3 (ih fun y hy => h y (List.mem_cons_of_mem _ hy))

theorem StrBody.esc1 {e x} (h : (e, x) ∈ escapes) : StrBody [0x5c, e] [x] := .esc h .nil

theorem escapeChar_body (x : UInt8) (h : CStrOk [x]) :
    StrBody (escapeChar x.toNat [x]) [x] := by
  have hx := h x List.mem_cons_self
  have key : ∀ x : UInt8, (0x20 ≤ x ∨ x = 0x08 ∨ x = 0x09 ∨ x = 0x0a ∨ x = 0x0c ∨ x = 0x0d) →
      (escapeChar x.toNat [x] = [x] ∧ 0x20 ≤ x ∧ x ≠ 0x22 ∧ x ≠ 0x5c) ∨
      ∃ e ∈ escapes, escapeChar x.toNat [x] = [0x5c, e.1] ∧ e.2 = x := by
    exact u8_all (by decide +kernel)
  rcases key x hx with ⟨e, h1, h2, h3⟩ | ⟨⟨e, y⟩, he, e1, rfl⟩
  · rw [e]; exact .plain h1 h2 h3 .nil
  · rw [e1]; exact .esc1 he

theorem formatChars_body (cd : Codec) (hcd : Utf8Like cd) (n : Nat) (s t : Text) (hn : s.length ≤ n)
    (hs : CStrOk s) (h : formatChars cd s = some t) : StrBody t s := by
  induction n generalizing s t with
  | zero =>
    have : s = [] := by cases s with | nil => rfl | cons => simp at hn
    subst this
    rw [formatChars] at h
    cases h
    exact .nil
  | succ n ih =>
    cases s with
    | nil =>
      rw [formatChars] at h
      cases h
      exact .nil
    | cons x r =>
      rw [formatChars] at h
      split at h
      · rename_i e
        have := hcd.nul e
        subst this
        have := hs 0 List.mem_cons_self
        exact absurd this (by decide)
      · cases h
      · rename_i c k e
        obtain ⟨t', ht', rfl⟩ := Option.map_eq_some_iff.1 h
        have hk := cd.dec_chr e
        have hd : StrBody t' ((x :: r).drop k) := by
          apply ih _ _ _ _ ht'
          · simp only [List.length_drop, List.length_cons] at hn ⊢; omega
          · intro y hy; exact hs y (List.mem_of_mem_drop hy)
        have ht : StrBody (escapeChar c ((x :: r).take k)) ((x :: r).take k) := by
          rcases hcd.chr e with ⟨r', he, hc, rfl⟩ | ⟨hc, hb⟩
          · cases he
            have e1 : c = (UInt8.ofNat c).toNat := by
              rw [UInt8.toNat_ofNat']; exact (Nat.mod_eq_of_lt (Nat.lt_trans hc (by decide))).symm
            show StrBody (escapeChar c [UInt8.ofNat c]) [UInt8.ofNat c]
            generalize UInt8.ofNat c = y at *
            subst e1
            apply escapeChar_body
            intro z hz
            cases List.mem_singleton.1 hz
            exact hs _ List.mem_cons_self
          · have e1 : ∀ raw, escapeChar c raw = raw := by
              intro raw
              have hc' : ∀ m, m < 128 → c ≠ m := fun m hm => Nat.ne_of_gt (Nat.lt_of_lt_of_le hm hc)
              unfold escapeChar
              rw [if_neg (hc' _ (by decide)), if_neg (hc' _ (by decide)), if_neg (hc' _ (by decide)),
                if_neg (hc' _ (by decide)), if_neg (hc' _ (by decide)), if_neg (hc' _ (by decide)),
                if_neg (hc' _ (by decide)), if_neg (hc' _ (by decide)), if_neg (hc' _ (by decide))]
            rw [e1]
            apply StrBody.plains
            intro y hy
            have := hb y hy
            revert this
            have : ∀ y : UInt8, 128 ≤ y → 0x20 ≤ y ∧ y ≠ 0x22 ∧ y ≠ 0x5c :=
              u8_all (by decide +kernel)
            exact this y
        have := ht.append hd
        rwa [List.take_append_drop] at this

theorem formatString_text (cd : Codec) (hcd : Utf8Like cd) (s t : Text)
    (hs : CStrOk s) (h : formatString cd s = some t) : StrText s t := by
  unfold formatString at h
  obtain ⟨t', ht', rfl⟩ := Option.map_eq_some_iff.1 h
  exact ⟨t', formatChars_body cd hcd _ s t' (Nat.le_refl _) hs ht', rfl⟩

theorem rawChar_body (x : UInt8) (h : RawOk [x]) : StrBody (rawChar x) [x] := by
  have hx := h x List.mem_cons_self
  have key : ∀ x : UInt8,
      ((0x20 ≤ x ∧ x ≠ 0x3f) ∨ x = 0x08 ∨ x = 0x09 ∨ x = 0x0a ∨ x = 0x0c ∨ x = 0x0d ∨ x = 0) →
      (rawChar x = [x] ∧ 0x20 ≤ x ∧ x ≠ 0x22 ∧ x ≠ 0x5c) ∨
      (∃ e ∈ escapes, rawChar x = [0x5c, e.1] ∧ e.2 = x) ∨
      (rawChar x = [0x5c, b 'u', b '0', b '0', b '0', b '0'] ∧ x = 0) := by
    exact u8_all (by decide +kernel)
  rcases key x hx with ⟨e, h1, h2, h3⟩ | ⟨⟨e, y⟩, he, e1, rfl⟩ | ⟨e, rfl⟩
  · rw [e]; exact .plain h1 h2 h3 .nil
  · rw [e1]; exact .esc1 he
  · rw [e]
    exact StrBody.uni (n := 0) (m := 0) (by decide) (by decide) (by decide) .nil

theorem rawChars_body (s : Text) (h : RawOk s) : StrBody (s.flatMap rawChar) s := by
  induction s with
  | nil => exact .nil
  | cons x s ih =>
    rw [List.flatMap_cons]
    exact (rawChar_body x fun y hy => by
        cases List.mem_singleton.1 hy; exact h _ List.mem_cons_self).append
      (ih fun y hy => h y (List.mem_cons_of_mem _ hy))

theorem digit_props : ∀ n < 10, (0x30 : UInt8) ≤ UInt8.ofNat (0x30 + n) ∧
    UInt8.ofNat (0x30 + n) ≤ 0x39 ∧ (UInt8.ofNat (0x30 + n)).toNat - 0x30 = n ∧
    (n ≠ 0 → UInt8.ofNat (0x30 + n) ≠ b '0') ∧ (n = 0 → UInt8.ofNat (0x30 + n) = b '0') := by
  decide

theorem decimal_props (n : Nat) :
    Digits (decimal n) ∧ digitsValue (decimal n) = n ∧
      (n = 0 → decimal n = [b '0']) ∧ (n ≠ 0 → ∃ x r, decimal n = x :: r ∧ x ≠ b '0') := by
  induction n using Nat.strongRecOn with
  | _ n ih =>
    rw [decimal]
    split
    · rename_i hn
      obtain ⟨h1, h2, h3, h4, h5⟩ := digit_props n hn
      refine ⟨?_, ?_, ?_, ?_⟩
      · intro x hx; cases List.mem_singleton.1 hx; exact ⟨h1, h2⟩
      · simpa [digitsValue] using h3
      · intro h0; rw [h5 h0]
      · intro h0; exact ⟨_, _, rfl, h4 h0⟩
    · rename_i hn
      obtain ⟨i1, i2, i3, i4⟩ := ih (n / 10) (by omega)
      obtain ⟨h1, h2, h3, h4, h5⟩ := digit_props (n % 10) (by omega)
      obtain ⟨x, r, e, hx⟩ := i4 (by omega)
      refine ⟨?_, ?_, ?_, ?_⟩
      · intro y hy
        rcases List.mem_append.1 hy with hy | hy
        · exact i1 y hy
        · cases List.mem_singleton.1 hy; exact ⟨h1, h2⟩
      · unfold digitsValue at i2 ⊢
        rw [List.foldl_append, i2]
        simp only [List.foldl_cons, List.foldl_nil, h3]
        omega
      · intro h0; omega
      · intro _; exact ⟨x, _, by rw [e]; rfl, hx⟩

theorem decimal_intPart (n : Nat) : IntPart (decimal n) := by
  obtain ⟨h1, _, h3, h4⟩ := decimal_props n
  refine ⟨h1, ?_⟩
  by_cases h : n = 0
  · exact Or.inl (h3 h)
  · exact Or.inr (h4 h)

theorem decimal_text (n : Nat) : IntText n (decimal n) :=
  Or.inl ⟨_, decimal_intPart n, rfl, by rw [(decimal_props n).2.1]⟩

theorem signedDecimal_text (i : Int) : IntText i (signedDecimal i) := by
  unfold signedDecimal
  split
  · refine Or.inr ⟨_, decimal_intPart i.natAbs, rfl, ?_⟩
    rw [(decimal_props _).2.1]; omega
  · refine Or.inl ⟨_, decimal_intPart i.natAbs, rfl, ?_⟩
    rw [(decimal_props _).2.1]; omega

/-- What a scalar call writes is a text of its value. -/
theorem scalarText_json (cd : Codec) (hcd : Utf8Like cd) (c : Call) (v : JVal) (t : Text)
    (hok : c.Ok) (hv : c.scalar = some v) (ht : scalarText cd c = some t) : JsonText v t := by
  cases c <;> cases hv
  case integer v => cases ht; exact .int (signedDecimal_text _)
  case uinteger v => cases ht; exact .int (decimal_text _)
  case float => cases ht; exact .num hok
  case longDouble => cases ht; exact .num hok
  case hexfloat t => cases ht; exact .str ⟨t, StrBody.plains hok, rfl⟩
  case hexLongDouble t => cases ht; exact .str ⟨t, StrBody.plains hok, rfl⟩
  case string s => exact .str (formatString_text cd hcd s t hok ht)
  case rawString s => cases ht; exact .str ⟨_, rawChars_body s hok, rfl⟩
  case boolean v => cases v <;> cases ht
                    · exact .false
                    · exact .true
  case null => cases ht; exact .null

end Kefir.Json
