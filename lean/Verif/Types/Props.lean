import Verif.Types.Spec

/-! C12: integer promotions and usual arithmetic conversions. -/
namespace Kefir.Types
open Kefir.C17 Basic

/-- A bit-field width that C17 6.7.2.1p4 allows for the type (absent for ordinary operands). -/
def ValidWidth (t : Basic) (w : Option Nat) : Prop := ∀ n, w = some n → 1 ≤ n ∧ n ≤ width t

theorem pow_le_31 {w : Nat} (h : w ≤ 31) : (2 : Int) ^ w ≤ 2147483648 := by
  have := Nat.pow_le_pow_right (n := 2) (by decide) h
  have h2 : ((2 ^ w : Nat) : Int) ≤ ((2 ^ 31 : Nat) : Int) := Int.ofNat_le.mpr this
  simpa using h2

theorem pow_le_63 {w : Nat} (h : w ≤ 63) : (2 : Int) ^ w ≤ 9223372036854775808 := by
  have := Nat.pow_le_pow_right (n := 2) (by decide) h
  have h2 : ((2 ^ w : Nat) : Int) ≤ ((2 ^ 63 : Nat) : Int) := Int.ofNat_le.mpr this
  simpa using h2

theorem pow_le_64 {w : Nat} (h : w ≤ 64) : (2 : Int) ^ w ≤ 18446744073709551616 := by
  have := Nat.pow_le_pow_right (n := 2) (by decide) h
  have h2 : ((2 ^ w : Nat) : Int) ≤ ((2 ^ 64 : Nat) : Int) := Int.ofNat_le.mpr this
  simpa using h2

theorem intRepresents_none (t : Basic) (h : isInteger t = true) :
    intRepresents t none ↔ (minVal int ≤ minVal t ∧ maxVal t ≤ maxVal int) := by
  constructor
  · intro hr
    have h1 := hr (minVal t) (by cases t <;> simp_all [FieldRange] <;> decide)
    have h2 := hr (maxVal t) (by cases t <;> simp_all [FieldRange] <;> decide)
    exact ⟨h1.1, h2.2⟩
  · intro ⟨h1, h2⟩ v hv
    exact ⟨Int.le_trans h1 hv.1, Int.le_trans hv.2 h2⟩

/-- A field narrower than `int` is representable in `int`; so is a signed one of exactly its width. -/
theorem intRepresents_narrow (t : Basic) (w : Nat) (h1 : 1 ≤ w)
    (h : w ≤ 31 ∨ (w = 32 ∧ signed t = true)) : intRepresents t (some w) := by
  intro v hv
  have hmin : minVal int = -2147483648 := by decide
  have hmax : maxVal int = 2147483647 := by decide
  simp only [FieldRange] at hv
  unfold InRange
  rw [hmin, hmax]
  have hp : (2 : Int) ^ (w - 1) ≤ 2147483648 := pow_le_31 (by omega)
  split at hv
  · omega
  · rcases h with h | ⟨_, h⟩
    · have := pow_le_31 h; omega
    · contradiction

/-- C12 (promotions): every integer operand, of every bit-field width, is promoted to the type that
C17 6.3.1.1p2 prescribes. -/
theorem C12_promotion (t : Basic) (w : Option Nat) (ht : isInteger t = true) (hw : ValidWidth t w) :
    ∃ p, intPromotion t w = some p ∧ Promotes t w p := by
  cases w with
  | none =>
    have hi := intRepresents_none t ht
    cases t <;> first | exact absurd ht (by decide) | skip
    all_goals simp only [Promotes, hi]
    all_goals exact ⟨_, rfl, by decide⟩
  | some n =>
    obtain ⟨h1, h2⟩ := hw n rfl
    by_cases hn : n ≤ 31
    · -- narrow: `int`
      have hr := intRepresents_narrow t n h1 (.inl hn)
      have hb : bitfieldPromotion t n = int := by
        unfold bitfieldPromotion
        rw [if_neg (by simp; omega), if_neg (by omega)]
      refine ⟨int, ?_, ?_⟩
      · unfold intPromotion
        rw [if_neg (by cases t <;> simp_all [isIntegral, isInteger])]
        simp only [fieldBase, hb]; rfl
      · unfold Promotes
        split
        · exact ⟨fun _ => rfl, fun h => absurd hr h⟩
        · exact ⟨rfl, by decide, hr⟩
    · have hwt : 32 ≤ width t := by omega
      by_cases hs : n = 32 ∧ isSignedTag t = true
      · have hr := intRepresents_narrow t n h1 (.inr ⟨hs.1, by cases t <;> simp_all [isSignedTag, signed]⟩)
        have hb : bitfieldPromotion t n = int := by
          unfold bitfieldPromotion
          rw [if_pos (by simp [hs])]
        refine ⟨int, ?_, ?_⟩
        · unfold intPromotion
          rw [if_neg (by cases t <;> simp_all [isIntegral, isInteger])]
          simp only [fieldBase, hb]; rfl
        · unfold Promotes
          split
          · exact ⟨fun _ => rfl, fun h => absurd hr h⟩
          · exact ⟨rfl, by decide, hr⟩
      · have hb : bitfieldPromotion t n = t := by
          unfold bitfieldPromotion
          rw [if_neg (by simp; intro h; simpa [h] using hs), if_pos (by omega)]
        refine ⟨t, ?_, ?_⟩
        · unfold intPromotion
          rw [if_neg (by cases t <;> simp_all [isIntegral, isInteger])]
          simp only [fieldBase, hb]
          rw [if_neg (by cases t <;> simp_all [width] <;> decide)]
        · unfold Promotes
          split
          · -- only `unsigned int` of width 32 is left
            have hu : t = uint ∧ n = 32 := by
              cases t <;> simp_all [width, convRank, isSignedTag] <;> omega
            obtain ⟨rfl, rfl⟩ := hu
            refine ⟨fun hr => ?_, fun _ => rfl⟩
            have := (hr 4294967295 (by simp only [FieldRange]; decide)).2
            exact absurd this (by decide)
          · refine ⟨ht, by cases t <;> simp_all [width] <;> decide, ?_⟩
            intro v hv
            have h64 : width t = 64 := by cases t <;> simp_all [width, convRank]
            simp only [FieldRange] at hv
            unfold InRange minVal maxVal
            rw [h64]
            have a1 := pow_le_63 (w := n - 1) (by omega)
            have a2 := pow_le_64 (w := n) (by omega)
            split at hv
            · rename_i hsg; rw [if_pos hsg, if_pos hsg]; omega
            · rename_i hsg; rw [if_neg hsg, if_neg hsg]; omega

/-- Promoted operand types whose combination C17 orders by a rank kefir does not have: one of kind `long`
and one of kind `long long`. -/
def mixesLongKinds (p q : Basic) : Bool :=
  (convRank p == 4 && convRank q == 5) || (convRank p == 5 && convRank q == 4)

theorem promoted_mem {t : Basic} {w : Option Nat} {p : Basic} (h : intPromotion t w = some p) :
    p ∈ [int, uint, long, ulong, llong, ullong] := by
  unfold intPromotion at h
  split at h
  · cases h
  · rename_i hi
    have hb : isIntegral (t.fieldBase w) = true := by
      cases w with
      | none => simpa [fieldBase] using hi
      | some n =>
        simp only [fieldBase, bitfieldPromotion]
        split
        · rfl
        · split
          · simpa using hi
          · rfl
    revert h hb
    generalize t.fieldBase w = b
    cases b <;> simp [rank, fits, isSigned, fitRank, isIntegral] <;> intro h <;> subst h <;> decide

theorem commonArith_integer {t1 t2 : Basic} {w1 w2 : Option Nat} {p q : Basic}
    (h1 : isInteger t1 = true) (h2 : isInteger t2 = true)
    (hp : intPromotion t1 w1 = some p) (hq : intPromotion t2 w2 = some q) :
    commonArith t1 w1 t2 w2 = commonArith p none q none := by
  have e1 := promoted_mem hp
  have e2 := promoted_mem hq
  have ip : intPromotion p none = some p := by
    simp only [List.mem_cons, List.not_mem_nil, or_false] at e1
    rcases e1 with rfl | rfl | rfl | rfl | rfl | rfl <;> decide
  have iq : intPromotion q none = some q := by
    simp only [List.mem_cons, List.not_mem_nil, or_false] at e2
    rcases e2 with rfl | rfl | rfl | rfl | rfl | rfl <;> decide
  have n1 : (t1 == ldouble) = false ∧ (t1 == double) = false ∧ (t1 == float) = false := by
    cases t1 <;> first | exact absurd h1 (by decide) | decide
  have n2 : (t2 == ldouble) = false ∧ (t2 == double) = false ∧ (t2 == float) = false := by
    cases t2 <;> first | exact absurd h2 (by decide) | decide
  have n3 : (p == ldouble) = false ∧ (p == double) = false ∧ (p == float) = false := by
    simp only [List.mem_cons, List.not_mem_nil, or_false] at e1
    rcases e1 with rfl | rfl | rfl | rfl | rfl | rfl <;> decide
  have n4 : (q == ldouble) = false ∧ (q == double) = false ∧ (q == float) = false := by
    simp only [List.mem_cons, List.not_mem_nil, or_false] at e2
    rcases e2 with rfl | rfl | rfl | rfl | rfl | rfl <;> decide
  unfold commonArith
  simp [n1, n2, n3, n4, hp, hq, ip, iq]

/-- C12 (usual arithmetic conversions), integer operands: the common type is the C17 one, except that when
an operand of kind `long` meets one of kind `long long` only its width and signedness are guaranteed.
Missing from the full property: in the mixed case the type itself (`long long`-kind) is not the prescribed
one, see `C12_long_long_rank_false`. -/
theorem C12_common_integer_partial (t1 t2 : Basic) (w1 w2 : Option Nat)
    (h1 : isInteger t1 = true) (h2 : isInteger t2 = true)
    (v1 : ValidWidth t1 w1) (v2 : ValidWidth t2 w2) :
    ∃ p q c, Promotes t1 w1 p ∧ Promotes t2 w2 q ∧ commonArith t1 w1 t2 w2 = some c ∧
      (mixesLongKinds p q = false → c = commonInteger p q) ∧
      width c = width (commonInteger p q) ∧ signed c = signed (commonInteger p q) := by
  obtain ⟨p, hp, pp⟩ := C12_promotion t1 w1 h1 v1
  obtain ⟨q, hq, pq⟩ := C12_promotion t2 w2 h2 v2
  have e1 := promoted_mem hp
  have e2 := promoted_mem hq
  rw [commonArith_integer h1 h2 hp hq]
  suffices h : ∃ c, commonArith p none q none = some c ∧ (mixesLongKinds p q = false → c = commonInteger p q) ∧
      width c = width (commonInteger p q) ∧ signed c = signed (commonInteger p q) by
    obtain ⟨c, h⟩ := h
    exact ⟨p, q, c, pp, pq, h⟩
  clear pp pq hp hq v1 v2 h1 h2
  simp only [List.mem_cons, List.not_mem_nil, or_false] at e1 e2
  rcases e1 with rfl | rfl | rfl | rfl | rfl | rfl <;>
  rcases e2 with rfl | rfl | rfl | rfl | rfl | rfl <;> exact ⟨_, rfl, by decide, by decide, by decide⟩

/-- C12 (usual arithmetic conversions) when an operand is floating: the common type is exactly the C17 one. -/
theorem C12_common_floating (t1 t2 : Basic) (w1 w2 : Option Nat)
    (h : isInteger t1 = false ∨ isInteger t2 = false) :
    commonArith t1 w1 t2 w2 = some (commonReal t1 t2) := by
  cases t1 <;> cases t2 <;> first | (exact absurd h (by decide)) | rfl

/-- C12, order of operands: exchanging the operands changes neither the width nor the signedness, and gives
exactly the same type unless `long` meets `long long`. -/
theorem C12_symmetric_partial (t1 t2 : Basic) (w1 w2 : Option Nat)
    (h1 : isInteger t1 = true) (h2 : isInteger t2 = true)
    (v1 : ValidWidth t1 w1) (v2 : ValidWidth t2 w2) :
    ∃ p q c d, Promotes t1 w1 p ∧ Promotes t2 w2 q ∧
      commonArith t1 w1 t2 w2 = some c ∧ commonArith t2 w2 t1 w1 = some d ∧
      width c = width d ∧ signed c = signed d ∧ (mixesLongKinds p q = false → c = d) := by
  obtain ⟨p, hp, pp⟩ := C12_promotion t1 w1 h1 v1
  obtain ⟨q, hq, pq⟩ := C12_promotion t2 w2 h2 v2
  have e1 := promoted_mem hp
  have e2 := promoted_mem hq
  refine ⟨p, q, ?_⟩
  simp only [pp, pq, true_and]
  rw [commonArith_integer h1 h2 hp hq, commonArith_integer h2 h1 hq hp]
  clear hp hq v1 v2 h1 h2 pp pq
  simp only [List.mem_cons, List.not_mem_nil, or_false] at e1 e2
  rcases e1 with rfl | rfl | rfl | rfl | rfl | rfl <;>
  rcases e2 with rfl | rfl | rfl | rfl | rfl | rfl <;> exact ⟨_, _, rfl, rfl, by decide, by decide, by decide⟩

/-- C12, values: every value of either operand is a value of the common type, except negative values
when the common type is unsigned (which C17 converts). -/
theorem C12_values (t1 t2 : Basic) (w1 w2 : Option Nat)
    (h1 : isInteger t1 = true) (h2 : isInteger t2 = true)
    (v1 : ValidWidth t1 w1) (v2 : ValidWidth t2 w2) :
    ∃ c, commonArith t1 w1 t2 w2 = some c ∧
      (∀ v, FieldRange t1 w1 v → InRange c v ∨ (v < 0 ∧ signed c = false)) ∧
      (∀ v, FieldRange t2 w2 v → InRange c v ∨ (v < 0 ∧ signed c = false)) := by
  obtain ⟨p, hp, pp⟩ := C12_promotion t1 w1 h1 v1
  obtain ⟨q, hq, pq⟩ := C12_promotion t2 w2 h2 v2
  have e1 := promoted_mem hp
  have e2 := promoted_mem hq
  have keep : ∀ {t w r}, isInteger t = true → ValidWidth t w → Promotes t w r → ∀ v, FieldRange t w v → InRange r v := by
    intro t w r ht hw hr v hv
    unfold Promotes at hr
    split at hr
    · rename_i hk
      by_cases hi : intRepresents t w
      · rw [hr.1 hi]; exact hi v hv
      · rw [hr.2 hi]
        cases w with
        | none =>
          rw [intRepresents_none t ht] at hi
          have : t = uint := by cases t <;> first | rfl | (exact absurd (by decide) hi) | (exact absurd hk (by decide)) | cases ht
          subst this; exact hv
        | some n =>
          obtain ⟨a, b⟩ := hw n rfl
          have hn : ¬ (n ≤ 31 ∨ (n = 32 ∧ signed t = true)) := fun h => hi (intRepresents_narrow t n a h)
          have : t = uint ∧ n = 32 := by
            cases t <;> simp_all [width, convRank, signed] <;> omega
          obtain ⟨rfl, rfl⟩ := this
          simpa [FieldRange, InRange, minVal, maxVal, signed, width] using hv
    · cases w with
      | none => simp only at hr; subst hr; exact hv
      | some n => exact hr.2.2 v hv
  rw [commonArith_integer h1 h2 hp hq]
  suffices h : ∃ c, commonArith p none q none = some c ∧
      ((minVal c ≤ minVal p ∨ signed c = false ∧ 0 = minVal c) ∧ maxVal p ≤ maxVal c) ∧
      ((minVal c ≤ minVal q ∨ signed c = false ∧ 0 = minVal c) ∧ maxVal q ≤ maxVal c) by
    obtain ⟨c, hc, ⟨a1, a2⟩, b1, b2⟩ := h
    refine ⟨c, hc, fun v hv => ?_, fun v hv => ?_⟩
    · have := keep h1 v1 pp v hv
      unfold InRange at *
      rcases a1 with a1 | ⟨a1, a3⟩
      · left; omega
      · by_cases hv : v < 0
        · exact .inr ⟨hv, a1⟩
        · left; omega
    · have := keep h2 v2 pq v hv
      unfold InRange at *
      rcases b1 with a1 | ⟨a1, a3⟩
      · left; omega
      · by_cases hv : v < 0
        · exact .inr ⟨hv, a1⟩
        · left; omega
  clear hp hq v1 v2 h1 h2 pp pq
  simp only [List.mem_cons, List.not_mem_nil, or_false] at e1 e2
  rcases e1 with rfl | rfl | rfl | rfl | rfl | rfl <;>
  rcases e2 with rfl | rfl | rfl | rfl | rfl | rfl <;> exact ⟨_, rfl, by decide, by decide⟩

/-- The default argument promotions (C17 6.5.2.2p6): integer promotions, and `float` to `double`. -/
theorem C12_default_argument (t : Basic) :
    defaultArgPromotion t =
      some (if t = float then double else if isInteger t = true then promote t else t) := by
  cases t <;> rfl

/-- Finding: the full C12 is false.  `long` and `long long` have the same rank, so the type of a sum of a
`long` and a `long long` is that of the right operand: it depends on operand order, and is not the C17
type (`long long`) when the `long` is on the right. -/
theorem C12_long_long_rank_false :
    commonArith llong none long none = some long ∧ commonArith long none llong none = some llong ∧
    commonInteger llong long = llong := by decide

/-! Witnesses: a 32-bit unsigned bit-field, a 3-bit one and a 40-bit `long` one are valid operands. -/
example : ValidWidth uint (some 32) ∧ ValidWidth uint (some 3) ∧ ValidWidth long (some 40) ∧ ValidWidth char none := by
  refine ⟨?_, ?_, ?_, ?_⟩ <;> intro n h <;> cases h <;> decide

example : commonArith uint (some 3) long none = some long ∧ commonArith uint (some 3) int none = some int ∧
    commonArith uint (some 32) int none = some uint ∧ commonArith uchar none ushort none = some int := by decide

end Kefir.Types
