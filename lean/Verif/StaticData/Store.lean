import Verif.StaticData.Finalise

/-!
# Lemmas: assignments to slots
-/

namespace Kefir.StaticData

open Kefir.Layout Kefir.Abi

/-! ## Blocks -/

theorem mem_addBlock {b x : Nat} : ∀ {bs : List Nat}, x ∈ addBlock b bs ↔ x = b ∨ x ∈ bs
  | [] => by simp [addBlock]
  | y :: ys => by
    simp only [addBlock]
    split
    · simp
    · split
      · rename_i h; subst h; simp
      · simp only [List.mem_cons, mem_addBlock]
        constructor
        · rintro (h | h | h) <;> simp [h]
        · rintro (h | h | h) <;> simp [h]

theorem addBlock_sorted {b : Nat} : ∀ {bs : List Nat}, bs.Pairwise (· < ·) → (addBlock b bs).Pairwise (· < ·)
  | [], _ => by simp [addBlock]
  | y :: ys, h => by
    rw [List.pairwise_cons] at h
    simp only [addBlock]
    split
    · rename_i hlt
      rw [List.pairwise_cons, List.pairwise_cons]
      refine ⟨fun z hz => ?_, h⟩
      rcases List.mem_cons.1 hz with rfl | hz
      · exact hlt
      · exact Nat.lt_trans hlt (h.1 z hz)
    · split
      · rw [List.pairwise_cons]; exact h
      · rw [List.pairwise_cons]
        refine ⟨fun z hz => ?_, addBlock_sorted h.2⟩
        rcases mem_addBlock.1 hz with rfl | hz
        · omega
        · exact h.1 z hz

/-- A strictly ascending list that contains all the numbers below each of its elements. -/
theorem eq_range_aux : ∀ {bs : List Nat} {a : Nat}, bs.Pairwise (· < ·) → (∀ b ∈ bs, a ≤ b) →
    (∀ b ∈ bs, ∀ c, a ≤ c → c < b → c ∈ bs) → bs = List.range' a bs.length
  | [], a, _, _, _ => rfl
  | b :: bs, a, hp, hge, hc => by
    rw [List.pairwise_cons] at hp
    have hab : a = b := by
      have h1 := hge b (List.mem_cons_self ..)
      rcases Nat.lt_or_eq_of_le h1 with h | h
      · exfalso
        rcases List.mem_cons.1 (hc b (List.mem_cons_self ..) a (Nat.le_refl _) h) with h2 | h2
        · omega
        · have := hp.1 a h2; omega
      · exact h
    subst hab
    rw [List.length_cons, List.range'_succ]
    congr 1
    refine eq_range_aux hp.2 (fun c hcm => hp.1 c hcm) (fun c hcm x hx1 hx2 => ?_)
    rcases List.mem_cons.1 (hc c (List.mem_cons_of_mem _ hcm) x (by omega) hx2) with h | h
    · omega
    · exact h

theorem eq_range {bs : List Nat} (hp : bs.Pairwise (· < ·)) (hc : ∀ b ∈ bs, ∀ c, c < b → c ∈ bs) :
    bs = List.range bs.length := by
  rw [List.range_eq_range']
  exact eq_range_aux hp (fun _ _ => Nat.zero_le _) (fun b hb c _ hlt => hc b hb c hlt)

/-! ## Assignments -/

theorem setAll_spec : ∀ (writes : List (Nat × Value)) (d : DataMap), d.finalized = false → Mapped d →
    (∀ j, d.flags j = false) →
    ∃ d', setAll d writes = .ok d' ∧ d'.total = d.total ∧ d'.finalized = false ∧ Mapped d' ∧
      (∀ j, d'.flags j = false) ∧
      (∀ j, d'.vals j = match writes.reverse.find? (fun w => decide (w.1 = j)) with
        | some w => w.2
        | none => d.vals j) ∧
      ∀ b, b ∈ d'.blocks ↔ b ∈ d.blocks ∨ ∃ w ∈ writes, w.1 / blockCapacity = b
  | [], d, hf, hm, hfl => ⟨d, rfl, rfl, hf, hm, hfl, fun _ => rfl, by simp⟩
  | (slot, v) :: ws, d, hf, hm, hfl => by
    have hm1 : Mapped (({ d with blocks := addBlock (slot / blockCapacity) d.blocks } : DataMap).setVal slot v) := by
      refine ⟨addBlock_sorted hm.sorted, fun j hj => ?_⟩
      simp only [DataMap.mapped, List.contains_iff_mem]
      show j / blockCapacity ∈ addBlock _ _
      rw [mem_addBlock]
      rw [setVal_vals] at hj
      by_cases hjs : j = slot
      · exact Or.inl (by rw [hjs])
      · rw [if_neg hjs] at hj
        have := hm.covers j hj
        rw [DataMap.mapped, List.contains_iff_mem] at this
        exact Or.inr this
    obtain ⟨d', h1, h2, h3, h4, h5, h6, h7⟩ := setAll_spec ws _ (by exact hf) hm1 hfl
    refine ⟨d', ?_, h2, h3, h4, h5, fun j => ?_, fun b => ?_⟩
    · rw [setAll, setValue, if_neg (by simp [hf])]
      exact h1
    · rw [h6 j, List.reverse_cons, List.find?_append]
      cases hw : ws.reverse.find? (fun w => decide (w.1 = j)) with
      | some w => simp
      | none =>
        by_cases hj : j = slot
        · subst hj; simp [setVal_vals]
        · simp [setVal_vals, hj, Ne.symm hj]
    · rw [h7 b]
      show b ∈ addBlock _ _ ∨ _ ↔ _
      rw [mem_addBlock]
      constructor
      · rintro ((h | h) | ⟨w, hw, h⟩)
        · exact Or.inr ⟨_, List.mem_cons_self .., h.symm⟩
        · exact Or.inl h
        · exact Or.inr ⟨w, List.mem_cons_of_mem _ hw, h⟩
      · rintro (h | ⟨w, hw, h⟩)
        · exact Or.inl (Or.inr h)
        · rcases List.mem_cons.1 hw with rfl | hw
          · exact Or.inl (Or.inl h.symm)
          · exact Or.inr ⟨w, hw, h⟩

theorem alloc_mapped (total : Nat) : Mapped (alloc total) :=
  ⟨by simp [alloc], fun j h => absurd rfl h⟩

/-! ## Bit-fields -/

/-- What a bit-field store makes of a number, as the code computes it. -/
def merged (current value offset width : Nat) : Nat :=
  (current &&& (2 ^ 64 - 1 - ((1 <<< (width + 1) - 1) <<< offset) % 2 ^ 64)) |||
    ((value &&& (1 <<< (width + 1) - 1)) <<< offset) % 2 ^ 64

theorem merged_bit {current value offset width : Nat} (i : Nat) (hi : i < 64) :
    (merged current value offset width).testBit i =
      if offset ≤ i ∧ i ≤ offset + width then value.testBit (i - offset) else current.testBit i := by
  have e : (2 ^ 64 - 1 - ((1 <<< (width + 1) - 1) <<< offset) % 2 ^ 64).testBit i =
      !((1 <<< (width + 1) - 1) <<< offset).testBit i := by
    have := Nat.testBit_two_pow_sub_succ (x := ((1 <<< (width + 1) - 1) <<< offset) % 2 ^ 64) (n := 64)
      (Nat.mod_lt _ (by decide)) i
    rw [show 2 ^ 64 - (((1 <<< (width + 1) - 1) <<< offset) % 2 ^ 64 + 1) =
      2 ^ 64 - 1 - ((1 <<< (width + 1) - 1) <<< offset) % 2 ^ 64 by omega] at this
    rw [this, Nat.testBit_mod_two_pow, decide_eq_true hi, Bool.true_and, Bool.true_and]
  rw [merged, Nat.testBit_or, Nat.testBit_and, e]
  simp only [Nat.testBit_mod_two_pow, Nat.testBit_shiftLeft,
    Nat.one_shiftLeft, Nat.testBit_two_pow_sub_one, hi, decide_true, Bool.true_and]
  by_cases h1 : offset ≤ i
  · by_cases h2 : i ≤ offset + width
    · rw [if_pos ⟨h1, h2⟩]
      have h3 : i - offset < width + 1 := by omega
      simp [h1, h3]
    · rw [if_neg (fun h => h2 h.2)]
      have h3 : ¬ i - offset < width + 1 := by omega
      simp [h3]
  · rw [if_neg (fun h => h1 h.1)]
    have h3 : ¬ i ≥ offset := by omega
    simp [h3]

theorem merged_lt {current value offset width : Nat} (hc : current < 2 ^ 64) :
    merged current value offset width < 2 ^ 64 :=
  Nat.or_lt_two_pow (Nat.lt_of_le_of_lt Nat.and_le_left hc) (Nat.mod_lt _ (by decide))

theorem field_bit (x offset width i : Nat) :
    (field x offset width).testBit i = (decide (i < width) && x.testBit (offset + i)) := by
  rw [field, Nat.testBit_mod_two_pow, ← Nat.shiftRight_eq_div_pow, Nat.testBit_shiftRight]

theorem field_eq {x y offset o' width : Nat} (h : ∀ i, i < width → x.testBit (offset + i) = y.testBit (o' + i)) :
    field x offset width = field y o' width := by
  apply Nat.eq_of_testBit_eq
  intro i
  rw [field_bit, field_bit]
  by_cases hi : i < width
  · rw [h i hi]
  · simp [hi]

theorem setBitfield_eq {d : DataMap} {slot value offset width cur : Nat} (hf : d.finalized = false)
    (hw : width < 63) (ho : offset < 64)
    (hc : d.vals slot = .integer cur ∨ (d.vals slot = .undefined ∧ cur = 0)) :
    setBitfield d slot value offset width =
      .ok (({ d with blocks := addBlock (slot / blockCapacity) d.blocks } : DataMap).setVal slot
        (.integer (merged cur value offset width))) := by
  rcases hc with hc | ⟨hc, rfl⟩
  · simp only [setBitfield, hf, Bool.false_eq_true, if_false, hc]
    rw [if_neg (by omega), if_neg (by omega), if_neg (by omega)]
    rfl
  · simp only [setBitfield, hf, Bool.false_eq_true, if_false, hc]
    rw [if_neg (by omega), if_neg (by omega), if_neg (by omega)]
    rfl

theorem Ascending.ge : ∀ {fs : List (Nat × Nat × Nat)} {start : Nat}, Ascending start fs → ∀ f ∈ fs, start ≤ f.2.1
  | [], _, _, f, hf => by simp at hf
  | (v, o, w) :: fs, start, h, f, hf => by
    simp only [Ascending] at h
    rcases List.mem_cons.1 hf with rfl | hf
    · exact h.1
    · have := Ascending.ge h.2.2.2.2 f hf; omega

/-- Stores in ascending order: bits below the first field are kept, every field gets its value. -/
theorem setBitfields_spec : ∀ (fs : List (Nat × Nat × Nat)) (start : Nat) (d : DataMap) (slot cur : Nat),
    d.finalized = false → Ascending start fs →
    (d.vals slot = .integer cur ∨ (d.vals slot = .undefined ∧ cur = 0)) →
    ∃ d' x, setBitfields d slot fs = .ok d' ∧ (fs ≠ [] → d'.vals slot = .integer x) ∧ (fs = [] → x = cur) ∧
      (∀ j, j ≠ slot → d'.vals j = d.vals j) ∧
      (∀ i, i < 64 → i < start → x.testBit i = cur.testBit i) ∧
      (cur < 2 ^ 64 → x < 2 ^ 64) ∧
      ∀ f ∈ fs, field x f.2.1 f.2.2 = field f.1 0 f.2.2
  | [], start, d, slot, cur, hf, ha, hc =>
    ⟨d, cur, rfl, by simp, by simp, by simp, by simp, by simp, by simp⟩
  | (v, o, w) :: fs, start, d, slot, cur, hf, ha, hc => by
    simp only [Ascending] at ha
    obtain ⟨a1, a2, a3, a4, a5⟩ := ha
    have e := setBitfield_eq (value := v) hf a2 (show o < 64 by omega) hc
    obtain ⟨d', x, h1, h2, h3, h4, h5, h6, h7⟩ := setBitfields_spec fs (o + w)
      (({ d with blocks := addBlock (slot / blockCapacity) d.blocks } : DataMap).setVal slot
        (.integer (merged cur v o w))) slot (merged cur v o w) hf a5 (Or.inl (by simp [setVal_vals]))
    refine ⟨d', x, by simp only [setBitfields, e, h1], fun _ => ?_, by simp, fun j hj => ?_, fun i hi his => ?_,
      fun hcur => h6 (merged_lt hcur), ?_⟩
    · cases fs with
      | nil =>
        simp only [setBitfields, Except.ok.injEq] at h1
        rw [← h1, h3 rfl]; simp [setVal_vals]
      | cons => exact h2 (by simp)
    · rw [h4 j hj, setVal_vals, if_neg hj]
    · rw [h5 i hi (by omega), merged_bit i hi, if_neg (by omega)]
    · intro f hfm
      rcases List.mem_cons.1 hfm with rfl | hfm
      · apply field_eq
        intro i hi
        simp only at hi ⊢
        rw [h5 _ (by omega) (by omega), merged_bit _ (by omega), if_pos (by omega)]
        congr 1; omega
      · exact h7 f hfm

end Kefir.StaticData
