import Verif.StaticData.Model
import Verif.Layout.Aligned

/-!
# Lemmas: images, iterators, alignment
-/

namespace Kefir.StaticData

open Kefir.Layout Kefir.Abi

/-! ## Bytes -/

theorem zeros_length (n : Nat) : (zeros n).length = n := by simp [zeros]

theorem zeros_zero : zeros 0 = [] := rfl

theorem zeros_append (a b : Nat) : zeros a ++ zeros b = zeros (a + b) := by
  simp [zeros, List.replicate_append_replicate]

theorem le_length (n v : Nat) : (le n v).length = n := by simp [le]

theorem le_mod (n v : Nat) : le n (v % 2 ^ (8 * n)) = le n v := by
  simp only [le]
  apply List.map_congr_left
  intro i hi
  have hi : i < n := by simpa using hi
  congr 1
  have e1 : (2 : Nat) ^ (8 * n) = 256 ^ i * 256 ^ (n - i) := by
    rw [show (256 : Nat) = 2 ^ 8 from rfl, ← Nat.pow_mul, ← Nat.pow_mul, ← Nat.pow_add]
    congr 1; omega
  rw [e1, Nat.mod_mul_right_div_self]
  rw [show n - i = (n - i - 1) + 1 by omega, Nat.pow_succ, Nat.mul_comm (256 ^ _)]
  exact Nat.mod_mul_right_mod _ _ _

theorem directive_eq (n v : Nat) : directive n v = le n v := le_mod n v

theorem le_zero (n : Nat) : le n 0 = zeros n := by
  simp only [le, zeros, Nat.zero_div, Nat.zero_mod]
  rw [List.map_const', List.length_range]

theorem bits_bytes (n v : Nat) :
    ((List.range n).map fun i => Cell.byte ((v >>> (i <<< 3)) &&& 0xff)) = le n v := by
  simp only [le]
  apply List.map_congr_left
  intro i _
  congr 1
  rw [Nat.shiftRight_eq_div_pow, Nat.shiftLeft_eq]
  rw [show (255 : Nat) = 2 ^ 8 - 1 from rfl, Nat.and_two_pow_sub_one_eq_mod]
  rw [show (256 : Nat) = 2 ^ 8 from rfl, ← Nat.pow_mul]
  congr 3
  omega

theorem addressBytes_length (t : Target) (o : Int) : (addressBytes t o).length = 8 := by simp [addressBytes]

theorem padded_length {n : Nat} {bs : List Nat} (h : bs.length ≤ n) : (padded n bs).length = n := by
  simp [padded, zeros]; omega

theorem encode_undefined (k : Leaf) (n : Nat) : encode k n .undefined = zeros (leafSize k n) := rfl

theorem encode_length {k : Leaf} {n : Nat} {v : Value} (h : LeafSuits k n v) :
    (encode k n v).length = leafSize k n := by
  cases v <;> cases k <;> simp [LeafSuits] at h
  all_goals simp_all [encode, zeros, le_length, leafSize, padded_length, addressBytes_length]

/-! ## Sequences of pieces -/

/-- Pieces one after the other, with zeros between them. -/
def seq : Nat → List (Nat × List Cell) → List Cell
  | _, [] => []
  | start, (o, cs) :: ps => zeros (o - start) ++ cs ++ seq (o + cs.length) ps

/-- The end of the last piece. -/
def seqStop : Nat → List (Nat × List Cell) → Nat
  | start, [] => start
  | _, (o, cs) :: ps => seqStop (o + cs.length) ps

/-- The pieces do not overlap. -/
def Ordered : Nat → List (Nat × List Cell) → Prop
  | _, [] => True
  | start, (o, cs) :: ps => start ≤ o ∧ Ordered (o + cs.length) ps

theorem ordered_le : ∀ {ps : List (Nat × List Cell)} {start : Nat}, Ordered start ps → start ≤ seqStop start ps
  | [], _, _ => Nat.le_refl _
  | (o, cs) :: ps, start, h => by
    have := ordered_le h.2
    simp only [seqStop]; have := h.1; omega

theorem ordered_mem : ∀ {ps : List (Nat × List Cell)} {start : Nat}, Ordered start ps →
    ∀ x ∈ ps, start ≤ x.1
  | (o, cs) :: ps, start, h, x, hx => by
    rcases List.mem_cons.1 hx with rfl | hx
    · exact h.1
    · have := ordered_mem h.2 x hx
      have := h.1; omega

theorem seq_length : ∀ {ps : List (Nat × List Cell)} {start : Nat}, Ordered start ps →
    (seq start ps).length = seqStop start ps - start
  | [], start, _ => by simp [seq, seqStop]
  | (o, cs) :: ps, start, h => by
    have h1 := seq_length h.2
    have h2 := ordered_le h.2
    have h3 := h.1
    simp only [seq, seqStop, List.length_append, zeros_length, h1]
    omega

/-- The byte at `p`. -/
def byteAt (ps : List (Nat × List Cell)) (p : Nat) : Cell :=
  match ps.find? (fun x => decide (x.1 ≤ p ∧ p < x.1 + x.2.length)) with
  | some (o, cs) => cs[p - o]?.getD (.byte 0)
  | none => .byte 0

theorem place_eq (size : Nat) (ps : List (Nat × List Cell)) : place size ps = (List.range size).map (byteAt ps) := rfl

theorem byteAt_none {ps : List (Nat × List Cell)} {p : Nat} (h : ∀ x ∈ ps, p < x.1) : byteAt ps p = .byte 0 := by
  have : ps.find? (fun x => decide (x.1 ≤ p ∧ p < x.1 + x.2.length)) = none := by
    rw [List.find?_eq_none]
    intro x hx
    have := h x hx
    simp; omega
  simp only [byteAt, this]

theorem byteAt_seq {k : Nat} : ∀ {ps : List (Nat × List Cell)} {start : Nat}, Ordered start ps → ∀ p, start ≤ p →
    p < seqStop start ps + k → (seq start ps ++ zeros k)[p - start]? = some (byteAt ps p)
  | [], start, _, p, hp, hk => by
    simp only [seqStop] at hk
    simp only [seq, List.nil_append, byteAt, List.find?_nil, zeros, List.getElem?_replicate]
    rw [if_pos (by omega)]
  | (o, cs) :: ps, start, h, p, hp, hk => by
    have ho := h.1
    have hle := ordered_le h.2
    simp only [seqStop] at hk
    simp only [seq]
    by_cases h1 : p < o
    · rw [List.append_assoc, List.append_assoc, List.getElem?_append_left (by rw [zeros_length]; omega)]
      rw [byteAt_none]
      · simp only [zeros, List.getElem?_replicate]
        rw [if_pos (by omega)]
      · intro x hx
        rcases List.mem_cons.1 hx with rfl | hx
        · exact h1
        · have := ordered_mem h.2 x hx; omega
    · rw [List.append_assoc, List.append_assoc, List.getElem?_append_right (by rw [zeros_length]; omega), zeros_length]
      rw [show p - start - (o - start) = p - o by omega]
      by_cases h2 : p < o + cs.length
      · rw [List.getElem?_append_left (by omega)]
        have hc : decide (o ≤ p ∧ p < o + cs.length) = true := by rw [decide_eq_true_eq]; omega
        simp only [byteAt, List.find?_cons, hc]
        rw [List.getElem?_eq_getElem (by omega)]; simp
      · rw [List.getElem?_append_right (by omega)]
        rw [show p - o - cs.length = p - (o + cs.length) by omega, byteAt_seq h.2 p (by omega) hk]
        have hc : decide (o ≤ p ∧ p < o + cs.length) = false := by rw [decide_eq_false_iff_not]; omega
        simp only [byteAt, List.find?_cons, hc]

theorem place_seq {ps : List (Nat × List Cell)} {size : Nat} (h : Ordered 0 ps) (hs : seqStop 0 ps ≤ size) :
    place size ps = seq 0 ps ++ zeros (size - seqStop 0 ps) := by
  have hlen : (seq 0 ps ++ zeros (size - seqStop 0 ps)).length = size := by
    rw [List.length_append, seq_length h, zeros_length]; omega
  apply List.ext_getElem?
  intro p
  by_cases hc : p < size
  · have := byteAt_seq (k := size - seqStop 0 ps) h p (Nat.zero_le _) (by omega)
    rw [Nat.sub_zero] at this
    rw [this, place_eq]
    simp [hc]
  · rw [List.getElem?_eq_none (by simp [place]; omega), List.getElem?_eq_none (by rw [hlen]; omega)]

theorem place_length (size : Nat) (ps : List (Nat × List Cell)) : (place size ps).length = size := by
  simp [place]

/-! ## Alignment -/

theorem padAligned_unique {x y a : Nat} (ha : 0 < a) (h1 : x ≤ y) (h2 : y < x + a) (h3 : a ∣ y) :
    padAligned x a = y := by
  have e1 := padAligned_ge x a
  have e2 := padAligned_lt x a ha
  have e3 := padAligned_mod x a ha
  obtain ⟨c, rfl⟩ := h3
  obtain ⟨c', e⟩ := Nat.dvd_of_mod_eq_zero e3
  rw [e] at e1 e2 ⊢
  rcases Nat.lt_trichotomy c' c with h | h | h
  · exfalso
    have : a * (c' + 1) ≤ a * c := Nat.mul_le_mul_left _ h
    rw [Nat.mul_add] at this; omega
  · rw [h]
  · exfalso
    have : a * (c + 1) ≤ a * c' := Nat.mul_le_mul_left _ h
    rw [Nat.mul_add] at this; omega

theorem padAligned_self {x a : Nat} (ha : 0 < a) (h : a ∣ x) : padAligned x a = x :=
  padAligned_unique ha (Nat.le_refl _) (by omega) h

/-- Where an object is emitted. -/
def startAt (t : Ty) (l : LTree) (o : Nat) : Nat := if t.isBits then o else padAligned o l.data.alignment

theorem startAt_ge (t : Ty) (l : LTree) (o : Nat) : o ≤ startAt t l o := by
  simp only [startAt]; split
  · exact Nat.le_refl _
  · exact padAligned_ge _ _

theorem alignOffset_eq (d : Data) (s : Emit) :
    alignOffset d s = ⟨s.slot, padAligned s.offset d.alignment, s.iter,
      s.out ++ zeros (padAligned s.offset d.alignment - s.offset)⟩ := by
  have := padAligned_ge s.offset d.alignment
  simp only [alignOffset]
  split
  · rfl
  · have e : padAligned s.offset d.alignment = s.offset := by omega
    rw [e]; simp [zeros]

theorem trailing_eq {start : Nat} {d : Data} {s : Emit} (h : s.offset ≤ start + d.size) :
    trailing start d s = .ok ⟨s.slot, start + d.size, s.iter, s.out ++ zeros (start + d.size - s.offset)⟩ := by
  simp only [trailing]
  split
  · rfl
  · rw [if_pos (by omega)]
    have e : s.offset = start + d.size := by omega
    rw [← e]; simp [zeros]

/-! ## Blocks -/

/-- Blocks in ascending order that cover all values. -/
structure Mapped (d : DataMap) : Prop where
  sorted : d.blocks.Pairwise (· < ·)
  covers : ∀ j, d.vals j ≠ .undefined → d.mapped j = true

/-- The iterator has only passed blocks before `slot`. -/
def IterOK (d : DataMap) (iter : List Nat) (slot : Nat) : Prop :=
  ∃ passed, d.blocks = passed ++ iter ∧ ∀ b ∈ passed, (b + 1) * blockCapacity ≤ slot

theorem IterOK.mono {d : DataMap} {iter : List Nat} {a b : Nat} (h : IterOK d iter a) (hab : a ≤ b) :
    IterOK d iter b := by
  obtain ⟨p, e, hp⟩ := h
  exact ⟨p, e, fun x hx => Nat.le_trans (hp x hx) hab⟩

theorem IterOK.skip {d : DataMap} : ∀ {iter : List Nat} {slot : Nat}, IterOK d iter slot →
    IterOK d (skipTo iter slot) slot
  | [], _, h => h
  | b :: bs, slot, h => by
    simp only [skipTo]
    split
    · rename_i hb
      apply IterOK.skip
      obtain ⟨p, e, hp⟩ := h
      refine ⟨p ++ [b], by simp [e], ?_⟩
      intro x hx
      rcases List.mem_append.1 hx with hx | hx
      · exact hp x hx
      · have : x = b := by simpa using hx
        subst this; exact hb
    · exact h

theorem skipTo_head : ∀ {iter : List Nat} {slot b : Nat} {bs : List Nat}, skipTo iter slot = b :: bs →
    slot < (b + 1) * blockCapacity
  | [], _, _, _, h => by simp [skipTo] at h
  | x :: xs, slot, b, bs, h => by
    simp only [skipTo] at h
    split at h
    · exact skipTo_head h
    · rename_i hx
      simp only [List.cons.injEq] at h
      obtain ⟨rfl, _⟩ := h
      omega

theorem unmapped_nil {d : DataMap} {slot : Nat} (h : IterOK d [] slot) {j : Nat} (hj : slot ≤ j) :
    d.mapped j = false := by
  obtain ⟨p, e, hp⟩ := h
  rw [Bool.eq_false_iff]
  intro hm
  simp only [DataMap.mapped, List.contains_iff_mem] at hm
  rw [e, List.append_nil] at hm
  have := hp _ hm
  simp only [blockCapacity] at this
  omega

theorem unmapped_cons {d : DataMap} (hd : Mapped d) {slot b : Nat} {bs : List Nat} (h : IterOK d (b :: bs) slot)
    {j : Nat} (hj : slot ≤ j) (hb : j < b * blockCapacity) : d.mapped j = false := by
  obtain ⟨p, e, hp⟩ := h
  rw [Bool.eq_false_iff]
  intro hm
  simp only [DataMap.mapped, List.contains_iff_mem] at hm
  have hs := hd.sorted
  rw [e] at hm hs
  simp only [blockCapacity] at *
  rcases List.mem_append.1 hm with hm | hm
  · have := hp _ hm
    omega
  · rcases List.mem_cons.1 hm with hm | hm
    · omega
    · rw [List.pairwise_append] at hs
      have := (List.pairwise_cons.1 hs.2.1).1 _ hm
      omega

theorem Mapped.vals_of {d : DataMap} (hd : Mapped d) {j : Nat} (h : d.mapped j = false) : d.vals j = .undefined := by
  by_cases hv : d.vals j = .undefined
  · exact hv
  · rw [hd.covers j hv] at h; cases h

/-- The value and the mark that are read. -/
def DataMap.flagAt (d : DataMap) (j : Nat) : Bool := d.mapped j && d.flags j

theorem valueAt_eq {d : DataMap} (hd : Mapped d) {j : Nat} (h : j < d.total) :
    valueAt d j = .ok (d.vals j, d.flagAt j) := by
  simp only [valueAt, if_pos h, DataMap.flagAt]
  cases hm : d.mapped j with
  | true => simp
  | false => simp [hd.vals_of hm]

end Kefir.StaticData
