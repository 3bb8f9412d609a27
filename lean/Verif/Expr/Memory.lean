import Verif.Expr.Rel

/-! Loads, stores and bit-field accesses of the translator against bit-level reads and writes of memory. -/
namespace Kefir.Expr
open Kefir.Types (Basic)
open Kefir.C17 Kefir.CSpec
open Kefir.IR

theorem getLsbD_ofBits (f : Nat → Bool) (n i : Nat) : (ofBits f n).getLsbD i = (decide (i < n) && f i) := by
  induction n with
  | zero => simp [ofBits]
  | succ n ih =>
    simp only [ofBits, BitVec.getLsbD_cons, ih]
    by_cases h : i = n
    · subst h; simp
    · by_cases h2 : i < n
      · simp [h, h2, Nat.lt_succ_of_lt h2]
      · have : ¬ i < n + 1 := by omega
        simp [h, h2, this]

theorem getLsbD_readBits (m : Mem) (a : Word) (off w i : Nat) :
    (readBits m a off w).getLsbD i = (decide (i < w) && bitOf m a (off + i)) := getLsbD_ofBits _ _ _

theorem getLsbD_loadLE (m : Mem) (a : Word) (n i : Nat) :
    (loadLE m a n).getLsbD i = (decide (i < 8 * n ∧ i < 64) && bitOf m a i) := by
  induction n generalizing a i with
  | zero => simp [loadLE]
  | succ n ih =>
    simp only [loadLE, BitVec.getLsbD_or, BitVec.getLsbD_shiftLeft, ih, BitVec.getLsbD_setWidth, bitOf]
    by_cases h8 : i < 8
    · have e1 : i / 8 = 0 := by omega
      have e2 : i % 8 = i := by omega
      have e3 : i < 8 * (n + 1) ∧ i < 64 := by omega
      have e4 : i < 64 := by omega
      simp [h8, e1, e2, e3]
    · have e1 : (m a).getLsbD i = false := BitVec.getLsbD_of_ge _ _ (by omega)
      have e2 : a + 1 + BitVec.ofNat 64 ((i - 8) / 8) = a + BitVec.ofNat 64 (i / 8) := by
        have : i / 8 = 1 + (i - 8) / 8 := by omega
        rw [this, BitVec.ofNat_add, ← BitVec.add_assoc]; rfl
      have e3 : (i - 8) % 8 = i % 8 := by omega
      simp only [h8, decide_false, Bool.not_false, Bool.and_true, e1, Bool.and_false, Bool.or_false, e2, e3]
      by_cases h64 : i < 64
      · have : (i - 8 < 8 * n ∧ i - 8 < 64) ↔ (i < 8 * (n + 1) ∧ i < 64) := by omega
        simp [h64, this]
      · simp [h64]

theorem loadLE_eq (m : Mem) (a : Word) (n : Nat) (hn : n ≤ 8) : loadLE m a n = (readBits m a 0 (8 * n)).setWidth 64 := by
  apply BitVec.eq_of_getLsbD_eq
  intro i hi
  rw [getLsbD_loadLE, BitVec.getLsbD_setWidth, getLsbD_readBits, Nat.zero_add]
  simp [hi]

theorem bv8_ext {x y : BitVec 8} (h : ∀ j, j < 8 → x.getLsbD j = y.getLsbD j) : x = y :=
  BitVec.eq_of_getLsbD_eq h

theorem storeLE_eq (m : Mem) (a : Word) (n : Nat) (hn : n ≤ 8) (w : Word) :
    storeLE m a n w = writeBits m a 0 (8 * n) (w.setWidth (8 * n)) := by
  funext x
  apply bv8_ext
  intro j hj
  simp only [storeLE, writeBits]
  rw [getLsbD_ofBits]
  simp only [hj, decide_true, Bool.true_and]
  by_cases h : (x - a).toNat < n
  · rw [if_pos h, if_pos (by omega), BitVec.getLsbD_extractLsb', BitVec.getLsbD_setWidth]
    have : 8 * (x - a).toNat + j < 8 * n := by omega
    simp only [hj, this, decide_true, Bool.true_and, Nat.sub_zero]
  · rw [if_neg h, if_neg (by omega)]

/-! ### Bit-field opcodes -/

theorem shlx_ofNat (a : Word) (k : Nat) (hk : k < 64) : shlx a (BitVec.ofNat 64 k) = a <<< k := by
  have : (BitVec.ofNat 64 k).toNat % 64 = k := by rw [BitVec.toNat_ofNat]; omega
  rw [shlx, this]

theorem shrx_ofNat (a : Word) (k : Nat) (hk : k < 64) : shrx a (BitVec.ofNat 64 k) = a >>> k := by
  have : (BitVec.ofNat 64 k).toNat % 64 = k := by rw [BitVec.toNat_ofNat]; omega
  rw [shrx, this]

theorem sarx_ofNat (a : Word) (k : Nat) (hk : k < 64) : sarx a (BitVec.ofNat 64 k) = a.sshiftRight k := by
  have : (BitVec.ofNat 64 k).toNat % 64 = k := by rw [BitVec.toNat_ofNat]; omega
  rw [sarx, this]

theorem sub_ofNat (a b : Nat) (h : b ≤ a) : BitVec.ofNat 64 a - BitVec.ofNat 64 b = BitVec.ofNat 64 (a - b) := by
  apply BitVec.eq_of_toNat_eq
  simp only [BitVec.toNat_sub, BitVec.toNat_ofNat]
  omega

theorem mask_bits (w : Nat) (hw : w < 64) (i : Nat) (hi : i < 64) :
    (((1 : Word) <<< w) - 1).getLsbD i = decide (i < w) := by
  have : ((1 : Word) <<< w) - 1 = BitVec.ofNat 64 (2 ^ w - 1) := by
    apply BitVec.eq_of_toNat_eq
    have h1 : 2 ^ w < 2 ^ 64 := Nat.pow_lt_pow_right (by decide) hw
    have h2 : 0 < 2 ^ w := Nat.pow_pos (by decide)
    have h3 : ((1 : Word) <<< w).toNat = 2 ^ w := by
      rw [BitVec.toNat_shiftLeft]
      simp only [BitVec.ofNat_eq_ofNat, BitVec.toNat_ofNat, Nat.shiftLeft_eq]
      omega
    rw [BitVec.toNat_sub, h3]
    simp only [BitVec.ofNat_eq_ofNat, BitVec.toNat_ofNat]
    omega
  rw [this, BitVec.getLsbD_ofNat]
  simp [Nat.testBit_two_pow_sub_one, hi]

theorem extubits_bits (o w : Nat) (v : Word) (hw : w < 64) (ho : o < 64) (i : Nat) (hi : i < 64) :
    (extubits o w v).getLsbD i = (decide (i < w) && v.getLsbD (o + i)) := by
  simp only [extubits, shlx_ofNat _ _ hw, shrx_ofNat _ _ ho, BitVec.getLsbD_and, BitVec.getLsbD_ushiftRight,
    mask_bits w hw i hi]
  rw [Bool.and_comm]

theorem extsbits_bits (o w : Nat) (v : Word) (hw : 1 ≤ w) (how : o + w ≤ 64) (i : Nat) (hi : i < 64) :
    (extsbits o w v).getLsbD i = v.getLsbD (if i < w then o + i else o + w - 1) := by
  have e1 : (64 : Word) - (BitVec.ofNat 64 o + BitVec.ofNat 64 w) = BitVec.ofNat 64 (64 - (o + w)) := by
    rw [← BitVec.ofNat_add]; exact sub_ofNat 64 (o + w) how
  have e2 : (64 : Word) - BitVec.ofNat 64 w = BitVec.ofNat 64 (64 - w) := sub_ofNat 64 w (by omega)
  simp only [extsbits, e1, e2]
  rw [shlx_ofNat _ _ (by omega), sarx_ofNat _ _ (by omega), BitVec.getLsbD_sshiftRight]
  have hi' : ¬ 64 ≤ i := by omega
  simp only [hi', decide_false, Bool.not_false, Bool.true_and]
  by_cases h : i < w
  · have h1 : 64 - w + i < 64 := by omega
    have h2 : ¬ (64 - w + i < 64 - (o + w)) := by omega
    have h3 : 64 - w + i - (64 - (o + w)) = o + i := by omega
    rw [if_pos h1, if_pos h, BitVec.getLsbD_shiftLeft]
    simp [h1, h2, h3]
  · have h1 : ¬ (64 - w + i < 64) := by omega
    rw [if_neg h1, if_neg h, BitVec.msb_eq_getLsbD_last, BitVec.getLsbD_shiftLeft]
    have h2 : ¬ (64 - 1 < 64 - (o + w)) := by omega
    have h3 : 64 - 1 - (64 - (o + w)) = o + w - 1 := by omega
    simp only [h2, h3, decide_false, Bool.not_false, Bool.and_true]
    simp

theorem insertbits_bits (o w : Nat) (bf v : Word) (hw : 1 ≤ w) (hw' : w < 64) (how : o + w ≤ 64) (i : Nat) (hi : i < 64) :
    (insertbits o w bf v).getLsbD i =
      if o ≤ i ∧ i < o + w then v.getLsbD (i - o) else bf.getLsbD i := by
  have e1 : (64 : Word) - BitVec.ofNat 64 w = BitVec.ofNat 64 (64 - w) := sub_ofNat 64 w (by omega)
  have e2 : BitVec.ofNat 64 (64 - w) - BitVec.ofNat 64 o = BitVec.ofNat 64 (64 - w - o) := sub_ofNat _ _ (by omega)
  simp only [insertbits, e1, e2]
  rw [shlx_ofNat _ _ (by omega), shrx_ofNat _ _ (by omega), shlx_ofNat _ _ hw', shlx_ofNat _ _ (by omega)]
  simp only [BitVec.getLsbD_or, BitVec.getLsbD_and, BitVec.getLsbD_not, BitVec.getLsbD_shiftLeft,
    BitVec.getLsbD_ushiftRight, hi, decide_true, Bool.true_and]
  by_cases h : o ≤ i ∧ i < o + w
  · rw [if_pos h]
    have h1 : ¬ i < o := by omega
    have h2 : i - o < w := by omega
    have h3 : 64 - w - o + i < 64 := by omega
    have h4 : ¬ (64 - w - o + i < 64 - w) := by omega
    have h5 : 64 - w - o + i - (64 - w) = i - o := by omega
    rw [mask_bits w hw' _ (by omega)]
    simp [h1, h2, h3, h4, h5]
  · rw [if_neg h]
    by_cases h1 : i < o
    · have h4 : 64 - w - o + i < 64 - w := by omega
      simp [h1, h4]
    · have h2 : ¬ (i - o < w) := by omega
      have h3 : ¬ (64 - w - o + i < 64) := by omega
      rw [mask_bits w hw' _ (by omega)]
      simp [h1, h2, h3]

theorem signExtend_bits {w : Nat} (hw : 1 ≤ w) (hw' : w ≤ 64) (x : BitVec w) (i : Nat) (hi : i < 64) :
    (x.signExtend 64).getLsbD i = x.getLsbD (if i < w then i else w - 1) := by
  rw [BitVec.getLsbD_signExtend]
  by_cases h : i < w
  · simp [h, hi]
  · simp [h, hi, BitVec.msb_eq_getLsbD_last]

/-- A bit-field position the opcodes can handle. -/
def bfGood (off w : Nat) : Bool := decide (1 ≤ w ∧ w < 64 ∧ off % 8 + w ≤ 64 ∧ off < 2 ^ 60)

theorem bfBytes_ok (off w : Nat) (h : off % 8 + w ≤ 64) : off % 8 + w ≤ 8 * bfBytes off w ∧ bfBytes off w ≤ 8 := by
  simp only [bfBytes]
  repeat' split
  all_goals omega

theorem bitOf_add (m : Mem) (a : Word) (q i : Nat) :
    bitOf m (a + BitVec.ofNat 64 q) i = bitOf m a (8 * q + i) := by
  have e1 : (8 * q + i) / 8 = q + i / 8 := by omega
  have e2 : (8 * q + i) % 8 = i % 8 := by omega
  simp only [bitOf, e1, e2, BitVec.ofNat_add, BitVec.add_assoc]

theorem unsigned_bitfield {off w : Nat} (h : bfGood off w = true) (m : Mem) (a : Word) :
    extubits (off % 8) w (loadLE m (a + BitVec.ofNat 64 (off / 8)) (bfBytes off w)) = (readBits m a off w).setWidth 64 := by
  simp only [bfGood, decide_eq_true_eq] at h
  have hb := bfBytes_ok off w h.2.2.1
  apply BitVec.eq_of_getLsbD_eq
  intro i hi
  rw [extubits_bits _ _ _ h.2.1 (by omega) _ hi, getLsbD_loadLE, BitVec.getLsbD_setWidth, getLsbD_readBits, bitOf_add]
  have e : 8 * (off / 8) + (off % 8 + i) = off + i := by omega
  rw [e]
  by_cases hw : i < w
  · have : off % 8 + i < 8 * bfBytes off w ∧ off % 8 + i < 64 := by omega
    simp [hi, hw, this]
  · simp [hw]

theorem signed_bitfield {off w : Nat} (h : bfGood off w = true) (m : Mem) (a : Word) :
    extsbits (off % 8) w (loadLE m (a + BitVec.ofNat 64 (off / 8)) (bfBytes off w)) = (readBits m a off w).signExtend 64 := by
  simp only [bfGood, decide_eq_true_eq] at h
  have hb := bfBytes_ok off w h.2.2.1
  apply BitVec.eq_of_getLsbD_eq
  intro i hi
  rw [extsbits_bits _ _ _ h.1 h.2.2.1 _ hi, getLsbD_loadLE, signExtend_bits h.1 (by omega) _ _ hi, getLsbD_readBits,
    bitOf_add]
  by_cases hw : i < w
  · have e : 8 * (off / 8) + (off % 8 + i) = off + i := by omega
    have : off % 8 + i < 8 * bfBytes off w ∧ off % 8 + i < 64 := by omega
    simp [hw, this, e]
  · have e : 8 * (off / 8) + (off % 8 + w - 1) = off + (w - 1) := by omega
    have : off % 8 + w - 1 < 8 * bfBytes off w ∧ off % 8 + w - 1 < 64 := by omega
    have h3 : w - 1 < w := by omega
    simp [hw, this, e, h3]

theorem insert_bitfield {off w : Nat} (h : bfGood off w = true) (m : Mem) (a v : Word) :
    storeLE m (a + BitVec.ofNat 64 (off / 8)) (bfBytes off w)
      (insertbits (off % 8) w (loadLE m (a + BitVec.ofNat 64 (off / 8)) (bfBytes off w)) v) =
    writeBits m a off w (v.setWidth w) := by
  simp only [bfGood, decide_eq_true_eq] at h
  have hb := bfBytes_ok off w h.2.2.1
  generalize hK : bfBytes off w = K at hb ⊢
  generalize hA : a + BitVec.ofNat 64 (off / 8) = A
  funext x
  apply bv8_ext
  intro j hj
  simp only [storeLE, writeBits]
  rw [getLsbD_ofBits]
  simp only [hj, decide_true, Bool.true_and]
  have hd : x - a = (x - A) + BitVec.ofNat 64 (off / 8) := by
    rw [← hA]
    apply BitVec.eq_of_toNat_eq
    simp only [BitVec.toNat_add, BitVec.toNat_sub, BitVec.toNat_ofNat]
    omega
  by_cases hlt : (x - A).toNat < K
  · have hdn : (x - a).toNat = (x - A).toNat + off / 8 := by
      rw [hd, BitVec.toNat_add, BitVec.toNat_ofNat]; omega
    rw [if_pos hlt, BitVec.getLsbD_extractLsb']
    simp only [hj, decide_true, Bool.true_and]
    rw [insertbits_bits _ _ _ _ h.1 h.2.1 h.2.2.1 _ (by omega), hdn]
    by_cases hin : off % 8 ≤ 8 * (x - A).toNat + j ∧ 8 * (x - A).toNat + j < off % 8 + w
    · rw [if_pos hin, if_pos (by omega), BitVec.getLsbD_setWidth]
      have e : 8 * ((x - A).toNat + off / 8) + j - off = 8 * (x - A).toNat + j - off % 8 := by omega
      have : 8 * (x - A).toNat + j - off % 8 < w := by omega
      simp only [e, this, decide_true, Bool.true_and]
    · rw [if_neg hin, if_neg (by omega), getLsbD_loadLE]
      have e1 : 8 * (x - A).toNat + j < 8 * K ∧ 8 * (x - A).toNat + j < 64 := by omega
      have e2 : (8 * (x - A).toNat + j) / 8 = (x - A).toNat := by omega
      have e3 : (8 * (x - A).toNat + j) % 8 = j := by omega
      simp only [e1, and_self, decide_true, Bool.true_and, bitOf, e2, e3]
      rw [BitVec.ofNat_toNat, BitVec.setWidth_eq]
      congr 2
      rw [BitVec.add_comm, BitVec.sub_add_cancel]
  · rw [if_neg hlt, if_neg]
    intro hin
    have : (x - A).toNat = (x - a).toNat - off / 8 := by
      have : x - A = (x - a) - BitVec.ofNat 64 (off / 8) := by rw [hd, BitVec.add_sub_cancel]
      rw [this, BitVec.toNat_sub, BitVec.toNat_ofNat]
      have := (x - a).isLt
      omega
    omega

/-! ### Copying -/

theorem bcopy_self (m : Mem) (a : Word) (n : Nat) : bcopyM m a a n = m := by
  induction n generalizing m a with
  | zero => rfl
  | succ n ih =>
    rw [bcopyM, ih]
    funext x
    split
    · rename_i h; rw [h]
    · rfl

theorem bcopy_ok (m : Mem) (dst src : Word) (n : Nat) (hn : n ≤ (dst - src).toNat) :
    bcopyM m dst src n = copyBytes m dst src n := by
  induction n generalizing m dst src with
  | zero => funext x; simp [bcopyM, copyBytes]
  | succ n ih =>
    have hlt := (dst - src).isLt
    have hsub : dst + 1 - (src + 1) = dst - src := by
      apply BitVec.eq_of_toNat_eq; simp only [BitVec.toNat_sub, BitVec.toNat_add]; omega
    rw [bcopyM, ih _ _ _ (by rw [hsub]; omega)]
    funext x
    simp only [copyBytes]
    have hx1 : (x - (dst + 1)).toNat = ((x - dst).toNat + (2 ^ 64 - 1)) % 2 ^ 64 := by
      simp only [BitVec.toNat_sub, BitVec.toNat_add, BitVec.ofNat_eq_ofNat, BitVec.toNat_ofNat]
      omega
    have hxl := (x - dst).isLt
    by_cases hx : x = dst
    · subst hx
      have h0 : (x - x).toNat = 0 := by simp
      rw [hx1, h0, if_neg (by omega), if_pos rfl, if_pos (by omega)]
      simp
    · have hpos : (x - dst).toNat ≠ 0 := by
        intro h0
        apply hx
        have : x - dst = 0#64 := BitVec.eq_of_toNat_eq (by simpa using h0)
        have := congrArg (· + dst) this
        simpa [BitVec.sub_add_cancel] using this
      rw [hx1]
      have e : ((x - dst).toNat + (2 ^ 64 - 1)) % 2 ^ 64 = (x - dst).toNat - 1 := by omega
      rw [e]
      by_cases hin : (x - dst).toNat < n + 1
      · rw [if_pos hin, if_pos (by omega)]
        have hs : src + 1 + (x - (dst + 1)) = src + (x - dst) := by
          apply BitVec.eq_of_toNat_eq
          simp only [BitVec.toNat_add, BitVec.toNat_sub]; omega
        rw [hs, if_neg]
        intro hc
        have : x - dst = dst - src := by
          have := congrArg (· - src) hc
          simpa [BitVec.add_comm src, BitVec.add_sub_cancel] using this
        rw [this] at hin
        omega
      · rw [if_neg hin, if_neg (by omega), if_neg hx]

theorem bcopy_copyBytes {m : Mem} {dst src : Word} {n : Nat} (h : NoOverlap dst src n) :
    bcopyM m dst src n = copyBytes m dst src n := by
  rcases h with rfl | ⟨h, _⟩
  · rw [bcopy_self]
    funext x
    simp only [copyBytes]
    split
    · rw [BitVec.add_comm, BitVec.sub_add_cancel]
    · rfl
  · exact bcopy_ok m dst src n h

theorem offsets_ok (E : Env) (offs : List Nat) (a : Word) (s : List Word) (m : Mem) :
    execs E (offsets offs) (a :: s) m = some (offsetBy a offs :: s, m) := by
  induction offs generalizing a with
  | nil => simp [offsets, execs_nil, offsetBy]
  | cons o os ih =>
    have e : offsetBy a (o :: os) = offsetBy (a + BitVec.ofNat 64 o) os := by
      simp [offsetBy, BitVec.ofNat_add, BitVec.add_assoc]
    rw [e, offsets, execs_append]
    by_cases h : o = 0
    · subst h; simp [execs_nil, ih]
    · simp [h, execs_cons, execs_nil, exec_offsetptr, ih]

end Kefir.Expr
