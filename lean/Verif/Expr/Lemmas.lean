import Verif.Expr.Translate
import Verif.Expr.Typing

/-! Lemmas about the instruction sequences the translator emits. -/
namespace Kefir.Expr
open Kefir.Types (Basic)
open Kefir.C17 Kefir.CSpec
open Kefir.IR

theorem execs_append (E : Env) (a b : List Instr) (s : List Word) (m : Mem) :
    execs E (a ++ b) s m = (execs E a s m).bind fun p => execs E b p.1 p.2 := by
  induction a generalizing s m with
  | nil => rfl
  | cons i a ih =>
    simp only [List.cons_append, execs]
    cases h : exec E i s m with
    | none => rfl
    | some p => simp [ih]

section exec_rules
variable (E : Env) (s : List Word) (m : Mem)
theorem execs_nil : execs E [] s m = some (s, m) := rfl
theorem execs_cons (i : Instr) (is : List Instr) :
    execs E (i :: is) s m = (exec E i s m).bind fun p => execs E is p.1 p.2 := rfl
theorem exec_push (w : Word) : exec E (.push w) s m = some (w :: s, m) := rfl
theorem exec_pop (w : Word) : exec E .pop (w :: s) m = some (s, m) := rfl
theorem exec_bin (op : Bin) (a b : Word) :
    exec E (.bin op) (b :: a :: s) m = (op.exec a b).map (fun r => (r :: s, m)) := rfl
theorem exec_un (op : Un) (a : Word) : exec E (.un op) (a :: s) m = some (op.exec a :: s, m) := rfl
theorem exec_iadd1 (i a : Word) : exec E (.iadd1 i) (a :: s) m = some ((a + i) :: s, m) := rfl
theorem exec_offsetptr (n : Nat) (a : Word) :
    exec E (.offsetptr n) (a :: s) m = some ((a + BitVec.ofNat 64 n) :: s, m) := rfl
theorem exec_elementptr (n : Nat) (i a : Word) :
    exec E (.elementptr n) (i :: a :: s) m = some ((a + i * BitVec.ofNat 64 n) :: s, m) := rfl
theorem exec_load (n : Nat) (sx : Bool) (a : Word) : exec E (.load n sx) (a :: s) m =
    some ((if sx then sextBytes n (loadLE m a n) else loadLE m a n) :: s, m) := rfl
theorem exec_loadld (a : Word) : exec E .loadld (a :: s) m = some (loadLE m a 8 :: loadLE m (a + 8) 8 :: s, m) := rfl
theorem exec_store (n : Nat) (v a : Word) : exec E (.store n) (v :: a :: s) m = some (s, storeLE m a n v) := rfl
theorem exec_storeld (w0 w1 a : Word) : exec E .storeld (w0 :: w1 :: a :: s) m =
    some (s, storeLE (storeLE m a 8 w0) (a + 8) 8 w1) := rfl
theorem exec_bcopy (n : Nat) (src dst : Word) :
    exec E (.bcopy n) (src :: dst :: s) m = some (s, bcopyM m dst src n) := rfl
theorem exec_extubits (o w : Nat) (v : Word) : exec E (.extubits o w) (v :: s) m = some (extubits o w v :: s, m) := rfl
theorem exec_extsbits (o w : Nat) (v : Word) : exec E (.extsbits o w) (v :: s) m = some (extsbits o w v :: s, m) := rfl
theorem exec_insertbits (o w : Nat) (v bf : Word) :
    exec E (.insertbits o w) (v :: bf :: s) m = some (insertbits o w bf v :: s, m) := rfl
theorem exec_getlocals : exec E .getlocals s m = some (E.locals :: s, m) := rfl
theorem exec_getglobal (i : Nat) : exec E (.getglobal i) s m = some (E.globals i :: s, m) := rfl
theorem exec_pick0 (a : Word) : exec E (.pick 0) (a :: s) m = some (a :: a :: s, m) := rfl
theorem exec_pick1 (a b : Word) : exec E (.pick 1) (a :: b :: s) m = some (b :: a :: b :: s, m) := rfl
theorem exec_pick2 (a b c : Word) : exec E (.pick 2) (a :: b :: c :: s) m = some (c :: a :: b :: c :: s, m) := rfl
theorem exec_pick3 (a b c d : Word) :
    exec E (.pick 3) (a :: b :: c :: d :: s) m = some (d :: a :: b :: c :: d :: s, m) := rfl
theorem exec_xchg1 (a b : Word) : exec E (.xchg 1) (a :: b :: s) m = some (b :: a :: s, m) := rfl
theorem exec_xchg2 (a b c : Word) : exec E (.xchg 2) (a :: b :: c :: s) m = some (c :: b :: a :: s, m) := rfl
theorem exec_xchg3 (a b c d : Word) :
    exec E (.xchg 3) (a :: b :: c :: d :: s) m = some (d :: b :: c :: a :: s, m) := rfl
theorem exec_xchg4 (a b c d e : Word) :
    exec E (.xchg 4) (a :: b :: c :: d :: e :: s) m = some (e :: b :: c :: d :: a :: s, m) := rfl
theorem exec_drop1 (a b : Word) : exec E (.drop 1) (a :: b :: s) m = some (a :: s, m) := by
  show (if 1 < (a :: b :: s).length then some ((a :: b :: s).eraseIdx 1, m) else none) = _
  rw [if_pos (by simp)]; rfl
theorem exec_ldtrunc1 (a0 a1 : Word) : exec E .ldtrunc1 (a0 :: a1 :: s) m =
    some (ofBool ((ldOf a0 a1).setWidth 79 != 0) :: s, m) := rfl
end exec_rules

/-- `v` is in the range of some 64-bit integer type. -/
def W64 (v : Int) : Prop := -2 ^ 63 ≤ v ∧ v < 2 ^ 64

theorem ofInt64_eq_zero {v : Int} (h : W64 v) : BitVec.ofInt 64 v = 0 ↔ v = 0 := by
  unfold W64 at h
  constructor
  · intro e
    have := congrArg BitVec.toNat e
    simp [BitVec.toNat_ofInt] at this
    omega
  · rintro rfl; rfl

theorem ofInt_congr {v w : Int} (h : v % 2 ^ 64 = w % 2 ^ 64) : BitVec.ofInt 64 v = BitVec.ofInt 64 w := by
  apply BitVec.eq_of_toNat_eq
  simp only [BitVec.toNat_ofInt]
  have : ((2 ^ 64 : Nat) : Int) = 2 ^ 64 := by decide
  rw [this, h]

theorem toNat_ofInt64 (v : Int) : ((BitVec.ofInt 64 v).toNat : Int) = v % 2 ^ 64 := by
  rw [BitVec.toNat_ofInt]
  have : ((2 ^ 64 : Nat) : Int) = 2 ^ 64 := by decide
  rw [this, Int.toNat_of_nonneg (Int.emod_nonneg _ (by decide))]

theorem toInt_ofInt64 {v : Int} (h1 : -2 ^ 63 ≤ v) (h2 : v < 2 ^ 63) : (BitVec.ofInt 64 v).toInt = v := by
  rw [BitVec.toInt_ofInt]
  apply Int.bmod_eq_of_le <;> omega

theorem ext_ofInt (n : Nat) (hn' : n ≤ 64) (v : Int) :
    ((BitVec.ofInt 64 v).setWidth n).signExtend 64 = BitVec.ofInt 64 (v.bmod (2 ^ n)) := by
  apply BitVec.eq_of_toInt_eq
  rw [BitVec.toInt_signExtend_of_le hn', BitVec.toInt_ofInt, BitVec.toInt_setWidth, BitVec.toNat_ofInt]
  rw [Int.toNat_of_nonneg (Int.emod_nonneg _ (by decide))]
  have hd : (2 ^ n) ∣ (2 ^ 64 : Nat) := Nat.pow_dvd_pow 2 hn'
  have h1 : (v % ((2 ^ 64 : Nat) : Int)).bmod (2 ^ n) = v.bmod (2 ^ n) := by
    rw [← Int.bmod_bmod_of_dvd (a := v) hd, ← Int.emod_bmod v, Int.bmod_bmod_of_dvd hd]
  rw [h1]
  have hle := @Int.le_bmod v (2 ^ n) (Nat.two_pow_pos n)
  have hlt := @Int.bmod_lt v (2 ^ n) (Nat.two_pow_pos n)
  have hp : ((2 ^ n : Nat) : Int) ≤ ((2 ^ 64 : Nat) : Int) := Int.ofNat_le.mpr (Nat.pow_le_pow_right (by decide) hn')
  symm
  apply Int.bmod_eq_of_le <;> omega

theorem and_mask (n : Nat) (hn' : n < 64) (v : Int) :
    BitVec.ofInt 64 v &&& BitVec.ofNat 64 (2 ^ n - 1) = BitVec.ofInt 64 (v % 2 ^ n) := by
  apply BitVec.eq_of_toNat_eq
  have hp : 2 ^ n < 2 ^ 64 := Nat.pow_lt_pow_right (by decide) hn'
  have h0 : 0 < 2 ^ n := Nat.two_pow_pos n
  simp only [BitVec.toNat_and, BitVec.toNat_ofInt, BitVec.toNat_ofNat]
  rw [Nat.mod_eq_of_lt (by omega), Nat.and_two_pow_sub_one_eq_mod]
  apply Int.ofNat.inj
  show (((v % ((2 ^ 64 : Nat) : Int)).toNat % 2 ^ n : Nat) : Int) = _
  rw [Int.natCast_emod, Int.toNat_of_nonneg (Int.emod_nonneg _ (by decide))]
  have hc : ((2 ^ n : Nat) : Int) = (2 : Int) ^ n := by simp
  have hd : ((2 ^ n : Nat) : Int) ∣ ((2 ^ 64 : Nat) : Int) :=
    Int.ofNat_dvd.mpr (Nat.pow_dvd_pow 2 (by omega))
  rw [Int.emod_emod_of_dvd _ hd, hc]
  have h1 : 0 ≤ v % (2 : Int) ^ n := Int.emod_nonneg _ (by rw [← hc]; omega)
  have h2 : v % (2 : Int) ^ n < 2 ^ n := Int.emod_lt_of_pos _ (by rw [← hc]; omega)
  rw [Int.emod_eq_of_lt (a := v % 2 ^ n) h1 (by rw [← hc] at h2; omega)]
  show _ = (((v % 2 ^ n).toNat : Nat) : Int)
  omega

theorem emod_64 (v : Int) : BitVec.ofInt 64 (v % 2 ^ 64) = BitVec.ofInt 64 v :=
  ofInt_congr (Int.emod_emod_of_dvd _ (Int.dvd_refl _))

theorem bmod_64 (v : Int) : BitVec.ofInt 64 (v.bmod (2 ^ 64)) = BitVec.ofInt 64 v := by
  apply BitVec.eq_of_toInt_eq
  rw [BitVec.toInt_ofInt, BitVec.toInt_ofInt, Int.bmod_bmod]

/-- The reduction sequence turns any word congruent to `v` into the canonical word of `v` converted to `b`. -/
theorem reduceTo_ok (E : Env) (b : Basic) (hb : isInteger b = true) (v : Int) (hv : b = .bool → W64 v)
    (s : List Word) (m : Mem) :
    execs E (reduceTo b) (BitVec.ofInt 64 v :: s) m = some (BitVec.ofInt 64 (wrap b v) :: s, m) := by
  cases b <;> first | (simp [isInteger] at hb; done) | skip
  case bool =>
    have := ofInt64_eq_zero (hv rfl)
    simp only [reduceTo, execs_cons, execs_nil, exec_un, Un.exec, Option.bind_some, wrap, if_true]
    by_cases h : v = 0
    · subst h; rfl
    · have h' : BitVec.ofInt 64 v ≠ 0 := fun e => h (this.mp e)
      simp [h, ofBool]; exact h'
  case char => simp [reduceTo, execs_cons, execs_nil, exec_un, Un.exec, wrap, signed, width, ext_ofInt 8]
  case schar => simp [reduceTo, execs_cons, execs_nil, exec_un, Un.exec, wrap, signed, width, ext_ofInt 8]
  case short => simp [reduceTo, execs_cons, execs_nil, exec_un, Un.exec, wrap, signed, width, ext_ofInt 16]
  case int => simp [reduceTo, execs_cons, execs_nil, exec_un, Un.exec, wrap, signed, width, ext_ofInt 32]
  case uchar =>
    have := and_mask 8 (by decide) v
    simp [reduceTo, execs_cons, execs_nil, exec_bin, exec_push, Bin.exec, wrap, signed, width] at this ⊢; exact this
  case ushort =>
    have := and_mask 16 (by decide) v
    simp [reduceTo, execs_cons, execs_nil, exec_bin, exec_push, Bin.exec, wrap, signed, width] at this ⊢; exact this
  case uint =>
    have := and_mask 32 (by decide) v
    simp [reduceTo, execs_cons, execs_nil, exec_bin, exec_push, Bin.exec, wrap, signed, width] at this ⊢; exact this
  case ulong =>
    have := emod_64 v
    simp [reduceTo, execs_nil, wrap, signed, width] at this ⊢; exact this.symm
  case ullong =>
    have := emod_64 v
    simp [reduceTo, execs_nil, wrap, signed, width] at this ⊢; exact this.symm
  case long =>
    have := bmod_64 v
    simp [reduceTo, execs_nil, wrap, signed, width] at this ⊢; exact this.symm
  case llong =>
    have := bmod_64 v
    simp [reduceTo, execs_nil, wrap, signed, width] at this ⊢; exact this.symm

theorem wrap_inRange (b : Basic) (hb : isInteger b = true) (v : Int) : InRange b (wrap b v) := by
  have e : ∀ n : Nat, n ∈ [8, 16, 32, 64] → -2 ^ (n - 1) ≤ v.bmod (2 ^ n) ∧ v.bmod (2 ^ n) ≤ 2 ^ (n - 1) - 1 := by
    intro n hn
    have h1 := @Int.le_bmod v (2 ^ n) (Nat.two_pow_pos n)
    have h2 := @Int.bmod_lt v (2 ^ n) (Nat.two_pow_pos n)
    simp only [List.mem_cons, List.not_mem_nil, or_false] at hn
    rcases hn with rfl | rfl | rfl | rfl <;> simp at h1 h2 ⊢ <;> omega
  have e' : ∀ n : Nat, 0 ≤ v % 2 ^ n ∧ v % 2 ^ n ≤ 2 ^ n - 1 := by
    intro n
    have hp : (0 : Int) < 2 ^ n := by
      have := Nat.two_pow_pos n
      have h : ((2 ^ n : Nat) : Int) = (2 : Int) ^ n := by simp
      omega
    have := Int.emod_nonneg v (b := 2 ^ n) (by omega)
    have := Int.emod_lt_of_pos v hp
    omega
  cases b <;> first | (simp [isInteger] at hb; done) | skip
  case bool => unfold wrap; simp only [if_true]; split <;> decide
  case char | schar => exact e 8 (by decide)
  case short => exact e 16 (by decide)
  case int => exact e 32 (by decide)
  case long | llong => exact e 64 (by decide)
  case uchar => exact e' 8
  case ushort => exact e' 16
  case uint => exact e' 32
  case ulong | ullong => exact e' 64

theorem W64_of_inRange {b : Basic} {v : Int} (h : InRange b v) (hb : isInteger b = true) : W64 v := by
  unfold InRange at h
  unfold W64
  cases b <;> first | (simp [isInteger] at hb; done) | skip
  all_goals (simp [minVal, maxVal, signed, width] at h; omega)

theorem wrap_of_inRange {b : Basic} {v : Int} (h : InRange b v) (hb : isInteger b = true) : wrap b v = v := by
  unfold InRange at h
  cases b <;> first | (simp [isInteger] at hb; done) | skip
  all_goals simp [minVal, maxVal, signed, width] at h
  all_goals simp [wrap, signed, width]
  case bool => split <;> omega
  all_goals first | omega | (rw [Int.bmod_eq_of_le] <;> omega)

/-- Only the low `width b` bits of the word matter for a conversion to an integer type other than `_Bool`. -/
theorem wrap_congr {b : Basic} (hne : b ≠ .bool) {v w : Int}
    (h : v % 2 ^ width b = w % 2 ^ width b) : wrap b v = wrap b w := by
  unfold wrap
  rw [if_neg hne, if_neg hne]
  split
  · have hc : ((2 ^ width b : Nat) : Int) = (2 : Int) ^ width b := by simp
    rw [← Int.emod_bmod v, ← Int.emod_bmod w, hc, h]
  · exact h

/-- Types that differ in name only have the same values. -/
theorem normB_facts {b c : Basic} (h : normB b = normB c) :
    isInteger b = isInteger c ∧ signed b = signed c ∧ width b = width c ∧ minVal b = minVal c ∧ maxVal b = maxVal c ∧
      fmtOf b = fmtOf c ∧ (b = .bool ↔ c = .bool) ∧ basicSize b = basicSize c := by
  rcases normB_cases h with rfl | ⟨rfl, rfl⟩ | ⟨rfl, rfl⟩ | ⟨rfl, rfl⟩ | ⟨rfl, rfl⟩
  · simp
  all_goals decide

theorem wrap_norm {b c : Basic} (h : normB b = normB c) : wrap b = wrap c := by
  obtain ⟨_, h2, h3, _, _, _, h4, _⟩ := normB_facts h
  funext v
  unfold wrap
  rw [h2, h3]
  simp only [h4]

theorem inRange_norm {b c : Basic} (h : normB b = normB c) (v : Int) : InRange b v ↔ InRange c v := by
  obtain ⟨_, _, _, h2, h3, _⟩ := normB_facts h
  unfold InRange; rw [h2, h3]

theorem conv_norm {t u : Ty} (F : FP) (h : t.norm = u.norm) : conv F t = conv F u := by
  funext v
  cases u with
  | arith c =>
    obtain ⟨b, rfl, m⟩ := norm_eq_arith h
    obtain ⟨_, _, _, _, _, h2, h3, _⟩ := normB_facts m
    cases v <;> simp only [conv, h2, wrap_norm m, inRange_norm m, h3]
  | void => have := norm_eq_void h; subst this; rfl
  | ptr => have := norm_eq_ptr h; subst this; rfl
  | agg => have := norm_eq_agg h; subst this; rfl
  | arr => have := norm_eq_arr h; subst this; rfl

theorem chk_norm {b c : Basic} (h : normB b = normB c) : chk b = chk c := by
  obtain ⟨_, h1, h2, _⟩ := normB_facts h
  funext r
  simp only [chk, h1, h2, inRange_norm h]

theorem bitwise_norm {b c : Basic} (h : normB b = normB c) (f : (n : Nat) → BitVec n → BitVec n → BitVec n)
    (x y : Int) : bitwise b (f _) x y = bitwise c (f _) x y := by
  obtain ⟨_, h1, h2, _⟩ := normB_facts h
  unfold bitwise
  rw [h1, h2]

theorem arithInt_norm {b c : Basic} (h : normB b = normB c) (op : BinOp) (x y : Int) :
    arithInt op b x y = arithInt op c x y := by
  unfold arithInt
  rw [chk_norm h]
  cases op <;> simp only
  · exact congrArg some (bitwise_norm h (fun _ a b => a &&& b) x y)
  · exact congrArg some (bitwise_norm h (fun _ a b => a ^^^ b) x y)
  · exact congrArg some (bitwise_norm h (fun _ a b => a ||| b) x y)

theorem shiftInt_norm {b c : Basic} (h : normB b = normB c) (op : BinOp) (x y : Int) :
    shiftInt op b x y = shiftInt op c x y := by
  obtain ⟨_, h1, h2, _⟩ := normB_facts h
  unfold shiftInt
  rw [chk_norm h, h1, h2]

theorem hasTy_norm {t u : Ty} {v : Val} (h : t.norm = u.norm) : HasTy t v ↔ HasTy u v := by
  cases u with
  | arith c =>
    obtain ⟨b, rfl, m⟩ := norm_eq_arith h
    obtain ⟨h1, _⟩ := normB_facts m
    cases v with
    | int v => simp only [HasTy, h1, inRange_norm m]
    | void => rfl
    | fl f x =>
      simp only [HasTy]
      constructor
      · rintro rfl; cases f <;> cases c <;> simp_all [normB, ofFmt]
      · rintro rfl; cases f <;> cases b <;> simp_all [normB, ofFmt]
  | void => have := norm_eq_void h; subst this; rfl
  | ptr => have := norm_eq_ptr h; subst this; rfl
  | agg => have := norm_eq_agg h; subst this; rfl
  | arr => have := norm_eq_arr h; subst this; rfl

end Kefir.Expr
