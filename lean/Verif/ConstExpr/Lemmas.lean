import Verif.ConstExpr.Spec
import Verif.ConstExpr.Model
import Verif.Expr.Props

/-! Lemmas: operations on canonical words. -/
namespace Kefir.ConstExpr
open Kefir.Types (Basic)
open Kefir.Expr Kefir.C17 Kefir.CSpec
open Kefir.IR (Word)

/-- The word of the value, or host overflow in an unsigned operation. -/
def Agrees (r : Out Word) (v : Int) (hostSafe : Bool) : Prop :=
  match r with
  | .ok w => w = BitVec.ofInt 64 v
  | .error f => f = .undefined ∧ hostSafe = false

theorem ofBool_ofInt (b : Bool) : ofBool b = BitVec.ofInt 64 (if b then 1 else 0) := by cases b <;> rfl

theorem int64_ok {r : Int} (h : -2 ^ 63 ≤ r ∧ r < 2 ^ 63) : int64 r = .ok (BitVec.ofInt 64 r) := if_pos h

theorem wrap_fits {b c : Basic} (hb : isInteger b = true) (hc : c ∈ promoted) (hf : fitsIn b c = true) {v : Int}
    (hv : InRange b v) : BitVec.ofInt 64 (wrap c v) = BitVec.ofInt 64 v := by
  obtain ⟨hi, hne, _, _⟩ := promoted_facts hc
  simp only [fitsIn, Bool.or_eq_true, beq_iff_eq, Bool.and_eq_true, decide_eq_true_eq] at hf
  rcases hf with hw | ⟨h1, h2⟩
  · unfold wrap
    rw [if_neg hne, hw]
    split
    · exact bmod_64 v
    · exact emod_64 v
  · rw [wrap_of_inRange ⟨by have := hv.1; omega, by have := hv.2; omega⟩ hi]

theorem toInt_word {c : Basic} (hc : c ∈ promoted) (hs : signed c = true) {a : Int} (ha : InRange c a) :
    (BitVec.ofInt 64 a).toInt = a := by
  obtain ⟨h1, h2⟩ := signed_range hc (Or.inl hs) ha
  exact toInt_ofInt64 h1 h2

theorem chk_signed {c : Basic} (hs : signed c = true) {r v : Int} (h : chk c r = some v) : v = r ∧ InRange c r := by
  unfold chk at h
  rw [if_pos hs] at h
  split at h <;> cases h
  exact ⟨rfl, by assumption⟩

theorem grow_exact {c : Basic} (hc : c ∈ promoted) (hu : c ≠ .uint) (f : Int → Int → Int) (g : Word → Word → Word)
    (hg : ∀ a b, BitVec.ofInt 64 (f a b) = g (BitVec.ofInt 64 a) (BitVec.ofInt 64 b))
    {a b v : Int} (ha : InRange c a) (hb : InRange c b) (hv : chk c (f a b) = some v) :
    Agrees (int64 (f (BitVec.ofInt 64 a).toInt (BitVec.ofInt 64 b).toInt)) v (signed c) := by
  by_cases hs : signed c = true
  · rw [toInt_word hc hs ha, toInt_word hc hs hb]
    obtain ⟨rfl, hr⟩ := chk_signed hs hv
    rw [int64_ok (signed_range hc (Or.inl hs) hr)]
    rfl
  · unfold int64
    split
    · show BitVec.ofInt 64 _ = _
      rw [hg, BitVec.ofInt_toInt, BitVec.ofInt_toInt, ← hg]
      exact canon_or hc hv hu
    · exact ⟨rfl, by simpa using hs⟩

theorem word_zero {c : Basic} (hc : c ∈ promoted) {b : Int} (hb : InRange c b) : BitVec.ofInt 64 b = 0 ↔ b = 0 :=
  ofInt64_eq_zero (W64_promoted hc hb)

/-- Arithmetic operators. -/
theorem arith_exact {c : Basic} (hc : c ∈ promoted) {op : BinOp} (hx : c ≠ .uint ∨ canOverflow op = false)
    {a b v : Int} (ha : InRange c a) (hb : InRange c b) (hv : arithInt op c a b = some v) :
    InRange c v ∧
    Agrees (evalBin (signed c) op (BitVec.ofInt 64 a) (BitVec.ofInt 64 b)) v
      (!(op == .add || op == .sub || op == .mul) || signed c) := by
  obtain ⟨hr, r, -, hrv, hex⟩ := intRaw_ok toyEnv hc (sg := signed c) (fun _ => Or.inl rfl) ha hb hv
  refine ⟨hr, ?_⟩
  have hg : c ≠ .uint ∨ grows op = false := by
    rcases hx with h | h
    · exact Or.inl h
    · exact Or.inr (by cases op <;> simp_all [canOverflow, grows])
  replace hrv := hrv hg
  replace hex := hex [] (fun _ => 0)
  cases op <;> simp only [canOverflow, Bool.true_eq_false, or_false] at hx
  case add =>
    have := grow_exact hc hx (· + ·) (· + ·) (fun a b => by rw [BitVec.ofInt_add]) ha hb hv
    simpa [evalBin] using this
  case sub =>
    have := grow_exact hc hx (· - ·) (· - ·) ofInt_sub64 ha hb hv
    simpa [evalBin] using this
  case mul =>
    have := grow_exact hc hx (· * ·) (· * ·) (fun a b => by rw [BitVec.ofInt_mul]) ha hb hv
    simpa [evalBin] using this
  case div =>
    simp only [arithInt] at hv
    split at hv
    · cases hv
    · rename_i h0
      simp only [evalBin]
      rw [if_neg (by rw [word_zero hc hb]; exact h0)]
      by_cases hs : signed c = true
      · rw [if_pos hs, toInt_word hc hs ha, toInt_word hc hs hb]
        obtain ⟨rfl, hr⟩ := chk_signed hs hv
        rw [int64_ok (signed_range hc (Or.inl hs) hr)]
        rfl
      · rw [if_neg hs]
        simp only [intInstr, hs, Bool.false_eq_true, if_false, execs_cons, exec_bin, IR.Bin.exec,
          word_zero hc hb, h0] at hex
        simp [execs_nil] at hex
        show BitVec.ofInt 64 a / BitVec.ofInt 64 b = _
        rw [← hrv, ← hex]
  case mod =>
    simp only [arithInt] at hv
    split at hv
    · cases hv
    · rename_i h0
      simp only [evalBin]
      rw [if_neg (by rw [word_zero hc hb]; exact h0)]
      by_cases hs : signed c = true
      · rw [if_pos hs, toInt_word hc hs ha, toInt_word hc hs hb]
        simp only [Option.map_eq_some_iff] at hv
        obtain ⟨q, hq, rfl⟩ := hv
        obtain ⟨rfl, hr⟩ := chk_signed hs hq
        rw [int64_ok (signed_range hc (Or.inl hs) hr)]
        rfl
      · rw [if_neg hs]
        simp only [intInstr, hs, Bool.false_eq_true, if_false, execs_cons, exec_bin, IR.Bin.exec,
          word_zero hc hb, h0] at hex
        simp [execs_nil] at hex
        show BitVec.ofInt 64 a % BitVec.ofInt 64 b = _
        rw [← hrv, ← hex]
  case band | bor | bxor =>
    simp [intInstr, execs_cons, exec_bin, IR.Bin.exec, execs_nil] at hex
    show _ = _
    rw [← hrv, ← hex]
  all_goals cases hv

/-- Shifts. -/
theorem shift_exact {c : Basic} (hc : c ∈ promoted) {op : BinOp} (hop : op = .shl ∨ op = .shr)
    (hx : c ≠ .uint ∨ op = .shr) {a n v : Int} (ha : InRange c a) (hv : shiftInt op c a n = some v) :
    InRange c v ∧ evalBin (signed c) op (BitVec.ofInt 64 a) (BitVec.ofInt 64 n) = .ok (BitVec.ofInt 64 v) := by
  obtain ⟨hi, _, hw, _⟩ := promoted_facts hc
  unfold shiftInt at hv
  split at hv
  · cases hv
  · rename_i hn
    have h1 : 0 ≤ n := by omega
    have h2 : n < 64 := by omega
    have tn : (BitVec.ofInt 64 n).toInt = n := toInt_ofInt64 (by omega) (by omega)
    have tnn : (BitVec.ofInt 64 n).toNat = n.toNat := by
      have := toNat_ofInt64 n
      omega
    have hcls := cls_of_inRange hi ha
    rcases hop with rfl | rfl
    · simp only at hv
      simp only [evalBin, tn, tnn]
      rw [if_neg (by omega)]
      split at hv
      · cases hv
      · rename_i hneg
        have hrange := (chk_wrap hc hv).2.1
        refine ⟨hrange, ?_⟩
        by_cases hs : signed c = true
        · rw [if_pos hs, toInt_word hc hs ha, if_neg (by tauto)]
          obtain ⟨rfl, hr⟩ := chk_signed hs hv
          rw [int64_ok (signed_range hc (Or.inl hs) hr)]
        · rw [if_neg hs, ← canon_or hc hv (by tauto)]
          congr 1
          rw [BitVec.ofInt_mul, BitVec.shiftLeft_eq_mul_twoPow]
          congr 1
          apply BitVec.eq_of_toNat_eq
          have := toNat_ofInt64 (2 ^ n.toNat)
          rw [BitVec.toNat_twoPow]
          have e : ((2 ^ n.toNat : Nat) : Int) = (2 : Int) ^ n.toNat := by simp
          rw [← e] at this ⊢
          omega
    · simp only [Option.some.injEq] at hv
      subst hv
      refine ⟨shr_inRange ha _, ?_⟩
      simp only [evalBin, tn, tnn]
      rw [if_neg (by omega)]
      have hp : (0 : Int) < 2 ^ n.toNat := Int.pow_pos (by decide)
      by_cases hs : signed c = true
      · rw [if_pos hs]
        congr 1
        apply BitVec.eq_of_toInt_eq
        have hr := signed_range hc (Or.inl hs) (shr_inRange ha n.toNat)
        rw [BitVec.toInt_sshiftRight, toInt_word hc hs ha, toInt_ofInt64 hr.1 hr.2, Int.shiftRight_eq_div_pow]
        simp
      · rw [if_neg hs]
        congr 1
        apply BitVec.eq_of_toNat_eq
        have hs' : signed c = false := by simpa using hs
        have hr := unsigned_range hc hs' (shr_inRange ha n.toNat)
        have hr' := unsigned_range hc hs' ha
        rw [BitVec.toNat_ushiftRight, Nat.shiftRight_eq_div_pow]
        have e1 := toNat_ofInt64 (a / 2 ^ n.toNat)
        have e2 := toNat_ofInt64 a
        rw [Int.emod_eq_of_lt hr.1 hr.2] at e1
        rw [Int.emod_eq_of_lt hr'.1 hr'.2] at e2
        have e : ((BitVec.ofInt 64 a).toNat / 2 ^ n.toNat : Nat) = ((BitVec.ofInt 64 (a / 2 ^ n.toNat)).toNat : Int) := by
          rw [e1, Int.natCast_ediv, e2]
          simp
        exact_mod_cast e

/-- Comparisons. -/
theorem compare_exact (F : IR.FP) {c : Basic} (hc : c ∈ promoted) {op : BinOp} {a b : Int} {r : Bool}
    (ha : InRange c a) (hb : InRange c b) (hv : compareV F op (.int a) (.int b) = some r) :
    evalBin (signed c) op (BitVec.ofInt 64 a) (BitVec.ofInt 64 b) = .ok (ofBool r) := by
  obtain ⟨hi, _, _, _⟩ := promoted_facts hc
  have ca := cls_of_inRange hi ha
  have cb := cls_of_inRange hi hb
  have heq := eq_words ca cb
  have hn : (BitVec.ofInt 64 a != BitVec.ofInt 64 b) = decide (a ≠ b) := by
    rw [bne, heq]; simp
  have key : ∀ {x : Int}, InRange c x → (if signed c then (BitVec.ofInt 64 x).toInt = x
      else ((BitVec.ofInt 64 x).toNat : Int) = x) := by
    intro x hx
    split
    · rename_i hs; exact toInt_word hc hs hx
    · rename_i hs
      have := unsigned_range hc (by simpa using hs) hx
      rw [toNat_ofInt64, Int.emod_eq_of_lt this.1 this.2]
  have ka := key ha
  have kb := key hb
  cases op <;> simp only [compareV, Option.some.injEq] at hv <;> (try cases hv) <;>
    simp only [evalBin, heq, hn]
  all_goals
    by_cases hs : signed c = true
    · simp only [hs, if_true] at ka kb ⊢
      rw [ka, kb]
    · simp only [hs, Bool.false_eq_true, if_false] at ka kb ⊢
      congr 2
      rw [decide_eq_decide]
      omega

theorem zext_ofInt (n : Nat) (hn : n < 64) (v : Int) :
    ((BitVec.ofInt 64 v).setWidth n).setWidth 64 = BitVec.ofInt 64 (v % 2 ^ n) := by
  rw [← and_mask n hn v]
  apply BitVec.eq_of_toNat_eq
  have hp : 2 ^ n < 2 ^ 64 := Nat.pow_lt_pow_right (by decide) hn
  have h0 : 0 < 2 ^ n := Nat.two_pow_pos n
  rw [BitVec.toNat_and, BitVec.toNat_ofNat, Nat.mod_eq_of_lt (a := 2 ^ n - 1) (by omega),
    Nat.and_two_pow_sub_one_eq_mod, BitVec.toNat_setWidth, BitVec.toNat_setWidth]
  exact Nat.mod_eq_of_lt (Nat.lt_trans (Nat.mod_lt _ h0) hp)

/-- Conversion by a cast. -/
theorem cast_exact {b : Basic} (hb : isInteger b = true) {v : Int} (hv : W64 v) :
    castInt b (BitVec.ofInt 64 v) = BitVec.ofInt 64 (wrap b v) := by
  have hz := ofInt64_eq_zero hv
  have e64 := emod_64 v
  have b64 := bmod_64 v
  cases b <;> first | (simp [isInteger] at hb; done) | skip
  case bool =>
    by_cases h : v = 0
    · subst h; rfl
    · have h' : BitVec.ofInt 64 v ≠ 0 := fun e => h (hz.mp e)
      simp [castInt, ofBool, wrap, h]; exact h'
  case char | schar => simp [castInt, Basic.isSigned, basicSize, wrap, signed, width, ext_ofInt 8]
  case short => simp [castInt, Basic.isSigned, basicSize, wrap, signed, width, ext_ofInt 16]
  case int => simp [castInt, Basic.isSigned, basicSize, wrap, signed, width, ext_ofInt 32]
  case uchar =>
    have := zext_ofInt 8 (by decide) v
    simp [castInt, Basic.isSigned, basicSize, wrap, signed, width] at this ⊢; exact this
  case ushort =>
    have := zext_ofInt 16 (by decide) v
    simp [castInt, Basic.isSigned, basicSize, wrap, signed, width] at this ⊢; exact this
  case uint =>
    have := zext_ofInt 32 (by decide) v
    simp [castInt, Basic.isSigned, basicSize, wrap, signed, width] at this ⊢; exact this
  case ulong | ullong => simp [castInt, Basic.isSigned, basicSize, wrap, signed, width] at e64 ⊢; exact e64.symm
  case long | llong => simp [castInt, Basic.isSigned, basicSize, wrap, signed, width] at b64 ⊢; exact b64.symm

end Kefir.ConstExpr
