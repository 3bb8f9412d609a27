import Verif.Expr.Memory

/-! Reading and assigning objects: the sequences of `value.c` and `assignment_operator.c` against the memory model. -/
namespace Kefir.Expr
open Kefir.Types (Basic)
open Kefir.C17 Kefir.CSpec
open Kefir.IR

theorem pow_mono {a b : Nat} (h : a ≤ b) : (2 : Int) ^ a ≤ 2 ^ b := by
  have := Nat.pow_le_pow_right (n := 2) (by decide) h
  have e1 : ((2 ^ a : Nat) : Int) = (2 : Int) ^ a := by simp
  have e2 : ((2 ^ b : Nat) : Int) = (2 : Int) ^ b := by simp
  omega

theorem setWidth_ofInt {n : Nat} (hn : n ≤ 64) (v : Int) : (BitVec.ofInt 64 v).setWidth n = BitVec.ofInt n v := by
  apply BitVec.eq_of_toNat_eq
  have h := Int.emod_emod_of_dvd v (show (2 : Int) ^ n ∣ 2 ^ 64 from ⟨2 ^ (64 - n), by rw [← Int.pow_add]; congr 1; omega⟩)
  have e1 : ((2 ^ n : Nat) : Int) = (2 : Int) ^ n := by simp
  have hp : (0 : Int) < 2 ^ n := Int.pow_pos (by decide)
  have h64 := Int.emod_nonneg v (b := 2 ^ 64) (by decide)
  rw [BitVec.toNat_setWidth, BitVec.toNat_ofInt, BitVec.toNat_ofInt]
  apply Int.ofNat_inj.mp
  rw [Int.natCast_emod, e1, show ((2 ^ 64 : Nat) : Int) = 2 ^ 64 from rfl, Int.toNat_of_nonneg h64, Int.toNat_of_nonneg (Int.emod_nonneg v (by omega))]
  exact h

theorem valOf_field {b : Basic} (hb : isInteger b = true) {w : Nat} (h1 : 1 ≤ w) (h2 : w ≤ width b) (x : BitVec w) :
    InRange b (valOf (signed b) x) := by
  have hp : (2 : Int) ^ (w - 1) ≤ 2 ^ (width b - 1) := pow_mono (by omega)
  have hq : (2 : Int) ^ w ≤ 2 ^ width b := pow_mono h2
  unfold InRange minVal maxVal valOf
  cases hs : signed b
  · simp only [Bool.false_eq_true, if_false]
    have := x.isLt
    have e : ((2 ^ w : Nat) : Int) = (2 : Int) ^ w := by simp
    omega
  · simp only [if_true]
    have h3 := BitVec.le_toInt x
    have h4 := BitVec.toInt_lt (x := x)
    omega

theorem ofInt_valOf_true {n : Nat} (hn : n ≤ 64) (x : BitVec n) :
    BitVec.ofInt 64 (valOf true x) = x.signExtend 64 := ofInt_valOf true hn x

theorem ofInt_valOf_false {n : Nat} (hn : n ≤ 64) (x : BitVec n) :
    BitVec.ofInt 64 (valOf false x) = x.setWidth 64 := ofInt_valOf false hn x

/-- Well-formed bit-field access that kefir's opcodes can perform. -/
def bfOk (t : Ty) (bf : Option (Nat × Nat)) : Prop :=
  ∀ off w, bf = some (off, w) → bfGood off w = true ∧ fieldOk t bf = true

theorem resolveBitfield_ok (E : Env) {b : Basic} {off w : Nat} (hg : bfGood off w = true) (m : Mem) (a : Word)
    (s : List Word) : execs E (resolveBitfield (.arith b) off w) (a :: s) m =
      some (BitVec.ofInt 64 (valOf (signed b) (readBits m a off w)) :: s, m) := by
  have hw : w ≤ 64 := by simp only [bfGood, decide_eq_true_eq] at hg; omega
  simp only [resolveBitfield, loadBitfield, isSigned_eq]
  cases hs : signed b
  · simp only [Bool.false_eq_true, if_false, List.cons_append, List.nil_append, execs_cons, execs_nil, exec_iadd1,
      exec_load, exec_extubits, Option.bind_some, unsigned_bitfield hg]
    rw [ofInt_valOf_false hw]
  · simp only [Bool.false_eq_true, if_false, if_true, List.cons_append, List.nil_append, execs_cons, execs_nil, exec_iadd1,
      exec_load, exec_extsbits, Option.bind_some, signed_bitfield hg]
    rw [ofInt_valOf_true hw]

theorem sext_load (m : Mem) (a : Word) (n : Nat) (hn : n ≤ 8) :
    sextBytes n (loadLE m a n) = BitVec.ofInt 64 (valOf true (readBits m a 0 (8 * n))) := by
  rw [ofInt_valOf_true (by omega), sextBytes, loadLE_eq m a n hn, BitVec.setWidth_setWidth_of_le _ (by omega),
    BitVec.setWidth_eq]

theorem zext_load (m : Mem) (a : Word) (n : Nat) (hn : n ≤ 8) :
    loadLE m a n = BitVec.ofInt 64 (valOf false (readBits m a 0 (8 * n))) := by
  rw [ofInt_valOf_false (by omega), loadLE_eq m a n hn]

theorem load64 (m : Mem) (a : Word) (sg : Bool) :
    loadLE m a 8 = BitVec.ofInt 64 (valOf sg (readBits m a 0 64)) := by
  rw [loadLE_eq m a 8 (by decide)]
  cases sg
  · rw [ofInt_valOf_false (by decide)]
  · rw [ofInt_valOf_true (by decide)]; simp

theorem load_ok (E : Env) {t : Ty} {bf : Option (Nat × Nat)} {v : Val} {m : Mem} {a : Word}
    (hbf : bfOk t bf) (h : load t bf m a = some v) :
    HasTy t.dec v ∧ ∃ ws, Rep v ws ∧ ∀ s, execs E (resolveLvalue t bf) (a :: s) m = some (ws ++ s, m) := by
  cases bf with
  | some p =>
    obtain ⟨off, w⟩ := p
    obtain ⟨hg, hf⟩ := hbf off w rfl
    cases t <;> simp only [load, reduceCtorEq, Option.some.injEq] at h
    rename_i b
    subst h
    simp only [fieldOk, Bool.and_eq_true, decide_eq_true_eq] at hf
    exact ⟨⟨hf.1, valOf_field hf.1 hf.2.1 hf.2.2 _⟩, _, rfl, fun s => resolveBitfield_ok E hg m a s⟩
  | none =>
    have haddr : (0 : Int) ≤ a.toNat ∧ (a.toNat : Int) < 2 ^ 64 := by
      have := a.isLt
      omega
    have hself : BitVec.ofInt 64 (a.toNat : Int) = a := by
      rw [BitVec.ofInt_natCast, BitVec.ofNat_toNat, BitVec.setWidth_eq]
    cases t with
    | void =>
      simp only [load, Option.some.injEq] at h
      subst h
      exact ⟨trivial, [], rfl, fun s => rfl⟩
    | ptr t =>
      simp only [load, Option.some.injEq] at h
      subst h
      refine ⟨?_, _, rfl, fun s => ?_⟩
      · have := (readBits m a 0 64).isLt
        simp only [Ty.dec, HasTy]
        omega
      · simp only [resolveLvalue, loadValue, reduceCtorEq, if_false, execs_cons, execs_nil, exec_load, Option.bind_some,
          load64 m a false, valOf, Bool.false_eq_true, List.cons_append, List.nil_append]
    | agg g n =>
      simp only [load, Option.some.injEq] at h
      subst h
      exact ⟨haddr, [a], by simp [Rep], fun s => rfl⟩
    | arr t n =>
      simp only [load, Option.some.injEq] at h
      subst h
      exact ⟨haddr, [a], by simp [Rep], fun s => rfl⟩
    | arith b =>
      simp only [load] at h
      cases hf : fmtOf b with
      | some f =>
        rw [hf] at h
        simp only [Option.some.injEq] at h
        subst h
        have := fmtOf_some hf
        subst this
        refine ⟨rfl, ?_⟩
        cases f
        · refine ⟨[loadLE m a 4], ⟨_, rfl, ?_⟩, fun s => rfl⟩
          rw [loadLE_eq m a 4 (by decide), BitVec.setWidth_setWidth_of_le _ (by decide), BitVec.setWidth_eq]
        · refine ⟨[loadLE m a 8], ?_, fun s => rfl⟩
          simp only [Rep]
          rw [loadLE_eq m a 8 (by decide), BitVec.setWidth_eq]
        · refine ⟨[loadLE m a 8, loadLE m (a + 8) 8], ⟨_, _, rfl, ?_⟩, fun s => rfl⟩
          apply BitVec.eq_of_getLsbD_eq
          intro i hi
          have e8 : a + 8 = a + BitVec.ofNat 64 8 := rfl
          rw [BitVec.getLsbD_append, e8, BitVec.getLsbD_setWidth, getLsbD_loadLE, getLsbD_loadLE, getLsbD_readBits, bitOf_add]
          by_cases hi64 : i < 64
          · simp [hi64]; omega
          · have e1 : 8 * 8 + (i - 64) = i := by omega
            have e2 : i - 64 < 64 := by omega
            have e3 : i - 64 < 16 := by omega
            simp [hi64, e1, e2, e3]; omega
      | none =>
        rw [hf] at h
        simp only at h
        have hi : isInteger b = true := by rw [isInteger_fmt, hf]; rfl
        split at h
        · rename_i hr
          simp only [Option.some.injEq] at h
          subst h
          refine ⟨⟨hi, hr⟩, _, rfl, fun s => ?_⟩
          cases b <;> simp only [isInteger, Bool.false_eq_true] at hi <;>
            simp only [resolveLvalue, loadValue, reduceCtorEq, if_false, execs_cons, execs_nil, exec_load, Option.bind_some,
              signed, basicSize, Bool.false_eq_true, if_true, List.cons_append, List.nil_append] <;>
            first
              | rw [sext_load m a _ (by decide)]
              | (rw [load64 m a true]; done)
              | rw [zext_load m a _ (by decide)]
        · cases h

/-- Types whose stores the model relates to memory exactly (`long double` stores also write padding). -/
def storeGood (t : Ty) : Bool := t != .arith .ldouble && (match t with | .arr _ _ | .void => false | _ => true)

theorem store_ok (E : Env) {t : Ty} {bf : Option (Nat × Nat)} {v : Val} {m m' : Mem} {a : Word} {ws : List Word}
    (hbf : bfOk t bf) (hg : storeGood t = true) (hT : HasTy t v) (hr : Rep v ws)
    (h : store t bf m a v = some m') :
    ∃ w, ws = [w] ∧ ∀ s, execs E (storeLvalue t bf) (w :: a :: s) m = some (s, m') := by
  cases bf with
  | some p =>
    obtain ⟨off, w⟩ := p
    obtain ⟨hgd, hf⟩ := hbf off w rfl
    cases t <;> cases v <;> simp only [store, reduceCtorEq, Option.some.injEq] at h
    rename_i b v
    subst h
    simp only [Rep] at hr
    subst hr
    refine ⟨_, rfl, fun s => ?_⟩
    simp only [storeLvalue, storeBitfield, loadBitfield, List.cons_append, List.nil_append, execs_cons, execs_nil, exec_pick1,
      exec_iadd1, exec_load, exec_xchg1, exec_insertbits, exec_store, Option.bind_some, Bool.false_eq_true, if_false]
    rw [insert_bitfield hgd]
    simp only [bfGood, decide_eq_true_eq] at hgd
    rw [setWidth_ofInt (by omega)]
  | none =>
    cases t with
    | void => simp [storeGood] at hg
    | arr t n => simp [storeGood] at hg
    | agg g n =>
      cases v <;> simp only [store, reduceCtorEq] at h
      split at h
      · rename_i hno
        simp only [Option.some.injEq] at h
        subst h
        simp only [Rep] at hr
        subst hr
        refine ⟨_, rfl, fun s => ?_⟩
        simp only [storeLvalue, storeValue, Ty.size, execs_cons, execs_nil, exec_bcopy, Option.bind_some, bcopy_copyBytes hno]
      · cases h
    | ptr t =>
      cases v <;> simp only [store, reduceCtorEq, Option.some.injEq] at h
      subst h
      simp only [Rep] at hr
      subst hr
      refine ⟨_, rfl, fun s => ?_⟩
      simp only [storeLvalue, storeValue, execs_cons, execs_nil, exec_store, Option.bind_some, storeLE_eq _ _ 8 (by decide)]
      simp
    | arith b =>
      cases v with
      | void => simp [store] at h
      | fl f x =>
        simp only [store, Option.some.injEq] at h
        subst h
        simp only [HasTy] at hT
        subst hT
        cases f
        · obtain ⟨w, rfl, rfl⟩ := hr
          refine ⟨_, rfl, fun s => ?_⟩
          simp only [storeLvalue, storeValue, ofFmt, execs_cons, execs_nil, exec_store, Option.bind_some,
            storeLE_eq _ _ 4 (by decide)]
        · simp only [Rep] at hr
          subst hr
          refine ⟨_, rfl, fun s => ?_⟩
          simp only [storeLvalue, storeValue, ofFmt, execs_cons, execs_nil, exec_store, Option.bind_some,
            storeLE_eq _ _ 8 (by decide)]
          simp
        · simp [storeGood, ofFmt] at hg
      | int v =>
        simp only [store, Option.some.injEq] at h
        subst h
        simp only [Rep] at hr
        subst hr
        refine ⟨_, rfl, fun s => ?_⟩
        have hi := hT.1
        have e : storeLvalue (.arith b) none = [.store (basicSize b)] := by
          cases b <;> simp [isInteger] at hi <;> rfl
        have hs : basicSize b ≤ 8 := by cases b <;> simp [isInteger] at hi <;> decide
        simp only [e, execs_cons, execs_nil, exec_store, Option.bind_some, storeLE_eq _ _ _ hs]
        rw [setWidth_ofInt (by omega)]

theorem extbits_result (E : Env) {b : Basic} {w : Nat} (h1 : 1 ≤ w) (h2 : w < 64) (v : Int) (s : List Word) (m : Mem) :
    execs E (if b.isSigned then [.extsbits 0 w] else [.extubits 0 w]) (BitVec.ofInt 64 v :: s) m =
      some (BitVec.ofInt 64 (valOf (signed b) (BitVec.ofInt w v)) :: s, m) := by
  have e : BitVec.ofInt w v = (BitVec.ofInt 64 v).setWidth w := by
    rw [setWidth_ofInt (by omega)]
  rw [isSigned_eq, e]
  cases hs : signed b
  · simp only [Bool.false_eq_true, if_false, execs_cons, execs_nil, exec_extubits, Option.bind_some]
    rw [ofInt_valOf_false (by omega)]
    congr 3
    apply BitVec.eq_of_getLsbD_eq
    intro i hi
    rw [extubits_bits _ _ _ h2 (by omega) _ hi, BitVec.getLsbD_setWidth, BitVec.getLsbD_setWidth]
    simp [hi]
  · simp only [if_true, execs_cons, execs_nil, exec_extsbits, Option.bind_some]
    rw [ofInt_valOf_true (by omega)]
    congr 3
    apply BitVec.eq_of_getLsbD_eq
    intro i hi
    rw [extsbits_bits _ _ _ h1 (by omega) _ hi, signExtend_bits h1 (by omega) _ _ hi, BitVec.getLsbD_setWidth]
    by_cases h : i < w
    · simp [h]
    · have : w - 1 < w := by omega
      simp [h, this]

theorem storeResult_ok (E : Env) {t : Ty} {bf : Option (Nat × Nat)} {v : Val} {m m' : Mem} {a : Word} {ws : List Word}
    (hbf : bfOk t bf) (hg : storeGood t = true) (hT : HasTy t v) (hr : Rep v ws)
    (h : store t bf m a v = some m') :
    HasTy t (assigned t bf v) ∧ ∃ w w', ws = [w] ∧ Rep (assigned t bf v) [w'] ∧
      ∀ s, execs E (storeResult t bf) (w :: a :: s) m = some (w' :: s, m') := by
  obtain ⟨w, rfl, hst⟩ := store_ok E hbf hg hT hr h
  have hne : t ≠ .arith .ldouble := by rintro rfl; exact absurd hg (by decide)
  cases bf with
  | none =>
    have ha : assigned t none v = v := by cases t <;> cases v <;> rfl
    rw [ha]
    refine ⟨hT, w, w, rfl, hr, fun s => ?_⟩
    have hst' := hst (w :: s)
    simp only [storeResult, if_neg hne, List.append_nil, execs_append, execs_cons, execs_nil, exec_xchg1, exec_pick1,
      Option.bind_some]
    rw [hst']
  | some p =>
    obtain ⟨off, wd⟩ := p
    obtain ⟨hgd, hf⟩ := hbf off wd rfl
    cases t <;> cases v <;> simp only [store, reduceCtorEq, Option.some.injEq] at h
    rename_i b v
    simp only [fieldOk, Bool.and_eq_true, decide_eq_true_eq] at hf
    simp only [bfGood, decide_eq_true_eq] at hgd
    simp only [assigned]
    simp only [Rep, List.cons.injEq, and_true] at hr
    subst hr
    refine ⟨⟨hf.1, valOf_field hf.1 hf.2.1 hf.2.2 _⟩, _, _, rfl, rfl, fun s => ?_⟩
    have hib : b.isIntegral = true := by
      have := hf.1
      cases b <;> simp_all [isInteger, Basic.isIntegral]
    have hst' := hst (BitVec.ofInt 64 v :: s)
    simp only [storeResult, if_neg hne, execs_append, execs_cons, execs_nil, exec_xchg1, exec_pick1, Option.bind_some,
      hib, if_true]
    rw [hst']
    exact extbits_result E hf.2.1 hgd.2.1 v s m'

end Kefir.Expr
