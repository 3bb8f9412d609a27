import Verif.Expr.Arith

/-! Comparison and truth-value sequences. -/
namespace Kefir.Expr
open Kefir.Types (Basic)
open Kefir.C17 Kefir.CSpec
open Kefir.IR

/-- Facts about IEEE arithmetic used for floating operands; everything else about the floating-point unit is left
open.  `fone f` is the bit pattern of 1.0. -/
def fone : (f : Fmt) → BitVec f.bits
  | .f32 => 0x3f800000#32
  | .f64 => 0x3ff0000000000000#64
  | .f80 => 0x3fff8000000000000000#80

structure Lawful (F : FP) : Prop where
  eq_comm : ∀ f x y, F.eq f x y = F.eq f y x
  ofInt_one : ∀ f, F.ofInt f 1 = fone f
  sub_one : ∀ f x, F.arith .sub f x (fone f) = F.arith .add f x (fone f ^^^ BitVec.intMin f.bits)

theorem ofBool_ofInt (b : Bool) : IR.ofBool b = BitVec.ofInt 64 (if b then 1 else 0) := by cases b <;> rfl

theorem rep_ofBool (b : Bool) : Rep (ofBoolV b) [IR.ofBool b] := by
  simp only [Rep, ofBoolV, ofBool_ofInt]

/-- The 64-bit range of signed or unsigned canonical words. -/
def Cls (sg : Bool) (v : Int) : Prop := if sg then -2 ^ 63 ≤ v ∧ v < 2 ^ 63 else 0 ≤ v ∧ v < 2 ^ 64

theorem eq_words {sg : Bool} {a b : Int} (ha : Cls sg a) (hb : Cls sg b) :
    (BitVec.ofInt 64 a == BitVec.ofInt 64 b) = decide (a = b) := by
  have : (BitVec.ofInt 64 a = BitVec.ofInt 64 b) ↔ a = b := by
    constructor
    · intro h
      cases sg
      · simp only [Cls, Bool.false_eq_true, if_false] at ha hb
        rw [← toNat_ofInt64' ha.1 ha.2, ← toNat_ofInt64' hb.1 hb.2, h]
      · simp only [Cls, if_true] at ha hb
        rw [← toInt_ofInt64 ha.1 ha.2, ← toInt_ofInt64 hb.1 hb.2, h]
    · rintro rfl; rfl
  rw [Bool.eq_iff_iff]
  simp [this]

theorem slt_words {a b : Int} (ha : Cls true a) (hb : Cls true b) :
    (BitVec.ofInt 64 a).slt (BitVec.ofInt 64 b) = decide (a < b) := by
  simp only [Cls, if_true] at ha hb
  rw [BitVec.slt, toInt_ofInt64 ha.1 ha.2, toInt_ofInt64 hb.1 hb.2]

theorem ult_words {a b : Int} (ha : Cls false a) (hb : Cls false b) :
    (BitVec.ofInt 64 a).ult (BitVec.ofInt 64 b) = decide (a < b) := by
  simp only [Cls, Bool.false_eq_true, if_false] at ha hb
  have e1 := toNat_ofInt64' ha.1 ha.2
  have e2 := toNat_ofInt64' hb.1 hb.2
  rw [BitVec.ult, Bool.eq_iff_iff]
  simp only [decide_eq_true_eq]
  omega

theorem bor_bool (x y : Bool) : Bin.exec .bor (IR.ofBool x) (IR.ofBool y) = some (IR.ofBool (x || y)) := by
  cases x <;> cases y <;> rfl

theorem band_bool (x y : Bool) : Bin.exec .band (IR.ofBool x) (IR.ofBool y) = some (IR.ofBool (x && y)) := by
  cases x <;> cases y <;> rfl

theorem bnot_bool (x : Bool) : Un.exec .bnot (IR.ofBool x) = IR.ofBool (!x) := by cases x <;> rfl

/-- Types compared as integers. -/
def isWordTy : Ty → Bool
  | .arith b => (fmtOf b).isNone
  | _ => true

theorem relInt_ok (E : Env) {op : BinOp} {t : Ty} (ht : isWordTy t = true) {a b : Int} (ha : Cls t.isSigned a)
    (hb : Cls t.isSigned b) {r : Bool} (h : compareV E.fp op (.int a) (.int b) = some r) (s : List Word) (m : Mem) :
    execs E (relInstr op t) (BitVec.ofInt 64 b :: BitVec.ofInt 64 a :: s) m = some (IR.ofBool r :: s, m) := by
  have hne : t ≠ .arith .ldouble := by rintro rfl; cases ht
  have eqs : ∀ a b, Cls t.isSigned a → Cls t.isSigned b → ∀ s,
      execs E (cmpEq t) (BitVec.ofInt 64 b :: BitVec.ofInt 64 a :: s) m = some (IR.ofBool (decide (a = b)) :: s, m) := by
    intro a b ha hb s
    have : cmpEq t = [.bin .eq] := by
      unfold cmpEq
      split
      · simp only [isWordTy] at ht; split <;> simp_all
      · rfl
    rw [this]
    simp [execs_cons, execs_nil, exec_bin, Bin.exec, eq_words ha hb]
  have lts : ∀ s, execs E (cmpLt t) (BitVec.ofInt 64 b :: BitVec.ofInt 64 a :: s) m =
      some (IR.ofBool (decide (a < b)) :: s, m) := by
    intro s
    cases hs : t.isSigned
    · rw [hs] at ha hb
      have : cmpLt t = [.bin .below] := by
        unfold cmpLt
        split
        · simp only [isWordTy] at ht; simp only [Ty.isSigned] at hs; split <;> simp_all
        · rfl
      rw [this]
      simp [execs_cons, execs_nil, exec_bin, Bin.exec, ult_words ha hb]
    · rw [hs] at ha hb
      have : cmpLt t = [.bin .lt] := by
        unfold cmpLt
        split
        · simp only [isWordTy] at ht; simp only [Ty.isSigned] at hs; split <;> simp_all
        · cases t <;> simp_all [Ty.isSigned]
      rw [this]
      simp [execs_cons, execs_nil, exec_bin, Bin.exec, slt_words ha hb]
  have gts : ∀ s, execs E (cmpGt t) (BitVec.ofInt 64 b :: BitVec.ofInt 64 a :: s) m =
      some (IR.ofBool (decide (b < a)) :: s, m) := by
    intro s
    cases hs : t.isSigned
    · rw [hs] at ha hb
      have : cmpGt t = [.bin .above] := by
        unfold cmpGt
        split
        · simp only [isWordTy] at ht; simp only [Ty.isSigned] at hs; split <;> simp_all
        · rfl
      rw [this]
      simp [execs_cons, execs_nil, exec_bin, Bin.exec, ult_words hb ha]
    · rw [hs] at ha hb
      have : cmpGt t = [.bin .gt] := by
        unfold cmpGt
        split
        · simp only [isWordTy] at ht; simp only [Ty.isSigned] at hs; split <;> simp_all
        · cases t <;> simp_all [Ty.isSigned]
      rw [this]
      simp [execs_cons, execs_nil, exec_bin, Bin.exec, slt_words hb ha]
  cases op <;> simp only [compareV, Option.some.injEq, reduceCtorEq] at h <;> subst h <;>
    simp only [relInstr, cmpOrEq, if_neg hne]
  case lt => exact lts s
  case gt => exact gts s
  case eq => exact eqs a b ha hb s
  case ne =>
    rw [execs_append, eqs a b ha hb s]
    simp [execs_cons, execs_nil, exec_un, bnot_bool]
  case le =>
    rw [execs_append, execs_append, execs_append, execs_append]
    simp only [execs_cons, execs_nil, exec_pick1, Option.bind_some, lts, exec_xchg2, eqs b a hb ha]
    simp only [exec_bin, bor_bool, Option.map_some, Option.bind_some]
    congr 3
    congr 1
    rw [Bool.eq_iff_iff]; simp; omega
  case ge =>
    rw [execs_append, execs_append, execs_append, execs_append]
    simp only [execs_cons, execs_nil, exec_pick1, Option.bind_some, gts, exec_xchg2, eqs b a hb ha]
    simp only [exec_bin, bor_bool, Option.map_some, Option.bind_some]
    congr 3
    congr 1
    rw [Bool.eq_iff_iff]; simp; omega

theorem feq_ok (E : Env) {f : Fmt} {x y : BitVec f.bits} {ws1 ws2 : List Word}
    (h1 : Rep (.fl f x) ws1) (h2 : Rep (.fl f y) ws2) (s : List Word) (m : Mem) :
    execs E [.feq f] (ws2 ++ (ws1 ++ s)) m = some (IR.ofBool (E.fp.eq f x y) :: s, m) := by
  cases f
  · obtain ⟨w, rfl, rfl⟩ := h1
    obtain ⟨w', rfl, rfl⟩ := h2
    rfl
  · simp only [Rep] at h1 h2
    subst h1; subst h2; rfl
  · obtain ⟨w0, w1, rfl, rfl⟩ := h1
    obtain ⟨v0, v1, rfl, rfl⟩ := h2
    rfl

theorem flt_ok (E : Env) {f : Fmt} {x y : BitVec f.bits} {ws1 ws2 : List Word}
    (h1 : Rep (.fl f x) ws1) (h2 : Rep (.fl f y) ws2) (s : List Word) (m : Mem) :
    execs E [.flt f] (ws2 ++ (ws1 ++ s)) m = some (IR.ofBool (E.fp.lt f x y) :: s, m) := by
  cases f
  · obtain ⟨w, rfl, rfl⟩ := h1
    obtain ⟨w', rfl, rfl⟩ := h2
    rfl
  · simp only [Rep] at h1 h2
    subst h1; subst h2; rfl
  · obtain ⟨w0, w1, rfl, rfl⟩ := h1
    obtain ⟨v0, v1, rfl, rfl⟩ := h2
    rfl

theorem fgt_ok (E : Env) {f : Fmt} {x y : BitVec f.bits} {ws1 ws2 : List Word}
    (h1 : Rep (.fl f x) ws1) (h2 : Rep (.fl f y) ws2) (s : List Word) (m : Mem) :
    execs E [.fgt f] (ws2 ++ (ws1 ++ s)) m = some (IR.ofBool (E.fp.lt f y x) :: s, m) := by
  cases f
  · obtain ⟨w, rfl, rfl⟩ := h1
    obtain ⟨w', rfl, rfl⟩ := h2
    rfl
  · simp only [Rep] at h1 h2
    subst h1; subst h2; rfl
  · obtain ⟨w0, w1, rfl, rfl⟩ := h1
    obtain ⟨v0, v1, rfl, rfl⟩ := h2
    rfl

theorem relFl_ok (E : Env) (L : Lawful E.fp) {op : BinOp} {f : Fmt} {x y : BitVec f.bits} {ws1 ws2 : List Word}
    (h1 : Rep (.fl f x) ws1) (h2 : Rep (.fl f y) ws2) {r : Bool}
    (h : compareV E.fp op (.fl f x) (.fl f y) = some r) (s : List Word) (m : Mem) :
    execs E (relInstr op (.arith (ofFmt f))) (ws2 ++ (ws1 ++ s)) m = some (IR.ofBool r :: s, m) := by
  have e1 : cmpEq (.arith (ofFmt f)) = [.feq f] := by simp [cmpEq, fmtOf_ofFmt]
  have e2 : cmpLt (.arith (ofFmt f)) = [.flt f] := by simp [cmpLt, fmtOf_ofFmt]
  have e3 : cmpGt (.arith (ofFmt f)) = [.fgt f] := by simp [cmpGt, fmtOf_ofFmt]
  have oreq : ∀ (strict : List Instr) (q : Bool),
      (∀ s, execs E strict (ws2 ++ (ws1 ++ s)) m = some (IR.ofBool q :: s, m)) →
      execs E (cmpOrEq (.arith (ofFmt f)) strict) (ws2 ++ (ws1 ++ s)) m =
        some (IR.ofBool (q || E.fp.eq f x y) :: s, m) := by
    intro strict q hs
    unfold cmpOrEq
    rw [e1]
    cases f with
    | f80 =>
      obtain ⟨a0, a1, rfl, rfl⟩ := h1
      obtain ⟨b0, b1, rfl, rfl⟩ := h2
      rw [if_pos (by decide)]
      simp only [execs_append, List.cons_append, List.nil_append, execs_cons, execs_nil, exec_pick3, Option.bind_some]
      have hs' := hs (b0 :: b1 :: a0 :: a1 :: s)
      simp only [List.cons_append, List.nil_append] at hs'
      rw [hs']
      have he := feq_ok E (f := .f80) (x := a1.setWidth 16 ++ a0) (y := b1.setWidth 16 ++ b0)
        ⟨a0, a1, rfl, rfl⟩ ⟨b0, b1, rfl, rfl⟩ (b0 :: b1 :: a0 :: IR.ofBool q :: s) m
      simp only [List.cons_append, List.nil_append, execs_cons, execs_nil] at he
      simp only [Option.bind_some, exec_xchg4, exec_pick3]
      rw [he]
      simp only [Option.bind_some, exec_drop1, exec_bin, bor_bool, Option.map_some]
    | f64 =>
      simp only [Rep] at h1 h2
      subst h1; subst h2
      rw [if_neg (by decide)]
      simp only [execs_append, List.cons_append, List.nil_append, execs_cons, execs_nil, exec_pick1, Option.bind_some]
      have hs' := hs (y :: x :: s)
      simp only [List.cons_append, List.nil_append] at hs'
      rw [hs']
      have he := feq_ok E (f := .f64) (x := y) (y := x) (ws1 := [y]) (ws2 := [x]) rfl rfl (IR.ofBool q :: s) m
      simp only [List.cons_append, List.nil_append, execs_cons, execs_nil] at he
      simp only [Option.bind_some, exec_xchg2]
      rw [he]
      simp only [Option.bind_some, exec_bin, bor_bool, Option.map_some, L.eq_comm .f64 y x]
    | f32 =>
      obtain ⟨a, rfl, rfl⟩ := h1
      obtain ⟨b, rfl, rfl⟩ := h2
      rw [if_neg (by decide)]
      simp only [execs_append, List.cons_append, List.nil_append, execs_cons, execs_nil, exec_pick1, Option.bind_some]
      have hs' := hs (b :: a :: s)
      simp only [List.cons_append, List.nil_append] at hs'
      rw [hs']
      have he := feq_ok E (f := .f32) (x := b.setWidth 32) (y := a.setWidth 32) (ws1 := [b]) (ws2 := [a])
        ⟨b, rfl, rfl⟩ ⟨a, rfl, rfl⟩ (IR.ofBool q :: s) m
      simp only [List.cons_append, List.nil_append, execs_cons, execs_nil] at he
      simp only [Option.bind_some, exec_xchg2]
      rw [he]
      simp only [Option.bind_some, exec_bin, bor_bool, Option.map_some, L.eq_comm .f32 (b.setWidth 32) (a.setWidth 32)]
  cases op <;> simp only [compareV, dite_true, Option.some.injEq, reduceCtorEq] at h <;> subst h <;>
    simp only [relInstr]
  case lt => rw [e2]; exact flt_ok E h1 h2 s m
  case gt => rw [e3]; exact fgt_ok E h1 h2 s m
  case eq => rw [e1]; exact feq_ok E h1 h2 s m
  case ne =>
    rw [e1, execs_append, feq_ok E h1 h2 s m]
    simp [execs_cons, execs_nil, exec_un, bnot_bool]
  case le => rw [e2]; exact oreq _ _ (fun s => flt_ok E h1 h2 s m)
  case ge => rw [e3]; exact oreq _ _ (fun s => fgt_ok E h1 h2 s m)

/-- Scalars whose truth value the code computes correctly for all values: integers, pointers, `long double`. -/
def truthGood : Ty → Bool
  | .arith .float | .arith .double => false
  | _ => true

/-- `TRUNCATE1`/`LDTRUNC1` compute the truth value. -/
theorem truncate_ok (E : Env) {t : Ty} {v : Val} {ws : List Word} (hT : HasTy t v) (hr : Rep v ws)
    (hg : truthGood t = true) {x : Bool} (h : truth v = some x) (s : List Word) (m : Mem) :
    execs E (truncate t) (ws ++ s) m = some (IR.ofBool x :: s, m) := by
  cases v with
  | void => simp [truth] at h
  | int v =>
    simp only [Rep] at hr
    subst hr
    simp only [truth, Option.some.injEq] at h
    subst h
    have hw : W64 v := by
      cases t <;> simp only [HasTy] at hT
      · exact W64_of_inRange hT.2 hT.1
      all_goals (unfold W64; omega)
    have ht : truncate t = [.un .trunc1] := by
      unfold truncate
      rw [if_neg]
      rintro rfl
      exact absurd hT.1 (by decide)
    rw [ht]
    simp only [List.singleton_append, execs_cons, execs_nil, exec_un, Un.exec, Option.bind_some]
    congr 4
    rw [Bool.eq_iff_iff]
    simp only [bne_iff_ne, ne_eq]
    exact not_congr (ofInt64_eq_zero hw)
  | fl f x =>
    simp only [truth, Option.some.injEq] at h
    subst h
    cases t <;> simp only [HasTy] at hT
    subst hT
    cases f
    · simp [truthGood, ofFmt] at hg
    · simp [truthGood, ofFmt] at hg
    · obtain ⟨a0, a1, rfl, rfl⟩ := hr
      simp only [truncate, ofFmt, if_true, List.cons_append, List.nil_append, execs_cons, execs_nil, exec_ldtrunc1,
        Option.bind_some]
      rfl

/-- A word is non-zero exactly when the integer or pointer it represents is. -/
theorem branch_ok {t : Ty} {v : Int} (hT : HasTy t (.int v)) : (BitVec.ofInt 64 v != 0) = (v != 0) := by
  have hw : W64 v := by
    cases t <;> simp only [HasTy] at hT
    · exact W64_of_inRange hT.2 hT.1
    all_goals (unfold W64; omega)
  rw [Bool.eq_iff_iff]
  simp only [bne_iff_ne, ne_eq]
  exact not_congr (ofInt64_eq_zero hw)

end Kefir.Expr
