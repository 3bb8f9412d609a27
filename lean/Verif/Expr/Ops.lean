import Verif.Expr.Access
import Verif.Expr.Typing

/-! The operators on already evaluated operands. -/
namespace Kefir.Expr
open Kefir.Types (Basic)
open Kefir.C17 Kefir.CSpec
open Kefir.IR

/-! ### Types of results -/

theorem promoteW_mem {b : Basic} {w : Option Nat} (hi : isInteger b = true) (hw : validW b w) : promoteW b w ∈ promoted := by
  obtain ⟨_, _, _, _, h⟩ := promotion_agrees (b' := b) rfl hi hw
  exact h

theorem promoted_norm {b c : Basic} (h : normB b = normB c) (hc : c ∈ promoted) : b ∈ promoted := by
  rcases normB_cases h with rfl | ⟨rfl, rfl⟩ | ⟨rfl, rfl⟩ | ⟨rfl, rfl⟩ | ⟨rfl, rfl⟩
  · exact hc
  all_goals decide

theorem commonInteger_mem {p q : Basic} (hp : p ∈ promoted) (hq : q ∈ promoted) : commonInteger p q ∈ promoted := by
  have : ∀ p ∈ promoted, ∀ q ∈ promoted, commonInteger p q ∈ promoted := by decide +kernel
  exact this p hp q hq

/-- Arithmetic types that operators work at. -/
def OpTy (c : Basic) : Prop := c ∈ promoted ∨ ∃ f, c = ofFmt f

theorem opTy_norm {b c : Basic} (h : normB b = normB c) (hc : OpTy c) : OpTy b := by
  rcases hc with hc | ⟨f, rfl⟩
  · exact .inl (promoted_norm h hc)
  · right
    rcases normB_cases h with rfl | ⟨_, h⟩ | ⟨_, h⟩ | ⟨_, h⟩ | ⟨_, h⟩
    · exact ⟨f, rfl⟩
    all_goals (cases f <;> cases h)

theorem promoteW_fl {b : Basic} {w : Option Nat} (hi : isInteger b = false) : promoteW b w = b := by
  simp [promoteW, hi]

theorem isFloat_cases {b : Basic} (h : isInteger b = false) : b = .float ∨ b = .double ∨ b = .ldouble := by
  cases b <;> simp_all [isInteger]

theorem common_opTy {b1 b2 : Basic} {w1 w2 : Option Nat} (v1 : validW b1 w1) (v2 : validW b2 w2) :
    OpTy (common b1 w1 b2 w2) := by
  unfold common commonReal
  split
  · exact .inr ⟨.f80, rfl⟩
  · split
    · exact .inr ⟨.f64, rfl⟩
    · split
      · exact .inr ⟨.f32, rfl⟩
      · rename_i h1 h2 h3
        have i1 : isInteger b1 = true := by
          cases hb : isInteger b1
          · rw [promoteW_fl hb] at h1 h2 h3
            rcases isFloat_cases hb with rfl | rfl | rfl <;> simp_all
          · rfl
        have i2 : isInteger b2 = true := by
          cases hb : isInteger b2
          · rw [promoteW_fl hb] at h1 h2 h3
            rcases isFloat_cases hb with rfl | rfl | rfl <;> simp_all
          · rfl
        exact .inl (commonInteger_mem (promoteW_mem i1 v1) (promoteW_mem i2 v2))

/-- Operands are always converted to the common type by conversions that are right for all values. -/
theorem common_float_left {b1 b2 : Basic} {w1 w2 : Option Nat} (h : isInteger b1 = false) :
    isInteger (common b1 w1 b2 w2) = false := by
  unfold common
  rw [promoteW_fl h]
  rcases isFloat_cases h with rfl | rfl | rfl <;> unfold commonReal <;> repeat' split
  all_goals first | rfl | simp_all

theorem common_float_right {b1 b2 : Basic} {w1 w2 : Option Nat} (h : isInteger b2 = false) :
    isInteger (common b1 w1 b2 w2) = false := by
  unfold common
  rw [promoteW_fl h]
  rcases isFloat_cases h with rfl | rfl | rfl <;> unfold commonReal <;> repeat' split
  all_goals first | rfl | simp_all

theorem convGood_of {b c : Basic} (h : isInteger b = false → isInteger c = false) : convGood (.arith b) (.arith c) = true := by
  cases b <;> cases c <;> simp_all [convGood, isInteger, fmtOf]

theorem isInteger_norm {b c : Basic} (h : normB b = normB c) : isInteger b = isInteger c := (normB_facts h).1

theorem convGood_norm {t t' u u' : Ty} (h : t'.norm = t.norm) (h' : u'.norm = u.norm) : convGood t' u' = convGood t u := by
  cases t with
  | arith b =>
    obtain ⟨b', rfl, hb⟩ := norm_eq_arith h
    cases u with
    | arith c =>
      obtain ⟨c', rfl, hc⟩ := norm_eq_arith h'
      have f := normB_facts hb
      simp only [convGood, f.2.2.2.2.2.1]
      congr 1; congr 1
      rcases normB_cases hc with rfl | ⟨rfl, rfl⟩ | ⟨rfl, rfl⟩ | ⟨rfl, rfl⟩ | ⟨rfl, rfl⟩ <;> rfl
    | ptr u => rw [norm_eq_ptr h']; rfl
    | agg g s => rw [norm_eq_agg h']; rfl
    | arr u n => rw [norm_eq_arr h']; rfl
    | void => rw [norm_eq_void h']; rfl
  | ptr t =>
    rw [norm_eq_ptr h]
    cases u with
    | arith c =>
      obtain ⟨c', rfl, hc⟩ := norm_eq_arith h'
      simp only [convGood, isInteger_norm hc]
    | ptr u => rw [norm_eq_ptr h']
    | agg g s => rw [norm_eq_agg h']
    | arr u n => rw [norm_eq_arr h']
    | void => rw [norm_eq_void h']
  | agg g s =>
    rw [norm_eq_agg h]
    cases u with
    | arith c => obtain ⟨c', rfl, hc⟩ := norm_eq_arith h'; rfl
    | ptr u => rw [norm_eq_ptr h']
    | agg g s => rw [norm_eq_agg h']
    | arr u n => rw [norm_eq_arr h']
    | void => rw [norm_eq_void h']
  | arr t n =>
    rw [norm_eq_arr h]
    cases u with
    | arith c => obtain ⟨c', rfl, hc⟩ := norm_eq_arith h'; rfl
    | ptr u => rw [norm_eq_ptr h']
    | agg g s => rw [norm_eq_agg h']
    | arr u n => rw [norm_eq_arr h']
    | void => rw [norm_eq_void h']
  | void =>
    rw [norm_eq_void h]
    cases u with
    | arith c => obtain ⟨c', rfl, hc⟩ := norm_eq_arith h'; rfl
    | ptr u => rw [norm_eq_ptr h']
    | agg g s => rw [norm_eq_agg h']
    | arr u n => rw [norm_eq_arr h']
    | void => rw [norm_eq_void h']

theorem arithV_norm {b c : Basic} (F : FP) (h : normB b = normB c) (op : BinOp) (v w : Val) :
    arithV F op b v w = arithV F op c v w := by
  cases v <;> cases w <;> simp only [arithV]
  rw [arithInt_norm h]

/-! ### Values of bit-fields -/

theorem fieldRange_valOf {b : Basic} {w : Nat} (h1 : 1 ≤ w) (x : BitVec w) : FieldRange b (some w) (valOf (signed b) x) := by
  simp only [FieldRange, valOf]
  cases signed b
  · simp only [Bool.false_eq_true, if_false]
    have := x.isLt
    have e : ((2 ^ w : Nat) : Int) = (2 : Int) ^ w := by simp
    omega
  · simp only [if_true]
    have h3 := BitVec.le_toInt x
    have h4 := BitVec.toInt_lt (x := x)
    omega

/-- The integer promotions keep the value. -/
theorem promote_keeps {b : Basic} {w : Option Nat} {v : Int} (hi : isInteger b = true) (hw : validW b w) (hr : InRange b v)
    (hf : FieldRange b w v) : InRange (promoteW b w) v := by
  cases w with
  | none =>
    have : promoteW b none = promote b := by simp [promoteW, hi]
    rw [this]
    cases b <;> simp [isInteger] at hi <;>
      simp [promote, convRank, InRange, minVal, maxVal, signed, width] at hr ⊢ <;> omega
  | some n =>
    obtain ⟨_, h1, h2⟩ := hw n rfl
    simp only [promoteW, hi, Bool.not_true, Bool.false_eq_true, if_false]
    split
    · rename_i hc
      simp only [FieldRange] at hf
      simp only [InRange, minVal, maxVal, signed, width, if_true]
      cases hs : signed b
      · simp only [hs, Bool.false_eq_true, if_false, and_false, or_false] at hf hc
        have := pow_mono (show n ≤ 31 by omega)
        omega
      · simp only [hs, if_true] at hf
        have := pow_mono (show n - 1 ≤ 31 by omega)
        omega
    · exact hr

/-! ### Arithmetic -/

theorem normalize_int {c : Basic} (h : fmtOf c = none) : normalize (.arith c) = reduceTo c := by
  simp [normalize, castToInteger, h]

theorem ofFmt_not_promoted (f : Fmt) : ofFmt f ∉ promoted := by cases f <;> decide

theorem int_of_hasTy {c : Basic} (hc : c ∈ promoted) {v : Val} (h : HasTy (.arith c) v) : ∃ a, v = .int a ∧ InRange c a := by
  cases v with
  | int a => exact ⟨a, rfl, h.2⟩
  | fl f x =>
    simp only [HasTy] at h
    subst h
    exact absurd hc (ofFmt_not_promoted f)
  | void => exact h.elim

theorem fl_of_hasTy {f : Fmt} {v : Val} (h : HasTy (.arith (ofFmt f)) v) : ∃ x, v = .fl f x := by
  cases v with
  | int a => exact absurd h.1 (by cases f <;> decide)
  | fl g x =>
    simp only [HasTy] at h
    have : f = g := by cases f <;> cases g <;> simp_all [ofFmt]
    subst this
    exact ⟨x, rfl⟩
  | void => exact h.elim

theorem arithOp_ok (E : Env) {op : BinOp} {c : Basic} (hc : OpTy c) {sg : Bool}
    (hsg : (op = .div ∨ op = .mod) → sg = signed c ∨ c = .uint)
    {v1 v2 v : Val} {ws1 ws2 : List Word} (h1 : HasTy (.arith c) v1) (h2 : HasTy (.arith c) v2)
    (r1 : Rep v1 ws1) (r2 : Rep v2 ws2) (hv : arithV E.fp op c v1 v2 = some v) :
    HasTy (.arith c) v ∧ ∃ ws, Rep v ws ∧
      ∀ s m, execs E (arithInstr op (.arith c) sg ++ normalize (.arith c)) (ws2 ++ (ws1 ++ s)) m = some (ws ++ s, m) := by
  rcases hc with hc | ⟨f, rfl⟩
  · obtain ⟨a, rfl, ha⟩ := int_of_hasTy hc h1
    obtain ⟨b, rfl, hb⟩ := int_of_hasTy hc h2
    have hpf := promoted_facts hc
    simp only [arithV, Option.map_eq_some_iff] at hv
    obtain ⟨r, hr, rfl⟩ := hv
    obtain ⟨hin, r0, hw, _, hx⟩ := intRaw_ok E hc hsg ha hb hr
    simp only [Rep] at r1 r2
    subst r1; subst r2
    refine ⟨⟨hpf.1, hin⟩, _, rfl, fun s m => ?_⟩
    have hai : arithInstr op (.arith c) sg = intInstr op sg := by simp [arithInstr, hpf.2.2.2]
    rw [execs_append, hai]
    simp only [List.cons_append, List.nil_append]
    rw [hx s m, Option.bind_some, normalize_int hpf.2.2.2, reduceTo_ok E c hpf.1 r0 (fun h => absurd h hpf.2.1), hw]
  · obtain ⟨x, rfl⟩ := fl_of_hasTy h1
    obtain ⟨y, rfl⟩ := fl_of_hasTy h2
    simp only [arithV, dite_true, Option.map_eq_some_iff] at hv
    obtain ⟨z, hz, rfl⟩ := hv
    refine ⟨rfl, ?_⟩
    have hn : normalize (.arith (ofFmt f)) = [] := by simp [normalize, fmtOf_ofFmt]
    rw [hn, List.append_nil]
    have key : ∀ o : FArith, arithInstr op (.arith (ofFmt f)) sg = [.fbin o f] → z = E.fp.arith o f x y →
        ∃ ws, Rep (.fl f z) ws ∧ ∀ s m, execs E (arithInstr op (.arith (ofFmt f)) sg) (ws2 ++ (ws1 ++ s)) m = some (ws ++ s, m) := by
      intro o h1 h2
      rw [h1, h2]
      exact fbin_ok E o r1 r2
    cases op <;> simp only [arithFl, reduceCtorEq, Option.some.injEq] at hz
    · exact key .add (by simp [arithInstr, fmtOf_ofFmt]) hz.symm
    · exact key .sub (by simp [arithInstr, fmtOf_ofFmt]) hz.symm
    · exact key .mul (by simp [arithInstr, fmtOf_ofFmt]) hz.symm
    · exact key .div (by simp [arithInstr, fmtOf_ofFmt]) hz.symm

theorem isSigned_arith (b : Basic) : (Ty.arith b).isSigned = signed b := isSigned_eq b

theorem cls_of_inRange {b : Basic} (hb : isInteger b = true) {v : Int} (h : InRange b v) : Cls (signed b) v := by
  cases b <;> simp [isInteger] at hb <;> simp [Cls, InRange, minVal, maxVal, signed, width] at h ⊢ <;> omega

theorem compare_ok (E : Env) (L : Lawful E.fp) {op : BinOp} {c : Basic} (hc : OpTy c)
    {v1 v2 : Val} {ws1 ws2 : List Word} (h1 : HasTy (.arith c) v1) (h2 : HasTy (.arith c) v2)
    (r1 : Rep v1 ws1) (r2 : Rep v2 ws2) {r : Bool} (hv : compareV E.fp op v1 v2 = some r) (s : List Word) (m : Mem) :
    execs E (relInstr op (.arith c)) (ws2 ++ (ws1 ++ s)) m = some (IR.ofBool r :: s, m) := by
  rcases hc with hc | ⟨f, rfl⟩
  · obtain ⟨a, rfl, ha⟩ := int_of_hasTy hc h1
    obtain ⟨b, rfl, hb⟩ := int_of_hasTy hc h2
    have hpf := promoted_facts hc
    simp only [Rep] at r1 r2
    subst r1; subst r2
    exact relInt_ok E (t := .arith c) (by simp [isWordTy, hpf.2.2.2])
      (by rw [isSigned_arith]; exact cls_of_inRange hpf.1 ha) (by rw [isSigned_arith]; exact cls_of_inRange hpf.1 hb) hv s m
  · obtain ⟨x, rfl⟩ := fl_of_hasTy h1
    obtain ⟨y, rfl⟩ := fl_of_hasTy h2
    exact relFl_ok E L r1 r2 hv s m

/-! ### Shifts -/

theorem shr_inRange {c : Basic} {a : Int} (h : InRange c a) (n : Nat) : InRange c (a / 2 ^ n) := by
  have hp : (0 : Int) < 2 ^ n := Int.pow_pos (by decide)
  have hp1 : (1 : Int) ≤ 2 ^ n := hp
  unfold InRange at h ⊢
  have hmin : minVal c ≤ 0 := by
    unfold minVal
    split
    · have : (0 : Int) < 2 ^ (width c - 1) := Int.pow_pos (by decide); omega
    · omega
  have hmax : 0 ≤ maxVal c := by
    unfold maxVal
    split
    · have : (0 : Int) < 2 ^ (width c - 1) := Int.pow_pos (by decide); omega
    · have : (0 : Int) < 2 ^ width c := Int.pow_pos (by decide); omega
  by_cases ha : 0 ≤ a
  · have h1 : 0 ≤ a / 2 ^ n := Int.ediv_nonneg ha (by omega)
    have h2 : a / 2 ^ n ≤ a := Int.ediv_le_self _ ha
    omega
  · have h1 : a / 2 ^ n < 0 := Int.ediv_neg_of_neg_of_pos (by omega) hp
    have h2 : a ≤ a / 2 ^ n := by
      rw [Int.le_ediv_iff_mul_le hp]
      have : a * 2 ^ n ≤ a * 1 := Int.mul_le_mul_of_nonpos_left (by omega) hp1
      omega
    omega

/-- A shift count is kept by the conversion to the promoted type. -/
theorem count_keeps {c : Basic} (hc : c ∈ promoted) {n : Int} (hn : ¬ (n < 0 ∨ (width c : Int) ≤ n)) : InRange c n := by
  have hw := (promoted_facts hc).2.2.1
  simp only [promoted, List.mem_cons, List.not_mem_nil, or_false] at hc
  rcases hc with rfl | rfl | rfl | rfl | rfl | rfl <;>
    simp [InRange, minVal, maxVal, signed, width] at hn ⊢ <;> omega

theorem shiftOp_ok (E : Env) {op : BinOp} (hop : op = .shl ∨ op = .shr) {c b : Basic} (hc : c ∈ promoted)
    (hb : isInteger b = true) {a n v : Int} (ha : InRange b a) (hac : InRange c a) (hv : shiftInt op c a n = some v)
    {sg : Bool} (hsg : op = .shr → sg = signed b) (s : List Word) (m : Mem) :
    InRange c v ∧
    execs E (arithInstr op (.arith c) sg ++ normalize (.arith c)) (BitVec.ofInt 64 n :: BitVec.ofInt 64 a :: s) m =
      some (BitVec.ofInt 64 v :: s, m) := by
  have hpf := promoted_facts hc
  have hai : arithInstr op (.arith c) sg = intInstr op sg := by simp [arithInstr, hpf.2.2.2]
  unfold shiftInt at hv
  split at hv
  · cases hv
  · rename_i hn
    have hw64 : width c ≤ 64 := by rcases hpf.2.2.1 with h | h <;> omega
    have hcls := cls_of_inRange hb ha
    have hsh := shift_ok E hop (sg := sg) (a := a) (w := width c) hw64 hn (W64_of_inRange ha hb)
      (fun h hs => by rw [hsg h] at hs; rw [hs] at hcls; simp only [Cls, if_true] at hcls; exact hcls.2)
      (fun h hs => by rw [hsg h] at hs; rw [hs] at hcls; simp only [Cls, Bool.false_eq_true, if_false] at hcls; exact hcls.1) s m
    rw [execs_append, hai, hsh, Option.bind_some, normalize_int hpf.2.2.2,
      reduceTo_ok E c hpf.1 _ (fun h => absurd h hpf.2.1)]
    rcases hop with rfl | rfl
    · simp only [if_true] at hv ⊢
      split at hv
      · cases hv
      · obtain ⟨h1, h2, _⟩ := chk_wrap hc hv
        rw [h1]
        exact ⟨h2, rfl⟩
    · simp only [Option.some.injEq, reduceCtorEq, if_false] at hv ⊢
      subst hv
      have := shr_inRange hac n.toNat
      rw [wrap_of_inRange this hpf.1]
      exact ⟨this, rfl⟩

/-! ### Pointers -/

theorem elementptr_ok (E : Env) (p i : Int) (n : Nat) (s : List Word) (m : Mem) :
    execs E [.elementptr n] (BitVec.ofInt 64 i :: BitVec.ofInt 64 p :: s) m =
      some (BitVec.ofInt 64 (ptrAdd p i n) :: s, m) := by
  simp only [execs_cons, execs_nil, exec_elementptr, Option.bind_some]
  rw [ptrAdd, emod_64, BitVec.ofInt_add, BitVec.ofInt_mul, BitVec.ofInt_natCast]

theorem ptrAdd_range (p i : Int) (n : Nat) : 0 ≤ ptrAdd p i n ∧ ptrAdd p i n < 2 ^ 64 := by
  unfold ptrAdd; omega

theorem ptrSub_ok (E : Env) {p q r : Int} {n : Nat} (h : ptrSub p q n = some r) (s : List Word) (m : Mem) :
    InRange .long r ∧
    execs E [.bin .sub, .push (BitVec.ofNat 64 n), .bin .idiv] (BitVec.ofInt 64 q :: BitVec.ofInt 64 p :: s) m =
      some (BitVec.ofInt 64 r :: s, m) := by
  unfold ptrSub at h
  split at h
  · cases h
  · rename_i hn
    split at h
    · rename_i hd
      simp only [Option.some.injEq] at h
      obtain ⟨hmod, hrange⟩ := hd
      have hn0 : (0 : Int) < n := by omega
      have hr64 : -2 ^ 63 ≤ p - q ∧ p - q < 2 ^ 63 := by
        simp [InRange, minVal, maxVal, signed, width] at hrange; omega
      have hle : InRange .long r := by
        simp only [InRange, minVal, maxVal, signed, width, if_true]
        have hq : p - q = n * r := by
          rw [← h]; have := Int.mul_ediv_add_emod (p - q) n; rw [hmod] at this; omega
        have h1 : r ≤ 2 ^ 63 - 1 := by
          by_cases h0 : 0 ≤ r
          · have : 1 * r ≤ n * r := Int.mul_le_mul_of_nonneg_right (by omega) h0
            omega
          · omega
        have h2 : -2 ^ 63 ≤ r := by
          by_cases h0 : 0 ≤ r
          · omega
          · have : n * r ≤ 1 * r := Int.mul_le_mul_of_nonpos_right (by omega) (by omega)
            omega
        omega
      refine ⟨hle, ?_⟩
      have hnw : BitVec.ofNat 64 n = BitVec.ofInt 64 n := (BitVec.ofInt_natCast 64 n).symm
      have hnt : (BitVec.ofInt 64 (n : Int)).toInt = n := toInt_ofInt64 (by omega) (by omega)
      have hpt : (BitVec.ofInt 64 (p - q)).toInt = p - q := toInt_ofInt64 hr64.1 hr64.2
      have hz : ¬ (BitVec.ofInt 64 (n : Int) = 0 ∨
          (BitVec.ofInt 64 (p - q) = BitVec.intMin 64 ∧ BitVec.ofInt 64 (n : Int) = -1)) := by
        rintro (h0 | ⟨_, h0⟩)
        · have := congrArg BitVec.toInt h0
          rw [hnt] at this
          simp at this
          omega
        · have := congrArg BitVec.toInt h0
          rw [hnt] at this
          have e : (-1 : Word).toInt = -1 := by decide
          rw [e] at this
          omega
      simp only [execs_cons, execs_nil, exec_bin, exec_push, Bin.exec, Option.map_some, Option.bind_some]
      rw [← ofInt_sub64, hnw, if_neg hz]
      simp only [Option.map_some, Option.bind_some]
      congr 3
      apply BitVec.eq_of_toInt_eq
      have hr63 : -2 ^ 63 ≤ r ∧ r < 2 ^ 63 := by
        simp [InRange, minVal, maxVal, signed, width] at hle; omega
      rw [BitVec.toInt_sdiv, hpt, hnt, toInt_ofInt64 hr63.1 hr63.2]
      have ht : (p - q).tdiv n = r := by
        rw [← h]
        exact Int.tdiv_eq_ediv_of_dvd (Int.dvd_of_emod_eq_zero hmod)
      rw [ht]
      exact Int.bmod_eq_of_le (by omega) (by omega)
    · cases h

end Kefir.Expr
