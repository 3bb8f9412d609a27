import Verif.Expr.Plain

/-! Properties of compiled expressions: C13, C14, C15, C16, C19, C37, C39, C47, C48, C49, C50.  The specification is
`Spec.lean` (C17) and the machine of `IR/Machine.lean`; what `Findings.lean` refutes is excluded here by name. -/
namespace Kefir.Expr
open Kefir.Types (Basic)
open Kefir.C17 Kefir.CSpec
open Kefir.IR

/-- Running the code that the translator appends to a block for `e`, with any stack, in any surrounding program: the
machine gets from the fragment's first instruction to just behind its last one, leaves `ws` on top of the stack it
started with, and changes memory from `m` to `m'`. -/
def Runs (E : Env) (e : Expr) (m : Mem) (ws : List Word) (m' : Mem) : Prop :=
  ∀ (blk post : List Instr) (s : List Word),
    Steps E ((tr e).build blk ++ post) ⟨blk.length, s, m⟩ ⟨((tr e).build blk).length, ws ++ s, m'⟩

theorem runs_of {E : Env} {e : Expr} {m m' : Mem} {ws : List Word}
    (h : ∀ s, (tr e).run E s m = some (ws ++ s, m')) : Runs E e m ws m' := by
  intro blk post s
  have := SC.steps_run E (tr e) (tr_ok e) blk post s m (ws ++ s) m' (h s)
  rw [SC.build_eq, List.length_append, SC.flat_length]
  exact this.steps

/-! ### A floating-point unit for examples -/

/-- Not IEEE arithmetic, but it obeys the three laws the theorems ask for. -/
def toyFP : FP where
  arith := fun _ _ x _ => x
  eq := fun _ x y => x == y
  lt := fun _ x y => x.ult y
  trunc := fun _ _ => some 0
  ofInt := fun f n => if n = 1 then fone f else 0
  cvt := fun _ _ _ => 0

theorem toyFP_lawful : Lawful toyFP where
  eq_comm := by intro f x y; show (x == y) = (y == x); exact BEq.comm
  ofInt_one := by intro f; simp [toyFP]
  sub_one := by intro f x; rfl

def toyEnv : Env := ⟨toyFP, 0x1000, fun i => 0x8000 + BitVec.ofNat 64 (16 * i)⟩

/-! ### C13, C48: integer expressions -/

/-- C13 for the expressions in `good`: an expression of integer type whose C evaluation is defined leaves exactly one
word, the 64-bit form of its C17 value, which is a value of the type; memory is the one C prescribes.
Missing from the full property: conditional operators whose branches need a conversion, `sizeof`, floating operands
of `! && ||`, and the compound assignments and bit-field forms excluded by `good`; for those
`Findings.lean` shows the claim to be false. -/
theorem C13_integer_expression_partial (E : Env) (L : Lawful E.fp) (e : Expr) (b : Basic) (v : Val) (m m' : Mem)
    (hg : good e = true) (ht : cty e = some (.arith b)) (hb : isInteger b = true)
    (hv : eval (ctxOf E) e m = some (v, m')) :
    ∃ x : Int, v = .int x ∧ InRange b x ∧ Runs E e m [BitVec.ofInt 64 x] m' := by
  obtain ⟨hT, ws, hr, hrun⟩ := sound E L e hg _ _ _ _ ht hv
  cases v with
  | int x =>
    cases hr
    exact ⟨x, rfl, hT.2, runs_of hrun⟩
  | fl f x => simp only [HasTy] at hT; subst hT; cases f <;> cases hb
  | void => exact hT.elim

/-- Expressions built from integer constants, integer variables, casts to integer types, the unary operators, all
binary operators, `&&`, `||` and the comma. -/
def intOnly : Expr → Bool
  | .const _ _ => true
  | .lval (.auto _ t) => isInt t
  | .lval (.glob _ _ t) => isInt t
  | .cast t e => isInt t && intOnly e
  | .un _ e => intOnly e
  | .bin _ a b => intOnly a && intOnly b
  | .land a b => intOnly a && intOnly b
  | .lor a b => intOnly a && intOnly b
  | .comma a b => intOnly a && intOnly b
  | _ => false

theorem isInt_arith {t : Ty} (h : isInt t = true) : ∃ b, t = .arith b ∧ isInteger b = true := by
  cases t <;> simp only [isInt, Bool.false_eq_true] at h
  exact ⟨_, rfl, h⟩

theorem isInt_promote {b : Basic} (h : isInteger b = true) : isInteger (promoteW b none) = true := by
  cases b <;> first | rfl | cases h

theorem intOnly_bfw {e : Expr} (h : intOnly e = true) : e.bfw = none := by
  cases e with
  | lval l => cases l <;> first | rfl | cases h
  | _ => rfl

theorem isInt_common {b c : Basic} (h1 : isInteger b = true) (h2 : isInteger c = true) :
    isInteger (common b none c none) = true := by
  revert h1 h2
  cases b <;> cases c <;> decide

theorem binTy_int {op : BinOp} {b c : Basic} {n1 n2 : Bool} {t : Ty} (h1 : isInteger b = true) (h2 : isInteger c = true)
    (h : binTy op (.arith b) none n1 (.arith c) none n2 = some t) : isInt t = true := by
  cases op <;> simp only [binTy, commonT, isInt, h1, h2, Bool.and_self, if_true, Option.some.injEq] at h <;> subst h <;>
    first | exact isInt_common h1 h2 | exact isInt_promote h1 | rfl

theorem intOnly_good : (e : Expr) → intOnly e = true → (t : Ty) → cty e = some t → isInt t = true ∧ good e = true
  | .const b v, _, t, h => by
    simp only [cty] at h
    split at h <;> cases h
    rename_i hb
    exact ⟨hb.1, rfl⟩
  | .lval (.auto _ u), hi, t, h => by
    simp only [cty, clty] at h
    obtain ⟨b, rfl, hb⟩ := isInt_arith (t := u) hi
    cases h
    exact ⟨hb, rfl⟩
  | .lval (.glob _ _ u), hi, t, h => by
    simp only [cty, clty] at h
    obtain ⟨b, rfl, hb⟩ := isInt_arith (t := u) hi
    cases h
    exact ⟨hb, rfl⟩
  | .cast u e, hi, t, h => by
    simp only [intOnly, Bool.and_eq_true] at hi
    simp only [cty, Option.bind_eq_some_iff] at h
    obtain ⟨w, hw, h⟩ := h
    split at h <;> cases h
    obtain ⟨i, g⟩ := intOnly_good e hi.2 w hw
    refine ⟨hi.1, ?_⟩
    obtain ⟨b, rfl, hb⟩ := isInt_arith hi.1
    obtain ⟨c, rfl, hc⟩ := isInt_arith i
    simp only [good, g, ct_of hw, convGood, Bool.true_and]
    rw [isInteger_fmt] at hc
    cases hf : fmtOf c with
    | none => rfl
    | some f => rw [hf] at hc; cases hc
  | .un op e, hi, t, h => by
    simp only [intOnly] at hi
    simp only [cty, Option.bind_eq_some_iff] at h
    obtain ⟨w, hw, h⟩ := h
    obtain ⟨i, g⟩ := intOnly_good e hi w hw
    obtain ⟨c, rfl, hc⟩ := isInt_arith i
    rw [intOnly_bfw hi] at h
    have tg : truthGood (.arith c) = true := by cases c <;> first | rfl | cases hc
    refine ⟨?_, by simp [good, g, ct_of hw, tg]⟩
    cases op <;> simp only [hc, if_true, isScalarT, Option.some.injEq] at h <;> subst h <;>
      first | exact isInt_promote hc | rfl
  | .bin op a b, hi, t, h => by
    simp only [intOnly, Bool.and_eq_true] at hi
    simp only [cty, Option.bind_eq_some_iff] at h
    obtain ⟨t1, h1, t2, h2, h⟩ := h
    obtain ⟨i1, g1⟩ := intOnly_good a hi.1 t1 h1
    obtain ⟨i2, g2⟩ := intOnly_good b hi.2 t2 h2
    obtain ⟨b1, rfl, hb1⟩ := isInt_arith i1
    obtain ⟨b2, rfl, hb2⟩ := isInt_arith i2
    rw [intOnly_bfw hi.1, intOnly_bfw hi.2] at h
    exact ⟨binTy_int hb1 hb2 h, by simp [good, g1, g2]⟩
  | .land a b, hi, t, h => by
    simp only [intOnly, Bool.and_eq_true] at hi
    simp only [cty, Option.bind_eq_some_iff] at h
    obtain ⟨t1, h1, t2, h2, h⟩ := h
    obtain ⟨i1, g1⟩ := intOnly_good a hi.1 t1 h1
    obtain ⟨i2, g2⟩ := intOnly_good b hi.2 t2 h2
    obtain ⟨b1, rfl, hb1⟩ := isInt_arith i1
    obtain ⟨b2, rfl, hb2⟩ := isInt_arith i2
    split at h <;> cases h
    have tg1 : truthGood (.arith b1) = true := by cases b1 <;> first | rfl | cases hb1
    have tg2 : truthGood (.arith b2) = true := by cases b2 <;> first | rfl | cases hb2
    exact ⟨rfl, by simp [good, g1, g2, ct_of h1, ct_of h2, tg1, tg2]⟩
  | .lor a b, hi, t, h => by
    simp only [intOnly, Bool.and_eq_true] at hi
    simp only [cty, Option.bind_eq_some_iff] at h
    obtain ⟨t1, h1, t2, h2, h⟩ := h
    obtain ⟨i1, g1⟩ := intOnly_good a hi.1 t1 h1
    obtain ⟨i2, g2⟩ := intOnly_good b hi.2 t2 h2
    obtain ⟨b1, rfl, hb1⟩ := isInt_arith i1
    obtain ⟨b2, rfl, hb2⟩ := isInt_arith i2
    split at h <;> cases h
    have tg1 : truthGood (.arith b1) = true := by cases b1 <;> first | rfl | cases hb1
    have tg2 : truthGood (.arith b2) = true := by cases b2 <;> first | rfl | cases hb2
    exact ⟨rfl, by simp [good, g1, g2, ct_of h1, ct_of h2, tg1, tg2]⟩
  | .comma a b, hi, t, h => by
    simp only [intOnly, Bool.and_eq_true] at hi
    simp only [cty, Option.bind_eq_some_iff] at h
    obtain ⟨t1, h1, h2⟩ := h
    obtain ⟨i1, g1⟩ := intOnly_good a hi.1 t1 h1
    obtain ⟨i2, g2⟩ := intOnly_good b hi.2 t h2
    exact ⟨i2, by simp [good, g1, g2]⟩
  | .fconst _ _, hi, _, _ => by cases hi
  | .str _, hi, _, _ => by cases hi
  | .addr _, hi, _, _ => by cases hi
  | .cond _ _ _, hi, _, _ => by cases hi
  | .elvis _ _, hi, _, _ => by cases hi
  | .assign _ _, hi, _, _ => by cases hi
  | .assignOp _ _ _, hi, _, _ => by cases hi
  | .incdec _ _ _, hi, _, _ => by cases hi
  | .sizeof _, hi, _, _ => by cases hi
  | .lval (.deref _), hi, _, _ => by cases hi
  | .lval (.index _ _), hi, _, _ => by cases hi
  | .lval (.member _ _ _ _), hi, _, _ => by cases hi

/-- C48: every well-typed expression over integer constants, integer variables, integer casts, unary and binary
operators, `&&`, `||` and comma, whose C evaluation is defined, leaves exactly one word: its C17 value, a value of its
type, in 64-bit form; memory is what C prescribes. -/
theorem C48_integer_operators (E : Env) (L : Lawful E.fp) (e : Expr) (t : Ty) (v : Val) (m m' : Mem)
    (hi : intOnly e = true) (ht : cty e = some t) (hv : eval (ctxOf E) e m = some (v, m')) :
    ∃ b x, t = .arith b ∧ isInteger b = true ∧ v = .int x ∧ InRange b x ∧ Runs E e m [BitVec.ofInt 64 x] m' := by
  obtain ⟨i, g⟩ := intOnly_good e hi t ht
  obtain ⟨b, rfl, hb⟩ := isInt_arith i
  obtain ⟨x, h1, h2, h3⟩ := C13_integer_expression_partial E L e b v m m' g ht hb hv
  exact ⟨b, x, rfl, hb, h1, h2, h3⟩

/-- `((unsigned char)(-1) + 7u) % 5 << 2 || -3 > 2`, hypotheses met. -/
example : let e : Expr := .lor (.bin .shl (.bin .mod (.bin .add (.cast (.arith .uchar) (.const .int (-1))) (.const .uint 7))
      (.const .int 5)) (.const .int 2)) (.bin .gt (.const .int (-3)) (.const .int 2))
    intOnly e = true ∧ cty e = some (.arith .int) ∧
      eval (ctxOf toyEnv) e (fun _ => 0) = some (.int 1, fun _ => 0) ∧ Lawful toyEnv.fp := by
  refine ⟨by decide, by decide, ?_, toyFP_lawful⟩
  rfl

/-! ### C14: integer conversions -/

/-- C14: the code of a conversion from integer type `b` to integer type `c` replaces the word of any value `x` of `b` by
the word of a value `y` of `c`, touching nothing else, where `y` is `x` itself if `c` can represent it; is
congruent to `x` modulo 2^N if `c` is unsigned with N bits; and is 0 or 1 as `x` is zero or not if `c` is `_Bool`.
(For signed `c` that cannot represent `x` the value is implementation-defined; it is congruent to `x` as well.) -/
theorem C14_integer_conversion (E : Env) (b c : Basic) (x : Int) (hb : isInteger b = true) (hc : isInteger c = true)
    (hx : InRange b x) :
    ∃ y, InRange c y ∧
      (∀ s m, execs E (typeconv (.arith b) (.arith c)) (BitVec.ofInt 64 x :: s) m = some (BitVec.ofInt 64 y :: s, m)) ∧
      (InRange c x → y = x) ∧
      (c = .bool → y = if x = 0 then 0 else 1) ∧
      (c ≠ .bool → ∃ k : Int, y = x + k * 2 ^ width c) := by
  have hg : convGood (.arith b) (.arith c) = true := by
    simp only [convGood]
    rw [isInteger_fmt] at hb
    cases hf : fmtOf b with
    | none => rfl
    | some f => rw [hf] at hb; cases hb
  obtain ⟨hT, ws, hr, hrun⟩ := typeconv_ok E (t := .arith b) (u := .arith c) (v := .int x) (ws := [BitVec.ofInt 64 x])
    ⟨hb, hx⟩ rfl hg (conv_int E.fp hc x)
  cases hr
  refine ⟨wrap c x, hT.2, fun s m => hrun s m, fun h => wrap_of_inRange h hc, fun h => by simp [wrap, h], fun h => ?_⟩
  unfold wrap
  rw [if_neg h]
  split
  · have e2 : (2 : Int) ^ width c = ((2 ^ width c : Nat) : Int) := by norm_cast
    rw [e2]
    have h0 : (x.bmod (2 ^ width c) - x) % ((2 ^ width c : Nat) : Int) = 0 := by
      rw [Int.sub_emod, Int.bmod_emod, Int.sub_self, Int.zero_emod]
    obtain ⟨k, hk⟩ := Int.dvd_of_emod_eq_zero h0
    exact ⟨k, by rw [Int.mul_comm] at hk; omega⟩
  · refine ⟨-(x / 2 ^ width c), ?_⟩
    have := Int.emod_add_mul_ediv x (2 ^ width c)
    rw [Int.neg_mul, Int.mul_comm]
    omega

/-- -1 to `unsigned char`. -/
example : InRange .int (-1) ∧ isInteger .int = true ∧ isInteger .uchar = true ∧ ¬ InRange .uchar (-1) := by decide

/-! ### C15, C49: short-circuit evaluation -/

/-- The position of the second operand's code inside the code of `a && b` (`a || b`). -/
theorem land_split (a b : Expr) (blk : List Instr) :
    ∃ pre tail, (tr (.land a b)).build blk = pre ++ (tr b).flat pre.length ++ tail ∧
      pre = blk ++ (tr a).flat blk.length ++ (truncate (kt a) ++ [.pick 0, .un .bnot]) ++
        [.branch ((tr (.land a b)).build blk).length] ∧ tail = truncate (kt b) ++ [.bin .band] := by
  refine ⟨_, _, ?_, rfl, rfl⟩
  simp only [SC.build_eq, tr, SC.flat, List.length_append, SC.flat_length, List.length_cons, List.length_nil, SC.len,
    List.append_assoc, List.cons_append, List.nil_append]
  simp [Nat.add_assoc, Nat.add_comm, Nat.add_left_comm]
  exact ⟨by omega, by congr 1; omega⟩

theorem lor_split (a b : Expr) (blk : List Instr) :
    ∃ pre tail, (tr (.lor a b)).build blk = pre ++ (tr b).flat pre.length ++ tail ∧
      pre = blk ++ (tr a).flat blk.length ++ (truncate (kt a) ++ [.pick 0]) ++
        [.branch ((tr (.lor a b)).build blk).length] ∧ tail = truncate (kt b) ++ [.bin .bor] := by
  refine ⟨_, _, ?_, rfl, rfl⟩
  simp only [SC.build_eq, tr, SC.flat, List.length_append, SC.flat_length, List.length_cons, List.length_nil, SC.len,
    List.append_assoc, List.cons_append, List.nil_append]
  simp [Nat.add_assoc, Nat.add_comm, Nat.add_left_comm]
  congr 1; omega

/-- First operand, truncation and the branch, in a program that has them at `blk.length`. -/
theorem decide_branch (E : Env) {a : Expr} {is : List Instr} {t : Ty} (ga : good a = true) (L : Lawful E.fp)
    (hc : cty a = some t) (hs : isScalarT t = true) (hg : truthGood t = true) {m m1 : Mem} {v : Val} {x : Bool}
    (hv : eval (ctxOf E) a m = some (v, m1)) (hx : truth v = some x) (c : Bool) (hp : Plain is)
    (his : ∀ s, execs E is (IR.ofBool x :: s) m1 = some (IR.ofBool c :: IR.ofBool x :: s, m1))
    (blk rest : List Instr) (s : List Word) (T : Nat) :
    let pre := blk ++ (tr a).flat blk.length ++ (truncate (kt a) ++ is) ++ [.branch T]
    StepsIn E (pre ++ rest) blk.length pre.length ⟨blk.length, s, m⟩
      ⟨if c then T else pre.length, IR.ofBool x :: s, m1⟩ := by
  intro pre
  have hg' : truthGood (ct a) = true := by rw [ct_of hc]; exact hg
  obtain ⟨ws, hrun, htr⟩ := truthOf E ga (sound E L a ga) hc hs hg' hv hx
  have h1 := SC.steps_run E (tr a) (tr_ok a) blk ((truncate (kt a) ++ is) ++ [.branch T] ++ rest) s m _ _ (hrun s)
  have h2 := SC.steps_prim E (truncate (kt a) ++ is) ((plain_truncate _).app hp) (blk ++ (tr a).flat blk.length)
    ([.branch T] ++ rest) (ws ++ s) m1 (IR.ofBool c :: IR.ofBool x :: s) m1
    (by rw [execs_append, htr s, Option.bind_some, his s])
  have e1 : blk ++ (tr a).flat blk.length ++ ((truncate (kt a) ++ is) ++ [.branch T] ++ rest) = pre ++ rest := by
    simp only [pre, List.append_assoc]
  have e2 : blk ++ (tr a).flat blk.length ++ (truncate (kt a) ++ is) ++ ([.branch T] ++ rest) = pre ++ rest := by
    simp only [pre, List.append_assoc]
  rw [e1] at h1
  rw [e2] at h2
  have hlen : pre.length = blk.length + (tr a).len + (truncate (kt a) ++ is).length + 1 := by
    simp [pre, SC.flat_length]
    omega
  have hk : (blk ++ (tr a).flat blk.length).length = blk.length + (tr a).len := by simp [SC.flat_length]
  rw [hk] at h2
  refine (h1.mono (Nat.le_refl _) (by omega)).trans ((h2.mono (by omega) (by omega)).trans (StepsIn.one ⟨by simp only; omega, by simp only; omega⟩ ?_))
  have hget : (pre ++ rest)[blk.length + (tr a).len + (truncate (kt a) ++ is).length]? = some (.branch T) := by
    rw [List.getElem?_append_left (by omega)]
    simp only [pre]
    rw [List.getElem?_append_right (by simp [SC.flat_length]; omega)]
    have : blk.length + (tr a).len + (truncate (kt a) ++ is).length -
      (blk ++ (tr a).flat blk.length ++ (truncate (kt a) ++ is)).length = 0 := by simp [SC.flat_length]; omega
    rw [this]; rfl
  unfold step
  simp only [hget]
  cases c
  · simp only [IR.ofBool, Bool.false_eq_true, if_false, hlen]; rfl
  · rfl

/-- The code behind the branch: second operand, truncation, combination. -/
theorem second_operand (E : Env) {b : Expr} {op : Bin} {t : Ty} (gb : good b = true) (L : Lawful E.fp)
    (hc : cty b = some t) (hs : isScalarT t = true) (hg : truthGood t = true) {m1 m2 : Mem} {w : Val} {x y r : Bool}
    (hv : eval (ctxOf E) b m1 = some (w, m2)) (hy : truth w = some y)
    (hop : op.exec (IR.ofBool x) (IR.ofBool y) = some (IR.ofBool r)) (pre post : List Instr) (s : List Word) :
    let P := pre ++ (tr b).flat pre.length ++ (truncate (kt b) ++ [.bin op])
    Steps E (P ++ post) ⟨pre.length, IR.ofBool x :: s, m1⟩ ⟨P.length, IR.ofBool r :: s, m2⟩ := by
  intro P
  have hg' : truthGood (ct b) = true := by rw [ct_of hc]; exact hg
  obtain ⟨ws, hrun, htr⟩ := truthOf E gb (sound E L b gb) hc hs hg' hv hy
  have h := SC.steps_run E (tr b ;; .prim (truncate (kt b) ++ [.bin op]))
    ⟨tr_ok b, (plain_truncate _).app (plain_of rfl)⟩ pre post (IR.ofBool x :: s) m1 (IR.ofBool r :: s) m2 (by
      simp only [SC.run, hrun, Option.bind_some, execs_append, htr, execs_cons, exec_bin, hop, Option.map_some, execs_nil])
  have e : pre ++ (tr b ;; SC.prim (truncate (kt b) ++ [.bin op])).flat pre.length ++ post = P ++ post := by
    simp [SC.flat, P]
  have e2 : P.length = pre.length + (tr b ;; SC.prim (truncate (kt b) ++ [.bin op])).len := by
    simp [SC.len, P, SC.flat_length]
  rw [e] at h
  rw [e2]
  exact h.steps

/-- C49, `&&`: let `v` be the value of the first operand (of integer, pointer or `long double` type).  The block built
for `a && b` has the code of `b` at some place `pre.length`.  If `v` is zero, the machine reaches the end of the
block with 0, memory as `a` left it, and every instruction it executes lies before the code of `b` (`b` is any expression at
all).  Otherwise it arrives at the first instruction of `b` with memory as `a` left it, and if the C value of `b` is defined
the block ends with 1 or 0 as that is nonzero or zero. -/
theorem C49_logical_and (E : Env) (L : Lawful E.fp) (a b : Expr) (t : Ty) (ga : good a = true) (ht : cty a = some t)
    (hs : isScalarT t = true) (hf : t ≠ .arith .float ∧ t ≠ .arith .double) (m m1 : Mem) (v : Val) (x : Bool)
    (hv : eval (ctxOf E) a m = some (v, m1)) (hx : truth v = some x) (blk post : List Instr) (s : List Word) :
    let B := (tr (.land a b)).build blk
    ∃ pre tail, B = pre ++ (tr b).flat pre.length ++ tail ∧
      (x = false → StepsIn E (B ++ post) blk.length pre.length ⟨blk.length, s, m⟩ ⟨B.length, 0 :: s, m1⟩) ∧
      (x = true → StepsIn E (B ++ post) blk.length pre.length ⟨blk.length, s, m⟩ ⟨pre.length, 1 :: s, m1⟩ ∧
        ∀ (u : Ty) (w : Val) (m2 : Mem) (y : Bool), good b = true → cty b = some u → isScalarT u = true →
          u ≠ .arith .float ∧ u ≠ .arith .double → eval (ctxOf E) b m1 = some (w, m2) → truth w = some y →
          Steps E (B ++ post) ⟨pre.length, 1 :: s, m1⟩ ⟨B.length, (if y then 1 else 0) :: s, m2⟩) := by
  intro B
  have tg : ∀ {u : Ty}, u ≠ .arith .float ∧ u ≠ .arith .double → truthGood u = true := by
    intro u hu
    cases u with
    | arith b => cases b <;> first | rfl | exact absurd rfl hu.1 | exact absurd rfl hu.2
    | _ => rfl
  obtain ⟨pre, tail, h1, h2, h3⟩ := land_split a b blk
  refine ⟨pre, tail, h1, ?_⟩
  have key := decide_branch E (is := [.pick 0, .un .bnot]) ga L ht hs (tg hf) hv hx (!x) (plain_of rfl) (by
    intro s; cases x <;> rfl) blk ((tr b).flat pre.length ++ tail ++ post) s B.length
  simp only at key
  rw [← h2] at key
  have e : pre ++ ((tr b).flat pre.length ++ tail ++ post) = B ++ post := by
    show _ = (tr (.land a b)).build blk ++ post
    rw [h1]; simp only [List.append_assoc]
  rw [e] at key
  constructor
  · rintro rfl; exact key
  · rintro rfl
    refine ⟨key, fun u w m2 y gb hc hu hfu hw hy => ?_⟩
    have := second_operand E (op := .band) (x := true) (r := y) gb L hc hu (tg hfu) hw hy (by cases y <;> rfl) pre post s
    simp only at this
    rw [← h3, ← h1] at this
    exact this

/-- C49, `||`: as for `&&`, with the roles of zero and nonzero exchanged. -/
theorem C49_logical_or (E : Env) (L : Lawful E.fp) (a b : Expr) (t : Ty) (ga : good a = true) (ht : cty a = some t)
    (hs : isScalarT t = true) (hf : t ≠ .arith .float ∧ t ≠ .arith .double) (m m1 : Mem) (v : Val) (x : Bool)
    (hv : eval (ctxOf E) a m = some (v, m1)) (hx : truth v = some x) (blk post : List Instr) (s : List Word) :
    let B := (tr (.lor a b)).build blk
    ∃ pre tail, B = pre ++ (tr b).flat pre.length ++ tail ∧
      (x = true → StepsIn E (B ++ post) blk.length pre.length ⟨blk.length, s, m⟩ ⟨B.length, 1 :: s, m1⟩) ∧
      (x = false → StepsIn E (B ++ post) blk.length pre.length ⟨blk.length, s, m⟩ ⟨pre.length, 0 :: s, m1⟩ ∧
        ∀ (u : Ty) (w : Val) (m2 : Mem) (y : Bool), good b = true → cty b = some u → isScalarT u = true →
          u ≠ .arith .float ∧ u ≠ .arith .double → eval (ctxOf E) b m1 = some (w, m2) → truth w = some y →
          Steps E (B ++ post) ⟨pre.length, 0 :: s, m1⟩ ⟨B.length, (if y then 1 else 0) :: s, m2⟩) := by
  intro B
  have tg : ∀ {u : Ty}, u ≠ .arith .float ∧ u ≠ .arith .double → truthGood u = true := by
    intro u hu
    cases u with
    | arith b => cases b <;> first | rfl | exact absurd rfl hu.1 | exact absurd rfl hu.2
    | _ => rfl
  obtain ⟨pre, tail, h1, h2, h3⟩ := lor_split a b blk
  refine ⟨pre, tail, h1, ?_⟩
  have key := decide_branch E (is := [.pick 0]) ga L ht hs (tg hf) hv hx x (plain_of rfl) (by
    intro s; cases x <;> rfl) blk ((tr b).flat pre.length ++ tail ++ post) s B.length
  simp only at key
  rw [← h2] at key
  have e : pre ++ ((tr b).flat pre.length ++ tail ++ post) = B ++ post := by
    show _ = (tr (.lor a b)).build blk ++ post
    rw [h1]; simp only [List.append_assoc]
  rw [e] at key
  constructor
  · rintro rfl; exact key
  · rintro rfl
    refine ⟨key, fun u w m2 y gb hc hu hfu hw hy => ?_⟩
    have := second_operand E (op := .bor) (x := false) (r := y) gb L hc hu (tg hfu) hw hy (by cases y <;> rfl) pre post s
    simp only at this
    rw [← h3, ← h1] at this
    exact this

/-- `0 && (x = 5)`: the hypotheses on the first operand are met, the second has a side effect. -/
example : good (.const .int 0) = true ∧ cty (.const .int 0) = some (.arith .int) ∧
    eval (ctxOf toyEnv) (.const .int 0) (fun _ => 0) = some (.int 0, fun _ => 0) ∧ truth (.int 0) = some false :=
  ⟨rfl, rfl, rfl, rfl⟩
example : let b : Expr := .assign (.auto [8] (.arith .int)) (.const .int 5)
    good b = true ∧ cty b = some (.arith .int) ∧ ∃ m2, eval (ctxOf toyEnv) b (fun _ => 0) = some (.int 5, m2) :=
  ⟨by decide, by decide, _, rfl⟩

/-- C15: both operators at once, first operand of integer, pointer or `long double` type.
Missing from the full property: `float` and `double` operands, for which it is false (`C15_float_false`). -/
theorem C15_short_circuit_partial (E : Env) (L : Lawful E.fp) (a b : Expr) (t : Ty) (ga : good a = true)
    (ht : cty a = some t) (hs : isScalarT t = true) (hf : t ≠ .arith .float ∧ t ≠ .arith .double) (m m1 : Mem) (v : Val)
    (x : Bool) (hv : eval (ctxOf E) a m = some (v, m1)) (hx : truth v = some x) (blk post : List Instr) (s : List Word) :
    (∃ pre tail, (tr (.land a b)).build blk = pre ++ (tr b).flat pre.length ++ tail ∧
      StepsIn E ((tr (.land a b)).build blk ++ post) blk.length pre.length ⟨blk.length, s, m⟩
        (if x then ⟨pre.length, 1 :: s, m1⟩ else ⟨((tr (.land a b)).build blk).length, 0 :: s, m1⟩)) ∧
    (∃ pre tail, (tr (.lor a b)).build blk = pre ++ (tr b).flat pre.length ++ tail ∧
      StepsIn E ((tr (.lor a b)).build blk ++ post) blk.length pre.length ⟨blk.length, s, m⟩
        (if x then ⟨((tr (.lor a b)).build blk).length, 1 :: s, m1⟩ else ⟨pre.length, 0 :: s, m1⟩)) := by
  obtain ⟨p, tl, h1, h2, h3⟩ := C49_logical_and E L a b t ga ht hs hf m m1 v x hv hx blk post s
  obtain ⟨p', tl', h1', h2', h3'⟩ := C49_logical_or E L a b t ga ht hs hf m m1 v x hv hx blk post s
  refine ⟨⟨p, tl, h1, ?_⟩, ⟨p', tl', h1', ?_⟩⟩
  · cases x
    · exact h2 rfl
    · exact (h3 rfl).1
  · cases x
    · exact (h3' rfl).1
    · exact h2' rfl

/-! ### C16: truth of floating values -/

/-- C16 for `long double`: `!e` is 1 exactly when the operand is a zero (of either sign), 0 otherwise, also for NaNs.
(`C49_logical_and`/`_or` give the corresponding statement for `&&` and `||`.)
Missing from the full property: `float` and `double` operands and conversions to `_Bool`, for which it is false
(`C16_negative_zero_false`, `C16_bool_conversion_false`). -/
theorem C16_long_double_truth_partial (E : Env) (L : Lawful E.fp) (e : Expr) (x : BitVec 80) (m m' : Mem)
    (hg : good e = true) (ht : cty e = some (.arith .ldouble))
    (hv : eval (ctxOf E) e m = some (.fl .f80 x, m')) :
    Runs E (.un .lnot e) m [if x.setWidth 79 = 0 then 1 else 0] m' := by
  have g2 : good (.un .lnot e) = true := by simp [good, hg, ct_of ht, truthGood]
  have t2 : cty (.un .lnot e) = some (.arith .int) := by simp [cty, ht, isScalarT]
  have v2 : eval (ctxOf E) (.un .lnot e) m = some (ofBoolV (isZero .f80 x), m') := by
    simp [eval, hv, unV, ct_of ht, truth]
  obtain ⟨_, ws, hr, hrun⟩ := sound E L _ g2 _ _ _ _ t2 v2
  have : ws = [if x.setWidth 79 = 0 then 1 else 0] := by
    by_cases h : x.setWidth 79 = 0
    · have hz : isZero .f80 x = true := by simp only [isZero, beq_iff_eq]; exact h
      rw [hz] at hr; rw [if_pos h]; exact hr
    · have hz : isZero .f80 x = false := by
        simp only [isZero]; exact beq_eq_false_iff_ne.mpr h
      rw [hz] at hr; rw [if_neg h]; exact hr
  rw [← this]
  exact runs_of hrun

/-- A `long double` negative zero. -/
example : good (.fconst .f80 (0x80000000000000000000#80)) = true ∧
    cty (.fconst .f80 (0x80000000000000000000#80)) = some (.arith .ldouble) ∧
    (0x80000000000000000000#80).setWidth 79 = 0 := by decide

/-! ### C19: bit-fields -/

/-- Bit `j` of the byte at `x` belongs to the object of type `t` (or the bit-field) at address `a`. -/
def inObject (t : Ty) (bf : Option (Nat × Nat)) (a x : Word) (j : Nat) : Prop :=
  match bf with
  | some (off, w) => off ≤ 8 * (x - a).toNat + j ∧ 8 * (x - a).toNat + j < off + w
  | none => (x - a).toNat < t.size

theorem bit_writeBits (m : Mem) (a x : Word) (off w j : Nat) (v : BitVec w) (hj : j < 8) :
    (writeBits m a off w v x).getLsbD j =
      if off ≤ 8 * (x - a).toNat + j ∧ 8 * (x - a).toNat + j < off + w then v.getLsbD (8 * (x - a).toNat + j - off)
      else (m x).getLsbD j := by
  simp only [writeBits, getLsbD_ofBits, hj, decide_true, Bool.true_and]

theorem readBits_writeBits (m : Mem) (a : Word) (off w : Nat) (v : BitVec w) (h : off + w ≤ 2 ^ 64) :
    readBits (writeBits m a off w v) a off w = v := by
  apply BitVec.eq_of_getLsbD_eq
  intro i hi
  rw [getLsbD_readBits]
  simp only [hi, decide_true, Bool.true_and, bitOf]
  rw [bit_writeBits _ _ _ _ _ _ _ (Nat.mod_lt _ (by omega))]
  have e : (a + BitVec.ofNat 64 ((off + i) / 8) - a).toNat = (off + i) / 8 := by
    rw [show a + BitVec.ofNat 64 ((off + i) / 8) - a = BitVec.ofNat 64 ((off + i) / 8) from by
      rw [BitVec.add_comm, BitVec.add_sub_cancel]]
    rw [BitVec.toNat_ofNat, Nat.mod_eq_of_lt (by omega)]
  rw [e, if_pos (by omega)]
  congr 1
  omega

/-- C19 for widths below 64: storing any word into a bit-field at any bit offset and reading it back gives the low
`w` bits of the word, extended as the field's type is signed or unsigned, and no bit outside the field changes, in
this byte or any other.  Offset-in-byte plus width is at most 64, as the layout guarantees (the translator refuses
others); missing from the full property: width 64, for which it is false (`C19_width64_false`). -/
theorem C19_bitfield_partial (E : Env) (b : Basic) (off w : Nat) (h1 : 1 ≤ w) (h2 : w < 64) (h3 : off % 8 + w ≤ 64)
    (h4 : off < 2 ^ 60) (m : Mem) (a v : Word) (s : List Word) :
    ∃ m', execs E (storeLvalue (.arith b) (some (off, w))) (v :: a :: s) m = some (s, m') ∧
      execs E (resolveLvalue (.arith b) (some (off, w))) (a :: s) m' =
        some ((if signed b then (v.setWidth w).signExtend 64 else (v.setWidth w).setWidth 64) :: s, m') ∧
      ∀ x j, j < 8 → ¬ inObject (.arith b) (some (off, w)) a x j → (m' x).getLsbD j = (m x).getLsbD j := by
  have hg : bfGood off w = true := by simp only [bfGood, decide_eq_true_eq]; omega
  refine ⟨writeBits m a off w (v.setWidth w), ?_, ?_, ?_⟩
  · simp only [storeLvalue, storeBitfield, loadBitfield, List.cons_append, List.nil_append, execs_cons, execs_nil, exec_pick1,
      exec_iadd1, exec_load, exec_xchg1, exec_insertbits, exec_store, Option.bind_some, Bool.false_eq_true, if_false]
    rw [insert_bitfield hg]
  · rw [resolveLvalue, resolveBitfield_ok E hg, readBits_writeBits _ _ _ _ _ (by omega)]
    cases signed b
    · rw [ofInt_valOf_false (by omega)]; rfl
    · rw [ofInt_valOf_true (by omega)]; rfl
  · intro x j hj hn
    rw [bit_writeBits _ _ _ _ _ _ _ hj, if_neg (by simpa only [inObject] using hn)]

/-- A 5-bit signed field 3 bits into its storage unit, and a bit of the same byte outside the field. -/
example : ((0x2d#64).setWidth 5).signExtend 64 = 0x0d#64 ∧ ((0x1d#64).setWidth 5).signExtend 64 = -3 ∧
    ¬ inObject (.arith .int) (some (3, 5)) 0x100 0x100 2 ∧ inObject (.arith .int) (some (3, 5)) 0x100 0x100 7 := by
  simp only [inObject]; decide

/-! ### C37, C50: stack discipline -/

/-- C50: for every expression the analyzer accepts and that uses no conditional operator with a `long double`
condition or with exactly one `long double` branch, from any memory: either there are words `ws`, as many as a value
of the expression's type takes, such that whatever the stack `s` holds the code ends with `ws` on top of `s`; or,
whatever the stack holds, it stops at one of its own instructions with a fault.  So the words below are neither
used nor changed. -/
theorem C50_stack_discipline (E : Env) (e : Expr) (t : Ty) (hb : balanced e = true) (ht : kty e = some t) (m : Mem) :
    (∃ ws m', ws.length = slots t ∧ Runs E e m ws m') ∨
    (∀ (blk post : List Instr) (s : List Word), ∃ k,
      Steps E ((tr e).build blk ++ post) ⟨blk.length, s, m⟩ k ∧
      blk.length ≤ k.pc ∧ k.pc < ((tr e).build blk).length ∧ step E ((tr e).build blk ++ post) k = none) := by
  have hl := SC.local_eff (E := E) (shape e hb t ht) [] m rfl
  obtain ⟨r, hr1, hr2⟩ := hl
  cases r with
  | some p =>
    left
    exact ⟨p.1, p.2, hr1 p rfl, runs_of fun s => by simpa using hr2 s⟩
  | none =>
    right
    intro blk post s
    obtain ⟨k, k1, k2, k3, k4⟩ := SC.stuck_run E (tr e) (tr_ok e) blk post s m (by simpa using hr2 s)
    refine ⟨k, ?_, k2, ?_, ?_⟩ <;> rw [SC.build_eq]
    · exact k1.steps
    · rw [List.length_append, SC.flat_length]; exact k3
    · exact k4

/-- C37, as `C50_stack_discipline`.  Missing from the full property: the conditional operators excluded by `balanced`, for
which it is false (`C37_long_double_branch_false`, `C37_long_double_condition_false`). -/
theorem C37_stack_discipline_partial (E : Env) (e : Expr) (t : Ty) (hb : balanced e = true) (ht : kty e = some t) (m : Mem) :
    (∃ ws m', ws.length = slots t ∧ Runs E e m ws m') ∨
    (∀ (blk post : List Instr) (s : List Word), ∃ k,
      Steps E ((tr e).build blk ++ post) ⟨blk.length, s, m⟩ k ∧
      blk.length ≤ k.pc ∧ k.pc < ((tr e).build blk).length ∧ step E ((tr e).build blk ++ post) k = none) :=
  C50_stack_discipline E e t hb ht m

/-- `(x *= 2.0L, p[3]) ? f - 1 : 7`. -/
example : ∃ e, e = Expr.cond
      (.comma (.assignOp .mul (.auto [0] (.arith .ldouble)) (.fconst .f80 0x40008000000000000000#80))
        (.lval (.index (.lval (.auto [16] (.ptr (.arith .int)))) (.const .int 3))))
      (.bin .sub (.lval (.auto [24] (.arith .int))) (.const .int 1)) (.const .int 7) ∧
    balanced e = true ∧ kty e = some (.arith .int) := ⟨_, rfl, by decide, by decide⟩

/-! ### C39: assignments -/

theorem store_facts {t : Ty} {bf : Option (Nat × Nat)} {m m' : Mem} {a : Word} {v : Val}
    (hs : isScalarT t = true) (hg : storeGood t = true) (hbf : bfOk t bf) (hT : HasTy t v)
    (h : store t bf m a v = some m') :
    load t bf m' a = some (assigned t bf v) ∧
    ∀ x j, j < 8 → ¬ inObject t bf a x j → (m' x).getLsbD j = (m x).getLsbD j := by
  cases bf with
  | some p =>
    obtain ⟨off, w⟩ := p
    obtain ⟨hgd, hf⟩ := hbf off w rfl
    simp only [bfGood, decide_eq_true_eq] at hgd
    cases t <;> cases v <;> simp only [store, reduceCtorEq, Option.some.injEq] at h
    subst h
    refine ⟨?_, ?_⟩
    · simp only [load, assigned, readBits_writeBits _ _ _ _ _ (show off + w ≤ 2 ^ 64 by omega)]
    · intro x j hj hn
      rw [bit_writeBits _ _ _ _ _ _ _ hj, if_neg (by simpa only [inObject] using hn)]
  | none =>
    have frame : ∀ (n : Nat) (u : BitVec n) (k : Nat), n ≤ 8 * k → k = t.size → m' = writeBits m a 0 n u →
        ∀ x j, j < 8 → ¬ inObject t none a x j → (m' x).getLsbD j = (m x).getLsbD j := by
      intro n u k hn hk hm x j hj hi
      subst hm hk
      rw [bit_writeBits _ _ _ _ _ _ _ hj, if_neg]
      simp only [inObject] at hi
      omega
    cases t with
    | void => cases hs
    | agg => cases hs
    | arr => cases hs
    | ptr u =>
      cases v <;> simp only [store, reduceCtorEq, Option.some.injEq] at h
      rename_i v
      refine ⟨?_, frame _ _ 8 (by omega) rfl h.symm⟩
      subst h
      simp only [load, assigned, readBits_writeBits _ _ _ _ _ (show 0 + 64 ≤ 2 ^ 64 by omega)]
      simp only [HasTy] at hT
      rw [toNat_ofInt64' hT.1 hT.2]
    | arith b =>
      cases v with
      | void => exact hT.elim
      | int v =>
        simp only [store, Option.some.injEq] at h
        simp only [HasTy] at hT
        refine ⟨?_, frame _ _ (basicSize b) (by omega) rfl h.symm⟩
        subst h
        have hn : fmtOf b = none := by
          have := hT.1
          rw [isInteger_fmt] at this
          simpa using this
        have hsz : 0 + 8 * basicSize b ≤ 2 ^ 64 := by cases b <;> decide
        simp only [load, hn, assigned, readBits_writeBits _ _ _ _ _ hsz]
        have hval : valOf (signed b) (BitVec.ofInt (8 * basicSize b) v) = v := by
          obtain ⟨hi, hr⟩ := hT
          have key : ∀ b : Basic, isInteger b = true → ∀ v, InRange b v →
              valOf (signed b) (BitVec.ofInt (8 * basicSize b) v) = v := by
            intro b hi v hr
            unfold valOf
            cases b <;> simp only [isInteger, Bool.false_eq_true] at hi <;>
              simp only [InRange, minVal, maxVal, signed, width, if_true, if_false, Bool.false_eq_true] at hr ⊢ <;>
              simp only [basicSize, BitVec.toInt_ofInt, BitVec.toNat_ofInt] <;>
              first
              | (rw [Int.bmod_eq_of_le] <;> omega)
              | omega
          exact key b hi v hr
        rw [hval, if_pos hT.2]
      | fl f x =>
        simp only [store, Option.some.injEq] at h
        simp only [HasTy] at hT
        subst hT
        have hk : f.bits ≤ 8 * basicSize (ofFmt f) := by cases f <;> decide
        refine ⟨?_, frame _ _ (basicSize (ofFmt f)) hk rfl h.symm⟩
        subst h
        have hsz : 0 + f.bits ≤ 2 ^ 64 := by cases f <;> decide
        simp only [load, fmtOf_ofFmt, assigned, readBits_writeBits _ _ _ _ _ hsz]

theorem conv_hasTy {F : FP} {t : Ty} {v v' : Val} (hs : isScalarT t = true) (h : conv F t v = some v') : HasTy t v' := by
  cases t with
  | void => cases hs
  | agg => cases hs
  | arr => cases hs
  | ptr u =>
    cases v <;> simp only [conv, reduceCtorEq, Option.some.injEq] at h
    subst h
    exact ⟨Int.emod_nonneg _ (by decide), Int.emod_lt_of_pos _ (by decide)⟩
  | arith b =>
    have hi : fmtOf b = none → isInteger b = true := by cases b <;> simp [fmtOf, isInteger]
    have hf : ∀ g, fmtOf b = some g → b = ofFmt g := by cases b <;> simp [fmtOf, ofFmt]
    cases v with
    | void => simp [conv] at h
    | int v =>
      simp only [conv] at h
      split at h <;> rename_i g hg
      · cases h; exact hf _ hg
      · cases h; exact ⟨hi hg, wrap_inRange b (hi hg) v⟩
    | fl f x =>
      simp only [conv] at h
      split at h <;> rename_i g hg
      · cases h; exact hf _ hg
      · split at h
        · rename_i hb
          subst hb
          cases h
          refine ⟨rfl, ?_⟩
          split <;> simp [InRange, minVal, maxVal, signed, width]
        · simp only [Option.bind_eq_some_iff] at h
          obtain ⟨n, _, h⟩ := h
          split at h <;> simp only [reduceCtorEq, Option.some.injEq] at h
          subst h
          rename_i hr
          exact ⟨hi hg, hr⟩

theorem store_total {t : Ty} {bf : Option (Nat × Nat)} {v : Val} (hs : isScalarT t = true) (hbf : bfOk t bf)
    (hT : HasTy t v) (m : Mem) (a : Word) : ∃ m', store t bf m a v = some m' := by
  cases bf with
  | none => cases t <;> cases v <;> simp only [store, isScalarT, HasTy, Bool.false_eq_true] at hs hT ⊢ <;> exact ⟨_, rfl⟩
  | some p =>
    obtain ⟨off, w⟩ := p
    obtain ⟨_, hf⟩ := hbf off w rfl
    cases t <;> simp only [fieldOk, Bool.false_eq_true] at hf
    cases v with
    | int => exact ⟨_, rfl⟩
    | void => exact hT.elim
    | fl f x =>
      simp only [HasTy] at hT
      subst hT
      cases f <;> simp [ofFmt, isInteger] at hf

/-- After the code of an expression that assigns the value `r` to the object of type `t` (or bit-field) at `a`, when
memory was `m1`: the value of the expression is `v`, the object holds `r`, and no bit outside it differs. -/
def Assigns (E : Env) (e : Expr) (m : Mem) (t : Ty) (bf : Option (Nat × Nat)) (m1 : Mem) (a : Word) (r v : Val) : Prop :=
  ∃ m' ws, Rep v ws ∧ Runs E e m ws m' ∧ load t bf m' a = some r ∧
    ∀ x j, j < 8 → ¬ inObject t bf a x j → (m' x).getLsbD j = (m1 x).getLsbD j

/-- C39, simple assignment of scalars, other than assignments the full property is false or not proved for, excluded by
`good`: to `long double` objects (whose padding bytes are left unspecified by C but are determined in `Spec.lean`), and to or from types
whose conversion is wrong (see C14).  (`C39_long_double_partial` covers the former.)  The object gets the converted value of the right side, no other bit changes, and the
expression's value is that of the object afterwards. -/
theorem C39_assign_partial (E : Env) (L : Lawful E.fp) (l : LV) (e : Expr) (t lt : Ty) (v v1 : Val) (m m1 m2 : Mem) (a : Word)
    (hg : good (.assign l e) = true) (ht : cty (.assign l e) = some t) (hl : clty l = some lt) (hs : isScalarT lt = true)
    (hv : eval (ctxOf E) e m = some (v, m1)) (hc : conv E.fp lt v = some v1) (ha : evalL (ctxOf E) l m1 = some (a, m2)) :
    Assigns E (.assign l e) m lt l.bf m2 a (assigned lt l.bf v1) (assigned lt l.bf v1) := by
  have hgl : goodL l = true := by simp only [good, Bool.and_eq_true] at hg; exact hg.1.1.1
  have hst : storeGood lt = true := by simp only [good, Bool.and_eq_true, clt_of hl] at hg; exact hg.1.2
  have hT := conv_hasTy hs hc
  obtain ⟨m', hm⟩ := store_total hs (bfOk_of hgl hl) hT m2 a
  have hev : eval (ctxOf E) (.assign l e) m = some (assigned lt l.bf v1, m') := by
    simp only [eval, hv, Option.bind_some, clt_of hl, show (ctxOf E).fp = E.fp from rfl, hc, ha, hm, Option.map_some]
  obtain ⟨_, ws, hr, hrun⟩ := sound E L _ hg _ _ _ _ ht hev
  obtain ⟨f1, f2⟩ := store_facts hs hst (bfOk_of hgl hl) hT hm
  exact ⟨m', ws, hr, runs_of hrun, f1, f2⟩

theorem toNat_sub8 (x a : Word) : (x - (a + 8)).toNat = ((x - a).toNat + (2 ^ 64 - 8)) % 2 ^ 64 := by
  have h : x - (a + 8) = (x - a) - 8 := by
    simp only [BitVec.sub_eq_add_neg, BitVec.neg_add, BitVec.add_assoc]
  have h8 : (8 : Word).toNat = 8 := rfl
  rw [h, BitVec.toNat_sub, h8, Nat.add_comm]

/-- C39, assignment to a `long double` object: the six padding bytes of the object may change too. -/
theorem C39_long_double_partial (E : Env) (L : Lawful E.fp) (l : LV) (e : Expr) (te : Ty) (v v1 : Val) (m m1 m2 : Mem) (a : Word)
    (hgl : goodL l = true) (hge : good e = true) (he : cty e = some te) (hcg : convGood te (.arith .ldouble) = true)
    (hl : clty l = some (.arith .ldouble))
    (hv : eval (ctxOf E) e m = some (v, m1)) (hc : conv E.fp (.arith .ldouble) v = some v1)
    (ha : evalL (ctxOf E) l m1 = some (a, m2)) :
    Assigns E (.assign l e) m (.arith .ldouble) l.bf m2 a v1 v1 := by
  have hbf : l.bf = none := by
    have := bfOk_of hgl hl
    cases hb : l.bf with
    | none => rfl
    | some p =>
      rw [hb] at this
      obtain ⟨_, h⟩ := this p.1 p.2 rfl
      simp [fieldOk, isInteger] at h
  have ne := kt_of hge he
  have hk := klt_of hgl hl
  obtain ⟨hT, ws, hr, hx⟩ := sound E L e hge _ _ _ _ he hv
  rw [← convGood_norm ne rfl] at hcg
  obtain ⟨h1, ws', h2, h3⟩ := typeconv_ok E ((hasTy_norm ne).mpr hT) hr hcg hc
  obtain ⟨x, rfl⟩ : ∃ x, v1 = .fl .f80 x := by
    cases v1 with
    | void => exact h1.elim
    | int v => simp only [HasTy, isInteger, Bool.false_eq_true, false_and] at h1
    | fl f x => cases f <;> simp only [HasTy, ofFmt, reduceCtorEq] at h1 <;> exact ⟨x, rfl⟩
  obtain ⟨w0, w1, rfl, hw⟩ := h2
  refine ⟨storeLE (storeLE m2 a 8 w0) (a + 8) 8 w1, [w0, w1], ⟨w0, w1, rfl, hw⟩, runs_of fun s => ?_, ?_, ?_⟩
  · have hxl := soundL E L l hgl _ _ _ _ hl ha
    have hsc : (Ty.arith Basic.ldouble).isScalar = true := rfl
    have hdec : (Ty.arith Basic.ldouble).dec = .arith .ldouble := rfl
    have hsl : storeLvalue (.arith .ldouble) none = [.storeld] := rfl
    simp only [tr, hk, SC.run, hx, Option.bind_some, h3, hxl, hdec, hsc, if_true, hbf, storeResult, hsl,
      execs_cons, execs_nil, List.cons_append, List.nil_append, exec_xchg1, exec_xchg2, exec_pick2, exec_storeld]
  · rw [hbf]
    simp only [load, fmtOf]
    refine congrArg some (congrArg (Val.fl .f80) ?_)
    rw [← hw]
    apply BitVec.eq_of_getLsbD_eq
    intro i hi
    have hi : i < 80 := hi
    rw [storeLE_eq _ _ _ (by omega), storeLE_eq _ _ _ (by omega)]
    have hr := getLsbD_readBits (writeBits (writeBits m2 a 0 (8 * 8) (w0.setWidth (8 * 8))) (a + 8) 0 (8 * 8)
      (w1.setWidth (8 * 8))) a 0 80 i
    refine hr.trans ?_
    have hlt : i / 8 < 10 := by omega
    simp only [hi, decide_true, Bool.true_and, bitOf, Nat.zero_add]
    rw [bit_writeBits _ _ _ _ _ _ _ (Nat.mod_lt _ (by omega)), bit_writeBits _ _ _ _ _ _ _ (Nat.mod_lt _ (by omega))]
    have e1 : (a + BitVec.ofNat 64 (i / 8) - a).toNat = i / 8 := by
      rw [BitVec.add_comm, BitVec.add_sub_cancel, BitVec.toNat_ofNat, Nat.mod_eq_of_lt (by omega)]
    have e2 := toNat_sub8 (a + BitVec.ofNat 64 (i / 8)) a
    rw [e1] at e2
    rw [e1, e2, BitVec.getLsbD_append]
    simp only [BitVec.getLsbD_setWidth]
    by_cases h : i < 64
    · rw [if_neg (by omega), if_pos (by omega)]
      simp only [h, if_true, Nat.sub_zero]
      rw [show 8 * (i / 8) + i % 8 = i by omega]
      simp [h]
    · rw [if_pos (by omega)]
      simp only [h, if_false, Nat.sub_zero]
      have : 8 * ((i / 8 + (2 ^ 64 - 8)) % 2 ^ 64) + i % 8 = i - 64 := by omega
      rw [this]
      have h16 : i - 64 < 16 := by omega
      have h64 : i - 64 < 64 := by omega
      simp [h16, h64]
  · intro x j hj hn
    rw [hbf] at hn
    simp only [inObject, show (Ty.arith Basic.ldouble).size = 16 from rfl] at hn
    rw [storeLE_eq _ _ _ (by omega), storeLE_eq _ _ _ (by omega), bit_writeBits _ _ _ _ _ _ _ hj, if_neg, bit_writeBits _ _ _ _ _ _ _ hj,
      if_neg (by omega)]
    have e2 := toNat_sub8 x a
    rw [e2]
    have := (x - a).isLt
    omega

example : goodL (.auto [32] (.arith .ldouble)) = true ∧ convGood (.arith .int) (.arith .ldouble) = true ∧
    conv toyFP (.arith .ldouble) (.int 1) = some (.fl .f80 (fone .f80)) := ⟨rfl, rfl, rfl⟩

/-- C39, compound assignment.  Excluded by `good`, besides the above: the operand types for which the result or the
operation is wrong (`C39_mod_signedness_false`, `C39_shr_signedness_false`, `C39_add_unsigned_result_false`). -/
theorem C39_compound_partial (E : Env) (L : Lawful E.fp) (op : BinOp) (l : LV) (e : Expr) (t lt te : Ty) (v cur r r1 : Val)
    (m m1 m2 : Mem) (a : Word)
    (hg : good (.assignOp op l e) = true) (ht : cty (.assignOp op l e) = some t) (hl : clty l = some lt)
    (he : cty e = some te) (hs : isScalarT lt = true)
    (hv : eval (ctxOf E) e m = some (v, m1)) (ha : evalL (ctxOf E) l m1 = some (a, m2))
    (hcur : load lt l.bf m2 a = some cur)
    (hop : binV E.fp op lt (l.bf.map (·.2)) cur te e.bfw v = some r) (hc : conv E.fp lt r = some r1) :
    Assigns E (.assignOp op l e) m lt l.bf m2 a (assigned lt l.bf r1) (assigned lt l.bf r1) := by
  have hgl : goodL l = true := by simp only [good, Bool.and_eq_true] at hg; exact hg.1.1.1
  have hst : storeGood lt = true := by simp only [good, Bool.and_eq_true, clt_of hl] at hg; exact hg.1.2
  have hT := conv_hasTy hs hc
  obtain ⟨m', hm⟩ := store_total hs (bfOk_of hgl hl) hT m2 a
  have hev : eval (ctxOf E) (.assignOp op l e) m = some (assigned lt l.bf r1, m') := by
    simp only [eval, hv, Option.bind_some, clt_of hl, ct_of he, show (ctxOf E).fp = E.fp from rfl, hcur, hop, hc, ha, hm,
      Option.map_some]
  obtain ⟨_, ws, hr, hrun⟩ := sound E L _ hg _ _ _ _ ht hev
  obtain ⟨f1, f2⟩ := store_facts hs hst (bfOk_of hgl hl) hT hm
  exact ⟨m', ws, hr, runs_of hrun, f1, f2⟩

/-- C39, increments and decrements: the object gets the value plus or minus one, and the value of the expression is that
of the object after, or for the postfix operators before, the update.  Excluded by `good`: prefix operators on bit-fields
(`C39_prefix_bitfield_false`) and `long double` objects. -/
theorem C39_incdec_partial (E : Env) (L : Lawful E.fp) (post dec : Bool) (l : LV) (t lt : Ty) (cur r : Val)
    (m m1 : Mem) (a : Word)
    (hg : good (.incdec post dec l) = true) (ht : cty (.incdec post dec l) = some t) (hl : clty l = some lt)
    (hs : isScalarT lt = true) (ha : evalL (ctxOf E) l m = some (a, m1)) (hcur : load lt l.bf m1 a = some cur)
    (hop : incdecV E.fp lt (l.bf.map (·.2)) dec cur = some r) :
    Assigns E (.incdec post dec l) m lt l.bf m1 a (assigned lt l.bf r) (if post then cur else assigned lt l.bf r) := by
  have hgl : goodL l = true := by simp only [good, Bool.and_eq_true] at hg; exact hg.1.1
  have hst : storeGood lt = true := by simp only [good, Bool.and_eq_true, clt_of hl] at hg; exact hg.1.2
  have hT : HasTy lt r := by
    simp only [incdecV, Option.bind_eq_some_iff] at hop
    obtain ⟨_, _, hc⟩ := hop
    exact conv_hasTy hs hc
  obtain ⟨m', hm⟩ := store_total hs (bfOk_of hgl hl) hT m1 a
  have hev : eval (ctxOf E) (.incdec post dec l) m = some (if post then cur else assigned lt l.bf r, m') := by
    simp only [eval, Option.bind_some, clt_of hl, show (ctxOf E).fp = E.fp from rfl, hcur, hop, ha, hm, Option.map_some]
  obtain ⟨_, ws, hr, hrun⟩ := sound E L _ hg _ _ _ _ ht hev
  obtain ⟨f1, f2⟩ := store_facts hs hst (bfOk_of hgl hl) hT hm
  exact ⟨m', ws, hr, runs_of hrun, f1, f2⟩

/-- `*p += 300` for an `unsigned char` bit-field member, `i--` for a `short`, `q = &i` meet the hypotheses. -/
example : good (.assignOp .add (.member (.lval (.auto [0] (.agg 0 4))) [0] (.arith .uchar) (some (3, 5))) (.const .int 300)) = true ∧
    good (.incdec true true (.auto [8] (.arith .short))) = true ∧
    good (.assign (.auto [16] (.ptr (.arith .short))) (.addr (.auto [8] (.arith .short)))) = true := by decide

example (m : Mem) : binV toyFP .add (.arith .uchar) (some 5) (.int 31) (.arith .int) none (.int 300) = some (.int 331) ∧
    conv toyFP (.arith .uchar) (.int 331) = some (.int 75) ∧
    assigned (.arith .uchar) (some (3, 5)) (.int 75) = .int 11 ∧
    evalL (ctxOf toyEnv) (.auto [8] (.arith .short)) m = some ((ctxOf toyEnv).frame + 8, m) := by
  refine ⟨rfl, rfl, rfl, rfl⟩

/-! ### C47: types of expressions -/

/-- C47: every `sizeof`-free expression that C accepts, kefir's analyzer accepts with the same type, up to the identity of
`long` and `long long` (and of their unsigned versions), which have the same representation. -/
theorem C47_expression_types (e : Expr) (t : Ty) (h : noSizeof e = true) (ht : cty e = some t) :
    ∃ t', kty e = some t' ∧ t'.norm = t.norm := kty_agrees e t h ht

/-- `*(p + 1) - 'a' < 3u` has type `int`. -/
example : cty (.bin .lt (.bin .sub (.lval (.deref (.bin .add (.lval (.auto [0] (.ptr (.arith .long)))) (.const .int 1))))
    (.const .char 97)) (.const .uint 3)) = some (.arith .int) := by decide

end Kefir.Expr
