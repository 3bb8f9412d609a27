import Verif.ConstExpr.Main

/-!
# C17, C18: constant expressions

`ceval e` is what the compiler computes for a constant expression, `CSpec.eval` the C17 value, `Runs` what the
generated code does.
-/
namespace Kefir.ConstExpr
open Kefir.Types (Basic)
open Kefir.Expr Kefir.C17 Kefir.CSpec
open Kefir.IR

/-! ### C17: values -/

/-- C17 for the expressions in `exactOps`: whenever C gives an expression of integer type a value, that value is the one
the compiler computes, unless the compiler itself runs into undefined behaviour, which takes an operation in
`unsigned long`.
Missing from the full property: the expressions excluded by `exactOps`, for which it is false (below), `sizeof`,
`_Alignof`, floating and address constants. -/
theorem C17_value_partial (C : Ctx) (e : Expr) (t : Ty) (v : Val) (m m' : Mem) (hx : exactOps e = true)
    (ht : cty e = some t) (hv : eval C e m = some (v, m')) :
    ∃ b x, t = .arith b ∧ isInteger b = true ∧ v = .int x ∧ InRange b x ∧ m' = m ∧
      (ceval e = .ok (BitVec.ofInt 64 x) ∨ ceval e = .error .undefined ∧ noUnsignedLong e = false) := by
  obtain ⟨b, x, h1, h2, h3, h4, h5, h6⟩ := sound C e hx t v m m' ht hv
  refine ⟨b, x, h1, h2, h3, h4, h5, ?_⟩
  cases h : ceval e with
  | ok w => rw [h] at h6; have h6 : w = BitVec.ofInt 64 x := h6; exact .inl (by rw [h6])
  | error f => rw [h] at h6; exact .inr ⟨by rw [h6.1], h6.2⟩

/-- C17, expressions whose arithmetic is signed: the compiler's value is the C17 value. -/
theorem C17_signed_partial (C : Ctx) (e : Expr) (b : Basic) (v : Val) (m m' : Mem) (hx : exactOps e = true)
    (hs : noUnsignedLong e = true) (ht : cty e = some (.arith b)) (hv : eval C e m = some (v, m')) :
    ∃ x, v = .int x ∧ InRange b x ∧ ceval e = .ok (BitVec.ofInt 64 x) := by
  obtain ⟨b', x, h1, -, h3, h4, -, h6⟩ := C17_value_partial C e _ v m m' hx ht hv
  cases h1
  rcases h6 with h | ⟨_, h⟩
  · exact ⟨x, h3, h4, h⟩
  · rw [hs] at h; cases h

/-- `((5 - 7) * 3 >> 1) + ('a' == 97 ? -1 : 2L)`, hypotheses met. -/
example : let e : Expr := .bin .add (.bin .shr (.bin .mul (.bin .sub (.const .int 5) (.const .int 7)) (.const .int 3))
      (.const .int 1)) (.cond (.bin .eq (.const .int 97) (.const .int 97)) (.const .int (-1)) (.const .long 2))
    exactOps e = true ∧ noUnsignedLong e = true ∧ cty e = some (.arith .long) ∧
      eval (ctxOf toyEnv) e (fun _ => 0) = some (.int (-4), fun _ => 0) ∧ (ceval e).toOption = some (BitVec.ofInt 64 (-4)) := by
  refine ⟨by decide, by decide, by decide, ?_, by decide +kernel⟩
  rfl

/-- C17 as stated: the value computed at compile time is the word that the code generated for the same expression leaves
on the stack, in any surrounding program and with any stack. -/
theorem C17_runtime_partial (E : Env) (L : Lawful E.fp) (e : Expr) (b : Basic) (v : Val) (m m' : Mem) (hx : exactOps e = true)
    (hs : noUnsignedLong e = true) (hg : good e = true) (ht : cty e = some (.arith b)) (hb : isInteger b = true)
    (hv : eval (ctxOf E) e m = some (v, m')) :
    ∃ w, ceval e = .ok w ∧ Runs E e m [w] m := by
  obtain ⟨b', x, h1, -, h3, h4, h5, h6⟩ := C17_value_partial _ e _ v m m' hx ht hv
  obtain ⟨y, g1, -, g3⟩ := C13_integer_expression_partial E L e b v m m' hg ht hb hv
  rw [h3] at g1
  cases g1
  subst h5
  rcases h6 with h | ⟨_, h⟩
  · exact ⟨_, h, g3⟩
  · rw [hs] at h; cases h

/-- `(signed char)201 % 7 | ~(6 << 2) < 0`, hypotheses met. -/
example : let e : Expr := .bin .bor (.bin .mod (.cast (.arith .schar) (.const .int 201)) (.const .int 7)) (.bin .lt
      (.un .bnot (.bin .shl (.const .int 6) (.const .int 2))) (.const .int 0))
    exactOps e = true ∧ noUnsignedLong e = true ∧ good e = true ∧ cty e = some (.arith .int) ∧
      eval (ctxOf toyEnv) e (fun _ => 0) = some (.int (-5), fun _ => 0) ∧ Lawful toyEnv.fp := by
  refine ⟨by decide, by decide, by decide, by decide, ?_, toyFP_lawful⟩
  rfl

/-! ### C17: counterexamples -/

/-- The C value of `e` is `x` and is a value of the type of `e`, the generated code leaves the word of `x`, and the
compiler's constant value of `e` is `w`, another word. -/
def Differs (e : Expr) (x : Int) (w : Word) : Prop :=
  (∀ m, eval (ctxOf toyEnv) e m = some (.int x, m) ∧ Runs toyEnv e m [BitVec.ofInt 64 x] m) ∧
    ceval e = .ok w ∧ w ≠ BitVec.ofInt 64 x

theorem differs_of {e : Expr} {x : Int} {w : Word} {b : Basic} (hg : good e = true) (ht : cty e = some (.arith b))
    (hb : isInteger b = true) (hv : ∀ m, eval (ctxOf toyEnv) e m = some (.int x, m)) (hc : ceval e = .ok w)
    (hw : w ≠ BitVec.ofInt 64 x) : Differs e x w := by
  refine ⟨fun m => ⟨hv m, ?_⟩, hc, hw⟩
  obtain ⟨y, h1, -, h3⟩ := C13_integer_expression_partial toyEnv toyFP_lawful e b _ m m hg ht hb (hv m)
  cases h1
  exact h3

/-- `~0u >> 1` is `0x7fffffff`; the compiler computes `0x7fffffffffffffff`. -/
theorem C17_complement_false :
    Differs (.bin .shr (.un .bnot (.const .uint 0)) (.const .int 1)) 0x7fffffff 0x7fffffffffffffff :=
  differs_of (b := .uint) (by decide) (by decide) rfl (fun _ => rfl) rfl (by decide)

/-- `0xffffffffu + 1u == 0` is 1; the compiler computes 0. -/
theorem C17_uint_sum_false :
    Differs (.bin .eq (.bin .add (.const .uint 0xffffffff) (.const .uint 1)) (.const .int 0)) 1 0 :=
  differs_of (b := .int) (by decide) (by decide) rfl (fun _ => rfl) rfl (by decide)

/-- `-1 == 0xffffffffu` is 1; the compiler computes 0. -/
theorem C17_uint_conversion_false :
    Differs (.bin .eq (.un .neg (.const .int 1)) (.const .uint 0xffffffff)) 1 0 :=
  differs_of (b := .int) (by decide) (by decide) rfl (fun _ => rfl) rfl (by decide)

/-- `-2 / 2u` is `0x7fffffff`; the compiler computes `0x7fffffffffffffff`. -/
theorem C17_uint_division_false :
    Differs (.bin .div (.un .neg (.const .int 2)) (.const .uint 2)) 0x7fffffff 0x7fffffffffffffff :=
  differs_of (b := .uint) (by decide) (by decide) rfl (fun _ => rfl) rfl (by decide)

/-- `(0u - 1) / 2` is `0x7fffffff`; the compiler computes `0x7fffffffffffffff`. -/
theorem C17_uint_difference_false :
    Differs (.bin .div (.bin .sub (.const .uint 0) (.const .int 1)) (.const .int 2)) 0x7fffffff 0x7fffffffffffffff :=
  differs_of (b := .uint) (by decide) (by decide) rfl (fun _ => rfl) rfl (by decide)

/-- `-8L >> 1UL` is -4; the compiler shifts in a zero bit. -/
theorem C17_shift_false :
    Differs (.bin .shr (.un .neg (.const .long 8)) (.const .ulong 1)) (-4) 0x7ffffffffffffffc :=
  differs_of (b := .long) (by decide) (by decide) rfl (fun _ => rfl) rfl (by decide)

/-- Hence constant evaluation does not agree with C for all integer expressions on which C is defined. -/
theorem C17_false : ¬ ∀ (C : Ctx) (e : Expr) (b : Basic) (x : Int) (m : Mem), intExpr e = true → cty e = some (.arith b) →
    eval C e m = some (.int x, m) → ceval e = .ok (BitVec.ofInt 64 x) := by
  intro h
  obtain ⟨h1, h2, h3⟩ := C17_complement_false
  have := h _ _ .uint _ (fun _ => 0) (by decide) (by decide) (h1 _).1
  rw [h2] at this
  cases this

/-! ### C18: undefined behaviour of the compiler -/

/-- An expression without `+`, `-`, `*`, `%`, shifts and unary minus. -/
def calm : Expr → Bool
  | .cast _ e => calm e
  | .un op e => op != .neg && calm e
  | .bin op a b => !(op == .add || op == .sub || op == .mul || op == .mod || op == .shl || op == .shr || op == .div) && calm a && calm b
  | .land a b | .lor a b | .elvis a b | .comma a b => calm a && calm b
  | .cond c a b => calm c && calm a && calm b
  | _ => true

/-- Yields a value or an error code. -/
def Definite : Out Word → Prop
  | .ok _ => True
  | .error (.err _) => True
  | _ => False

theorem req_definite {e : Expr} {r : Out Word} (h : Definite r) : Definite (req e r) := by
  unfold req; split
  · exact h
  · trivial

theorem calm_definite : (e : Expr) → intExpr e = true → calm e = true → Definite (ceval e)
  | .const b v, hi, _ => by
    have : b.isIntegral = true := by rw [normB_integral (c := b) rfl]; exact hi
    simp only [ceval, this, if_true]; trivial
  | .sizeof _, _, _ => trivial
  | .cast (.arith b) e, hi, hc => by
    simp only [intExpr, calm, Bool.and_eq_true] at hi hc
    have ih := calm_definite e hi.2 hc
    have : b.isIntegral = true := by rw [normB_integral (c := b) rfl]; exact hi.1
    simp only [ceval, this, if_true]
    apply req_definite
    cases h : ceval e with
    | ok w => trivial
    | error f => rw [h] at ih; exact ih
  | .un op e, hi, hc => by
    simp only [intExpr, calm, Bool.and_eq_true] at hi hc
    have ih := calm_definite e hi hc.2
    apply req_definite
    cases h : ceval e with
    | ok w => cases op <;> first | trivial | (exact absurd hc.1 (by decide))
    | error f => rw [h] at ih; exact ih
  | .bin op a b, hi, hc => by
    simp only [intExpr, calm, Bool.and_eq_true] at hi hc
    have iha := calm_definite a hi.1 hc.1.2
    have ihb := calm_definite b hi.2 hc.2
    apply req_definite
    cases h : ceval a with
    | error f => rw [h] at iha; exact iha
    | ok v =>
      cases h' : ceval b with
      | error f => rw [h'] at ihb; exact ihb
      | ok w => cases op <;> first | trivial | (exact absurd hc.1.1 (by decide))
  | .land a b, hi, hc => by
    simp only [intExpr, calm, Bool.and_eq_true] at hi hc
    have iha := calm_definite a hi.1 hc.1
    have ihb := calm_definite b hi.2 hc.2
    apply req_definite
    cases h : ceval a with
    | error f => rw [h] at iha; exact iha
    | ok v =>
      dsimp only
      split
      · cases h' : ceval b with
        | error f => rw [h'] at ihb; exact ihb
        | ok w => trivial
      · trivial
  | .lor a b, hi, hc => by
    simp only [intExpr, calm, Bool.and_eq_true] at hi hc
    have iha := calm_definite a hi.1 hc.1
    have ihb := calm_definite b hi.2 hc.2
    apply req_definite
    cases h : ceval a with
    | error f => rw [h] at iha; exact iha
    | ok v =>
      dsimp only
      split
      · trivial
      · cases h' : ceval b with
        | error f => rw [h'] at ihb; exact ihb
        | ok w => trivial
  | .cond c a b, hi, hc => by
    simp only [intExpr, calm, Bool.and_eq_true] at hi hc
    have ihc := calm_definite c hi.1.1 hc.1.1
    have iha := calm_definite a hi.1.2 hc.1.2
    have ihb := calm_definite b hi.2 hc.2
    apply req_definite
    cases h : ceval c with
    | error f => rw [h] at ihc; exact ihc
    | ok v =>
      dsimp only
      split
      · exact iha
      · exact ihb
  | .elvis c b, hi, hc => by
    simp only [intExpr, calm, Bool.and_eq_true] at hi hc
    have ihc := calm_definite c hi.1 hc.1
    have ihb := calm_definite b hi.2 hc.2
    apply req_definite
    cases h : ceval c with
    | error f => rw [h] at ihc; exact ihc
    | ok v =>
      dsimp only
      split
      · trivial
      · exact ihb
  | .comma _ _, _, _ => trivial

/-- C18 for the operators that cannot overflow or divide: whatever the operands and however the expression is nested,
evaluation yields a value or an error code.  Missing: the arithmetic operators, for which the property is false. -/
theorem C18_calm_partial (e : Expr) (hi : intExpr e = true) (hc : calm e = true) :
    (∃ w, ceval e = .ok w) ∨ ∃ c, ceval e = .error (.err c) := by
  have h := calm_definite e hi hc
  cases hr : ceval e with
  | ok w => exact .inl ⟨w, rfl⟩
  | error f =>
    rw [hr] at h
    cases f with
    | err c => exact .inr ⟨c, rfl⟩
    | undefined => exact h.elim
    | unmodelled => exact h.elim

/-- `(char)(sizeof(long) & ~3) < 9 ? !0 : (1, 2)`, hypotheses met. -/
example : let e : Expr := .cond (.bin .lt (.cast (.arith .char) (.bin .band (.sizeof (.arith .long)) (.un .bnot (.const .int 3))))
      (.const .int 9)) (.un .lnot (.const .int 0)) (.comma (.const .int 1) (.const .int 2))
    intExpr e = true ∧ calm e = true := by decide

/-- C18 for the signed expressions of C17: when C defines the value, the compiler computes without undefined behaviour. -/
theorem C18_defined_partial (C : Ctx) (e : Expr) (t : Ty) (v : Val) (m m' : Mem) (hx : exactOps e = true)
    (hs : noUnsignedLong e = true) (ht : cty e = some t) (hv : eval C e m = some (v, m')) : ∃ w, ceval e = .ok w := by
  obtain ⟨b, x, -, -, -, -, -, h⟩ := C17_value_partial C e t v m m' hx ht hv
  rcases h with h | ⟨_, h⟩
  · exact ⟨_, h⟩
  · rw [hs] at h; cases h

/-- C18: dividing by a constant expression of value zero is reported as an error for every dividend, in signed and
unsigned arithmetic. -/
theorem C18_division_by_zero (a b : Expr) (hk : (Expr.bin .div a b).isConst = true) {v : Word} (ha : ceval a = .ok v)
    (hb : ceval b = .ok 0) : ceval (.bin .div a b) = .error (.err .notConstant) := by
  simp only [ceval, req, hk, if_true, ha, hb, evalBin]

/-- `7 / (3 - 3)`, hypotheses met. -/
example : (Expr.bin .div (.const .int 7) (.bin .sub (.const .int 3) (.const .int 3))).isConst = true ∧
    ceval (.const .int 7) = .ok 7 ∧ ceval (.bin .sub (.const .int 3) (.const .int 3)) = .ok 0 := ⟨by decide, rfl, rfl⟩

/-- `1 % 0` makes the compiler divide by zero. -/
theorem C18_mod_zero_false : ceval (.bin .mod (.const .int 1) (.const .int 0)) = .error .undefined := rfl

/-- More generally, `e % 0` does so for every constant expression `e`. -/
theorem C18_mod_zero_always_false (a b : Expr) (hk : (Expr.bin .mod a b).isConst = true) {v : Word} (ha : ceval a = .ok v)
    (hb : ceval b = .ok 0) : ceval (.bin .mod a b) = .error .undefined := by
  simp only [ceval, req, hk, if_true, ha, hb, evalBin]

/-- `(-0x7fffffffffffffffL - 1) / -1` and `% -1`: overflow of the host's division. -/
theorem C18_division_overflow_false (op : BinOp) (h : op = .div ∨ op = .mod) :
    ceval (.bin op (.bin .sub (.un .neg (.const .long 0x7fffffffffffffff)) (.const .int 1)) (.un .neg (.const .int 1))) =
      .error .undefined := by
  rcases h with rfl | rfl <;> rfl

/-- `1 << 64` and `1 >> -1`: shifts by too much. -/
theorem C18_shift_false : ceval (.bin .shl (.const .int 1) (.const .int 64)) = .error .undefined ∧
    ceval (.bin .shr (.const .int 1) (.un .neg (.const .int 1))) = .error .undefined := ⟨rfl, rfl⟩

/-- `0x7fffffffffffffffUL + 1UL` is `0x8000000000000000` in C, and overflows an `int64_t` of the compiler. -/
theorem C18_unsigned_sum_false :
    let e : Expr := .bin .add (.const .ulong 0x7fffffffffffffff) (.const .ulong 1)
    (∀ m, eval (ctxOf toyEnv) e m = some (.int 0x8000000000000000, m)) ∧ ceval e = .error .undefined :=
  ⟨fun _ => rfl, rfl⟩

/-- Hence evaluation of constant expressions can be undefined, even where C defines their value. -/
theorem C18_false : ¬ ∀ (C : Ctx) (e : Expr) (x : Int) (m : Mem), intExpr e = true → eval C e m = some (.int x, m) →
    Definite (ceval e) := by
  intro h
  obtain ⟨h1, h2⟩ := C18_unsigned_sum_false
  have := h _ _ _ (fun _ => 0) (by decide) (h1 _)
  rw [h2] at this
  exact this

end Kefir.ConstExpr
