import Verif.Assert.Spec
import Verif.Assert.Model
import Verif.ConstExpr.Props

/-! C108: static assertions. -/

namespace Kefir.Assert
open Kefir.Types (Basic)
open Kefir.Expr Kefir.C17 Kefir.CSpec Kefir.ConstExpr
open Kefir.IR

/-- A value of an integer type is zero exactly if its 64 bits are. -/
theorem ofInt_zero {b : Basic} {x : Int} (h : InRange b x) : BitVec.ofInt 64 x = 0#64 ↔ x = 0 := by
  have h1 : -9223372036854775808 ≤ x ∧ x < 18446744073709551616 := by
    obtain ⟨hl, hu⟩ := h
    have hmin : -9223372036854775808 ≤ minVal b := by cases b <;> decide
    have hmax : maxVal b < 18446744073709551616 := by cases b <;> decide
    omega
  constructor
  · intro h
    have := congrArg BitVec.toNat h
    simp only [BitVec.toNat_ofInt, BitVec.toNat_ofNat] at this
    omega
  · rintro rfl
    rfl

/-- C108, part: if the condition has a value in C, the assertion is accepted exactly if the value is not zero, and otherwise
it is reported as failed.  Missing: conditions excluded by `exactOps` and with arithmetic in `unsigned long`, for which it
is false (below), and floating and address constants. -/
theorem C108_assertion_partial (C : Ctx) (e : Expr) (b : Basic) (x : Int) (hx : exactOps e = true) (hs : noUnsignedLong e = true)
    (ht : cty e = some (.arith b)) (hv : HasValue C e x) :
    (check e = .accepted ↔ x ≠ 0) ∧ (check e = .failed ↔ x = 0) := by
  obtain ⟨y, h1, h2, h3⟩ := C17_signed_partial C e b _ _ _ hx hs ht (hv fun _ => 0)
  cases h1
  have hz := ofInt_zero h2
  unfold check
  rw [h3]
  by_cases h0 : x = 0
  · subst h0
    simp
  · have hn : BitVec.ofInt 64 x ≠ 0#64 := fun h => h0 (hz.mp h)
    simp [hn, h0]

/-- C108, part: with operations in `unsigned long` as well, an assertion whose condition has a value in C is never wrongly
accepted, and never wrongly reported as failed. -/
theorem C108_never_wrong_partial (C : Ctx) (e : Expr) (b : Basic) (x : Int) (hx : exactOps e = true)
    (ht : cty e = some (.arith b)) (hv : HasValue C e x) :
    (check e = .accepted → x ≠ 0) ∧ (check e = .failed → x = 0) := by
  obtain ⟨b', y, h1, -, h3, h4, -, h6⟩ := C17_value_partial C e _ _ _ _ hx ht (hv fun _ => 0)
  cases h1
  cases h3
  have hz := ofInt_zero h4
  unfold check
  rcases h6 with h6 | ⟨h6, -⟩
  · rw [h6]
    by_cases h0 : x = 0
    · subst h0
      simp
    · have hn : BitVec.ofInt 64 x ≠ 0#64 := fun h => h0 (hz.mp h)
      simp [hn, h0]
  · rw [h6]
    exact ⟨nofun, nofun⟩

/-- C108: a condition of the modelled language that is not a constant expression is never accepted. -/
theorem C108_not_constant (e : Expr) (h : e.isConst = false) : check e ≠ .accepted := by
  unfold check
  cases e with
  | const b v => simp [Expr.isConst] at h
  | sizeof t => simp [Expr.isConst] at h
  | cast t e =>
    cases t with
    | arith b =>
      simp only [ceval, req, h]
      cases b.isIntegral <;> simp
    | _ => simp [ceval]
  | _ => simp [ceval, req, h]

/-! ### Concrete cases -/

/-- `_Static_assert((5 - 7) * 3 < 0 && 1L, "")` and `_Static_assert(7 % 7, "")`. -/
def holds : Expr := .land (.bin .lt (.bin .mul (.bin .sub (.const .int 5) (.const .int 7)) (.const .int 3)) (.const .int 0)) (.const .long 1)
def fails : Expr := .bin .mod (.const .int 7) (.const .int 7)

example : exactOps holds = true ∧ noUnsignedLong holds = true ∧ cty holds = some (.arith .int) := by decide
example : HasValue (ctxOf toyEnv) holds 1 := fun _ => rfl
example : check holds = .accepted := by decide +kernel
example : exactOps fails = true ∧ noUnsignedLong fails = true ∧ cty fails = some (.arith .int) := by decide
example : HasValue (ctxOf toyEnv) fails 0 := fun _ => rfl
example : check fails = .failed := by decide +kernel
example : (Expr.comma (.const .int 0) (.const .int 1)).isConst = false := by decide

/-! ### Findings -/

/-- `_Static_assert(0xffffffffu + 1u, "")` violates the constraint, and is accepted. -/
theorem C108_accepted_false : let e : Expr := .bin .add (.const .uint 0xffffffff) (.const .uint 1)
    HasValue (ctxOf toyEnv) e 0 ∧ check e = .accepted := ⟨fun _ => rfl, by decide +kernel⟩

/-- `_Static_assert(-1 == 0xffffffffu, "")` holds, and is reported as failed. -/
theorem C108_failed_false : let e : Expr := .bin .eq (.un .neg (.const .int 1)) (.const .uint 0xffffffff)
    HasValue (ctxOf toyEnv) e 1 ∧ check e = .failed := ⟨fun _ => rfl, by decide +kernel⟩

/-- `_Static_assert(0x7fffffffffffffffUL + 1UL, "")` holds, and makes the compiler overflow an `int64_t`. -/
theorem C108_undefined_false : let e : Expr := .bin .add (.const .ulong 0x7fffffffffffffff) (.const .ulong 1)
    HasValue (ctxOf toyEnv) e 0x8000000000000000 ∧ check e = .undefined := ⟨fun _ => rfl, by decide +kernel⟩

end Kefir.Assert
