import Verif.ConstExpr.Spec

/-!
# Static assertions

C17 6.7.10p3: "If the value of the constant expression compares unequal to 0, the declaration has no effect.  Otherwise, the
constraint is violated and the implementation shall produce a diagnostic message".
-/

namespace Kefir.Assert
open Kefir.CSpec Kefir.Expr

/-- The condition has a value in C, and it is `x`. -/
def HasValue (C : Ctx) (e : Expr) (x : Int) : Prop := ∀ m, eval C e m = some (.int x, m)

end Kefir.Assert
