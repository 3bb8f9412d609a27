import Verif.ConstExpr.Model

namespace Kefir.Assert
open Kefir.Expr Kefir.ConstExpr

/-- What becomes of a static assertion. -/
inductive Outcome
  /-- The declaration has no effect, `KEFIR_OK`. -/
  | accepted
  /-- The diagnostic "Static assertion failure", `KEFIR_STATIC_ASSERT`. -/
  | failed
  /-- Another diagnostic. -/
  | rejected
  /-- Undefined behaviour of the compiler. -/
  | undefined
  /-- Outside the model of constant expressions. -/
  | unmodelled
  deriving DecidableEq

/-- `kefir_ast_analyze_static_assertion_node`, `source/ast/analyzer/nodes/static_assertion.c` 28-51, for conditions of the
language of `ceval`, whose values all have the class `KEFIR_AST_CONSTANT_EXPRESSION_CLASS_INTEGER` (44-46); the analysis of
the condition and of the string (39-40) has succeeded. -/
def check (e : Expr) : Outcome :=
  match ceval e with
  | .error (.err _) => .rejected
  | .error .undefined => .undefined
  | .error .unmodelled => .unmodelled
  | .ok w => if w != 0 then .accepted else .failed

end Kefir.Assert
