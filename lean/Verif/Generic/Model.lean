import Verif.Generic.Spec
import Verif.ExprType.Model

/-! The three passes over a generic selection.  The analysis, evaluation and translation of the expressions in it are
represented by what a `Part` says about them.  `none` is a failure, or undefined behaviour of the comparison of types. -/

namespace Kefir.Generic
open Kefir.Compat Kefir.ExprType.Model

/-- What the analysis leaves: the association whose type and properties the node has, and the expressions that have been
analysed. -/
structure Analysed where
  chosen : Option (Which × Part)
  seen : List Which

/-- The loop of `kefir_ast_analyze_generic_selection_node`, `source/ast/analyzer/nodes/generic_selection.c` 42-55.  The
analysis of the type names (46) is not modelled, the types are given. -/
def analyzeLoop (c : Ty) : Nat → List (Ty × Part) → Analysed → Option Analysed
  | _, [], r => some r
  | i, (t, p) :: rest, r =>
    if p.ok = false then none
    else match r.chosen with
      | some _ => analyzeLoop c (i + 1) rest { r with seen := some i :: r.seen }
      | none => match compat c t with
        | none => none
        | some true => analyzeLoop c (i + 1) rest { chosen := some (some i, p), seen := some i :: r.seen }
        | some false => analyzeLoop c (i + 1) rest { r with seen := some i :: r.seen }

/-- The default association, `source/ast/analyzer/nodes/generic_selection.c` 56-67. -/
def analyzeDefault (s : Selection) (r : Analysed) : Option Analysed :=
  match r.chosen with
  | some _ => some r
  | none => match s.dflt with
    | none => none
    | some p => if p.ok = false then none else some { chosen := some (none, p), seen := none :: r.seen }

/-- `kefir_ast_analyze_generic_selection_node`, `source/ast/analyzer/nodes/generic_selection.c` 28-69. -/
def analyze (s : Selection) : Option Analysed :=
  if s.controlOk = false then none
  else (analyzeLoop (conv s.control) 0 s.assocs ⟨none, []⟩).bind (analyzeDefault s)

/-- The loop of `kefir_ast_evaluate_generic_selection_node`, `source/ast/constant_expression/generic_selection.c` 44-50,
and what follows it (51-57): the association whose expression is evaluated. -/
def evaluateLoop (c : Ty) (dflt : Option Part) : Nat → List (Ty × Part) → Option Which
  | _, [] => match dflt with
    | some _ => some none
    | none => none
  | i, (t, _) :: rest => match compat c t with
    | none => none
    | some true => some (some i)
    | some false => evaluateLoop c dflt (i + 1) rest

/-- `kefir_ast_evaluate_generic_selection_node`, `source/ast/constant_expression/generic_selection.c` 27-58; `constant` is
the property that the analysis has given to the node (38-40). -/
def evaluate (s : Selection) (constant : Bool) : Option Which :=
  if constant = false then none else evaluateLoop (conv s.control) s.dflt 0 s.assocs

/-- The loop of `kefir_ast_translate_generic_selection_node`, `source/ast-translator/nodes/generic_selection.c` 39-46, and
what follows it (47-53): the association whose expression is translated. -/
def translateLoop (c : Ty) (dflt : Option Part) : Nat → List (Ty × Part) → Option Which
  | _, [] => match dflt with
    | some _ => some none
    | none => none
  | i, (t, _) :: rest => match compat c t with
    | none => none
    | some true => some (some i)
    | some false => translateLoop c dflt (i + 1) rest

/-- `kefir_ast_translate_generic_selection_node`, `source/ast-translator/nodes/generic_selection.c` 28-54. -/
def translate (s : Selection) : Option Which := translateLoop (conv s.control) s.dflt 0 s.assocs

/-- `kefir_ast_translate_lvalue`, `source/ast-translator/lvalue.c` 342-370, of a generic selection: the visitor has no case
for it, `translate_not_impl` (237-243) fails. -/
def translateLvalue (_ : Selection) : Option Which := none

end Kefir.Generic
