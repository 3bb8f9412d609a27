import Verif.ExprType.Spec

/-!
# Generic selections

C17 6.5.1.1p3: "If a generic selection has a generic association with a type name that is compatible with the type of the
controlling expression, then the result expression of the generic selection is the expression in that generic association.
Otherwise, the result expression of the generic selection is the expression in the default generic association.  None of
the expressions from any other generic association of the generic selection is evaluated."
-/

namespace Kefir.Generic
open Kefir.Compat Kefir.Compat.Spec Kefir.ExprType

/-- An expression of an association: whether it obeys the rules of the language, whether it is constant, and whether it
is an lvalue. -/
structure Part where
  ok : Bool
  constant : Bool
  lvalue : Bool
  deriving DecidableEq

/-- A generic selection: the type of its controlling expression, whether that obeys the rules, the associations with a
type, and the default association. -/
structure Selection where
  control : Ty
  controlOk : Bool
  assocs : List (Ty × Part)
  dflt : Option Part

/-- One of the associations: by its place, or the default one. -/
abbrev Which := Option Nat

/-- The expression of an association. -/
def Selection.part (s : Selection) : Which → Option Part
  | some i => (s.assocs[i]?).map (·.2)
  | none => s.dflt

/-- The result expression is that of association `w`; `c` is the type of the controlling expression after conversion. -/
def Result (c : Ty) (s : Selection) : Which → Prop
  | some i => ∃ a, s.assocs[i]? = some a ∧ Compatible c a.1
  | none => s.dflt.isSome = true ∧ ∀ a ∈ s.assocs, ¬ Compatible c a.1

/-- C17 6.5.1.1p2: the type of the controlling expression is compatible with at most one of the types. -/
def Unambiguous (c : Ty) (s : Selection) : Prop :=
  ∀ (i j : Nat) (a b : Ty × Part), s.assocs[i]? = some a → s.assocs[j]? = some b → Compatible c a.1 → Compatible c b.1 → i = j

end Kefir.Generic
