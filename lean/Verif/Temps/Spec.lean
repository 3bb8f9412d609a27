import Verif.Locals.Spec
/-!
# Specification: storage of temporary objects

Compound literals, and the structures and unions that calls return, are objects without a name.
-/

namespace Kefir.Temps

open Kefir.Layout

/-- What happens in the analysis of a function: an unnamed object is needed, or the unnamed objects so far are
not needed any more. -/
inductive Event where
  | temporary (ty : Ty)
  | nextBlock

/-- The unnamed objects with their types, and how many times before each of them the earlier ones were given
up. -/
def temporaries : Nat → List Event → List (Nat × Ty)
  | _, [] => []
  | b, .temporary ty :: es => (b, ty) :: temporaries b es
  | b, .nextBlock :: es => temporaries (b + 1) es

end Kefir.Temps
