import Verif.Enumerators.Model

/-! # Enumerators: what it means that the compiler shows the events of the specification -/

namespace Kefir.Enumerators
open Kefir.Types (Basic)
open Kefir.C17
open Kefir.IR (Word)

/-- A value of an enumerator as the compiler records it. -/
def encV (p : Name × Int) : Name × Word := (p.1, BitVec.ofInt 64 p.2)

/-- The event of the compiler for an event of the specification: the same values, and a type that represents them. -/
def Shows : Event → KEvent → Prop
  | .enumeration vs, .enumeration ws t => ws = vs.map encV ∧ ∀ x v, (x, v) ∈ vs → InRange t v
  | .value v, .value w => w = BitVec.ofInt 64 v
  | _, _ => False

/-- Sequences of events. -/
inductive ShowsAll : List Event → List KEvent → Prop
  | nil : ShowsAll [] []
  | cons {e : Event} {k : KEvent} {es : List Event} {ks : List KEvent} : Shows e k → ShowsAll es ks → ShowsAll (e :: es) (k :: ks)

end Kefir.Enumerators
