import Verif.Base

/-!
# Model of `source/core/vector.c`

Element storage is a list of slots, one per unit of capacity; an uninitialised slot is `none`.
Element size is abstracted: an element is one value.  `content == NULL` is `slots = none`.
Simplification: `length + count` in `kefir_vector_extend` does not wrap.
-/

namespace Kefir.Vector

/-- `struct kefir_vector`, `headers/kefir/core/vector.h:27-32` (`capacity` is the number of
slots). -/
structure Vec (E : Type) where
  content : Option (List (Option E))
  length : Nat
  capacity : Nat
  deriving DecidableEq, Repr

variable {E : Type}

/-- `kefir_vector_alloc`, `source/core/vector.c:90-106`. -/
def alloc (capacity : Nat) : Vec E :=
  if capacity > 0 then ⟨some (List.replicate capacity none), 0, capacity⟩ else ⟨none, 0, 0⟩

/-- Slots of the content (none if NULL). -/
def Vec.slots (v : Vec E) : List (Option E) := v.content.getD []

/-- `kefir_vector_length`, `source/core/vector.c:38-41`. -/
def length (v : Vec E) : Nat := v.length

/-- `kefir_vector_available`, `source/core/vector.c:43-46`. -/
def available (v : Vec E) : Nat := v.capacity - v.length

/-- `kefir_vector_at`, `source/core/vector.c:48-54`: NULL out of range, otherwise the slot. -/
def at' (v : Vec E) (i : Nat) : Option (Option E) :=
  if i < v.length then some (v.slots[i]?.join) else none

/-- `kefir_vector_append`, `source/core/vector.c:56-67`. -/
def append (v : Vec E) (e : E) : Res (Vec E) :=
  if v.length < v.capacity then
    .ok { v with content := v.content.map (fun s => s.set v.length (some e)), length := v.length + 1 }
  else .error .outOfBounds

/-- Overwrite slots from position `i` on (`memcpy`). -/
def writeFrom (s : List (Option E)) (i : Nat) : List E → List (Option E)
  | [] => s
  | e :: es => writeFrom (s.set i (some e)) (i + 1) es

/-- `kefir_vector_copy`, `source/core/vector.c:69-80`: `memcpy` to the start of the content (line
76), then `length += length`.  `src = []` stands for `src == NULL`. -/
def copy (v : Vec E) (src : List E) : Res (Vec E) :=
  if available v ≥ src.length then
    .ok { v with content := v.content.map (fun s => writeFrom s 0 src),
                 length := v.length + src.length }
  else .error .outOfBounds

/-- `kefir_vector_extend`, `source/core/vector.c:82-88`. -/
def extend (v : Vec E) (count : Nat) : Res (Vec E) :=
  if v.length + count ≤ v.capacity then .ok { v with length := v.length + count }
  else .error .outOfBounds

/-- `kefir_vector_realloc`, `source/core/vector.c:108-126`, allocation succeeding
(`realloc(p, 0)` is not considered: `new_capacity > 0` for the theorems). -/
def realloc (v : Vec E) (newCapacity : Nat) : Res (Vec E) :=
  if (v.content.isSome && v.length > 0) || (v.content.isNone && v.length == 0) then
    if v.length ≤ newCapacity then
      .ok { v with content := some ((v.slots ++ List.replicate newCapacity none).take newCapacity),
                   capacity := newCapacity }
    else .error .outOfBounds
  else .error .invalidState

/-- A store through the pointer returned by `kefir_vector_at` (the client's write). -/
def store (v : Vec E) (i : Nat) (e : E) : Vec E :=
  { v with content := v.content.map (fun s => s.set i (some e)) }

end Kefir.Vector
