import Verif.LinkedList.Spec

/-!
# Model of `source/core/linked_stack.c` on top of the heap-level list model
-/

namespace Kefir.Stack

open LinkedList

variable {V : Type}

/-- `kefir_linked_stack_push`, `source/core/linked_stack.c:24-29`; `a` is the address returned by the
allocator. -/
def push (w : World V) (l : Nat) (v : V) (a : Addr) : Option (World V) := do
  let (w, _) ← implStep w (.insertAfter l (w.lists l).tail v a)
  return w

/-- `kefir_linked_stack_pop`, `source/core/linked_stack.c:31-46`; the inner option is NULL when the
stack is empty. -/
def pop (w : World V) (l : Nat) : Option (World V × Option V) :=
  match (w.lists l).tail with
  | none => some (w, none)
  | some t => do
    let c ← w.heap t
    let (w, _) ← implStep w (.pop l t)
    return (w, some c.value)

/-- `kefir_linked_stack_peek`, `source/core/linked_stack.c:48-57`. -/
def peek (w : World V) (l : Nat) : Option (Option V) :=
  match (w.lists l).tail with
  | none => some none
  | some t => do
    let c ← w.heap t
    return some c.value

end Kefir.Stack
