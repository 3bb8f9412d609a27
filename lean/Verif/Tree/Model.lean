import Verif.Base

/-!
# Model of `source/core/tree.c`

A node is a value with the ordered list of its children (the C children list and the sibling
pointers describe the same order: `kefir_tree_insert_child`, lines 67-101, appends to the list and
links the new child after the former last one).  Simplifications: allocation succeeds, parent
pointers are implicit, node identity is the node's path and is not modelled.
-/

namespace Kefir.Tree

/-- `struct kefir_tree_node`, `headers/kefir/core/tree.h`. -/
inductive Node (V : Type) where
  | mk (value : V) (children : List (Node V))

variable {V : Type}

def Node.value : Node V → V
  | .mk v _ => v

def Node.children : Node V → List (Node V)
  | .mk _ c => c

/-- `kefir_tree_init`, `source/core/tree.c:34-46`. -/
def init (v : V) : Node V := .mk v []

/-- `kefir_tree_insert_child`, `source/core/tree.c:67-101`. -/
def insertChild (n : Node V) (v : V) : Node V := .mk n.value (n.children ++ [init v])

/-- `struct kefir_tree_node_iterator`. -/
structure Iter (V : Type) where
  current : Option (Node V)
  pending : List (Node V)

/-- `kefir_tree_iter`, `source/core/tree.c:120-127`. -/
def iter (root : Node V) : Iter V := ⟨some root, []⟩

/-- `kefir_tree_iter_next`, `source/core/tree.c:129-151`: children of the current node are appended
to the tail of `pending`, whose head becomes current. -/
def iterNext (it : Iter V) : Iter V × Res Unit :=
  match it.current with
  | none => (it, .ok ())
  | some c =>
    match it.pending ++ c.children with
    | h :: rest => (⟨some h, rest⟩, .ok ())
    | [] => (⟨none, []⟩, .error .iteratorEnd)

/-- The iterator after `n` steps. -/
def steps (root : Node V) : Nat → Iter V
  | 0 => iter root
  | n + 1 => (iterNext (steps root n)).1

mutual
/-- `kefir_tree_free`, `source/core/tree.c:48-57`: the values handed to the removal callback; the
children list is freed by `child_node_remove` (lines 24-32). -/
def free : Node V → List V
  | .mk v cs => v :: freeAll cs
def freeAll : List (Node V) → List V
  | [] => []
  | c :: cs => free c ++ freeAll cs
end

end Kefir.Tree
