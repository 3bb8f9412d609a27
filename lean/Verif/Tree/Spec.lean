import Verif.Tree.Model

/-! # Specification: breadth-first (level) order -/

namespace Kefir.Tree

variable {V : Type}

/-- The nodes at depth `k`, from left to right. -/
def level : Nat → Node V → List (Node V)
  | 0, n => [n]
  | k + 1, n => n.children.flatMap (level k)

/-- Number of levels of a tree. -/
def height : Node V → Nat
  | .mk _ cs => 1 + (cs.attach.map (fun c => height c.1)).foldr max 0
termination_by n => sizeOf n
decreasing_by have := List.sizeOf_lt_of_mem c.2; simp; omega

/-- All nodes, level by level. -/
def levelOrder (t : Node V) : List (Node V) := (List.range (height t)).flatMap (fun k => level k t)

/-- All values, parents before children (any order will do: used up to permutation). -/
def values : Node V → List V
  | .mk v cs => v :: cs.attach.flatMap (fun c => values c.1)
termination_by n => sizeOf n
decreasing_by have := List.sizeOf_lt_of_mem c.2; simp; omega

end Kefir.Tree
