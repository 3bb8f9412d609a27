import Verif.Base

/-!
# Model of `source/core/hashtree.c`

The C structure is an unbalanced binary search tree ordered by a 64-bit hash.  Nodes carry
parent pointers; the model is a functional tree, parent pointers are recovered from the
path (`Ctx`) from a node to the root.  Simplifications:

* NULL-parameter checks of the API functions are not modelled.
* hashes are natural numbers (the C code only compares them with `<` and `>`), so the theorems hold
  in particular for every 64-bit hash function.
* `kefir_hashtree_node::height` is never read by the C code and is dropped.
* the success of `KEFIR_MALLOC` is an explicit Boolean argument.
-/

namespace Kefir.HashTree

/-- Payload of `struct kefir_hashtree_node` (`headers/kefir/core/hashtree.h:31-40`). -/
structure Entry (K V : Type) where
  hash : Nat
  key : K
  value : V
  deriving Repr

/-- A node pointer with the subtree reachable from it (`headers/kefir/core/hashtree.h:31-40`);
`nil` is the NULL pointer. -/
inductive Node (K V : Type) where
  | nil
  | mk (left : Node K V) (entry : Entry K V) (right : Node K V)
  deriving Repr

/-- `struct kefir_hashtree_ops` (`headers/kefir/core/hashtree.h:56-60`). -/
structure Ops (K : Type) where
  hash : K → Nat
  compareKeys : K → K → Bool

variable {K V : Type}

/-- `node_insert`, `source/core/hashtree.c:54-84`, called with `replace = false` and
`oldvalue = NULL` as at line 148 (its only caller).  The C function tests for a NULL child before
recursing and allocates the new node there; here the `nil` case does it.  `alloc` is the outcome of
`node_alloc` (lines 39-52). -/
def nodeInsert (ops : Ops K) (alloc : Bool) (hash : Nat) (key : K) (value : V) :
    Node K V → Res (Node K V)
  | .nil => if alloc then .ok (.mk .nil ⟨hash, key, value⟩ .nil) else .error .memallocFailure
  | .mk l e r =>
    if hash < e.hash then
      match nodeInsert ops alloc hash key value l with
      | .ok l' => .ok (.mk l' e r)
      | .error c => .error c
    else if hash > e.hash || !ops.compareKeys e.key key then
      match nodeInsert ops alloc hash key value r with
      | .ok r' => .ok (.mk l e r')
      | .error c => .error c
    else .error .alreadyExists

/-- `node_find`, `source/core/hashtree.c:86-100` (the redundant second `hash < root->hash` test of
line 94 is kept). -/
def nodeFind (ops : Ops K) (hash : Nat) (key : K) : Node K V → Option (Entry K V)
  | .nil => none
  | .mk l e r =>
    if hash < e.hash then nodeFind ops hash key l
    else if hash < e.hash || !ops.compareKeys e.key key then nodeFind ops hash key r
    else some e

/-- `node_minimum`, `source/core/hashtree.c:102-108`, returning the entry of the leftmost node
together with its right child. -/
def nodeMinimum : Node K V → Option (Entry K V × Node K V)
  | .nil => none
  | .mk .nil e r => some (e, r)
  | .mk (.mk ll le lr) _ _ => nodeMinimum (.mk ll le lr)

/-- The effect on the right subtree of unlinking its leftmost node, when that node is not the
subtree's root: `source/core/hashtree.c:195-201` (its parent's left child becomes its right
child). When the leftmost node is the subtree's root, its right child is kept (lines 192-194). -/
def unlinkMinimum : Node K V → Node K V
  | .nil => .nil
  | .mk .nil _ r => r
  | .mk (.mk ll le lr) e r => .mk (unlinkMinimum (.mk ll le lr)) e r

/-- The computation of `replacement` in `kefir_hashtree_delete`, `source/core/hashtree.c:182-205`,
for the node with children `l` and `r`. -/
def deleteReplacement (l r : Node K V) : Node K V :=
  match l, r with
  | .nil, .nil => .nil
  | .mk ll le lr, .nil => .mk ll le lr
  | .nil, .mk rl re rr => .mk rl re rr
  | .mk ll le lr, .mk rl re rr =>
    match nodeMinimum (.mk rl re rr) with
    | some (m, _) => .mk (.mk ll le lr) m (unlinkMinimum (.mk rl re rr))
    | none => .nil

/-- `kefir_hashtree_delete`, `source/core/hashtree.c:176-225`: the node is located with the search
of `node_find` and replaced (in its parent's child slot, lines 206-216) by `deleteReplacement`.
Returns the new tree and the entry handed to the `node_remove` callback (lines 220-222).
Simplification: locating the node and patching its parent's slot are one recursion. -/
def nodeDelete (ops : Ops K) (hash : Nat) (key : K) :
    Node K V → Option (Node K V × Entry K V)
  | .nil => none
  | .mk l e r =>
    if hash < e.hash then
      match nodeDelete ops hash key l with
      | some (l', x) => some (.mk l' e r, x)
      | none => none
    else if hash < e.hash || !ops.compareKeys e.key key then
      match nodeDelete ops hash key r with
      | some (r', x) => some (.mk l e r', x)
      | none => none
    else some (deleteReplacement l r, e)

/-- Entries handed to the removal callback by `node_free`, `source/core/hashtree.c:26-37`
(children first). -/
def nodeFree : Node K V → List (Entry K V)
  | .nil => []
  | .mk l e r => nodeFree l ++ nodeFree r ++ [e]

/-! ## API -/

/-- `kefir_hashtree_insert`, `source/core/hashtree.c:139-150`.  Note that for an empty tree the
result of `node_alloc` is stored in `tree->root` without being checked (lines 144-146). -/
def insert (ops : Ops K) (alloc : Bool) (key : K) (value : V) (root : Node K V) :
    Res (Node K V) :=
  match root with
  | .nil => .ok (if alloc then .mk .nil ⟨ops.hash key, key, value⟩ .nil else .nil)
  | .mk l e r => nodeInsert ops alloc (ops.hash key) key value (.mk l e r)

/-- `kefir_hashtree_at`, `source/core/hashtree.c:152-162`. -/
def at' (ops : Ops K) (key : K) (root : Node K V) : Res (Entry K V) :=
  match nodeFind ops (ops.hash key) key root with
  | some e => .ok e
  | none => .error .notFound

/-- `kefir_hashtree_has`, `source/core/hashtree.c:164-169`. -/
def has (ops : Ops K) (key : K) (root : Node K V) : Bool :=
  (nodeFind ops (ops.hash key) key root).isSome

/-- `kefir_hashtree_empty`, `source/core/hashtree.c:171-174`. -/
def empty : Node K V → Bool
  | .nil => true
  | .mk _ _ _ => false

/-- `kefir_hashtree_delete`, `source/core/hashtree.c:176-225`. -/
def delete (ops : Ops K) (key : K) (root : Node K V) : Res (Node K V × Entry K V) :=
  match nodeDelete ops (ops.hash key) key root with
  | some p => .ok p
  | none => .error .notFound

/-- `kefir_hashtree_clean` / `kefir_hashtree_free`, `source/core/hashtree.c:131-137, 227-233`. -/
def clean (root : Node K V) : Node K V × List (Entry K V) := (.nil, nodeFree root)

/-! ## Iteration -/

/-- The chain of `parent` pointers above a node, with the sibling subtrees. -/
inductive Ctx (K V : Type) where
  | top
  /-- the node is the left child of a node holding `e` with right child `r` -/
  | left (e : Entry K V) (r : Node K V) (up : Ctx K V)
  /-- the node is the right child of a node holding `e` with left child `l` -/
  | right (l : Node K V) (e : Entry K V) (up : Ctx K V)

/-- `struct kefir_hashtree_node_iterator` (`headers/kefir/core/hashtree.h:51-54`) positioned at a
node: the node's children, its entry, its ancestors and `last_hash`. -/
structure Pos (K V : Type) where
  left : Node K V
  entry : Entry K V
  right : Node K V
  ctx : Ctx K V
  lastHash : Nat

/-- `min_node`, `source/core/hashtree.c:235-245`, also setting `last_hash` as its callers do
(lines 254 and 264). -/
def minNode : Node K V → Ctx K V → Option (Pos K V)
  | .nil, _ => none
  | .mk l e r, c =>
    match minNode l (.left e r c) with
    | some p => some p
    | none => some ⟨l, e, r, c, e.hash⟩

/-- `kefir_hashtree_iter`, `source/core/hashtree.c:247-257`. -/
def iter (root : Node K V) : Option (Pos K V) := minNode root .top

/-- The `while` loop over parents in `kefir_hashtree_next`, `source/core/hashtree.c:267-276`. -/
def climb (lastHash : Nat) : Node K V → Ctx K V → Option (Pos K V)
  | _, .top => none
  | n, .left e r up =>
    if e.hash > lastHash then some ⟨n, e, r, up, e.hash⟩
    else climb lastHash (.mk n e r) up
  | n, .right l e up =>
    if e.hash > lastHash then some ⟨l, e, n, up, e.hash⟩
    else climb lastHash (.mk l e n) up

/-- `kefir_hashtree_next`, `source/core/hashtree.c:259-277`. -/
def next (p : Pos K V) : Option (Pos K V) :=
  match p.right with
  | .mk rl re rr => minNode (.mk rl re rr) (.right p.left p.entry p.ctx)
  | .nil => climb p.lastHash (.mk p.left p.entry .nil) p.ctx

/-- The entry seen after one `iter` and `n` calls of `next` (`none`: iterator exhausted;
`kefir_hashtree_next` keeps returning NULL then, line 261). -/
def nth (root : Node K V) : Nat → Option (Pos K V)
  | 0 => iter root
  | n + 1 => (nth root n).bind next

end Kefir.HashTree
