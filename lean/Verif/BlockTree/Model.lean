import Verif.HashTree.Model

/-!
# Model of `source/core/block_tree.c`

A block tree maps block numbers to memory blocks through a hash tree keyed by the block number.
Blocks live in a heap indexed by addresses; `KEFIR_MALLOC` returns the next unused address
(simplification: allocation succeeds; the C code does not check it at line 118).
Positions are natural numbers: wrap-around of `(block_id + 1) * block_size` is not modelled.
-/

namespace Kefir.BlockTree

open Kefir.HashTree (Node Pos)

/-- `kefir_hashtree_uint_ops`, `source/core/hashtree.c:300-317`. -/
def uintOps : HashTree.Ops Nat := ⟨id, fun a b => a == b⟩

/-- `struct kefir_block_tree` (`headers/kefir/core/block_tree.h:38-44`) with the heap its blocks live
in. `init` is what the `on_block_init` callback stores in a fresh block. -/
structure BT (β : Type) where
  tree : Node Nat Nat
  blockSize : Nat
  heap : Nat → Nat → β
  nextAddr : Nat

variable {β : Type}

/-- `kefir_block_tree_init`, `source/core/block_tree.c:42-52`. -/
def init (blockSize : Nat) (junk : Nat → Nat → β) : Res (BT β) :=
  if blockSize > 0 then .ok ⟨.nil, blockSize, junk, 0⟩ else .error .invalidParameter

/-- `kefir_block_tree_get_block_offset`, `source/core/block_tree.c:81-88`. -/
def getBlockOffset (t : BT β) (position : Nat) : Nat × Nat :=
  (position / t.blockSize, position % t.blockSize)

/-- `kefir_block_tree_get_block`, `source/core/block_tree.c:90-99`. -/
def getBlock (t : BT β) (blockId : Nat) : Res Nat :=
  match HashTree.at' uintOps blockId t.tree with
  | .ok e => .ok e.value
  | .error c => .error c

/-- `kefir_block_tree_block`, `source/core/block_tree.c:101-137`; `fill` is the effect of the
`on_block_init` callback. -/
def block (fill : Nat → Nat → β) (t : BT β) (blockId : Nat) : Res (BT β × Nat) :=
  match getBlock t blockId with
  | .ok a => .ok (t, a)
  | .error .notFound =>
    let a := t.nextAddr
    let heap := fun b => if b = a then fill blockId else t.heap b
    match HashTree.insert uintOps true blockId a t.tree with
    | .ok tree => .ok ({ t with tree, heap, nextAddr := a + 1 }, a)
    | .error c => .error c
  | .error c => .error c

/-- A client storing `v` at `position`, through `kefir_block_tree_get_block_offset` and
`kefir_block_tree_block` (the pattern of `source/codegen/amd64/system-v/abi/static_data.c`).
An access beyond the `block_size` bytes of the block (undefined in C) is an error here. -/
def write (fill : Nat → Nat → β) (t : BT β) (position : Nat) (v : β) : Res (BT β) :=
  match block fill t (getBlockOffset t position).1 with
  | .ok (t', a) =>
    if (getBlockOffset t position).2 ≥ t.blockSize then .error .outOfBounds else
    .ok { t' with heap := fun b o =>
      if b = a ∧ o = (getBlockOffset t position).2 then v else t'.heap b o }
  | .error c => .error c

/-- A client reading at `position` through `kefir_block_tree_get_block`. -/
def read (t : BT β) (position : Nat) : Res β :=
  match getBlock t (getBlockOffset t position).1 with
  | .ok a =>
    if (getBlockOffset t position).2 ≥ t.blockSize then .error .outOfBounds else
    .ok (t.heap a (getBlockOffset t position).2)
  | .error c => .error c

/-- `kefir_block_tree_iter_skip_to`, `source/core/block_tree.c:167-176`, on the position of the
underlying hash tree iterator (`none` when `iter->block == NULL`).  The outer `Option` is `none` if
the loop does not terminate. -/
def skipTo (blockSize position : Nat) (it : Option (Pos Nat Nat)) :
    Option (Option (Pos Nat Nat)) :=
  match it with
  | none => some none
  | some p =>
    if (p.entry.key + 1) * blockSize ≤ position then
      skipTo blockSize position (HashTree.next p)
    else some (some p)
partial_fixpoint

end Kefir.BlockTree
