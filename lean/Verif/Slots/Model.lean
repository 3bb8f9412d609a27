import Verif.Slots.Spec
import Verif.StaticData.Model
/-!
# The slots of initialisers (`source/ir/type_tree.c`, `source/ast-translator/scope/data_initializer.c`)

Simplifications: the hash tree `index` of a type tree is a list; keys are positions of entries, which the
traversal visits once each.  The lists `roots` and `subtypes`, which nothing reads, are left out.  Values are
already converted (C17, C18).
-/

namespace Kefir.Slots

open Kefir.Layout Kefir.Abi Kefir.StaticData

/-- headers/kefir/ir/type_tree.h:30-38 `struct kefir_ir_type_tree_node`; `parent` is the index of the
parent. -/
structure Node where
  index : Nat
  slot : Nat
  width : Nat
  parent : Option Nat
  deriving DecidableEq, Repr

/-- source/ir/type_tree.c:89-121 `visit_typeentry` with `alloc_node` (48-87), under
`kefir_ir_type_visitor_list_nodes` (source/ir/type.c:237-283): the nodes and the next slot. -/
def visit (t : List Entry) (i count : Nat) (parent : Option Nat) (slot : Nat) : Option (List Node × Nat) :=
  match count with
  | 0 => some ([], slot)
  | n + 1 =>
    if _h : i < t.length then
      let e := t[i]
      let nested : Option (List Node × Nat) := match e.code with
        | .struct | .union =>
          if e.param > 0 then
            match visit t (i + 1) e.param (some i) 1 with
            | none => none
            | some (ns, s) => some (ns, s)
          else none
        | .array =>
          match visit t (i + 1) 1 (some i) 1 with
          | none => none
          | some (ns, s) => some (ns, (s - 1) * e.param + 1)
        | .leaf _ => some ([], 1)
      match nested with
      | none => none
      | some (ns, width) =>
        match visit t (i + nodeLen t i) n parent (slot + width) with
        | none => none
        | some (more, s) => some (⟨i, slot, width, parent⟩ :: ns ++ more, s)
    else some ([], slot)
termination_by (t.length - i, count)
decreasing_by
  all_goals first
    | (apply Prod.Lex.left; omega)
    | (apply lex_of_le <;> omega)

/-- source/ir/type_tree.c:123-145 `kefir_ir_type_tree_init`.  When the traversal fails the tree is emptied,
and the result is success all the same. -/
def treeInit (t : List Entry) : List Node :=
  match visit t 0 (nodes t) none 0 with
  | some (ns, _) => ns
  | none => []

/-- source/ir/type_tree.c:157-166 `kefir_ir_type_tree_at`. -/
def treeAt (tree : List Node) (index : Nat) : Option Node := tree.find? fun n => n.index == index

/-- source/ast-translator/scope/translator.c:28-31 `resolve_base_slot`; there are not more parents than
nodes. -/
def baseSlot (tree : List Node) : Nat → Option Nat → Nat
  | fuel + 1, some i =>
    match treeAt tree i with
    | some n => baseSlot tree fuel n.parent + n.slot
    | none => 0
  | _, _ => 0

/-- headers/kefir/ast/type_layout.h `struct kefir_ast_type_layout`: `value` is the index of the entry in the
type, an array has one part, its element.  Members that are bit-fields of one run have the same entry and are
one part. -/
inductive Lay where
  | node (value : Nat) (parts : List Lay)

def Lay.value : Lay → Nat
  | .node v _ => v

def Lay.parts : Lay → List Lay
  | .node _ ps => ps

mutual
/-- The layout that source/ast-translator/type_translate.c makes beside the entries of a type: the value is
the number of entries before (`kefir_ir_type_total_length`). -/
def layOf : Ty → Nat → Lay
  | .leaf _ _ _, i => .node i []
  | .struct _ ms, i => .node i (laysOf ms (i + 1))
  | .union _ ms, i => .node i (laysOf ms (i + 1))
  | .array _ _ e, i => .node i [layOf e (i + 1)]

def laysOf : List Ty → Nat → List Lay
  | [], _ => []
  | t :: ts, i => layOf t i :: laysOf ts (i + (flatten t).length)
end

/-- source/ast-translator/scope/data_initializer.c:92-111 `add_designated_slot`. -/
def addDesignatedSlot (tree : List Node) (slot : Nat) (l : Lay) : Step → Option Nat
  | .member _ =>
    match treeAt tree l.value with
    | some n => some (slot + n.slot)
    | none => none
  | .element i =>
    match treeAt tree l.value with
    | some n => some (slot + (n.slot + i * n.width))
    | none => none

/-- source/ast/type_layout.c:206-251 `resolve_member`, `resolve_subscript`: the layout of a part. -/
def resolvePart (l : Lay) : Step → Option Lay
  | .member i => l.parts[i]?
  | .element _ => l.parts[0]?

/-- source/ast/type_layout.c:253-269 `resolve_layout` with the callback `add_designated_slot`, from
`resolve_designated_slot` (data_initializer.c:113-134). -/
def resolveSlot (tree : List Node) : Lay → Nat → List Step → Option (Lay × Nat)
  | l, slot, [] => some (l, slot)
  | l, slot, s :: p =>
    match resolvePart l s with
    | none => none
    | some l' =>
      match addDesignatedSlot tree slot l' s with
      | none => none
      | some slot' => resolveSlot tree l' slot' p

mutual
/-- source/ast-translator/scope/data_initializer.c:157-320 `visit_value`, `visit_string_literal`,
`visit_initializer_list`: the values that are stored, with their slots. -/
def translate (tree : List Node) (l : Lay) (base : Nat) : Init → Option (List (Nat × Value))
  | .value p v =>
    match resolveSlot tree l base p with
    | none => none
    | some (_, slot) => some [(slot, v)]
  | .list p is =>
    match resolveSlot tree l base p with
    | none => none
    | some (l', slot) => translateAll tree l' slot is

/-- source/ast-translator/scope/data_initializer.c:322-360 `kefir_ast_translate_data_initializer`. -/
def translateAll (tree : List Node) (l : Lay) (base : Nat) : List Init → Option (List (Nat × Value))
  | [] => some []
  | i :: is =>
    match translate tree l base i with
    | none => none
    | some ws =>
      match translateAll tree l base is with
      | none => none
      | some more => some (ws ++ more)
end

/-- source/ast-translator/scope/translator.c:33-57 `initialize_data`, for the object with layout `l`. -/
def initializeData (t : List Entry) (l : Lay) (is : List Init) : Option (List (Nat × Value)) :=
  match treeAt (treeInit t) l.value with
  | none => none
  | some n => translateAll (treeInit t) l (baseSlot (treeInit t) ((treeInit t).length + 1) (some n.index)) is

/-- source/ast-translator/scope/translator.c:129-170 `translate_static`, the loop over objects: the values
stored for the objects `k`, which share one type. -/
def translateObjects (t : List Entry) (ls : List Lay) : List (Nat × List Init) → Option (List (Nat × Value))
  | [] => some []
  | (k, is) :: more =>
    match ls[k]? with
    | none => none
    | some l =>
      match initializeData t l is with
      | none => none
      | some ws =>
        match translateObjects t ls more with
        | none => none
        | some rest => some (ws ++ rest)

end Kefir.Slots
