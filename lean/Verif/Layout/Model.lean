import Verif.Layout.Spec

/-!
# Model of the layout computation

`source/ir/type.c` (traversal of IR types), `source/codegen/util.c` and
`source/codegen/amd64/system-v/abi/data_layout.c`.  Sizes are natural numbers: overflow of
`kefir_size_t` is not modelled.  An IR type is a list of entries, indexed as in the code.
-/

namespace Kefir.Layout

/-- `source/codegen/util.c:23-32`, `kefir_codegen_pad_aligned`. -/
def padAligned (offset alignment : Nat) : Nat :=
  if alignment = 0 then offset
  else
    let padding := offset % alignment
    if padding ≠ 0 then offset + (alignment - padding) else offset

/-- For the termination of the traversals. -/
theorem lex_of_le {a b c d : Nat} (h : a ≤ b) (h2 : c < d) :
    Prod.Lex (fun x y : Nat => x < y) (fun x y : Nat => x < y) (a, c) (b, d) := by
  by_cases hn : a = b
  · rw [hn]; exact Prod.Lex.right _ h2
  · exact Prod.Lex.left _ _ (by omega)

mutual
/-- `source/ir/type.c:147-167`, `kefir_ir_type_node_total_length`. -/
def nodeLen (t : List Entry) (i : Nat) : Nat :=
  if _h : i < t.length then
    match t[i].code with
    | .struct => 1 + childrenLen t (i + 1) t[i].param
    | .union => 1 + childrenLen t (i + 1) t[i].param
    | .array => nodeLen t (i + 1) + 1
    | .leaf _ => 1
  else 0
termination_by (t.length - i, 0)
decreasing_by all_goals (apply Prod.Lex.left; omega)

/-- The loop of `source/ir/type.c:153-158`: length of `counter` consecutive nodes from `j`. -/
def childrenLen (t : List Entry) (j counter : Nat) : Nat :=
  match counter with
  | 0 => 0
  | c + 1 => nodeLen t j + childrenLen t (j + nodeLen t j) c
termination_by (t.length - j, counter)
decreasing_by
  · apply Prod.Lex.right; omega
  · apply lex_of_le <;> omega
end

/-- `source/codegen/amd64/system-v/abi/data_layout.c:29-72`, `kefir_amd64_sysv_scalar_type_layout`;
`:133-152`, `:163-177`, `:228-231` with `abi/builtins/vararg.c:27-37`: size and alignment of the
objects without parts. -/
def leafLayout (k : Leaf) (param : Nat) : Res (Nat × Nat) :=
  match k with
  | .bool | .char | .int8 => .ok (1, 1)
  | .short | .int16 => .ok (2, 2)
  | .int | .int32 => .ok (4, 4)
  | .long | .word | .int64 => .ok (8, 8)
  | .bits => .ok (param / 8 + (if param % 8 ≠ 0 then 1 else 0), 1)
  | .float32 => .ok (4, 4)
  | .float64 => .ok (8, 8)
  | .longDouble => .ok (16, 16)
  | .pad => .ok (param, 1)
  | .memory => .ok (param, 1)
  | .builtin => if param < 1 then .ok (3 * 8, 8) else .error .internalError

/-- `data_layout.c:84-92`, `struct compound_type_layout`. -/
structure Compound where
  offset : Nat
  maxAlignment : Nat
  maxSize : Nat
  aggregate : Bool
  aligned : Bool
  deriving DecidableEq, Repr

/-- A fresh `compound_type_layout` (`data_layout.c:186-192`, `:208-214`, `:238-244`). -/
def Compound.fresh (aggregate : Bool) : Compound :=
  { offset := 0, maxAlignment := 0, maxSize := 0, aggregate, aligned := true }

/-- `data_layout.c:94-114`, `update_compound_type_layout`. -/
def update (c : Compound) (d : Data) (e : Entry) : Compound × Data :=
  let d := if e.alignment ≠ 0 then
      { d with aligned := decide (e.alignment ≥ d.alignment), alignment := e.alignment } else d
  let c := if c.aggregate ∧ e.code ≠ .leaf .bits then
      { c with offset := padAligned c.offset d.alignment } else c
  let c := { c with maxAlignment := max c.maxAlignment d.alignment }
  let c := { c with maxSize := max c.maxSize d.size }
  let c := if c.aligned ∧ ¬ d.aligned then { c with aligned := false } else c
  let d := { d with offset := c.offset }
  let c := if c.aggregate then { c with offset := c.offset + d.size } else c
  (c, d)

/-- `data_layout.c:195-200`: data of a structure or union from the finished traversal of its
members.  (`relative_offset` is set by the update.) -/
def compoundData (isStruct : Bool) (n : Compound) : Data :=
  { size := padAligned (if isStruct then n.offset else n.maxSize) n.maxAlignment
    alignment := n.maxAlignment, aligned := n.aligned, offset := 0 }

/-- `data_layout.c:217-219`: data of an array. -/
def arrayData (n : Compound) (param : Nat) : Data :=
  { size := n.maxSize * param, alignment := n.maxAlignment, aligned := n.aligned, offset := 0 }

/-- `source/ir/type.c:237-283`, `kefir_ir_type_visitor_list_nodes`, with the callbacks
`calculate_integer_layout`, `calculate_sse_layout`, `calculate_amorphous_layout`,
`calculate_struct_union_layout`, `calculate_array_layout` and `calculate_builtin_layout` of
`data_layout.c:116-233`.  `v` is the vector of results; `none` is an element that has not been
written. -/
def layoutNodes (t : List Entry) (i count : Nat) (c : Compound) (v : List (Option Data)) :
    Res (Compound × List (Option Data)) :=
  match count with
  | 0 => .ok (c, v)
  | n + 1 =>
    if _h : i < t.length then
      let e := t[i]
      match e.code with
      | .struct =>
        if e.param > 0 then do
          let (nested, v) ← layoutNodes t (i + 1) e.param (.fresh true) v
          let (c, d) := update c (compoundData true nested) e
          layoutNodes t (i + nodeLen t i) n c (v.set i (some d))
        else .error .invalidState
      | .union =>
        if e.param > 0 then do
          let (nested, v) ← layoutNodes t (i + 1) e.param (.fresh false) v
          let (c, d) := update c (compoundData false nested) e
          layoutNodes t (i + nodeLen t i) n c (v.set i (some d))
        else .error .invalidState
      | .array => do
          let (nested, v) ← layoutNodes t (i + 1) 1 (.fresh false) v
          let (c, d) := update c (arrayData nested e.param) e
          layoutNodes t (i + nodeLen t i) n c (v.set i (some d))
      | .leaf k => do
          let (size, alignment) ← leafLayout k e.param
          let (c, d) := update c { size, alignment, aligned := true, offset := 0 } e
          layoutNodes t (i + nodeLen t i) n c (v.set i (some d))
    else .ok (c, v)
termination_by (t.length - i, count)
decreasing_by
  all_goals first
    | (apply Prod.Lex.left; omega)
    | (apply lex_of_le <;> omega)

/-- `data_layout.c:235-277`, `kefir_amd64_sysv_type_layout_of` with `calculate_layout`: the layout of
`count` nodes from `index`.  Allocation failure is not modelled. -/
def typeLayoutOf (t : List Entry) (index count : Nat) : Res (List (Option Data)) :=
  if index ≤ t.length then do
    let (_, v) ← layoutNodes t index count (.fresh true) (List.replicate t.length none)
    pure v
  else .error .outOfBounds

/-- `source/ir/type.c:121-129`, `kefir_ir_type_nodes`: the traversal with a counter (`subtree_counter`,
`:111-119`); 0 if it fails. -/
def countNodes (t : List Entry) (i count acc : Nat) : Nat :=
  match count with
  | 0 => acc
  | n + 1 =>
    if _h : i < t.length then
      match t[i].code with
      | .struct | .union =>
        if t[i].param > 0 then countNodes t (i + nodeLen t i) n (acc + 1) else 0
      | _ => countNodes t (i + nodeLen t i) n (acc + 1)
    else acc

def nodes (t : List Entry) : Nat := countNodes t 0 t.length 0

/-- `data_layout.c:279-287`, `kefir_amd64_sysv_type_layout`. -/
def typeLayout (t : List Entry) : Res (List (Option Data)) :=
  typeLayoutOf t 0 (nodes t)

end Kefir.Layout
