import Verif.Init.Spec

/-!
# Model of kefir's initialisers

`source/ast/analyzer/type_traversal.c` (a stack of layers that walks over an object),
`source/ast/analyzer/initializer.c` (analysis: acceptance, length of arrays of unknown size),
`source/ast/initializer_traversal.c` (which designator each expression is stored to),
`source/ast-translator/initializer.c` (objects with automatic storage duration),
`source/ast-translator/scope/data_initializer.c` (objects with static storage duration) and the
resolution of designators in `source/ast/type_layout.c`.

Simplifications common to all definitions below:
* Memory allocation does not fail.  Error codes other than `KEFIR_NOT_FOUND` in `navigate_member`,
  `KEFIR_NOT_FOUND` in `resolve_member` and `KEFIR_NO_MATCH` of `kefir_ast_node_assignable` are not
  told apart: `err` stands for any error.  `ub` is an access through a null pointer or to the wrong
  member of a C union.  `fuel` is reported by definitions that are recursive or iterative in C
  without an evident bound when the bound given to them is used up.
* Types are complete, arrays are not variable length arrays.  The lists of struct members are
  `Fields`; `structure.iterator` is a position in the list, a position past the end stands for a
  null pointer.
* The parent pointer of a layer always points to the layer below it on the stack, so it is not
  stored.
* Expressions are known by `Env`.  `KEFIR_AST_TYPE_SAME` and `KEFIR_AST_TYPE_IS_CHARACTER` on element
  types are `Env.elemOf`, `kefir_ast_node_assignable` is `Env.assign`.
* Designations have been evaluated (`kefir_ast_evaluate_initializer_designation`,
  `source/ast/initializer.c` 130–191) and are listed outermost designator first; in C the innermost
  one comes first.
* What the emitted code does is described by effects on subobjects (`Store`), not by IR instructions.
  The addresses that the code keeps on its evaluation stack are modelled as paths.
-/

namespace Kefir.Init.Model

open Kefir.Init

variable {E : Type}

/-- `kefir_result_t` together with the result. -/
inductive Res (α : Type) where
  | ok (a : α)
  | err
  | ub
  | fuel
  deriving DecidableEq

/-- `REQUIRE_OK` followed by the rest of the function, headers/kefir/core/util.h 60–68. -/
def Res.bind {α β : Type} : Res α → (α → Res β) → Res β
  | .ok a, f => f a
  | .err, _ => .err
  | .ub, _ => .ub
  | .fuel, _ => .fuel

/-- `kefir_ast_unqualified_type`, source/ast/type/qualified.c 108–117: strips one qualification. -/
def unqual : Ty → Ty
  | .qualified t => t
  | t => t

/-- `KEFIR_AST_TYPE_IS_SCALAR_TYPE`, headers/kefir/ast/type/basic.h 75–76: false for a qualified
type. -/
def isScalarTy : Ty → Bool
  | .scalar _ => true
  | _ => false

/-- The cases `KEFIR_AST_TYPE_STRUCTURE`, `_UNION` and `_ARRAY` of a switch over the tag. -/
def isAggregateTy : Ty → Bool
  | .array _ _ => true
  | .record _ _ _ => true
  | _ => false

/-- `struct kefir_ast_type_traversal_layer`, headers/kefir/ast/analyzer/type_traversal.h 46–55.  The
kind of the layer (`type`) follows from `object_type`; `idx` is `structure.iterator` or
`array.index`. -/
structure Layer where
  ty : Ty
  idx : Nat
  init : Bool

/-- `traversal->stack`, innermost layer first. -/
abbrev Stack := List Layer

/-- `push_layer`, source/ast/analyzer/type_traversal.c 44–91.  No layer is pushed for a structure or
union without members. -/
def pushLayer (t : Ty) (st : Stack) : Stack :=
  match t with
  | .record _ _ .nil => st
  | _ => ⟨t, 0, true⟩ :: st

/-- `skip_unnamed_bitfields`, source/ast/analyzer/type_traversal.c 130–140: position of the first
member from the given position on that is not an unnamed bit-field.  When the last member is
skipped, line 137 reads through the null pointer. -/
def skip : Fields → Nat → Res Nat
  | .nil, _ => .ok 0
  | .cons name bits _ r, 0 =>
    if name = none ∧ bits = true then
      match r with
      | .nil => .ub
      | _ => (skip r 0).bind fun j => .ok (j + 1)
    else .ok 0
  | .cons _ _ _ r, i + 1 => (skip r i).bind fun j => .ok (j + 1)

/-- `is_array_finished`, source/ast/analyzer/type_traversal.c 27–31. -/
def finished (len : Option Nat) (i : Nat) : Bool :=
  match len with
  | none => false
  | some n => decide (n ≤ i) && decide (0 < n)

/-- `array_layer_next`, source/ast/analyzer/initializer.c 214–226, for the layer `l` above `rest`.
Simplified: in C the listener is installed only when the outermost object is an array, here the
length is ignored otherwise. -/
def layerNext (len : Nat) (l : Layer) (rest : Stack) : Nat :=
  if rest.isEmpty then max len (l.idx + 1) else len

/-- `array_layer_end`, source/ast/analyzer/initializer.c 228–240. -/
def layerEnd (len : Nat) (l : Layer) (rest : Stack) : Nat :=
  if rest.isEmpty then max len (l.idx + (if l.init then 0 else 1)) else len

/-- `kefir_ast_type_traversal_next`, source/ast/analyzer/type_traversal.c 142–214.  `len` is the
payload of the listeners.  The type is none when the stack is exhausted. -/
def next (len : Nat) : Stack → Res (Nat × Stack × Option Ty)
  | [] => .ok (len, [], none)
  | l :: rest =>
    match l.ty with
    | .record false _ fs =>
      (skip fs (if l.init then l.idx else l.idx + 1)).bind fun j =>
        match fs.at? j with
        | none => next (layerEnd len ⟨l.ty, j, l.init⟩ rest) rest
        | some t => .ok (layerNext len ⟨l.ty, j, false⟩ rest, ⟨l.ty, j, false⟩ :: rest, some t)
    | .record true _ fs =>
      (skip fs l.idx).bind fun j =>
        match (if l.init then fs.at? j else none) with
        | none => next (layerEnd len ⟨l.ty, j, l.init⟩ rest) rest
        | some t => .ok (layerNext len ⟨l.ty, j, false⟩ rest, ⟨l.ty, j, false⟩ :: rest, some t)
    | .array n el =>
      if finished n (if l.init then l.idx else l.idx + 1) then
        next (layerEnd len ⟨l.ty, if l.init then l.idx else l.idx + 1, l.init⟩ rest) rest
      else
        .ok (layerNext len ⟨l.ty, if l.init then l.idx else l.idx + 1, false⟩ rest,
          ⟨l.ty, if l.init then l.idx else l.idx + 1, false⟩ :: rest, some el)
    | t =>
      if l.init then .ok (layerNext len ⟨t, l.idx, false⟩ rest, ⟨t, l.idx, false⟩ :: rest, some t)
      else next (layerEnd len l rest) rest

/-- `kefir_ast_type_traversal_next_recursive2` (and `…_next_recursive`, with a `stop` that is never
true), source/ast/analyzer/type_traversal.c 216–257.  The recursion in C is bounded by `fuel`. -/
def nextRec (stop : Ty → Bool) : Nat → Nat → Stack → Res (Nat × Stack × Option Ty)
  | 0, _, _ => .fuel
  | fuel + 1, len, st =>
    (next len st).bind fun r =>
      match r.2.2 with
      | none => .ok (r.1, r.2.1, none)
      | some t =>
        if isAggregateTy t && !stop t then nextRec stop fuel r.1 (pushLayer t r.2.1)
        else .ok (r.1, r.2.1, some t)

/-- `kefir_ast_type_traversal_step`, source/ast/analyzer/type_traversal.c 259–284. -/
def step : Stack → Res Stack
  | [] => .err
  | l :: rest =>
    match l.ty with
    | .record _ _ fs =>
      match fs.at? l.idx with
      | none => .ub
      | some t => .ok (pushLayer t (l :: rest))
    | .array _ el => .ok (pushLayer el (l :: rest))
    | _ => .err

/-- Result of navigating: the new stack, `KEFIR_NOT_FOUND`, or another error. -/
inductive Nav where
  | found (st : Stack)
  | notFound
  | fail

mutual
/-- `navigate_member`, source/ast/analyzer/type_traversal.c 286–361, when a layer for `t` has just
been pushed on the stack `below`.  For an anonymous member a layer is pushed without changing the
iterator of the enclosing layer (lines 313–320, 341–348).  Simplified: an object without members,
for which no layer is pushed, is an error here; in C the search continues in the enclosing layer. -/
def navMember (m : Name) (push : Bool) : Ty → Stack → Nav
  | .record u tag fs, below => navFields m push u (.record u tag fs) fs 0 below
  | _, _ => .fail
/-- The loops of `navigate_member` (lines 292–323 for a structure, 328–351 for a union) from
position `i` on.  Line 312: an anonymous member of a structure is skipped if its type is scalar;
there is no such test for unions. -/
def navFields (m : Name) (push : Bool) (u : Bool) (whole : Ty) : Fields → Nat → Stack → Nav
  | .nil, _, _ => .notFound
  | .cons (some m') _ t r, i, below =>
    if m' = m then
      .found
        (if push then pushLayer t (⟨whole, i, false⟩ :: below)
         else if u then ⟨whole, i, true⟩ :: below
         else if i = 0 then ⟨whole, 0, true⟩ :: below
         else ⟨whole, i - 1, false⟩ :: below)
    else navFields m push u whole r (i + 1) below
  | .cons none _ t r, i, below =>
    if !u && isScalarTy t then navFields m push u whole r (i + 1) below
    else
      match navMember m push t (⟨whole, 0, true⟩ :: below) with
      | .found st => .found st
      | .fail => .fail
      | .notFound => navFields m push u whole r (i + 1) below
end

/-- `navigate_index`, source/ast/analyzer/type_traversal.c 363–396, when a layer for the type has
just been pushed on the stack `below`. -/
def navIndex (n : Nat) (push : Bool) : Ty → Stack → Nav
  | .array len el, below =>
    if (match len with | none => false | some k => decide (k ≤ n)) then .fail
    else
      .found
        (if push then pushLayer el (⟨.array len el, n, false⟩ :: below)
         else if 0 < n then ⟨.array len el, n - 1, false⟩ :: below
         else ⟨.array len el, 0, true⟩ :: below)
  | _, _ => .fail

/-- One level of `navigate_impl`, source/ast/analyzer/type_traversal.c 398–413. -/
def navDesig (d : Desig) (push : Bool) : Stack → Nav
  | [] => .fail
  | l :: below =>
    match d with
    | .field m => navMember m push l.ty below
    | .index n => navIndex n push l.ty below

/-- `navigate_impl`, source/ast/analyzer/type_traversal.c 398–413: a layer is pushed for every
designator but the last one. -/
def navAll : List Desig → Stack → Nav
  | [], st => .found st
  | d :: ds, st =>
    match ds with
    | [] => navDesig d false st
    | _ :: _ =>
      match navDesig d true st with
      | .found st' => navAll ds st'
      | .notFound => .notFound
      | .fail => .fail

/-- `kefir_ast_type_traversal_navigate`, source/ast/analyzer/type_traversal.c 415–425.
`kefir_list_clear` does not call the listener `layer_end`. -/
def navigate (root : Ty) (ds : List Desig) : Res Stack :=
  match navAll ds (pushLayer root []) with
  | .found st => .ok st
  | .notFound => .err
  | .fail => .err

/-- One iteration of `kefir_ast_type_traversal_empty`, source/ast/analyzer/type_traversal.c
430–454. -/
def layerEmpty (l : Layer) : Bool :=
  match l.ty with
  | .record false _ fs => (fs.at? l.idx).isNone || (!l.init && (fs.at? (l.idx + 1)).isNone)
  | .record true _ fs => (fs.at? l.idx).isNone || !l.init
  | .array n _ => finished n l.idx || (!l.init && finished n (l.idx + 1))
  | _ => !l.init

/-- `kefir_ast_type_traversal_empty`, source/ast/analyzer/type_traversal.c 427–456. -/
def empty (st : Stack) : Bool := st.all layerEmpty

/-- Identifier of the member at a position. -/
def nameAt : Fields → Nat → Option Name
  | .nil, _ => none
  | .cons n _ _ _, 0 => n
  | .cons _ _ _ r, i + 1 => nameAt r i

/-- `kefir_ast_type_traversal_layer_designator`, source/ast/analyzer/type_traversal.c 458–483, with
`kefir_ast_new_member_designator` and `kefir_ast_new_index_designator`, source/ast/designator.c
26–55: no designator is made for a member without identifier, and what was made for the enclosing
layers is lost with it. -/
def layerDesig : Stack → Option (List Desig)
  | [] => none
  | l :: rest =>
    match l.ty with
    | .record _ _ fs =>
      match nameAt fs l.idx with
      | some m => some ((layerDesig rest).getD [] ++ [.field m])
      | none => none
    | .array _ _ => some ((layerDesig rest).getD [] ++ [.index l.idx])
    | _ => none

/-! ### Designators in the type layout -/

/-- Result of looking up a member in a layout: position and type, `KEFIR_NOT_FOUND`, or another
error. -/
inductive Look where
  | found (p : Path) (t : Ty)
  | notFound
  | fail

/-- `kefir_hashtree_at(&structure_layout.named_members, …)`, source/ast/type_layout.c 215–217: the
table holds the members with an identifier. -/
def namedAt (m : Name) : Fields → Nat → Option (Nat × Ty)
  | .nil, _ => none
  | .cons (some m') _ t r, i => if m' = m then some (i, t) else namedAt m r (i + 1)
  | .cons none _ _ r, i => namedAt m r (i + 1)

mutual
/-- `resolve_member`, source/ast/type_layout.c 206–237.  The layout of a qualified type is that of
the unqualified one (source/ast-translator/type_translate.c 392–395). -/
def lookMember (m : Name) : Ty → Look
  | .record _ _ fs =>
    match namedAt m fs 0 with
    | some (i, t) => .found [i] (unqual t)
    | none => lookAnon m fs 0
  | .qualified t => lookMember m t
  | _ => .fail
/-- The loop over the members without identifier, lines 225–234.  An unnamed bit-field is one of
them, unless its width is zero (source/ast-translator/type_translate.c 169–176, 212–217).
Simplified: widths are not modelled, all unnamed bit-fields are in the layout. -/
def lookAnon (m : Name) : Fields → Nat → Look
  | .nil, _ => .notFound
  | .cons (some _) _ _ r, i => lookAnon m r (i + 1)
  | .cons none _ t r, i =>
    match lookMember m t with
    | .found p u => .found (i :: p) u
    | .fail => .fail
    | .notFound => lookAnon m r (i + 1)
end

/-- `kefir_ast_type_layout_resolve`, source/ast/type_layout.c 239–281: the subobject and the type of
its layout.  `t` is the type of a layout. -/
def layoutResolve : List Desig → Ty → Res (Path × Ty)
  | [], t => .ok ([], t)
  | .field m :: ds, t =>
    match lookMember m t with
    | .found p u => (layoutResolve ds u).bind fun r => .ok (p ++ r.1, r.2)
    | .notFound => .err
    | .fail => .err
  | .index n :: ds, t =>
    match t with
    | .array _ el => (layoutResolve ds (unqual el)).bind fun r => .ok (n :: r.1, r.2)
    | _ => .err

/-! ### Analysis -/

mutual
/-- `kefir_ast_initializer_head`, source/ast/initializer.c 271–281: the first expression, however
deep in braces, designations notwithstanding. -/
def head : Init E → Option E
  | .expr e => some e
  | .list its => headItems its
/-- The list case of `kefir_ast_initializer_head`. -/
def headItems : Items E → Option E
  | .nil => none
  | .cons _ i _ => head i
end

/-- The predicate chosen by `string_literal_stop_fn` (`is_char_array`, `is_array_of`),
source/ast/initializer_traversal.c 58–101, source/ast/analyzer/initializer.c 71–114. -/
def stringStop (env : Env E) (e : E) : Ty → Bool
  | .array _ el => env.elemOf e (unqual el)
  | _ => false

/-- The first part of `analyze_array` and `traverse_array`, source/ast/analyzer/initializer.c
245–256, source/ast/initializer_traversal.c 269–283: the string literal that initialises the whole
array, if any. -/
def wholeString (env : Env E) (t : Ty) (h : Option E) : Option E :=
  match h with
  | none => none
  | some e => if env.isString e && stringStop env e t then some e else none

/-- The loop in `traverse_aggregate_union`, source/ast/analyzer/initializer.c 171–176, bounded by
`fuel`: steps into subobjects until the expression can be assigned.  `t` is none if the stack was
exhausted; the type is then dereferenced (line 172, 176). -/
def assignLoop (env : Env E) (e : E) : Nat → Nat → Stack → Option Ty → Res (Nat × Stack)
  | 0, _, _, _ => .fuel
  | fuel + 1, len, st, t =>
    match t with
    | none => .ub
    | some t =>
      if env.assign e (unqual t) then .ok (len, st)
      else
        (step st).bind fun st' => (next len st').bind fun r => assignLoop env e fuel r.1 r.2.1 r.2.2

/-- The branches of `traverse_aggregate_union` for an expression,
source/ast/analyzer/initializer.c 116–135, 154–182. -/
def analyzeExpr (env : Env E) (fuel : Nat) (e : E) (len : Nat) (st : Stack) : Res (Nat × Stack) :=
  if env.isString e then
    (nextRec (stringStop env e) fuel len st).bind fun r =>
      match r.2.2 with
      | none => .ub
      | some t =>
        if stringStop env e t || env.assign e (unqual t) then .ok (r.1, r.2.1) else .err
  else if env.isScalar e then
    (nextRec (fun _ => false) fuel len st).bind fun r =>
      match r.2.2 with
      | none => .ub
      | some t => if env.assign e (unqual t) then .ok (r.1, r.2.1) else .err
  else (next len st).bind fun r => assignLoop env e fuel r.1 r.2.1 r.2.2

/-- The start of the loop body of `traverse_aggregate_union`, source/ast/analyzer/initializer.c
144–148, source/ast/initializer_traversal.c 167–171: none means that the item is passed over. -/
def start (root : Ty) (d : List Desig) (st : Stack) : Res (Option Stack) :=
  match d with
  | [] => if empty st then .ok none else .ok (some st)
  | _ :: _ => (navigate root d).bind fun st' => .ok (some st')

/-- The layers that `kefir_ast_type_traversal_free` (source/ast/analyzer/type_traversal.c 119–128)
pops, with the listener `layer_end`. -/
def freeLen (len : Nat) : Stack → Nat
  | [] => len
  | l :: rest => freeLen (layerEnd len l rest) rest

/-- `kefir_ast_analyze_initializer`, source/ast/analyzer/initializer.c 283–310, with
`analyze_scalar` 51–69, `analyze_struct_union` 188–212 and `analyze_array` 242–281, for a
brace-enclosed list or, if there is none, an expression.  `sub` is what `traverse_aggregate_union`
does for the list.  The result is `properties->type`. -/
def analyzeWith (env : Env E) (t : Ty) (h : Option E) (expr : Option E)
    (sub : Res (Nat × Stack)) : Res Ty :=
  match unqual t with
  | .scalar c =>
    match h with
    | none => .err
    | some e => if env.assign e (.scalar c) then .ok (.scalar c) else .err
  | .array n el =>
    match wholeString env (.array n el) h with
    | some e =>
      .ok (match n with | none => .array (some (env.len e)) el | some k => .array (some k) el)
    | none =>
      match expr with
      | some _ => .err
      | none =>
        sub.bind fun r =>
          .ok (match n with
            | none => .array (some (freeLen r.1 r.2)) el
            | some k => .array (some k) el)
  | .record u tag fs =>
    match expr with
    | some e => if env.assign e (.record u tag fs) then .ok (.record u tag fs) else .err
    | none => sub.bind fun _ => .ok (.record u tag fs)
  | .qualified _ => .err

/-- `traverse_aggregate_union`, source/ast/analyzer/initializer.c 137–186.  `root` is
`traversal->current_object_type`. -/
def analyzeItems (env : Env E) (fuel : Nat) : Items E → Ty → Nat → Stack → Res (Nat × Stack)
  | .nil, _, len, st => .ok (len, st)
  | .cons d i rest, root, len, st =>
    (start root d st).bind fun s =>
      match s with
      | none => analyzeItems env fuel rest root len st
      | some st1 =>
        match i with
        | .list its =>
          (next len st1).bind fun r =>
            match r.2.2 with
            | none => .err
            | some t =>
              (analyzeWith env t (headItems its) none
                (analyzeItems env fuel its (unqual t) 0 (pushLayer (unqual t) []))).bind fun _ =>
                  analyzeItems env fuel rest root r.1 r.2.1
        | .expr e =>
          (analyzeExpr env fuel e len st1).bind fun r => analyzeItems env fuel rest root r.1 r.2

/-- `kefir_ast_analyze_initializer`, source/ast/analyzer/initializer.c 283–310. -/
def analyze (env : Env E) (fuel : Nat) (t : Ty) : Init E → Res Ty
  | .expr e => analyzeWith env t (some e) (some e) .err
  | .list its =>
    analyzeWith env t (headItems its) none
      (analyzeItems env fuel its (unqual t) 0 (pushLayer (unqual t) []))

/-! ### Translation -/

/-- What the translation depends on: whether the object has static storage duration, and
`analysis.missing_braces_subobj` (source/ast-translator/initializer.c 71). -/
structure Cfg where
  isStatic : Bool
  missingBraces : Bool

/-- Result of translating: the effects and the addresses left on the evaluation stack (topmost
first) above which the code runs.  Objects of static storage duration have no evaluation stack; the
list then only holds `base_slot`. -/
abbrev Emit (E : Type) := Res (List (Store E) × List Path)

/-- The address on top of the evaluation stack (`PICK 0`). -/
def top (b : List Path) : Path := b.headD []

/-- The layout that a callback works on, source/ast-translator/initializer.c 108–114, 148–154,
196–202 and `resolve_designated_slot`, source/ast-translator/scope/data_initializer.c 113–134. -/
def target (t : Ty) (ds : Option (List Desig)) : Res (Path × Ty) :=
  match ds with
  | none => .ok ([], unqual t)
  | some ds => layoutResolve ds (unqual t)

/-- `visit_value`: `traverse_scalar`, source/ast-translator/initializer.c 101–139, and `visit_value`,
source/ast-translator/scope/data_initializer.c 155–269.  `virt` is
`initialize_aggregate_with_scalar` once the option has been checked; the address pushed by line 117
stays on the evaluation stack in this case.  For static objects the cast to a type that is not
scalar fails (line 166).  Whether the value is a constant is not modelled. -/
def visitValue (cfg : Cfg) (env : Env E) (virt : Ty → E → List Path → Emit E) (t : Ty)
    (ds : Option (List Desig)) (e : E) (b : List Path) : Emit E :=
  (target t ds).bind fun r =>
    if cfg.isStatic then
      if isScalarTy r.2 then .ok ([.value (top b ++ r.1) e], b) else .err
    else if !isScalarTy r.2 && env.decays e then
      if cfg.missingBraces then virt r.2 e ((top b ++ r.1) :: b) else .err
    else .ok ([.value (top b ++ r.1) e], b)

/-- `visit_string_literal`: `traverse_string_literal`, source/ast-translator/initializer.c 141–170
(line 161 reads the element type of the layout's type, which has to be an array), and
`visit_string_literal`, source/ast-translator/scope/data_initializer.c 271–304. -/
def visitString (cfg : Cfg) (t : Ty) (ds : Option (List Desig)) (e : E) (n : Nat)
    (b : List Path) : Emit E :=
  (target t ds).bind fun r =>
    match r.2 with
    | .array (some k) _ =>
      .ok ([.text (top b ++ r.1) e (if cfg.isStatic then min n k else n)], b)
    | .array none _ => if cfg.isStatic then .err else .ok ([.text (top b ++ r.1) e n], b)
    | _ => if cfg.isStatic then .ok ([.text (top b ++ r.1) e n], b) else .ub

/-- `layer_designator`, source/ast/initializer_traversal.c 103–116. -/
def entryDesig (d : List Desig) (st : Stack) : Res (List Desig) :=
  match d with
  | _ :: _ => .ok d
  | [] =>
    match layerDesig st with
    | some ds => .ok ds
    | none => .err

/-- The branches of `traverse_aggregate_union` for an expression,
source/ast/initializer_traversal.c 118–156 (`assign_string`) and 200–229.  In the last branch
`REQUIRE_MATCH_OK` (line 219) returns when the expression cannot be assigned after one step. -/
def emitExpr (cfg : Cfg) (env : Env E) (fuel : Nat) (virt : Ty → E → List Path → Emit E)
    (root : Ty) (d : List Desig) (e : E) (st : Stack) (b : List Path) :
    Res (Stack × List (Store E) × List Path) :=
  if env.isString e then
    (nextRec (stringStop env e) fuel 0 st).bind fun r =>
      (entryDesig d r.2.1).bind fun ds =>
        match r.2.2 with
        | none => .ub
        | some t =>
          (match t with
           | .array (some k) el =>
             if stringStop env e (.array (some k) el) then
               visitString cfg root (some ds) e (min k (env.len e)) b
             else visitValue cfg env virt root (some ds) e b
           | _ => visitValue cfg env virt root (some ds) e b).bind fun o => .ok (r.2.1, o.1, o.2)
  else if env.isScalar e then
    (nextRec (fun _ => false) fuel 0 st).bind fun r =>
      (entryDesig d r.2.1).bind fun ds =>
        (visitValue cfg env virt root (some ds) e b).bind fun o => .ok (r.2.1, o.1, o.2)
  else
    (next 0 st).bind fun r =>
      match r.2.2 with
      | none => .ub
      | some t =>
        (if env.assign e (unqual t) then .ok r.2.1
         else
           (step r.2.1).bind fun st' =>
             (next 0 st').bind fun r' =>
               match r'.2.2 with
               | none => .ub
               | some t' => if env.assign e (unqual t') then .ok r'.2.1 else .err).bind fun st'' =>
          (entryDesig d st'').bind fun ds =>
            (visitValue cfg env virt root (some ds) e b).bind fun o => .ok (st'', o.1, o.2)

/-- Is the member that the layer points to an anonymous structure or union?
source/ast/initializer_traversal.c 181–190. -/
def anonymousField : Stack → Bool
  | [] => false
  | l :: _ =>
    match l.ty with
    | .record _ _ fs =>
      match nameAt fs l.idx, fs.at? l.idx with
      | none, some t =>
        match unqual t with
        | .record _ _ _ => true
        | _ => false
      | _, _ => false
    | _ => false

/-- `begin_struct_union`, `begin_array`: `traverse_aggregate_union`,
source/ast-translator/initializer.c 172–188; not set for static objects
(source/ast-translator/scope/data_initializer.c 345–347). -/
def begin' (cfg : Cfg) (b : List Path) : List (Store E) :=
  if cfg.isStatic then [] else [.zero (top b)]

/-- `kefi_ast_traverse_initializer_impl`, source/ast/initializer_traversal.c 300–317, with
`traverse_scalar` 49–56, `traverse_struct_union` 244–263 and `traverse_array` 265–298.  `sub` is what
`traverse_aggregate_union` does for the list. -/
def emitWith (cfg : Cfg) (env : Env E) (virt : Ty → E → List Path → Emit E) (t : Ty)
    (h : Option E) (expr : Option E) (sub : Res (Stack × List (Store E) × List Path))
    (b : List Path) : Emit E :=
  match unqual t with
  | .scalar _ =>
    match h with
    | none => .err
    | some e => visitValue cfg env virt t none e b
  | .array n el =>
    match wholeString env (.array n el) h with
    | some e => visitString cfg t none e (env.len e) b
    | none =>
      match expr with
      | some _ => .err
      | none => sub.bind fun o => .ok (begin' cfg b ++ o.2.1, o.2.2)
  | .record _ _ _ =>
    match expr with
    | some e => visitValue cfg env virt t none e b
    | none => sub.bind fun o => .ok (begin' cfg b ++ o.2.1, o.2.2)
  | .qualified _ => .err

/-- `initialize_aggregate_with_scalar`, source/ast-translator/initializer.c 74–98: the expression is
translated as the only item of a list.  Nested calls are bounded by the first argument. -/
def virtual (cfg : Cfg) (env : Env E) (fuel : Nat) : Nat → Ty → E → List Path → Emit E
  | 0, _, _, _ => .fuel
  | k + 1, t, e, b =>
    emitWith cfg env (virtual cfg env fuel k) t (some e) none
      (if empty (pushLayer (unqual t) []) then .ok (pushLayer (unqual t) [], [], b)
       else emitExpr cfg env fuel (virtual cfg env fuel k) (unqual t) [] e (pushLayer (unqual t) []) b)
      b

/-- `traverse_aggregate_union`, source/ast/initializer_traversal.c 158–242, with
`visit_initializer_list`: `traverse_initializer_list`, source/ast-translator/initializer.c 190–209,
and `visit_initializer_list`, source/ast-translator/scope/data_initializer.c 306–320.  The address
pushed for a nested list is popped again (line 207). -/
def emitItems (cfg : Cfg) (env : Env E) (fuel : Nat) :
    Items E → Ty → Stack → List Path → Res (Stack × List (Store E) × List Path)
  | .nil, _, st, b => .ok (st, [], b)
  | .cons d i rest, root, st, b =>
    (start root d st).bind fun s =>
      match s with
      | none => emitItems cfg env fuel rest root st b
      | some st1 =>
        (match i with
         | .list its =>
           (next 0 st1).bind fun r =>
             match r.2.1 with
             | [] => .ub
             | _ :: _ =>
               if anonymousField r.2.1 then
                 (step r.2.1).bind fun st2 => emitItems cfg env fuel its root st2 b
               else
                 (entryDesig d r.2.1).bind fun ds =>
                   (layoutResolve ds (unqual root)).bind fun q =>
                     (emitWith cfg env (virtual cfg env fuel fuel) q.2 (headItems its) none
                       (emitItems cfg env fuel its (unqual q.2) (pushLayer (unqual q.2) [])
                         ((top b ++ q.1) :: b)) ((top b ++ q.1) :: b)).bind fun o =>
                       .ok (r.2.1, o.1, o.2.tail)
         | .expr e =>
           emitExpr cfg env fuel (virtual cfg env fuel fuel) root d e st1 b).bind fun o =>
          (emitItems cfg env fuel rest root o.1 o.2.2).bind fun o' =>
            .ok (o'.1, o.2.1 ++ o'.2.1, o'.2.2)

/-- `kefir_ast_translate_initializer`, source/ast-translator/initializer.c 211–245, and
`kefir_ast_translate_data_initializer`, source/ast-translator/scope/data_initializer.c 322–360, for a
whole object. -/
def emit (cfg : Cfg) (env : Env E) (fuel : Nat) (t : Ty) : Init E → Emit E
  | .expr e => emitWith cfg env (virtual cfg env fuel fuel) t (some e) (some e) .err [[]]
  | .list its =>
    emitWith cfg env (virtual cfg env fuel fuel) t (headItems its) none
      (emitItems cfg env fuel its (unqual t) (pushLayer (unqual t) []) [[]]) [[]]

/-- An initialised object: the type is completed by the analysis
(source/ast/analyzer/nodes/init_declarator.c, source/ast/analyzer/initializer.c), then the initialiser
is translated for the completed type.  The result is this type and the effects. -/
def object (cfg : Cfg) (env : Env E) (fuel : Nat) (t : Ty) (i : Init E) :
    Res (Ty × List (Store E)) :=
  (analyze env fuel t i).bind fun t' => (emit cfg env fuel t' i).bind fun o => .ok (t', o.1)

end Kefir.Init.Model
