import Verif.Temps.Spec
import Verif.Locals.Model
import Verif.Slots.Model
/-!
# Temporary objects (`source/ast/temporaries.c`, `source/ast-translator/temporaries.c`)

Simplifications: identifiers do not overflow; allocation does not fail; the buffers for names are long enough
(128 bytes for at most 60).  A structure or union type is the list of its fields; the hash tree beside the list
is not kept.  Types of temporaries are those that they are translated to.
-/

namespace Kefir.Temps

open Kefir.Layout Kefir.Slots Kefir.Locals

abbrev Name := List Char

/-- headers/kefir/ast/temporaries.h:29-33 `struct kefir_ast_temporary_identifier`. -/
structure Id where
  nested : Bool
  identifier : Nat
  field : Nat
  deriving DecidableEq, Repr

/-- headers/kefir/ast/temporaries.h:35-40 `struct kefir_ast_context_temporaries`: `blocks` are the fields of the
union, structures with their fields. -/
structure Temps where
  initDone : Bool
  blocks : List (Name × List (Name × Ty))
  current : Id

/-- source/ast/local_context.c:351, global_context.c:294. -/
def start : Temps := ⟨false, [], ⟨false, 0, 0⟩⟩

/-- `%` with `KEFIR_ID_FMT`. -/
def dec (n : Nat) : Name := Nat.toDigits 10 n

/-- headers/kefir/ast/runtime.h:32. -/
def valuePrefix : Name := "__kefirrt_temporary_".toList

def valueName (n : Nat) : Name := valuePrefix ++ dec n

/-- headers/kefir/ast/runtime.h:33. -/
def memberPrefix : Name := "__kefirrt_temporary_member_".toList

def memberName (n : Nat) : Name := memberPrefix ++ dec n

/-- headers/kefir/ast/runtime.h:34. -/
def globalName (n m : Nat) : Name := valuePrefix ++ (dec n ++ '_' :: dec m)

/-- source/ast/temporaries.c:29-44 `kefir_ast_temporaries_init`: the state, and whether it is new. -/
def init (nested : Bool) (t : Temps) : Temps × Bool :=
  if t.initDone then (t, false) else (⟨true, [], ⟨nested, 0, 0⟩⟩, true)

/-- source/ast/temporaries.c:46-53 `kefir_ast_temporaries_next_block`. -/
def nextBlock (t : Temps) : Temps :=
  if t.initDone then { t with current := { t.current with identifier := t.current.identifier + 1, field := 0 } }
  else t

/-- The position of a field (source/ast/type/struct.c:428-440 `kefir_ast_struct_type_get_field`, and
source/ast/type_layout.c:206-235 `resolve_member` for the layout of the structure). -/
def position {α : Type} (name : Name) : List (Name × α) → Option Nat
  | [] => none
  | x :: xs => if x.1 = name then some 0 else (position name xs).map (· + 1)

/-- source/ast/type/struct.c:371-426 `kefir_ast_struct_type_field_impl`: a field that is already there is an
error. -/
def addField {α : Type} (fs : List (Name × α)) (name : Name) (x : α) : Option (List (Name × α)) :=
  match position name fs with
  | some _ => none
  | none => some (fs ++ [(name, x)])

/-- source/ast/temporaries.c:65-77: the structure of the block, a new one if there is none. -/
def ensureBlock (blocks : List (Name × List (Name × Ty))) (value : Name) :
    Option (List (Name × List (Name × Ty))) :=
  match position value blocks with
  | some _ => some blocks
  | none => addField blocks value []

/-- source/ast/temporaries.c:55-97 `kefir_ast_temporaries_new_temporary`. -/
def newTemporary (t : Temps) (ty : Ty) : Option (Temps × Id) :=
  let next := { t.current with field := t.current.field + 1 }
  if t.current.nested then
    let value := valueName t.current.identifier
    match ensureBlock t.blocks value with
    | none => none
    | some blocks =>
      match position value blocks with
      | none => none
      | some k =>
        match blocks[k]? with
        | none => none
        | some b =>
          match addField b.2 (memberName t.current.field) ty with
          | none => none
          | some ms => some ({ t with blocks := blocks.set k (b.1, ms), current := next }, t.current)
  else some ({ t with current := next }, t.current)

/-- source/ast/local_context.c:108-130 `context_allocate_temporary_value`.  (The object of the union type is
entered into the root scope of the function when the state is new; see `scopeOf`.) -/
def allocateLocal (t : Temps) (ty : Ty) : Option (Temps × Id) :=
  match newTemporary (init true t).1 ty with
  | none => none
  | some (t, id) => if id.nested then some (t, id) else none

/-- source/ast/global_context.c:56-79 `context_allocate_temporary_value`: with the name of the object that is
defined. -/
def allocateGlobal (t : Temps) (ty : Ty) : Option (Temps × Id × Name) :=
  match newTemporary (init false t).1 ty with
  | none => none
  | some (t, id) => if id.nested then none else some (t, id, globalName id.identifier id.field)

/-- The analysis of a function: what its temporaries are identified by. -/
def analyse : Temps → List Event → Option (Temps × List Id)
  | t, [] => some (t, [])
  | t, .temporary ty :: es =>
    match allocateLocal t ty with
    | none => none
    | some (t, id) =>
      match analyse t es with
      | none => none
      | some (t, ids) => some (t, id :: ids)
  | t, .nextBlock :: es => analyse (nextBlock t) es

/-- The analysis of declarations outside of functions: the names of the objects defined for temporaries. -/
def analyseGlobal : Temps → List Event → Option (List Name)
  | _, [] => some []
  | t, .temporary ty :: es =>
    match allocateGlobal t ty with
    | none => none
    | some (t, _, name) => (analyseGlobal t es).map (name :: ·)
  | t, .nextBlock :: es => analyseGlobal (nextBlock t) es

/-- The type of the object with the temporaries of a function: a union of structures. -/
def typeOf (blocks : List (Name × List (Name × Ty))) : Ty :=
  .union 0 (blocks.map fun b => .struct 0 (b.2.map (·.2)))

/-- source/ast/local_context.c:69-106 `define_temporaries`: the scopes of a function, with the object in the
root scope, somewhere among its identifiers (the order is that of a hash tree). -/
def scopeOf (before after : List Ident) (subs : List Scope) (t : Temps) : Scope :=
  .node (before ++ .auto (typeOf t.blocks) :: after) subs

/-- source/ast-translator/temporaries.c:39-57: the layouts of the structure and of its field. -/
def resolve (blocks : List (Name × List (Name × Ty))) (l : Lay) (id : Id) : Option (Lay × Lay) :=
  match position (valueName id.identifier) blocks with
  | none => none
  | some k =>
    match blocks[k]?, l.parts[k]? with
    | some b, some lv =>
      match position (memberName id.field) b.2 with
      | none => none
      | some j =>
        match lv.parts[j]? with
        | none => none
        | some lm => some (lv, lm)
    | _, _ => none

/-- source/ast-translator/temporaries.c:28-67 `kefir_ast_translator_fetch_temporary` for a nested temporary: the
storage that the instructions `GETLOCALS`, `OFFSETPTR`, `OFFSETPTR`, `OFFSETPTR` lead to. -/
def fetch (f : Frame) (blocks : List (Name × List (Name × Ty))) (l : Lay) (id : Id) : Option Extent :=
  match resolve blocks l id with
  | none => none
  | some (lv, lm) => some ⟨f.run 0 [l.value, lv.value, lm.value], f.size lm.value⟩

end Kefir.Temps
