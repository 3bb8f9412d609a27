import Verif.Locals.Spec
import Verif.Layout.Model

/-!
# Model of the placement of automatic objects

`source/ast-translator/scope/local_scope_layout.c`, the evaluation of layouts in
`source/ast-translator/layout.c` and the address computation of `source/ast-translator/misc.c` and
`lvalue.c`.  Objects are labelled with the scope that declares them and their number there; the code has
pointers to their identifiers instead.  Objects of static and thread storage duration go to other types
and are not modelled here.
-/

namespace Kefir.Locals

open Kefir.Layout

mutual
/-- `local_scope_layout.c:271-299`, `local_scope_empty`. -/
def scopeEmpty : Scope → Bool
  | .node ids subs => idsEmpty ids && subsEmpty subs

/-- The loop of `:292-296`; also `:332-335`. -/
def subsEmpty : List Scope → Bool
  | [] => true
  | s :: ss => scopeEmpty s && subsEmpty ss

/-- The loop of `:277-289`. -/
def idsEmpty : List Ident → Bool
  | [] => true
  | .auto _ :: _ => false
  | .label :: _ => false
  | .other :: ids => idsEmpty ids
end

/-- `typeentry->param++` for the entry at an index. -/
def bump (t : List Entry) (i : Nat) : List Entry :=
  t.modify i (fun e => { e with param := e.param + 1 })

/-- An object with a type layout: the scope that declares it, its number in the scope, and the entries of
the layouts from the outermost one to its own (the `value` fields along the `parent` pointers). -/
structure Obj where
  path : List Nat
  num : Nat
  chain : List Nat
  deriving DecidableEq, Repr

/-- `local_scope_layout.c:317-329` with `translate_local_scoped_identifier` (`:238-269`),
`translate_local_scoped_identifier_object` (`:186-221`) and `translate_auto_register_identifier`
(`:154-184`): the entries of the identifiers of a scope.  `scope` is the entry of the scope, `chain` ends
with it.  The entries appended by the translation of an object type are those of the type; that the
layout evaluated at once (`:179`) exists is not modelled, it is evaluated again at the end. -/
def traverseIds (t : List Entry) (scope : Nat) (chain path : List Nat) (k : Nat) :
    List Ident → List Entry × List Obj
  | [] => (t, [])
  | .auto ty :: ids =>
    let t := bump t scope
    let o : Obj := ⟨path, k, chain ++ [t.length]⟩
    let (t, os) := traverseIds (t ++ flatten ty) scope chain path (k + 1) ids
    (t, o :: os)
  | .label :: ids => traverseIds t scope chain path (k + 1) ids
  | .other :: ids => traverseIds t scope chain path (k + 1) ids

mutual
/-- `local_scope_layout.c:301-370`, `traverse_local_scope`.  `t` is the type built so far, `chain` the
layouts around the scope.  (The layouts of nested scopes are linked to their parents after they have been
built; here the parents are known beforehand.) -/
def traverse (t : List Entry) (chain path : List Nat) : Scope → List Entry × List Obj
  | .node ids subs =>
    let scope := t.length
    let empty := scopeEmpty (.node ids subs)
    let t := if empty then t else t ++ [⟨.struct, 0, 0⟩]
    let chain := if empty then chain else chain ++ [scope]
    let (t, os) := traverseIds t scope chain path 0 ids
    if subsEmpty subs then
      let (t, os') := traverseSubs t none chain path 0 subs
      (t, os ++ os')
    else
      let children := t.length
      let t := bump t scope
      let t := t ++ [⟨.union, 0, 0⟩]
      let (t, os') := traverseSubs t (some children) (chain ++ [children]) path 0 subs
      (t, os ++ os')

/-- The loops `:343-356` (with the entry of the union, whose parameter is incremented for every nested
scope) and `:362-367` (without). -/
def traverseSubs (t : List Entry) (union : Option Nat) (chain path : List Nat) (i : Nat) :
    List Scope → List Entry × List Obj
  | [] => (t, [])
  | s :: ss =>
    let t := match union with
      | some u => bump t u
      | none => t
    let (t, os) := traverse t chain (path ++ [i]) s
    let (t, os') := traverseSubs t union chain path (i + 1) ss
    (t, os ++ os')
end

/-- The type of the frame and the evaluated layouts. -/
structure Frame where
  type : List Entry
  layout : List (Option Data)
  objs : List Obj

/-- `local_scope_layout.c:372-397`, `kefir_ast_translator_build_local_scope_layout`, with
`kefir_ast_translator_evaluate_type_layout` (`source/ast-translator/layout.c:153-205`), which stores at
each layout what the target's layout of the type has for its entry. -/
def build (s : Scope) : Res Frame := do
  let (t, os) := traverse [] [] [] s
  let v ← typeLayout t
  pure { type := t, layout := v, objs := os }

/-- `properties.relative_offset` of the layout with an entry (`layout.c:90-111`). -/
def Frame.offset (f : Frame) (i : Nat) : Nat :=
  match f.layout[i]? with
  | some (some d) => d.offset
  | _ => 0

/-- `properties.size`. -/
def Frame.size (f : Frame) (i : Nat) : Nat :=
  match f.layout[i]? with
  | some (some d) => d.size
  | _ => 0

/-- `source/ast-translator/misc.c:114-128`, `kefir_ast_translator_resolve_type_layout` without a root: the
entries for which an `OFFSETPTR` instruction is emitted, outermost layout first. -/
def Frame.resolve (f : Frame) (chain : List Nat) : List Nat :=
  chain.filter (fun i => f.offset i ≠ 0)

/-- `source/codegen/amd64/system-v/instr.c:149-168`: `OFFSETPTR` adds the offset of the entry in the
layout of the type to the pointer. -/
def Frame.run (f : Frame) : Nat → List Nat → Nat
  | ptr, [] => ptr
  | ptr, i :: is => f.run (ptr + f.offset i) is

/-- `source/ast-translator/lvalue.c:103-119`: the address of an automatic object, relative to the start of
the locals in the frame (`GETLOCALS`); variable length arrays are not modelled. -/
def Frame.address (f : Frame) (o : Obj) : Nat := f.run 0 (f.resolve o.chain)

/-- The storage of an object: its address and the size in its layout. -/
def Frame.extent (f : Frame) (o : Obj) : Extent :=
  ⟨f.address o, f.size (o.chain.getLast?.getD 0)⟩

end Kefir.Locals
