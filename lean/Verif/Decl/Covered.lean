import Verif.Decl.Spec

/-!
# The histories on which kefir is claimed to agree with C17

Each condition excludes declarations on which kefir and C17 differ; `Verif/Decl/Props.lean` shows for each of them, by
a concrete program, that it cannot be dropped.
-/

namespace Kefir.Decl

variable {N T : Type} [DecidableEq N] [DecidableEq T]

/-- With `strict`, declarations with linkage in blocks are excluded too: there the types that kefir and C17 make
visible differ. -/
def coveredDecl (strict : Bool) (ty : Types T) (s : State N T) (d : Declaration N T) : Bool :=
  let l := linkageOf ty s.fileScope (s.visible d.name) d
  (!strict || s.fileScope || l == .none) &&
  (if d.storage = .typedef then
    -- `typedef` with an initializer
    (ty.isFunction d.type || d.init.isNone) &&
    -- redefinition as a type that is compatible but not the same, or variably modified
    (match s.here d.name with
     | some (.typedefName _ old) =>
       ty.compatible old d.type == (ty.same old d.type && !ty.variablyModified d.type)
     | _ => true)
  else if ty.isFunction d.type then true
  else if l = .none then
    -- `register _Alignas`
    (d.storage != .register || !d.aligned) &&
    -- pointers to variable length arrays with initializers; static arrays of such pointers
    (if d.init.isSome then ty.variablyModified d.type == ty.variableLength d.type
     else !d.storage.isStatic ||
       (ty.variablyModified d.type && !ty.isPointer d.type) == ty.variableLength d.type)
  else
    -- `extern _Thread_local` in a block
    (s.fileScope || d.storage != .externThread) &&
    (d.init.isNone ||
      match lookup s.linked d.name with
      | some e =>
        -- `extern` with an initializer after `static`
        !(d.storage.isExtern && e.linkage == .internal) &&
        -- an initializer that completes the declared but not the composite type
        decide (complete d.init d.type = complete d.init (ty.composite e.type d.type))
      | none => true))

def coveredItem (strict : Bool) (ty : Types T) (s : State N T) : Item N T → Bool
  | .declare d => coveredDecl strict ty s d
  | _ => true

/-- Every declaration is covered in the state in which it is met. -/
def covered (strict : Bool) (ty : Types T) (s : State N T) : List (Item N T) → Bool
  | [] => true
  | i :: is =>
    coveredItem strict ty s i &&
      match step ty s i with
      | .next s' _ => covered strict ty s' is
      | _ => true

end Kefir.Decl
