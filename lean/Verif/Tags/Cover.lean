import Verif.Tags.Spec

/-
The translation units the theorem about tags covers.  What is left out are the situations in which Kefir goes
wrong (the refutations in `Props.lean`) and `enum T` where C17 does not allow it:

* `struct T;` alone while `T` is declared in an outer scope only;
* `struct T { … }` whose body mentions `T` while `T` is declared in an outer scope only;
* `enum T` where no complete enumeration `T` is visible;
* `x->…`, or a member on the path, whose type was incomplete where it was declared, where the tag means
  something else at the access;
* `x->…` where the type of `x` was incomplete where `x` was declared, and the tag means something else at the
  end of the function, outside of its blocks.

All of this is stated in terms of the specification, not of the model.
-/
namespace Verif.Tags

mutual
/-- A tag occurs in a specifier. -/
def Spec.mentions (t : String) : Spec → Bool
  | .ref _ u => u == t
  | .define _ o _ body => o == some t || body.mentions t
  | .enumerate o _ => o == some t
def Members.mentions (t : String) : Members → Bool
  | .nil => false
  | .cons _ s rest => s.mentions t || rest.mentions t
end

/-- The innermost declaration of a tag outside the current scope. -/
def St.outerTag? (s : St) (t : String) : Option Nat := s.outer.findSome? (·.tags t)

mutual
def Spec.calm (s : St) : Spec → Bool
  | .ref k t =>
    k != .enum || match s.tag? t with
      | none => false
      | some e => (s.ents e).kind != .enum || s.complete e
  | .define u o _ body =>
    (match o with
      | none => true
      | some t => (s.cur.tags t).isSome || (s.outerTag? t).isNone || !body.mentions t) &&
    match s.begin (kindOf u) o with
      | none => true
      | some (s, _) => body.calm s
  | .enumerate _ _ => true
def Members.calm (s : St) : Members → Bool
  | .nil => true
  | .cons _ sp rest =>
    sp.calm s && match sp.denote s with
      | none => true
      | some (s, _) => rest.calm s
end

def Decl.calm (s : St) : Decl → Bool
  | .alone (.ref k t) => k != .enum && ((s.cur.tags t).isSome || (s.outerTag? t).isNone)
  | .alone sp => sp.calm s
  | .object _ sp => sp.calm s

/-- The type was complete where it was written, or its tag still names it. -/
def St.named (s : St) (look : String → Option Nat) (u : Use) : Bool :=
  u.2 || match (s.ents u.1).tag with
    | none => false
    | some t => look t == some u.1

/-- The types along a path are named by their tags. -/
def St.calmPath (s : St) (u : Use) (path : List String) : Bool :=
  s.named s.tag? u &&
  match path with
  | [] => true
  | m :: rest =>
    match (s.ents u.1).body with
    | none => true
    | some (_, ms) =>
      match ms.find? (·.1 == m) with
      | none => true
      | some (_, u') => s.calmPath u' rest

def Body.calm (s : St) : Body → Bool
  | .nil => true
  | .decl d rest =>
    d.calm s && match d.means s with
      | none => true
      | some s => rest.calm s
  | .access x path rest =>
    (match s.obj? x with
      | none => true
      | some u => s.calmPath u path) && rest.calm s
  | .block inner rest =>
    inner.calm s.push && match inner.means s.push with
      | none => true
      | some (s', _) =>
        match s'.pop with
        | none => true
        | some s' => rest.calm s'

/-- The objects that are accessed have types that their tags name at the end of the function: `look`. -/
def Body.settled (look : String → Option Nat) (s : St) : Body → Bool
  | .nil => true
  | .decl d rest =>
    match d.means s with
    | none => true
    | some s => rest.settled look s
  | .access x _ rest =>
    (match s.obj? x with
      | none => true
      | some u => s.named look u) && rest.settled look s
  | .block inner rest =>
    inner.settled look s.push && match inner.means s.push with
      | none => true
      | some (s', _) =>
        match s'.pop with
        | none => true
        | some s' => rest.settled look s'

def calmUnit (s : St) : List Ext → Bool
  | [] => true
  | .decl d :: xs =>
    d.calm s && match d.means s with
      | none => true
      | some s => calmUnit s xs
  | .function body :: xs =>
    body.calm s.push && match body.means s.push with
      | none => true
      | some (s', _) =>
        match s'.pop with
        | none => true
        | some s' => calmUnit s' xs

/-- `file`: the tags of the file scope at the end of the translation unit. -/
def settledUnit (file : Map Nat) (s : St) : List Ext → Bool
  | [] => true
  | .decl d :: xs =>
    match d.means s with
    | none => true
    | some s => settledUnit file s xs
  | .function body :: xs =>
    match body.means s.push with
    | none => true
    | some (s', _) =>
      body.settled (fun t => (s'.cur.tags t).or (file t)) s.push &&
      match s'.pop with
      | none => true
      | some s' => settledUnit file s' xs

/-- A translation unit is covered. -/
def covered (xs : List Ext) : Bool :=
  calmUnit .empty xs && match means .empty xs with
    | none => true
    | some (s, _) => settledUnit s.cur.tags .empty xs

end Verif.Tags
