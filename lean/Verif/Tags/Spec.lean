/-
What C17 says about tags (6.2.1p4, 6.2.1p7, 6.7.2.3): which structure, union or enumerated type a
specifier denotes, and which of its definitions gives the type its members.

The syntax is the part of declarations that tags are made of.  Every definition carries a number, its
position in the source, so that "the definition at position n" can be named.  The members that matter
are the ones whose types are tagged: they are written `spec *name;`.
-/
namespace Verif.Tags

/-- The three kinds of tagged types. -/
inductive Kind | struct | union | enum
  deriving DecidableEq, Repr

mutual
/-- A type specifier that involves a tag. -/
inductive Spec
  /-- `struct T`, `union T`, `enum T` -/
  | ref (k : Kind) (t : String)
  /-- `struct T { members }` (`union` when `u`), at position `pos`; the tag is optional -/
  | define (u : Bool) (t : Option String) (pos : Nat) (body : Members)
  /-- `enum T { … }` at position `pos` -/
  | enumerate (t : Option String) (pos : Nat)
/-- The members of a structure or union: `spec *name;` each. -/
inductive Members
  | nil
  | cons (name : String) (s : Spec) (rest : Members)
end

/-- A declaration. -/
inductive Decl
  /-- `spec;` — a declaration that declares nothing but what its specifier declares -/
  | alone (s : Spec)
  /-- `spec *x;` -/
  | object (x : String) (s : Spec)

/-- The items of a block. -/
inductive Body
  | nil
  | decl (d : Decl) (rest : Body)
  /-- `x->m₁->…->mₙ->m`, where `m` is any member -/
  | access (x : String) (path : List String) (rest : Body)
  | block (inner rest : Body)

/-- An external declaration. -/
inductive Ext
  | decl (d : Decl)
  | function (body : Body)

def kindOf (u : Bool) : Kind := if u then .union else .struct

/-- A finite map from names. -/
abbrev Map (α : Type) := String → Option α

def Map.set {α : Type} (m : Map α) (s : String) (a : α) : Map α := fun u => if u = s then some a else m u

/-- A scope: the tags and the objects declared in it. -/
structure Frame (α β : Type) where
  tags : Map α
  objs : Map β

def Frame.empty {α β : Type} : Frame α β := ⟨fun _ => none, fun _ => none⟩

/-- A use of a type: the type, and whether it was complete where it was written. -/
abbrev Use := Nat × Bool

/-- A tagged type.  `body` is what completes it: the position of the definition and the members. -/
structure Ent where
  kind : Kind
  tag : Option String
  body : Option (Nat × List (String × Use))

/-- The declarations seen so far: the scopes, innermost first (`cur` and `outer`), and the types. -/
structure St where
  cur : Frame Nat Use
  outer : List (Frame Nat Use)
  ents : Nat → Ent
  next : Nat

def St.empty : St := ⟨.empty, [], fun _ => ⟨.struct, none, none⟩, 0⟩

/-- The innermost declaration of a tag (6.2.1p4). -/
def St.tag? (s : St) (t : String) : Option Nat := (s.cur :: s.outer).findSome? (·.tags t)

def St.obj? (s : St) (x : String) : Option Use := (s.cur :: s.outer).findSome? (·.objs x)

def St.complete (s : St) (e : Nat) : Bool := (s.ents e).body.isSome

/-- A new type, declared in the current scope if it has a tag. -/
def St.fresh (s : St) (k : Kind) (t : Option String) : St :=
  { s with
    cur := match t with
      | none => s.cur
      | some t => { s.cur with tags := s.cur.tags.set t s.next }
    ents := fun e => if e = s.next then ⟨k, t, none⟩ else s.ents e
    next := s.next + 1 }

/-- The definition of a type ends at its closing brace (6.7.2.1p8, 6.7.2.2p4); a type is defined at most
once (6.7.2.3p1). -/
def St.finish (s : St) (e : Nat) (pos : Nat) (ms : List (String × Use)) : Option St :=
  if s.complete e then none
  else some { s with ents := fun i => if i = e then { s.ents e with body := some (pos, ms) } else s.ents i }

/-- The tag of a definition is declared where it is written (6.2.1p7): it names the type of that tag
in the current scope, which has to be of the same kind (6.7.2.3p2), or else a new type (6.7.2.3p5). -/
def St.begin (s : St) (k : Kind) (t : Option String) : Option (St × Nat) :=
  match t with
  | none => some (s.fresh k none, s.next)
  | some t =>
    match s.cur.tags t with
    | some e => if (s.ents e).kind = k then some (s, e) else none
    | none => some (s.fresh k (some t), s.next)

/-- `struct T` (not alone) names the visible type of that tag, which has to be of the same kind
(6.7.2.3p2, p9), or declares a new incomplete type (p8); an enumeration has to be complete (p3). -/
def St.refer (s : St) (k : Kind) (t : String) : Option (St × Nat) :=
  match s.tag? t with
  | some e => if (s.ents e).kind = k ∧ (k = .enum → s.complete e = true) then some (s, e) else none
  | none => if k = .enum then none else some (s.fresh k (some t), s.next)

/-- `struct T;` names the type of that tag in the current scope, or declares a new one, whatever is
declared in outer scopes (6.7.2.3p7); `enum T;` declares nothing (6.7p2, 6.7.2.3p3). -/
def St.referAlone (s : St) (k : Kind) (t : String) : Option (St × Nat) :=
  if k = .enum then none else s.begin k (some t)

mutual
/-- The type a specifier denotes. -/
def Spec.denote (s : St) : Spec → Option (St × Nat)
  | .ref k t => s.refer k t
  | .define u t pos body => do
    let (s, e) ← s.begin (kindOf u) t
    let (s, ms) ← body.denote s []
    let s ← s.finish e pos ms
    some (s, e)
  | .enumerate t pos => do
    let (s, e) ← s.begin .enum t
    let s ← s.finish e pos []
    some (s, e)
/-- The members of a definition, in order; every name is new (6.7p3). -/
def Members.denote (s : St) (ms : List (String × Use)) : Members → Option (St × List (String × Use))
  | .nil => some (s, ms)
  | .cons m sp rest => do
    let (s, e) ← sp.denote s
    if ms.any (·.1 == m) then none
    else rest.denote s (ms ++ [(m, (e, s.complete e))])
end

/-- The definitions whose members `x->m₁->…->mₙ->m` accesses, one for each arrow. -/
def St.reach (s : St) : Use → List String → Option (List Nat)
  | u, path =>
    match (s.ents u.1).kind, (s.ents u.1).body with
    | .enum, _ => none
    | _, none => none
    | _, some (pos, ms) =>
      match path with
      | [] => some [pos]
      | m :: rest =>
        match ms.find? (·.1 == m) with
        | none => none
        | some (_, u') => (s.reach u' rest).map (pos :: ·)

/-- A declaration: the declarations after it.  `none`: it violates a constraint.  (A second declaration of
an object in the same scope counts as one: the rules for objects are not the subject here.) -/
def Decl.means (s : St) : Decl → Option St
  | .alone (.ref k t) => (s.referAlone k t).map (·.1)
  | .alone sp => (sp.denote s).map (·.1)
  | .object x sp => do
    let (s, e) ← sp.denote s
    match s.cur.objs x with
    | some _ => none
    | none => some { s with cur := { s.cur with objs := s.cur.objs.set x (e, s.complete e) } }

/-- A new scope begins (6.2.1p4). -/
def St.push (s : St) : St := { s with cur := .empty, outer := s.cur :: s.outer }

/-- The innermost scope ends. -/
def St.pop (s : St) : Option St :=
  match s.outer with
  | [] => none
  | f :: rest => some { s with cur := f, outer := rest }

/-- The items of a block: the declarations after them, and the definitions that the accesses use. -/
def Body.means (s : St) : Body → Option (St × List Nat)
  | .nil => some (s, [])
  | .decl d rest => do
    let s ← d.means s
    rest.means s
  | .access x path rest => do
    let u ← s.obj? x
    let os ← s.reach u path
    let (s, os') ← rest.means s
    some (s, os ++ os')
  | .block inner rest => do
    let (s, os) ← inner.means s.push
    let s ← s.pop
    let (s, os') ← rest.means s
    some (s, os ++ os')

def Ext.means (s : St) : Ext → Option (St × List Nat)
  | .decl d => (d.means s).map (·, [])
  | .function body => do
    let (s, os) ← body.means s.push
    let s ← s.pop
    some (s, os)

/-- A translation unit: the definitions its accesses use, in order, or `none` if it is not valid. -/
def means (s : St) : List Ext → Option (St × List Nat)
  | [] => some (s, [])
  | x :: xs => do
    let (s, os) ← x.means s
    let (s, os') ← means s xs
    some (s, os ++ os')

end Verif.Tags
