/-!
# Initialisers: what C17 6.7.9 prescribes

An object is described by its type, a subobject by the path that leads to it (member positions
and element subscripts), an initialiser by its syntax.  `initialise` says which subobject every
expression of an initialiser initialises, in which order, and what is implicitly zero.
`completeArray` says what length an array of unknown size gets.  Nothing here mentions
traversal stacks, layers or designator chains of the compiler.
-/

namespace Kefir.Init

/-- Identifiers of members. -/
abbrev Name := Nat

mutual
/-- Object types, as far as initialisation can tell them apart.  A scalar type is known by a
code, a record type by its tag, its kind and its members. -/
inductive Ty where
  | scalar (code : Nat)
  | array (len : Option Nat) (elem : Ty)
  | record (isUnion : Bool) (tag : Nat) (fields : Fields)
  | qualified (t : Ty)
/-- Members in declaration order: identifier (none for an anonymous structure or union and for
an unnamed bit-field), whether the member is a bit-field, type. -/
inductive Fields where
  | nil
  | cons (name : Option Name) (bits : Bool) (ty : Ty) (rest : Fields)
end

/-- A path from an object to one of its subobjects: member positions and element subscripts,
outermost first. -/
abbrev Path := List Nat

/-- `.m` and `[n]`. -/
inductive Desig where
  | field (m : Name)
  | index (n : Nat)
  deriving DecidableEq

mutual
/-- An initialiser: an expression or a brace-enclosed list. -/
inductive Init (E : Type) where
  | expr (e : E)
  | list (items : Items E)
/-- The items of a brace-enclosed list: a designation (empty if there is none) and an
initialiser. -/
inductive Items (E : Type) where
  | nil
  | cons (d : List Desig) (i : Init E) (rest : Items E)
end

/-- What initialisation has to know about expressions. -/
structure Env (E : Type) where
  /-- The expression is a string literal. -/
  isString : E → Bool
  /-- The number of elements of the literal, the terminating null included. -/
  len : E → Nat
  /-- The literal may initialise an array whose (unqualified) element type is this one
  (6.7.9p14, p15). -/
  elemOf : E → Ty → Bool
  /-- The type of the expression, before array, function and lvalue conversion, is scalar and
  unqualified. -/
  isScalar : E → Bool
  /-- The type of the expression after these conversions is scalar. -/
  decays : E → Bool
  /-- The expression may be assigned to an object of this unqualified type (6.5.16.1). -/
  assign : E → Ty → Bool

/-- One effect of an initialiser. -/
inductive Store (E : Type) where
  /-- Every part of the subobject is zero. -/
  | zero (p : Path)
  /-- The subobject gets the value of the expression. -/
  | value (p : Path) (e : E)
  /-- The first `n` elements of the array come from the string literal, the others are zero. -/
  | text (p : Path) (e : E) (n : Nat)
  deriving DecidableEq

/-- Why an initialiser is not acceptable. -/
inductive Violation where
  /-- An initialiser for an object that is not there (6.7.9p2). -/
  | excess
  /-- A designator that designates nothing (6.7.9p6, p7). -/
  | designator
  /-- An expression that cannot initialise the object it is meant for (6.7.9p11, p13, p14). -/
  | mismatch
  /-- An empty list of initialisers for a scalar. -/
  | empty
  /-- A scalar with anything but one expression in one pair of braces (6.7.9p11). -/
  | scalarBraces
  deriving DecidableEq

/-- The type without qualifiers. -/
def Ty.bare : Ty → Ty
  | .qualified t => t.bare
  | t => t

/-- Type of the member at a position. -/
def Fields.at? : Fields → Nat → Option Ty
  | .nil, _ => none
  | .cons _ _ t _, 0 => some t
  | .cons _ _ _ r, i + 1 => r.at? i

/-- Position of the first member from position `i` on that takes part in initialisation; unnamed
bit-fields do not (6.7.9p9). -/
def Fields.fromPos : Fields → Nat → Option Nat
  | .nil, _ => none
  | .cons name bits _ r, 0 =>
    if name = none ∧ bits = true then (r.fromPos 0).map (· + 1) else some 0
  | .cons _ _ _ r, i + 1 => (r.fromPos i).map (· + 1)

/-- The direct subobject at a position. -/
def Ty.child (t : Ty) (i : Nat) : Option Ty :=
  match t.bare with
  | .array none el => some el
  | .array (some n) el => if i < n then some el else none
  | .record _ _ fs => fs.at? i
  | _ => none

/-- Position of the first direct subobject that is initialised: the first element, the first
member, of a union too (6.7.9p17). -/
def Ty.first (t : Ty) : Option Nat :=
  match t.bare with
  | .array (some 0) _ => none
  | .array _ _ => some 0
  | .record _ _ fs => fs.fromPos 0
  | _ => none

/-- Position of the direct subobject that is initialised after the one at position `i`; a union
has none (6.7.9p17). -/
def Ty.following (t : Ty) (i : Nat) : Option Nat :=
  match t.bare with
  | .array none _ => some (i + 1)
  | .array (some n) _ => if i + 1 < n then some (i + 1) else none
  | .record false _ fs => fs.fromPos (i + 1)
  | _ => none

/-- The type of the subobject at a path. -/
def Ty.sub : Ty → Path → Option Ty
  | t, [] => some t
  | t, i :: p =>
    match t.child i with
    | some u => u.sub p
    | none => none

/-- The next subobject after the one at a path: the following direct subobject of the smallest
enclosing subobject that has one (6.7.9p17, p20). -/
def Ty.after : Ty → Path → Option Path
  | _, [] => none
  | t, i :: p =>
    match t.child i with
    | none => none
    | some u =>
      match u.after p with
      | some p' => some (i :: p')
      | none =>
        match t.following i with
        | some j => some [j]
        | none => none

mutual
/-- The member with a given name, which may be a member of an anonymous structure or union
(6.7.2.1p13). -/
def Ty.find (m : Name) : Ty → Option Path
  | .record _ _ fs => fs.find m 0
  | .qualified t => t.find m
  | _ => none
/-- The same among the members from position `i` on. -/
def Fields.find (m : Name) : Fields → Nat → Option Path
  | .nil, _ => none
  | .cons (some m') _ _ r, i => if m' = m then some [i] else r.find m (i + 1)
  | .cons none _ t r, i =>
    match t.find m with
    | some p => some (i :: p)
    | none => r.find m (i + 1)
end

/-- The subobject that a designation describes (6.7.9p6, p7, p18). -/
def Ty.resolve : Ty → List Desig → Option Path
  | _, [] => some []
  | t, .field m :: ds =>
    match t.find m with
    | none => none
    | some p =>
      match t.sub p with
      | none => none
      | some u => (u.resolve ds).map (p ++ ·)
  | t, .index n :: ds =>
    match t.bare with
    | .array _ _ =>
      match t.child n with
      | none => none
      | some u => (u.resolve ds).map (n :: ·)
    | _ => none

variable {E : Type}

mutual
/-- The subobject that an expression initialises when the object of type `t` is the next one to
be initialised and there is no brace: the object itself if the expression can initialise it
(6.7.9p11, p13, p14), otherwise, if it has subobjects, its first one (6.7.9p20). -/
def Ty.place (env : Env E) (e : E) : Ty → Option Path
  | .scalar c => if env.assign e (.scalar c) then some [] else none
  | .qualified t => t.place env e
  | .array len el =>
    if env.isString e && env.elemOf e el.bare then some []
    else if len = some 0 then none
    else (el.place env e).map (0 :: ·)
  | .record u tag fs =>
    if env.assign e (.record u tag fs) then some [] else fs.place env e 0
/-- The same for the first of the members from position `i` on. -/
def Fields.place (env : Env E) (e : E) : Fields → Nat → Option Path
  | .nil, _ => none
  | .cons name bits t r, i =>
    if name = none ∧ bits = true then r.place env e (i + 1) else (t.place env e).map (i :: ·)
end

/-- Initialisation of the object of type `t` at path `p` by an expression alone (6.7.9p11, p13,
p14). -/
def storeAt (env : Env E) (t : Ty) (p : Path) (e : E) : Except Violation (List (Store E)) :=
  match t.bare with
  | .array len el =>
    if env.isString e && env.elemOf e el.bare then
      match len with
      | none => .ok [.text p e (env.len e)]
      | some n =>
        -- the terminating null is dropped if there is no room for it
        if env.len e ≤ n + 1 then .ok [.text p e (min n (env.len e))] else .error .excess
    else .error .mismatch
  | u => if env.assign e u then .ok [.value p e] else .error .mismatch

/-- The list is one string literal, which the array of type `t` may be initialised by
(6.7.9p14, p15). -/
def bracedString (env : Env E) (t : Ty) : Items E → Option E
  | .cons [] (.expr e) .nil =>
    match t.bare with
    | .array _ el => if env.isString e && env.elemOf e el.bare then some e else none
    | _ => none
  | _ => none

/-- Initialisation of the object of type `t` at path `p` by a brace-enclosed list.  For an
aggregate or union `rest` is what the items of the list do, one after the other; everything they
leave out is zero (6.7.9p19, p21). -/
def braces (env : Env E) (t : Ty) (p : Path) (items : Items E)
    (rest : Except Violation (List (Store E))) : Except Violation (List (Store E)) :=
  match t.bare with
  | .scalar c =>
    match items with
    | .nil => .error .empty
    | .cons [] (.expr e) .nil => storeAt env (.scalar c) p e
    | _ => .error .scalarBraces
  | _ =>
    match bracedString env t items with
    | some e => storeAt env t p e
    | none =>
      match rest with
      | .ok s => .ok (.zero p :: s)
      | .error v => .error v

/-- The items of a list whose current object has type `t` and path `base`.  `next` is the
subobject of the current object that comes next (6.7.9p17, p18). -/
def run (env : Env E) : Items E → Ty → Path → Option Path → Except Violation (List (Store E))
  | .nil, _, _, _ => .ok []
  | .cons d i rest, t, base, next =>
    match (if d = [] then next else t.resolve d) with
    | none => .error (if d = [] then .excess else .designator)
    | some p =>
      match t.sub p with
      | none => .error .designator
      | some u =>
        match i with
        | .list its =>
          match braces env u (base ++ p) its
              (run env its u.bare (base ++ p) (u.first.map fun j => [j])) with
          | .error v => .error v
          | .ok s =>
            match run env rest t base (t.after p) with
            | .error v => .error v
            | .ok s' => .ok (s ++ s')
        | .expr e =>
          match u.place env e with
          | none => .error .mismatch
          | some q =>
            match u.sub q with
            | none => .error .mismatch
            | some w =>
              match storeAt env w (base ++ p ++ q) e with
              | .error v => .error v
              | .ok s =>
                match run env rest t base (t.after (p ++ q)) with
                | .error v => .error v
                | .ok s' => .ok (s ++ s')

/-- What an initialiser does to an object of type `t`. -/
def initialise (env : Env E) (t : Ty) : Init E → Except Violation (List (Store E))
  | .expr e => storeAt env t [] e
  | .list its => braces env t [] its (run env its t.bare [] (t.first.map fun j => [j]))

/-- One more than the subscript of the element that an effect concerns. -/
def Store.bound : Store E → Nat
  | .zero [] => 0
  | .zero (i :: _) => i + 1
  | .value [] _ => 0
  | .value (i :: _) _ => i + 1
  | .text [] _ n => n
  | .text (i :: _) _ _ => i + 1

/-- The length of an array of unknown size: the largest element with an explicit initialiser
determines it (6.7.9p22). -/
def arrayLength : List (Store E) → Nat
  | [] => 0
  | s :: r => max s.bound (arrayLength r)

/-- What a part of the object holds after the effects, applied in order: the last effect on the
part or on something that contains it counts (6.7.9p19).  `none`: nothing stored. -/
def lastStore : List (Store E) → Path → Option (Store E)
  | [], _ => none
  | s :: r, p =>
    match lastStore r p with
    | some s' => some s'
    | none =>
      match s with
      | .zero q => if q.isPrefixOf p then some s else none
      | .value q _ => if q.isPrefixOf p then some s else none
      | .text q _ _ => if q.isPrefixOf p then some s else none

end Kefir.Init
