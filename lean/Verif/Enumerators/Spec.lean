import Verif.ConstExpr.Spec

/-!
# Specification: enumeration constants

C17 6.7.2.2: each enumerator declares a constant of type `int`.  An enumerator with `=` has the value of the constant
expression, which shall be representable in `int`; without `=` it has the value of the previous one plus one, or 0
when it is the first.  6.2.1p7: the scope of an enumeration constant begins after its enumerator.  6.7p3: an
identifier is declared once in a scope (objects of file scope may be declared again).

A unit is a sequence of: entering and leaving a block, the declaration of an `int` object, an enumeration, and the use
of a constant expression (as the length of an array, a `case` label, a static assertion...).  The observable effect is
the sequence of the values.
-/
namespace Kefir.Enumerators
open Kefir.Types (Basic)
open Kefir.Expr Kefir.C17 Kefir.CSpec
open Kefir.IR (Mem)

abbrev Name := List UInt8

/-- Integer constant expressions that mention identifiers. -/
inductive VExpr where
  | lit (b : Basic) (v : Int)
  | name (x : Name)
  | cast (b : Basic) (e : VExpr)
  | un (op : UnOp) (e : VExpr)
  | bin (op : BinOp) (a b : VExpr)
  | land (a b : VExpr)
  | lor (a b : VExpr)
  | cond (c a b : VExpr)

inductive Item where
  | enter
  | leave
  | object (x : Name)
  | enumeration (es : List (Name × Option VExpr))
  | use (e : VExpr)

/-- What an identifier is declared as. -/
inductive Decl where
  | constant (v : Int)
  | object
  deriving DecidableEq, Repr

/-- The open scopes, innermost first; the last one is the file scope. -/
abbrev Scopes := List (List (Name × Decl))

/-- Why a unit is not accepted. -/
inductive Why where
  | redeclared
  /-- an identifier that is not an enumeration constant in a constant expression -/
  | notConstant
  /-- the expression has no value, or the enumerator does not fit `int` -/
  | range
  | unbalanced
  deriving DecidableEq, Repr

/-- What is seen of a unit. -/
inductive Event where
  | enumeration (values : List (Name × Int))
  | value (v : Int)

/-- The declaration of `x` that is visible. -/
def visible (x : Name) : Scopes → Option Decl
  | [] => none
  | s :: ss =>
    match s.lookup x with
    | some d => some d
    | none => visible x ss

/-- The expression with the values of the constants in place of their names. -/
def constants (s : Scopes) : VExpr → Option Expr
  | .lit b v => some (.const b v)
  | .name x =>
    match visible x s with
    | some (.constant v) => some (.const .int v)
    | _ => none
  | .cast b e => (constants s e).map (.cast (.arith b))
  | .un op e => (constants s e).map (.un op)
  | .bin op a b => (constants s a).bind fun a => (constants s b).map fun b => .bin op a b
  | .land a b => (constants s a).bind fun a => (constants s b).map fun b => .land a b
  | .lor a b => (constants s a).bind fun a => (constants s b).map fun b => .lor a b
  | .cond c a b => (constants s c).bind fun c => (constants s a).bind fun a => (constants s b).map fun b => .cond c a b

/-- Value of a constant expression, by the semantics of C expressions. -/
def valueOf (C : Ctx) (m : Mem) (s : Scopes) (e : VExpr) : Except Why Int :=
  match constants s e with
  | none => .error .notConstant
  | some e =>
    match eval C e m with
    | some (.int v, _) => .ok v
    | _ => .error .range

/-- Declaration of an identifier that is not yet declared in the innermost scope. -/
def declare (x : Name) (d : Decl) : Scopes → Except Why Scopes
  | [] => .error .unbalanced
  | s :: ss =>
    match s.lookup x with
    | some _ => .error .redeclared
    | none => .ok (((x, d) :: s) :: ss)

/-- Value of one enumerator. -/
def enumerator (C : Ctx) (m : Mem) (s : Scopes) (next : Int) : Option VExpr → Except Why Int
  | none => .ok next
  | some e => valueOf C m s e

/-- The enumerators of one enumeration; `next` is the value of an enumerator without `=`. -/
def enumerators (C : Ctx) (m : Mem) : Scopes → Int → List (Name × Option VExpr) → Except Why (Scopes × List (Name × Int))
  | s, _, [] => .ok (s, [])
  | s, next, (x, e) :: es =>
    match enumerator C m s next e with
    | .error w => .error w
    | .ok v =>
      if minVal .int ≤ v ∧ v ≤ maxVal .int then
        match declare x (.constant v) s with
        | .error w => .error w
        | .ok s =>
          match enumerators C m s (v + 1) es with
          | .error w => .error w
          | .ok (s, vs) => .ok (s, (x, v) :: vs)
      else .error .range

/-- One item. -/
def specStep (C : Ctx) (m : Mem) (s : Scopes) : Item → Except Why (Scopes × List Event)
  | .enter => .ok ([] :: s, [])
  | .leave =>
    match s with
    | _ :: s :: ss => .ok (s :: ss, [])
    | _ => .error .unbalanced
  | .object x =>
    match s with
    | [f] =>
      if f.lookup x = some .object then .ok (s, [])
      else (declare x .object s).map fun s => (s, [])
    | s => (declare x .object s).map fun s => (s, [])
  | .enumeration es => (enumerators C m s 0 es).map fun r => (r.1, [.enumeration r.2])
  | .use e => (valueOf C m s e).map fun v => (s, [.value v])

/-- A unit from a given state. -/
def specRun (C : Ctx) (m : Mem) : Scopes → List Item → Except Why (List Event)
  | _, [] => .ok []
  | s, i :: is =>
    match specStep C m s i with
    | .error w => .error w
    | .ok (s, ev) => (specRun C m s is).map fun evs => ev ++ evs

/-- A translation unit begins in the file scope. -/
def specUnit (C : Ctx) (m : Mem) (is : List Item) : Except Why (List Event) := specRun C m [[]] is

/-- All the constants and casts of the expression have integer types that are promoted to signed types (then all the
arithmetic is signed), and the constants are values of their types. -/
def signedExpr : VExpr → Prop
  | .lit b v => (isInteger b && signed (promote b)) = true ∧ InRange b v
  | .name _ => True
  | .cast b e => (isInteger b && signed (promote b)) = true ∧ signedExpr e
  | .un _ e => signedExpr e
  | .bin _ a b | .land a b | .lor a b => signedExpr a ∧ signedExpr b
  | .cond c a b => signedExpr c ∧ signedExpr a ∧ signedExpr b

/-- Every expression of the unit is of that class. -/
def signedItem : Item → Prop
  | .enumeration es => ∀ x e, (x, some e) ∈ es → signedExpr e
  | .use e => signedExpr e
  | _ => True

end Kefir.Enumerators
