/-!
# Address constants: specification

C17 6.6p7 and 6.6p9: the initialiser of an object of static storage duration may be an address
constant, possibly plus or minus an integer constant; it has the value the expression has when it is
evaluated in the abstract machine (6.6p11).

The expressions are those 6.6p9 lists (the operators `[]`, `.`, `->`, `&`, `*` and casts), addition,
subtraction and the conditional operator. Integer constant expressions are leaves here: their values
are the subject of C17 and C18. `num t v` is one of type `t` with the value `v`, extended to 64 bits
by the signedness of its type.

Nothing in this file depends on the model of Kefir.
-/
namespace Verif.AddrConst

abbrev W64 := BitVec 64

inductive Ty where
  | void
  | bool
  | int (size : Nat) (signed : Bool)
  | ptr (to : Ty)
  | arr (elem : Ty) (len : Option Nat)
  | struct (name : String)
  | fn
  deriving DecidableEq, Repr

inductive Expr where
  | num (t : Ty) (v : W64)
  | str (k : Nat) (len : Nat)
  | id (x : String)
  | member (e : Expr) (m : String)
  | arrow (e : Expr) (m : String)
  | index (a i : Expr)
  | addr (e : Expr)
  | deref (e : Expr)
  | add (a b : Expr)
  | minus (a b : Expr)
  | cast (t : Ty) (e : Expr)
  | cond (c a b : Expr)
  deriving DecidableEq, Repr

/-- What an identifier was declared as: an object, with its type and whether its storage duration is
static, or a function. -/
inductive Decl where
  | object (t : Ty) (isStatic : Bool)
  | function
  deriving DecidableEq, Repr

/-- The declarations an expression is read with, and the layout of the structures. -/
structure World where
  decl : String → Option Decl
  structSize : String → Option Nat
  member : String → String → Option (Nat × Ty)

def Ty.integral : Ty → Bool
  | .bool | .int _ _ => true
  | _ => false

def Ty.scalar : Ty → Bool
  | .bool | .int _ _ | .ptr _ => true
  | _ => false

/-- Arrays and functions stand for the address of what they designate (6.3.2.1p3–4). -/
def Ty.decays : Ty → Bool
  | .arr _ _ | .fn => true
  | _ => false

def Ty.decay : Ty → Ty
  | .arr t _ => .ptr t
  | .fn => .ptr .fn
  | t => t

/-- Size of a complete object type. -/
def World.size (w : World) : Ty → Option Nat
  | .void | .fn => none
  | .bool => some 1
  | .int s _ => some s
  | .ptr _ => some 8
  | .arr t (some n) => (w.size t).map (· * n)
  | .arr _ none => none
  | .struct s => w.structSize s

/-- Integer promotions and usual arithmetic conversions (6.3.1.1p2, 6.3.1.8). -/
def Ty.promote : Ty → Ty
  | .int s sg => if s < 4 then .int 4 true else .int s sg
  | _ => .int 4 true

def Ty.common (a b : Ty) : Ty :=
  match a.promote, b.promote with
  | .int s x, .int s' y => if s = s' then .int s (x && y) else if s < s' then .int s' y else .int s x
  | t, _ => t

/-- The operand of `&` designates an object or a function (6.5.3.2p1). -/
def Expr.designates : Expr → Bool
  | .id _ | .str _ _ | .member _ _ | .arrow _ _ | .index _ _ | .deref _ => true
  | _ => false

/-- The type of an expression, before arrays and functions are converted; none if a constraint is
violated. -/
def typeOf (w : World) : Expr → Option Ty
  | .num t _ => if t.integral then some t else none
  | .str _ n => some (.arr (.int 1 true) (some n))
  | .id x =>
    match w.decl x with
    | some (.object t _) => some t
    | some .function => some .fn
    | none => none
  | .member e m =>
    match typeOf w e with
    | some (.struct s) => (w.member s m).map (·.2)
    | _ => none
  | .arrow e m =>
    match (typeOf w e).map Ty.decay with
    | some (.ptr (.struct s)) => (w.member s m).map (·.2)
    | _ => none
  | .index a i =>
    match (typeOf w a).map Ty.decay, (typeOf w i).map Ty.decay with
    | some (.ptr t), some ti => if ti.integral ∧ (w.size t).isSome then some t else none
    | some ta, some (.ptr t) => if ta.integral ∧ (w.size t).isSome then some t else none
    | _, _ => none
  | .addr e => if e.designates then (typeOf w e).map .ptr else none
  | .deref e =>
    match (typeOf w e).map Ty.decay with
    | some (.ptr t) => some t
    | _ => none
  | .add a b =>
    match (typeOf w a).map Ty.decay, (typeOf w b).map Ty.decay with
    | some (.ptr t), some tb => if tb.integral ∧ (w.size t).isSome then some (.ptr t) else none
    | some ta, some (.ptr t) => if ta.integral ∧ (w.size t).isSome then some (.ptr t) else none
    | some ta, some tb => if ta.integral ∧ tb.integral then some (ta.common tb) else none
    | _, _ => none
  | .minus a b =>
    match (typeOf w a).map Ty.decay, (typeOf w b).map Ty.decay with
    | some (.ptr t), some (.ptr t') => if t = t' ∧ (w.size t).isSome then some (.int 8 true) else none
    | some (.ptr t), some tb => if tb.integral ∧ (w.size t).isSome then some (.ptr t) else none
    | some ta, some tb => if ta.integral ∧ tb.integral then some (ta.common tb) else none
    | _, _ => none
  | .cast t e =>
    match (typeOf w e).map Ty.decay with
    | some te => if t.scalar ∧ te.scalar then some t else none
    | none => none
  | .cond c a b =>
    match (typeOf w c).map Ty.decay, (typeOf w a).map Ty.decay, (typeOf w b).map Ty.decay with
    | some tc, some ta, some tb => if tc.scalar ∧ ta.scalar ∧ ta = tb then some ta else none
    | _, _, _ => none

/-- What has an address fixed before the program starts: an object of static storage duration, a
function, a string literal. -/
inductive Base where
  | named (x : String)
  | literal (k : Nat)
  deriving DecidableEq, Repr

/-- Where the program is loaded: any assignment of addresses. -/
abbrev Placement := Base → W64

/-- An expression designates an object or function of a type at an address, or has a value. -/
inductive Meaning where
  | obj (a : W64) (t : Ty)
  | val (v : W64)
  deriving DecidableEq, Repr

/-- The value of an operand: arrays and functions are converted to their address, other objects would
have to be read, which an address constant does not do (6.6p9). -/
def Meaning.value : Meaning → Option W64
  | .obj a t => if t.decays then some a else none
  | .val v => some v

/-- Conversion of a word to a type (6.3.1.2, 6.3.1.3, 6.3.2.3): to `_Bool` it is compared with zero,
to an integer type of n bytes the low n bytes are kept and extended by the signedness of the type, a
pointer keeps the word. -/
def convert : Ty → W64 → W64
  | .bool, v => if v = 0 then 0 else 1
  | .int s true, v => (v.setWidth (8 * s)).signExtend 64
  | .int s false, v => (v.setWidth (8 * s)).setWidth 64
  | _, v => v

/-- Meaning of an expression in the abstract machine, with everything placed by `P`. -/
def meaning (w : World) (P : Placement) : Expr → Option Meaning
  | .num t v => if t.integral then some (.val v) else none
  | .str k n => some (.obj (P (.literal k)) (.arr (.int 1 true) (some n)))
  | .id x =>
    match w.decl x with
    | some (.object t true) => some (.obj (P (.named x)) t)
    | some .function => some (.obj (P (.named x)) .fn)
    | _ => none
  | .member e m =>
    match meaning w P e with
    | some (.obj a (.struct s)) => (w.member s m).map fun (o, t) => .obj (a + BitVec.ofNat 64 o) t
    | _ => none
  | .arrow e m =>
    match (typeOf w e).map Ty.decay, (meaning w P e).bind Meaning.value with
    | some (.ptr (.struct s)), some a => (w.member s m).map fun (o, t) => .obj (a + BitVec.ofNat 64 o) t
    | _, _ => none
  | .index a i =>
    match (typeOf w a).map Ty.decay, (typeOf w i).map Ty.decay,
        (meaning w P a).bind Meaning.value, (meaning w P i).bind Meaning.value with
    | some (.ptr t), _, some x, some y => (w.size t).map fun n => .obj (x + y * BitVec.ofNat 64 n) t
    | _, some (.ptr t), some x, some y => (w.size t).map fun n => .obj (y + x * BitVec.ofNat 64 n) t
    | _, _, _, _ => none
  | .addr e =>
    match meaning w P e with
    | some (.obj a _) => some (.val a)
    | _ => none
  | .deref e =>
    match (typeOf w e).map Ty.decay, (meaning w P e).bind Meaning.value with
    | some (.ptr t), some a => some (.obj a t)
    | _, _ => none
  | .add a b =>
    match (typeOf w a).map Ty.decay, (typeOf w b).map Ty.decay,
        (meaning w P a).bind Meaning.value, (meaning w P b).bind Meaning.value with
    | some (.ptr t), _, some x, some y => (w.size t).map fun n => .val (x + y * BitVec.ofNat 64 n)
    | _, some (.ptr t), some x, some y => (w.size t).map fun n => .val (y + x * BitVec.ofNat 64 n)
    | some ta, some tb, some x, some y => some (.val (convert (ta.common tb) (x + y)))
    | _, _, _, _ => none
  | .minus a b =>
    match (typeOf w a).map Ty.decay, (typeOf w b).map Ty.decay,
        (meaning w P a).bind Meaning.value, (meaning w P b).bind Meaning.value with
    | some (.ptr t), some (.ptr _), some x, some y =>
      (w.size t).map fun n => .val ((x - y).sdiv (BitVec.ofNat 64 n))
    | some (.ptr t), _, some x, some y => (w.size t).map fun n => .val (x - y * BitVec.ofNat 64 n)
    | some ta, some tb, some x, some y => some (.val (convert (ta.common tb) (x - y)))
    | _, _, _, _ => none
  | .cast t e => ((meaning w P e).bind Meaning.value).map fun v => .val (convert t v)
  | .cond c a b =>
    match (meaning w P c).bind Meaning.value with
    | some v =>
      if v = 0 then ((meaning w P b).bind Meaning.value).map .val
      else ((meaning w P a).bind Meaning.value).map .val
    | none => none

/-- The value of an initialiser. -/
def valueOf (w : World) (P : Placement) (e : Expr) : Option W64 :=
  (meaning w P e).bind Meaning.value

/-- Integer constant expressions made of integer constants and casts between integer types, with
addition and subtraction (6.6p6). -/
def Expr.numeric : Expr → Bool
  | .num t _ => t.integral
  | .cast t e => t.integral && e.numeric
  | .add a b => a.numeric && b.numeric
  | .minus a b => a.numeric && b.numeric
  | .cond c a b => c.numeric && a.numeric && b.numeric
  | _ => false

/-- 6.6p9 and the last item of 6.6p7: `some true` for an expression that designates an object of static
storage duration, a function or a string literal without reading any object, `some false` for an
address constant made of one or of an integer constant cast to a pointer, possibly plus or minus an
integer constant. -/
def constantForm (w : World) : Expr → Option Bool
  | .str _ _ => some true
  | .id x =>
    match w.decl x with
    | some (.object _ true) => some true
    | some .function => some true
    | _ => none
  | .member e _ => if constantForm w e = some true then some true else none
  | .arrow e _ => if isAddress e (constantForm w e) then some true else none
  | .index a i =>
    if isAddress a (constantForm w a) ∧ i.numeric then some true
    else if a.numeric ∧ isAddress i (constantForm w i) then some true
    else none
  | .deref e => if isAddress e (constantForm w e) then some true else none
  | .addr e => if constantForm w e = some true then some false else none
  | .add a b =>
    if isAddress a (constantForm w a) ∧ b.numeric then some false
    else if a.numeric ∧ isAddress b (constantForm w b) then some false
    else none
  | .minus a b => if isAddress a (constantForm w a) ∧ b.numeric then some false else none
  | .cast (.ptr _) e => if e.numeric ∨ isAddress e (constantForm w e) then some false else none
  | _ => none
where
  isAddress (e : Expr) (k : Option Bool) : Bool :=
    k == some false || k == some true && ((typeOf w e).map Ty.decays == some true)

/-- The address constants 6.6 requires to be accepted. -/
def addressConstant (w : World) (e : Expr) : Bool :=
  (typeOf w e).isSome && constantForm.isAddress w e (constantForm w e)

end Verif.AddrConst
