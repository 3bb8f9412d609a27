import Verif.Expr.Spec

/-!
# Specification of the entry of a function

What the parameters of a function hold when its body begins (C17 6.9.1p9-p11, 6.5.2.2p4, p6, p7), given the words that the
System V ABI for AMD64 says each argument is passed in.  Nothing here refers to the code that stores the arguments.
-/

namespace Kefir.Entry
open Kefir.Types (Basic)
open Kefir.IR (Word Mem FP)
open Kefir.Expr Kefir.CSpec Kefir.C17

/-- How the parameters are declared: by a prototype, `int f(char c) {…}`, or by an identifier list and a declaration list,
`int f(c) char c; {…}`. -/
inductive Style
  | prototype
  | identifiers
  deriving DecidableEq, Repr

/-- A parameter of a function definition. -/
structure Param where
  /-- its storage, as offsets from the beginning of the storage of automatic objects; `none`: it has no name -/
  place : Option (List Nat)
  /-- its type, adjusted (arrays and functions to pointers, 6.7.6.3p7, p8) and without qualifiers -/
  ty : Ty
  /-- declared with `const` or `volatile` -/
  qualified : Bool
  deriving DecidableEq, Repr

/-- The type with which the argument is passed: without a prototype the default argument promotions are applied. -/
def arriving : Style → Ty → Ty
  | .prototype, t => t
  | .identifiers, .arith b => if b = .float then .arith .double else .arith (promoteW b none)
  | .identifiers, t => t

/-- `ws` (top of the stack first) are words in which a value of the type is passed: bits beyond the size of an integer type
are arbitrary, an aggregate is passed as the address of its bytes. -/
def Passed (t : Ty) (v : Val) (ws : List Word) : Prop :=
  match t, v with
  | .void, .void => ws = []
  | .arith b, .int v => isInteger b = true ∧ InRange b v ∧
      ∃ w : Word, ws = [w] ∧ w.setWidth (8 * basicSize b) = BitVec.ofInt (8 * basicSize b) v
  | .arith b, .fl f x => b = ofFmt f ∧ Rep (.fl f x) ws
  | .ptr _, .int v => (0 ≤ v ∧ v < 2 ^ 64) ∧ ws = [BitVec.ofInt 64 v]
  | .agg _ _, .int v => (0 ≤ v ∧ v < 2 ^ 64) ∧ ws = [BitVec.ofInt 64 v]
  | _, _ => False

/-- A relation between parameters, values and words, one by one. -/
inductive All3 (R : Param → Val → List Word → Prop) : List Param → List Val → List (List Word) → Prop
  | nil : All3 R [] [] []
  | cons {p v ws ps vs wss} : R p v ws → All3 R ps vs wss → All3 R (p :: ps) (v :: vs) (ws :: wss)

/-- The function has been called with these values, which are passed in these words. -/
def Called (style : Style) : List Param → List Val → List (List Word) → Prop :=
  All3 fun p v ws => Passed (arriving style p.ty) v ws

/-- The words of all arguments, top of the stack first: the last argument has been pushed last. -/
def pushed (wss : List (List Word)) : List Word := wss.reverse.flatten

/-- The byte at `x` belongs to the object of `n` bytes at `a`. -/
def InObj (a : Word) (n : Nat) (x : Word) : Prop := (x - a).toNat < n

/-- No byte belongs to both objects. -/
def Apart (r s : Word × Nat) : Prop := ∀ x, ¬ (InObj r.1 r.2 x ∧ InObj s.1 s.2 x)

/-- Storage of the parameters that have names: address and size. -/
def storage (frame : Word) (ps : List Param) : List (Word × Nat) :=
  ps.filterMap fun p => p.place.map fun o => (offsetBy frame o, p.ty.size)

/-- The bytes of the aggregates that are passed are not in the storage of the parameters. -/
def SourcesApart (frame : Word) (ps : List Param) (vs : List Val) (wss : List (List Word)) : Prop :=
  All3 (fun p v _ => ∀ g n src, p.ty = .agg g n → v = .int src →
    ∀ r ∈ storage frame ps, Apart (BitVec.ofInt 64 src, n) r) ps vs wss

/-- In memory `m'` the object of type `t` at `a` has the value of the argument: a scalar the value converted to the type of the
parameter, an aggregate the bytes that were in the argument. -/
def Holds (F : FP) (m m' : Mem) (a : Word) (t : Ty) (v : Val) : Prop :=
  match t, v with
  | .agg _ n, .int src => ∀ i < n, m' (a + BitVec.ofNat 64 i) = m (BitVec.ofInt 64 src + BitVec.ofNat 64 i)
  | t, v => ∃ u, conv F t v = some u ∧ load t none m' a = some u

/-- Every parameter with a name has the value of its argument. -/
inductive Received (F : FP) (frame : Word) (m m' : Mem) : List Param → List Val → Prop
  | nil : Received F frame m m' [] []
  | cons {p v ps vs} : (∀ o, p.place = some o → Holds F m m' (offsetBy frame o) p.ty v) → Received F frame m m' ps vs →
      Received F frame m m' (p :: ps) (v :: vs)

/-- What a C function definition can have: types are adjusted; `void` only as `(void)`; the parameters of an identifier
list have names. -/
def WellFormed (style : Style) (p : Param) : Prop :=
  (∀ t n, p.ty ≠ .arr t n) ∧ (p.ty = .void → p.place = none ∧ p.qualified = false ∧ style = .prototype) ∧
    (style = .identifiers → p.place.isSome = true)

end Kefir.Entry
