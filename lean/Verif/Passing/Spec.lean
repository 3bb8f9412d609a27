import Verif.Entry.Spec

/-!
# Specification of the arguments of a call

Which type each argument of a function call is converted to (C17 6.5.2.2p2, p4, p6, p7) and what values the arguments have.
Nothing here refers to the code that translates calls.
-/

namespace Kefir.Passing
open Kefir.Types (Basic)
open Kefir.IR (Word Mem FP)
open Kefir.Expr Kefir.CSpec Kefir.C17

/-- What the type of the called function says about its parameters. -/
inductive Declared
  /-- `f(T1, …, Tn)` or `f(T1, …, Tn, ...)`; adjusted types; `f(void)` has no parameters -/
  | prototype (ps : List Ty) (ellipsis : Bool)
  /-- `f()`, or a definition with an identifier list of this length -/
  | noPrototype (names : Nat)
  deriving DecidableEq, Repr

/-- The default argument promotions (6.5.2.2p6): integer promotions, and `float` becomes `double`. -/
def promoteArg (t : Ty) (bits : Option Nat) : Ty :=
  match t with
  | .arith b => if b = .float then .arith .double else .arith (promoteW b bits)
  | t => t

/-- The type of the argument after the default argument promotions. -/
def promoted (e : Expr) : Ty := promoteArg (ct e) e.bfw

/-- The types the arguments are converted to: those of the parameters of the prototype; for the arguments behind an ellipsis,
and without a prototype, the promoted types. -/
def passedTypes : Declared → List Expr → List Ty
  | .prototype ps _, args => ps.take args.length ++ (args.drop ps.length).map promoted
  | .noPrototype _, args => args.map promoted

/-- The number of arguments agrees with the prototype (6.5.2.2p2). -/
def CountOk : Declared → List Expr → Prop
  | .prototype ps false, args => args.length = ps.length
  | .prototype ps true, args => ps.length ≤ args.length ∧ ps ≠ []
  | .noPrototype _, _ => True

/-- An argument can be assigned to an object of the type: both are scalar or it has that type (6.5.2.2p2, 6.5.16.1p1). -/
def Assignable (T : Ty) (e : Expr) : Prop :=
  (isScalarT T = true ∧ isScalarT (ct e) = true) ∨ T = ct e

/-- The call satisfies the constraints. -/
def Acceptable (d : Declared) (args : List Expr) : Prop :=
  CountOk d args ∧ ∀ p ∈ (passedTypes d args).zip args, Assignable p.1 p.2

/-- Evaluating the arguments in order (C leaves the order open) from memory `m` gives, after the conversions, these values, and
memory `m'`. -/
inductive Evaluated (C : Ctx) : List Ty → List Expr → Mem → List Val → Mem → Prop
  | nil {m} : Evaluated C [] [] m [] m
  | cons {T e Ts es m v m1 u us m'} : eval C e m = some (v, m1) → conv C.fp T v = some u → Evaluated C Ts es m1 us m' →
      Evaluated C (T :: Ts) (e :: es) m (u :: us) m'

/-- Values of these types are passed in these words. -/
inductive Sent : List Ty → List Val → List (List Word) → Prop
  | nil : Sent [] [] []
  | cons {T u ws Ts us wss} : Entry.Passed T u ws → Sent Ts us wss → Sent (T :: Ts) (u :: us) (ws :: wss)

/-- The words are those of the values in full, also beyond the size of an integer type. -/
inductive Full : List Val → List (List Word) → Prop
  | nil : Full [] []
  | cons {u ws us wss} : Rep u ws → Full us wss → Full (u :: us) (ws :: wss)

/-- The calling convention for a variable number of arguments is needed: the prototype ends with an ellipsis, or there are
more arguments than are known to the type of the function. -/
def variadic : Declared → List Expr → Bool
  | .prototype _ ellipsis, _ => ellipsis
  | .noPrototype names, args => decide (names < args.length)

end Kefir.Passing
