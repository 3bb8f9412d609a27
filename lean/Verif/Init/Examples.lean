import Verif.Init.Model

/-!
# Concrete expressions and types for the examples
-/

namespace Kefir.Init.Examples

open Kefir.Init Model

/-- Expressions: an `int` constant, a string literal with `n` elements, an expression that has the
type of the structure with a tag, the name of an array of `int`. -/
inductive Ex where
  | num (v : Nat)
  | str (n : Nat)
  | rec' (tag : Nat)
  | arr
  deriving DecidableEq

/-- `int`, `char`, `int *`, `char *` are the scalar types 0, 1, 2, 3. -/
def env : Env Ex where
  isString
    | .str _ => true
    | _ => false
  len
    | .str n => n
    | _ => 0
  elemOf e t :=
    match e, t with
    | .str _, .scalar 1 => true
    | _, _ => false
  isScalar
    | .num _ => true
    | _ => false
  decays
    | .rec' _ => false
    | _ => true
  assign e t :=
    match e, t with
    | .num _, .scalar 0 => true
    | .num _, .scalar 1 => true
    | .str _, .scalar 3 => true
    | .arr, .scalar 2 => true
    | .rec' n, .record _ m _ => n == m
    | _, _ => false

/-- `int`. -/
abbrev int : Ty := .scalar 0
/-- `char`. -/
abbrev char : Ty := .scalar 1
/-- `t[n]`. -/
abbrev arr (n : Nat) (t : Ty) : Ty := .array (some n) t

/-- Members with the names 0, 1, … -/
def named : Nat → List Ty → Fields
  | _, [] => .nil
  | i, t :: ts => .cons (some i) false t (named (i + 1) ts)

/-- A structure with members of the given names and types. -/
def members : List (Option Name × Ty) → Fields
  | [] => .nil
  | (n, t) :: r => .cons n false t (members r)

/-- A list without designations. -/
def items : List (Init Ex) → Items Ex
  | [] => .nil
  | i :: r => .cons [] i (items r)

/-- A list with designations. -/
def entries : List (List Desig × Init Ex) → Items Ex
  | [] => .nil
  | (d, i) :: r => .cons d i (entries r)

/-- `{ … }`. -/
abbrev br (l : List (Init Ex)) : Init Ex := .list (items l)
/-- `{ d = …, … }`. -/
abbrev dbr (l : List (List Desig × Init Ex)) : Init Ex := .list (entries l)
/-- An integer constant. -/
abbrev n (v : Nat) : Init Ex := .expr (.num v)

/-- Automatic storage duration, default options. -/
abbrev auto : Cfg := ⟨false, false⟩
/-- Static storage duration. -/
abbrev stat : Cfg := ⟨true, false⟩

end Kefir.Init.Examples
