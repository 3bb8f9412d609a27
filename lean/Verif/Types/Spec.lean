import Verif.Types.Model

/-! C17 rules for arithmetic types on an LP64 implementation with 8-bit, signed `char`
(C17 6.2.5, 6.2.6.2, 6.3.1.1, 6.3.1.8).  Independent of the functions in `Model.lean`: only the names of the
types are shared. -/
namespace Kefir.C17
open Kefir.Types (Basic)
open Kefir.Types.Basic

/-- Number of value bits including the sign bit (LP64, `_Bool` has one). -/
def width : Basic → Nat
  | .bool => 1
  | char | uchar | schar => 8
  | ushort | short => 16
  | uint | int => 32
  | ulong | long | ullong | llong => 64
  | float | double | ldouble => 0

/-- Integer types (C17 6.2.5p17). -/
def isInteger : Basic → Bool
  | float | double | ldouble => false
  | _ => true

/-- Signed integer types, plain `char` being signed. -/
def signed : Basic → Bool
  | char | schar | short | int | long | llong => true
  | _ => false

/-- Smallest and largest value of an integer type. -/
def minVal (t : Basic) : Int := if signed t then -2 ^ (width t - 1) else 0
def maxVal (t : Basic) : Int := if signed t then 2 ^ (width t - 1) - 1 else 2 ^ width t - 1

/-- `v` is a value of the integer type `t`. -/
def InRange (t : Basic) (v : Int) : Prop := minVal t ≤ v ∧ v ≤ maxVal t

instance (t : Basic) (v : Int) : Decidable (InRange t v) := inferInstanceAs (Decidable (_ ∧ _))

/-- `v` is a value of a bit-field of type `t` and width `w` (C17 6.7.2.1p10); an ordinary object when the
width is absent. -/
def FieldRange (t : Basic) (w : Option Nat) (v : Int) : Prop :=
  match w with
  | none => InRange t v
  | some w => if signed t then -2 ^ (w - 1) ≤ v ∧ v ≤ 2 ^ (w - 1) - 1 else 0 ≤ v ∧ v ≤ 2 ^ w - 1

/-- Conversion rank, C17 6.3.1.1p1: `long long` > `long` > `int` > `short` > `char` > `_Bool`. -/
def convRank : Basic → Nat
  | .bool => 0
  | char | uchar | schar => 1
  | ushort | short => 2
  | uint | int => 3
  | ulong | long => 4
  | ullong | llong => 5
  | float | double | ldouble => 0

/-- `int` can represent every value of the operand (as restricted by the width, for a bit-field). -/
def intRepresents (t : Basic) (w : Option Nat) : Prop :=
  ∀ v, FieldRange t w v → InRange int v

/-- `p` is the type to which the integer promotions take an operand of integer type `t` with bit-field
width `w` (C17 6.3.1.1p2).  Bit-fields of types with a rank above `int` are an extension
(6.7.2.1p5 "some other implementation-defined type"): there any integer type that keeps every value and is
not below `int` is allowed. -/
def Promotes (t : Basic) (w : Option Nat) (p : Basic) : Prop :=
  if convRank t ≤ convRank int then
    (intRepresents t w → p = int) ∧ (¬ intRepresents t w → p = uint)
  else
    match w with
    | none => p = t
    | some _ => isInteger p = true ∧ convRank int ≤ convRank p ∧ ∀ v, FieldRange t w v → InRange p v

/-- The corresponding unsigned type. -/
def toUnsigned : Basic → Basic
  | char | schar => uchar
  | short => ushort
  | int => uint
  | long => ulong
  | llong => ullong
  | t => t

/-- `c` is the common real type of two promoted integer operands (C17 6.3.1.8p1, the integer rules). -/
def commonInteger (p q : Basic) : Basic :=
  if p = q then p
  else if signed p = signed q then (if convRank p ≥ convRank q then p else q)
  else
    let s := if signed p then p else q
    let u := if signed p then q else p
    if convRank u ≥ convRank s then u
    else if minVal s ≤ minVal u ∧ maxVal u ≤ maxVal s then s
    else toUnsigned s

/-- The integer promotions of operands that are not bit-fields as a function. -/
def promote (t : Basic) : Basic :=
  if convRank t ≤ convRank int then (if t = uint then uint else int) else t

/-- Usual arithmetic conversions of two promoted operands (C17 6.3.1.8). -/
def commonReal (p q : Basic) : Basic :=
  if p = ldouble ∨ q = ldouble then ldouble
  else if p = double ∨ q = double then double
  else if p = float ∨ q = float then float
  else commonInteger p q

end Kefir.C17
