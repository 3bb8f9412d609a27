import Verif.Base

/-! Arithmetic types of kefir and the conversions between them
(`ast/type/basic.c`, `ast/type.c`, `ast/type_conv.c`), for the only supported data model, LP64. -/
namespace Kefir.Types

/-- Tags of the arithmetic types, `headers/kefir/ast/type/base.h` 30-46 (enumerations are unwrapped to
their underlying type, `signed int`, before any of the functions below looks at them;
`ast/type.c` 163-170 `underlying_enumeration_type`). -/
inductive Basic
  | bool | char | uchar | schar | ushort | short | uint | int | ulong | long | ullong | llong
  | float | double | ldouble
  deriving DecidableEq, Repr, Inhabited

namespace Basic

/-- All arithmetic types (to enumerate the finite table). -/
def all : List Basic :=
  [bool, char, uchar, schar, ushort, short, uint, int, ulong, long, ullong, llong, float, double, ldouble]

theorem mem_all (b : Basic) : b ∈ all := by cases b <;> decide

/-- `ast/type/basic.c` 91-105, the `rank` field of the scalar types.  `long` and `long long` share rank 4. -/
def rank : Basic → Nat
  | bool => 0
  | char | uchar | schar => 1
  | ushort | short => 2
  | uint | int => 3
  | ulong | long | ullong | llong => 4
  | float => 5 | double => 6 | ldouble => 7

/-- `KEFIR_AST_TYPE_IS_INTEGRAL_TYPE`, `headers/kefir/ast/type/basic.h` 53-66. -/
def isIntegral : Basic → Bool
  | float | double | ldouble => false
  | _ => true

/-- `KEFIR_INTERNAL_AST_TYPE_IS_SIGNED_INTEGER`, `headers/kefir/ast/type/basic.h` 54-57 (plain `char` is
not in that list). -/
def isSignedTag : Basic → Bool
  | schar | short | int | long | llong => true
  | _ => false

/-- `kefir_ast_type_is_signed`, `ast/type/basic.c` 171-207, with `character_type_signedness = true`
(`ast/type.c` 170).  Only called on integral types; on floating types the C function returns an error, the
model returns `false`. -/
def isSigned : Basic → Bool
  | char | schar | short | int | long | llong => true
  | _ => false

/-- `default_integral_type_fit_rank`, `ast/type.c` 28-68, at `KEFIR_DATA_MODEL_LP64`. -/
def fitRank : Basic → Nat
  | bool | char | uchar | schar => 1
  | ushort | short => 2
  | uint | int => 4
  | ulong | long => 8
  | ullong | llong => 8
  | _ => 0

/-- `default_integral_type_fits`, `ast/type.c` 70-99 (for integral operands). -/
def fits (src dst : Basic) : Bool :=
  if src.isSigned == dst.isSigned || (src.isSigned && !dst.isSigned) then
    decide (src.fitRank ≤ dst.fitRank)
  else if !src.isSigned && dst.isSigned then
    decide (src.fitRank < dst.fitRank)
  else false

/-- `default_bitfield_promotion`, `ast/type.c` 143-156, with `signed_integer_width = 32`. -/
def bitfieldPromotion (t : Basic) (width : Nat) : Basic :=
  if width == 32 && t.isSignedTag then int
  else if width ≥ 32 then t
  else int

/-- `ast/type_conv.c` 35-38: the type considered after looking at the bit-field width. -/
def fieldBase (t : Basic) : Option Nat → Basic
  | some w => t.bitfieldPromotion w
  | none => t

/-- `kefir_ast_type_int_promotion`, `ast/type_conv.c` 25-55.  `bf` is the bit-field width, if the operand
is a bit-field.  `none` is the `NULL` result. -/
def intPromotion (t : Basic) (bf : Option Nat) : Option Basic :=
  if !t.isIntegral then none
  else
    let t := t.fieldBase bf
    if t.rank < int.rank then
      if t.fits int then some int
      else if t.fits uint then some uint
      else if bf.isSome then some t
      else none
    else some t

/-- `kefir_ast_type_flip_integer_singedness`, `ast/type/basic.c` 120-169. -/
def flip : Basic → Option Basic
  | bool => some bool
  | char => some uchar
  | uchar => some schar
  | schar => some uchar
  | ushort => some short
  | short => some ushort
  | uint => some int
  | int => some uint
  | ulong => some long
  | long => some ulong
  | ullong => some llong
  | llong => some ullong
  | _ => none

/-- `kefir_ast_type_common_arithmetic`, `ast/type_conv.c` 59-123. -/
def commonArith (t1 : Basic) (bf1 : Option Nat) (t2 : Basic) (bf2 : Option Nat) : Option Basic :=
  if t1 == ldouble || t2 == ldouble then some ldouble
  else if t1 == double || t2 == double then some double
  else if t1 == float || t2 == float then some float
  else
    match t1.intPromotion bf1, t2.intPromotion bf2 with
    | some t1, some t2 =>
      if t1 == t2 then some t1
      else if t1.isSigned == t2.isSigned then
        if t1.rank > t2.rank then some t1 else some t2
      else if !t1.isSigned && decide (t1.rank ≥ t2.rank) then some t1
      else if t1.isSigned && decide (t2.rank ≥ t1.rank) then some t2
      else if t1.isSigned && t2.fits t1 then some t1
      else if !t1.isSigned && t1.fits t2 then some t2
      else if t1.isSigned then t1.flip
      else t2.flip
    | _, _ => none

/-- `kefir_ast_type_function_default_argument_promotion`, `ast/type_conv.c` 125-134 (on arithmetic types). -/
def defaultArgPromotion (t : Basic) : Option Basic :=
  if t.isIntegral then t.intPromotion none
  else if t == float then some double
  else some t

end Basic
end Kefir.Types
