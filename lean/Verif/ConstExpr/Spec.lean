import Verif.Expr.Spec

/-!
# Conditions on integer constant expressions

`CSpec.eval` (C17 semantics of expressions) is the specification of constant evaluation too (C17 6.6p11: "The
semantic rules for the evaluation of a constant expression are the same as for nonconstant expressions").  Here are
the syntactic classes the theorems range over; they mention C types only.
-/
namespace Kefir.ConstExpr
open Kefir.Types (Basic)
open Kefir.Expr Kefir.C17 Kefir.CSpec

/-- Made of integer constants, `sizeof`, casts to integer types and the operators of integer expressions. -/
def intExpr : Expr → Bool
  | .const b _ => isInteger b
  | .sizeof _ => true
  | .cast (.arith b) e => isInteger b && intExpr e
  | .un _ e => intExpr e
  | .bin _ a b | .land a b | .lor a b | .elvis a b | .comma a b => intExpr a && intExpr b
  | .cond c a b => intExpr c && intExpr a && intExpr b
  | _ => false

/-- Arithmetic type of an operand. -/
def basic : Ty → Basic
  | .arith b => b
  | _ => .int

/-- Type of an expression of arithmetic type. -/
def bt (e : Expr) : Basic := basic (ct e)

/-- Every value of `b` is either a value of `c`, or `c` has 64 bits. -/
def fitsIn (b c : Basic) : Bool := width c == 64 || (decide (minVal c ≤ minVal b) && decide (maxVal b ≤ maxVal c))

/-- Operators whose mathematical result can leave the range of the operands' type. -/
def canOverflow : BinOp → Bool
  | .add | .sub | .mul | .shl => true
  | _ => false

/-- No operation is performed in `unsigned int`, unless all operand types are unsigned and the result cannot exceed
32 bits; and shifts are not given operands of different signedness (after promotion) such that the common type
has another signedness than the promoted left operand.  Constant evaluation keeps 64-bit values and takes the
signedness of a shift from the common type, so it is wrong outside of this class. -/
def exactOps : Expr → Bool
  | .const b _ => isInteger b
  | .cast (.arith b) e => isInteger b && exactOps e
  | .un op e =>
    exactOps e && (op == .plus || op == .lnot || promote (bt e) != .uint)
  | .bin op a b =>
    exactOps a && exactOps b &&
    if op == .shl || op == .shr then
      (promote (bt a) != .uint || op == .shr) &&
      signed (promote (bt a)) == signed (commonReal (promote (bt a)) (promote (bt b)))
    else
      let c := commonReal (promote (bt a)) (promote (bt b))
      fitsIn (bt a) c && fitsIn (bt b) c && (c != .uint || !canOverflow op)
  | .land a b | .lor a b => exactOps a && exactOps b
  | .cond c a b =>
    exactOps c && exactOps a && exactOps b &&
    let t := commonReal (promote (bt a)) (promote (bt b))
    fitsIn (bt a) t && fitsIn (bt b) t
  | .elvis c b =>
    exactOps c && exactOps b &&
    let t := commonReal (promote (bt c)) (promote (bt b))
    fitsIn (bt c) t && fitsIn (bt b) t
  | _ => false

/-- No `+`, `-`, `*` is performed in `unsigned long` (or `unsigned long long`). -/
def noUnsignedLong : Expr → Bool
  | .cast _ e => noUnsignedLong e
  | .un op e => noUnsignedLong e && (op != .neg || signed (promote (bt e)))
  | .bin op a b =>
    noUnsignedLong a && noUnsignedLong b &&
    (!(op == .add || op == .sub || op == .mul) || signed (commonReal (promote (bt a)) (promote (bt b))))
  | .land a b | .lor a b | .elvis a b => noUnsignedLong a && noUnsignedLong b
  | .cond c a b => noUnsignedLong c && noUnsignedLong a && noUnsignedLong b
  | _ => true

end Kefir.ConstExpr
