import Verif.Expr.Analyzer
import Verif.IR.Machine

/-!
# Model of constant expression evaluation

`source/ast/constant_expression/*.c` for expressions made of integer constants, `sizeof`, casts to integer types, the
unary operators `+ - ~ !`, the binary operators, `&&`, `||`, `?:` and the comma.  Floating constants, address
constants, identifiers of objects and functions, string literals, `_Alignof` and `_Generic` are not modelled.

A value of class `KEFIR_AST_CONSTANT_EXPRESSION_CLASS_INTEGER` is a union of an `int64_t` and a `uint64_t`
(`headers/kefir/ast/constant_expression.h` 40-42, 64-74): a 64-bit word.  The evaluator is itself a C11 program
(`-std=c11` without `-fwrapv`, `/repo/Makefile.mk`), so an `int64_t` operation with an unrepresentable result, a
division by zero and a shift by a negative amount or by 64 or more are undefined behaviour of kefir: outcome
`undefined`.
-/
namespace Kefir.ConstExpr
open Kefir.Types (Basic)
open Kefir.Expr
open Kefir.IR (Word)

/-- What can go wrong: an error code, undefined behaviour of the compiler itself, or an expression outside the model. -/
inductive Fault where
  | err (e : Err)
  | undefined
  | unmodelled
  deriving DecidableEq, Repr

abbrev Out (α : Type) := Except Fault α

/-- Result of an `int64_t` operation of the host whose mathematical result is `r`. -/
def int64 (r : Int) : Out Word :=
  if -2 ^ 63 ≤ r ∧ r < 2 ^ 63 then .ok (BitVec.ofInt 64 r) else .error .undefined

/-- A C truth value as an integer. -/
def ofBool (b : Bool) : Word := if b then 1 else 0

/-- `constant_expression/cast_operator.c` 26-86 `cast_integral_type` (sizes 3 and 4 share a case; there are no
integer types of size 3). -/
def castInt (b : Basic) (w : Word) : Word :=
  if b = .bool then ofBool (w != 0)
  else if b.isSigned then
    match basicSize b with
    | 1 => (w.setWidth 8).signExtend 64
    | 2 => (w.setWidth 16).signExtend 64
    | 4 => (w.setWidth 32).signExtend 64
    | _ => w
  else
    match basicSize b with
    | 1 => (w.setWidth 8).setWidth 64
    | 2 => (w.setWidth 16).setWidth 64
    | 4 => (w.setWidth 32).setWidth 64
    | _ => w

/-- `constant_expression/unary_operation.c` 66-125, the integer cases. -/
def evalUn (op : UnOp) (w : Word) : Out Word :=
  match op with
  | .plus => .ok w
  | .neg => int64 (-w.toInt)
  | .bnot => .ok (~~~w)
  | .lnot => .ok (ofBool (w == 0))

/-- `constant_expression/binary_operation.c` 147-335, the integer cases.  `sg` is `common_type_signed_integer`; the
divisor and the shift count are read through the `int64_t` member, and the divisor is converted to `uint64_t` for
an unsigned division. -/
def evalBin (sg : Bool) (op : BinOp) (a b : Word) : Out Word :=
  match op with
  | .add => int64 (a.toInt + b.toInt)
  | .sub => int64 (a.toInt - b.toInt)
  | .mul => int64 (a.toInt * b.toInt)
  | .div =>
    if b = 0 then .error (.err .notConstant)
    else if sg then int64 (a.toInt.tdiv b.toInt)
    else .ok (a / b)
  | .mod =>
    if b = 0 then .error .undefined
    else if sg then (int64 (a.toInt.tdiv b.toInt)).map fun _ => BitVec.ofInt 64 (a.toInt.tmod b.toInt)
    else .ok (a % b)
  | .shl =>
    if b.toInt < 0 ∨ 64 ≤ b.toInt then .error .undefined
    else if sg then
      if a.toInt < 0 then .error .undefined else int64 (a.toInt * 2 ^ b.toNat)
    else .ok (a <<< b.toNat)
  | .shr =>
    if b.toInt < 0 ∨ 64 ≤ b.toInt then .error .undefined
    else if sg then .ok (a.sshiftRight b.toNat)
    else .ok (a >>> b.toNat)
  | .lt => .ok (ofBool (if sg then decide (a.toInt < b.toInt) else decide (a.toNat < b.toNat)))
  | .le => .ok (ofBool (if sg then decide (a.toInt ≤ b.toInt) else decide (a.toNat ≤ b.toNat)))
  | .gt => .ok (ofBool (if sg then decide (a.toInt > b.toInt) else decide (a.toNat > b.toNat)))
  | .ge => .ok (ofBool (if sg then decide (a.toInt ≥ b.toInt) else decide (a.toNat ≥ b.toNat)))
  | .eq => .ok (ofBool (a == b))
  | .ne => .ok (ofBool (a != b))
  | .band => .ok (a &&& b)
  | .bor => .ok (a ||| b)
  | .bxor => .ok (a ^^^ b)

/-- `constant_expression/binary_operation.c` 133-139: `common_type_signed_integer`, from the analysed types of the
operands (`false` when there is no common integer type). -/
def commonSigned (a b : Expr) : Bool :=
  match kCommon (kt a) a.bfw (kt b) b.bfw with
  | some (.arith c) => c.isIntegral && c.isSigned
  | _ => false

/-- `constant_expression/constant_expression.c` 67-72: only nodes flagged as constant expressions are evaluated
(the flag is `Expr.isConst`, set by the analyzer). -/
def req (e : Expr) (k : Out Word) : Out Word := if e.isConst then k else .error (.err .notConstant)

/-- `kefir_ast_constant_expression_value_evaluate`, `constant_expression/constant_expression.c` 57-86:
`constant.c` 26-113, `unary_operation.c` 50-186, `binary_operation.c` 119-396, `conditional_operator.c` 26-84,
`cast_operator.c` 88-199.  `sizeof` uses the size of the type (`unary_operation.c` 144-166). -/
def ceval : Expr → Out Word
  | .const b v => if b.isIntegral then .ok (BitVec.ofInt 64 v) else .error .unmodelled
  | .sizeof t => .ok (BitVec.ofNat 64 t.size)
  | .cast (.arith b) e =>
    if b.isIntegral then
      req (.cast (.arith b) e) (match ceval e with
        | .ok w => .ok (castInt b w)
        | .error f => .error f)
    else .error .unmodelled
  | .un op e =>
    req (.un op e) (match ceval e with
      | .ok w => evalUn op w
      | .error f => .error f)
  | .bin op a b =>
    req (.bin op a b) (match ceval a with
      | .ok v =>
        match ceval b with
        | .ok w => evalBin (commonSigned a b) op v w
        | .error f => .error f
      | .error f => .error f)
  | .land a b =>
    req (.land a b) (match ceval a with
      | .ok v =>
        if v != 0 then
          match ceval b with
          | .ok w => .ok (ofBool (w != 0))
          | .error f => .error f
        else .ok 0
      | .error f => .error f)
  | .lor a b =>
    req (.lor a b) (match ceval a with
      | .ok v =>
        if v != 0 then .ok 1
        else
          match ceval b with
          | .ok w => .ok (ofBool (w != 0))
          | .error f => .error f
      | .error f => .error f)
  | .cond c a b =>
    req (.cond c a b) (match ceval c with
      | .ok v => if v != 0 then ceval a else ceval b
      | .error f => .error f)
  | .elvis c b =>
    req (.elvis c b) (match ceval c with
      | .ok v => if v != 0 then .ok v else ceval b
      | .error f => .error f)
  | .comma _ _ => .error (.err .notConstant)
  | _ => .error .unmodelled

end Kefir.ConstExpr
