import Verif.Expr.Syntax
import Verif.Types.Model

/-! Expression types as computed by kefir's analyzer (`ast/analyzer/nodes/*.c`).  `none`: the analyzer reports an
error. -/
namespace Kefir.Expr
open Kefir.Types (Basic)

def Ty.isArith : Ty → Bool
  | .arith _ => true
  | _ => false

def Ty.isIntegral : Ty → Bool
  | .arith b => b.isIntegral
  | _ => false

def Ty.isScalar : Ty → Bool
  | .arith _ | .ptr _ => true
  | _ => false

/-- Complete object types among the modelled ones. -/
def Ty.isComplete : Ty → Bool
  | .void => false
  | _ => true

/-- `kefir_ast_type_common_arithmetic` on operand types. -/
def kCommon (t1 : Ty) (w1 : Option Nat) (t2 : Ty) (w2 : Option Nat) : Option Ty :=
  match t1, t2 with
  | .arith b1, .arith b2 => (b1.commonArith w1 b2 w2).map .arith
  | _, _ => none

/-- `ast/analyzer/nodes/binary_operation.c` 28-215 and the dispatch 255-305.  `c1`, `c2`: the operand is a constant
expression.  `ext_pointer_arithmetics` is off (the default). -/
def kBin (op : BinOp) (t1 : Ty) (w1 : Option Nat) (c1 : Bool) (t2 : Ty) (w2 : Option Nat) (c2 : Bool) : Option Ty :=
  match op with
  | .mod | .band | .bxor | .bor =>
    if t1.isIntegral && t2.isIntegral then kCommon t1 w1 t2 w2 else none
  | .mul | .div => if t1.isArith && t2.isArith then kCommon t1 w1 t2 w2 else none
  | .add =>
    match t1, t2 with
    | .ptr t, t2 => if t.isComplete && t2.isIntegral then some (.ptr t) else none
    | t1, .ptr t => if t.isComplete && t1.isIntegral then some (.ptr t) else none
    | t1, t2 => if t1.isArith && t2.isArith then kCommon t1 w1 t2 w2 else none
  | .sub =>
    match t1, t2 with
    | .ptr t, .ptr u =>
      if t.isComplete && u.isComplete && t == u then some (.arith .long) else none
    | .ptr t, t2 => if t.isComplete && t2.isIntegral then some (.ptr t) else none
    | t1, t2 => if t1.isArith && t2.isArith then kCommon t1 w1 t2 w2 else none
  | .shl | .shr =>
    match t1 with
    | .arith b1 => if b1.isIntegral && t2.isIntegral then (b1.intPromotion w1).map .arith else none
    | _ => none
  | .lt | .gt | .le | .ge =>
    match t1, t2 with
    | .ptr t, .ptr u => if t == u then some (.arith .int) else none
    | t1, t2 => if t1.isArith && t2.isArith then some (.arith .int) else none
  | .eq | .ne =>
    match t1, t2 with
    | .arith _, .arith _ => some (.arith .int)
    | .ptr t, .ptr u => if t == u || t == .void || u == .void then some (.arith .int) else none
    | .ptr _, t2 => if t2.isIntegral && c2 then some (.arith .int) else none
    | t1, .ptr _ => if t1.isIntegral && c1 then some (.arith .int) else none
    | _, _ => none

/-- `ast/analyzer/nodes/conditional_operator.c` 77-131.  `n1`, `n2`: null pointer constants. -/
def kCond (t1 : Ty) (w1 : Option Nat) (n1 : Bool) (t2 : Ty) (w2 : Option Nat) (n2 : Bool) : Option Ty :=
  match t1, t2 with
  | .arith b1, .arith b2 => (b1.commonArith w1 b2 w2).map .arith
  | .agg g s, .agg g' s' => if g = g' ∧ s = s' then some (.agg g s) else none
  | .void, .void => some .void
  | .ptr t, t2 =>
    if n2 then some (.ptr t)
    else match t2 with
      | .ptr u =>
        if n1 then some (.ptr u)
        else if t = .void ∨ u = .void then some (.ptr .void)
        else if t = u then some (.ptr t) else none
      | _ => none
  | _, .ptr u => if n1 then some (.ptr u) else none
  | _, _ => none

/-- `ast/analyzer/nodes/assignment_operator.c` 42-104 (`validate_compound_assignment`). -/
def kAssignOp (op : BinOp) (lt t : Ty) : Bool :=
  match op with
  | .mul | .div => lt.isArith && t.isArith
  | .mod | .shl | .shr | .band | .bor | .bxor => lt.isIntegral && t.isIntegral
  | .add | .sub =>
    match lt with
    | .ptr u => u.isComplete && t.isIntegral
    | _ => lt.isArith && t.isArith
  | _ => false

/-- `kefir_ast_type_assignable`, `ast/analyzer/assignable.c` 27-86 (no qualifiers; `int_to_pointer` on, so the
check of the integer's width is not modelled). -/
def kAssignable (lt t : Ty) : Bool :=
  match lt, t with
  | .arith .bool, .ptr _ => true
  | .arith _, t => t.isArith
  | .agg g s, t => t == .agg g s
  | .ptr u, .ptr v => u == .void || v == .void || u == v
  | .ptr _, t => t.isIntegral
  | _, _ => false

mutual
/-- Constant expression flag (`expression_props.constant_expression`): constants and operators on them
(`ast/analyzer/nodes/{constant,cast_operator,unary_operation,binary_operation,conditional_operator}.c`; address
constants are left out: the flag only matters for integers compared with pointers). -/
def Expr.isConst : Expr → Bool
  | .const _ _ => true
  | .fconst _ _ => true
  | .cast _ e => e.isConst
  | .un _ e => e.isConst
  | .bin _ a b => a.isConst && b.isConst
  | .land a b => a.isConst && b.isConst
  | .lor a b => a.isConst && b.isConst
  | .cond c a b => c.isConst && a.isConst && b.isConst
  | .elvis c b => c.isConst && b.isConst
  | .sizeof _ => true
  | _ => false
end

/-- Null pointer constant (`kefir_ast_is_null_pointer_constant`, `ast/analyzer/analyzer.c` 155-190; constant
expressions other than a literal zero, possibly cast to `void *`, are not evaluated here). -/
def Expr.isNull : Expr → Bool
  | .const b v => b.isIntegral && v == 0
  | .cast (.ptr .void) (.const b v) => b.isIntegral && v == 0
  | _ => false

mutual
/-- Type of an expression, after array-to-pointer conversion.
`constant.c` 25-91, `unary_operation.c` 29-188, `binary_operation.c`, `conditional_operator.c`, `comma_operator.c`
27-53, `assignment_operator.c` 106-138, `cast_operator.c` 29-64. -/
def kty : Expr → Option Ty
  | .const b _ => some (.arith b)
  | .fconst f _ => some (.arith (ofFmt f))
  | .str _ => some (.ptr (.arith .char))
  | .lval l => (klty l).map Ty.dec
  | .addr l => if l.bf.isSome then none else (klty l).map .ptr
  | .cast t e =>
    (kty e).bind fun u =>
      if t = .void then some .void
      else if t.isScalar && u.isScalar then
        match t, u with
        | .arith b, .ptr _ => if b.isIntegral then some t else none
        | .ptr _, .arith b => if b.isIntegral then some t else none
        | _, _ => some t
      else none
  | .un op e =>
    (kty e).bind fun u =>
      match op with
      | .plus | .neg =>
        match u with
        | .arith b => if b.isIntegral then (b.intPromotion e.bfw).map .arith else some (.arith b)
        | _ => none
      | .bnot =>
        match u with
        | .arith b => (b.intPromotion e.bfw).map .arith
        | _ => none
      | .lnot => if u.isScalar then some (.arith .int) else none
  | .bin op a b =>
    (kty a).bind fun t1 => (kty b).bind fun t2 => kBin op t1 a.bfw a.isConst t2 b.bfw b.isConst
  | .land a b =>
    (kty a).bind fun t1 => (kty b).bind fun t2 =>
      if t1.isScalar && t2.isScalar then some (.arith .int) else none
  | .lor a b =>
    (kty a).bind fun t1 => (kty b).bind fun t2 =>
      if t1.isScalar && t2.isScalar then some (.arith .int) else none
  | .cond c a b =>
    (kty c).bind fun t => (kty a).bind fun t1 => (kty b).bind fun t2 =>
      if t.isScalar then kCond t1 a.bfw a.isNull t2 b.bfw b.isNull else none
  | .elvis c b =>
    (kty c).bind fun t1 => (kty b).bind fun t2 =>
      if t1.isScalar then kCond t1 c.bfw c.isNull t2 b.bfw b.isNull else none
  | .comma a b => (kty a).bind fun _ => kty b
  | .assign l e =>
    (klty l).bind fun lt => (kty e).bind fun t => if kAssignable lt.dec t then some lt.dec else none
  | .assignOp op l e =>
    (klty l).bind fun lt => (kty e).bind fun t => if kAssignOp op lt.dec t then some lt.dec else none
  | .incdec _ _ l => (klty l).bind fun lt => if lt.isScalar then some lt else none
  | .sizeof t => if t.isComplete then some (.arith .int) else none
/-- Type of an lvalue (`identifier.c`, `unary_operation.c` 130-147, `array_subscript.c` 28-70, `struct_member.c`
29-89; the member's type and position are part of the syntax here). -/
def klty : LV → Option Ty
  | .auto _ t => some t
  | .glob _ _ t => some t
  | .deref e =>
    (kty e).bind fun u =>
      match u with
      | .ptr t => some t
      | _ => none
  | .index a i =>
    (kty a).bind fun t1 => (kty i).bind fun t2 =>
      match t1, t2 with
      | .ptr t, t2 => if t2.isIntegral then some t else none
      | t1, .ptr t => if t1.isIntegral then some t else none
      | _, _ => none
  | .member e _ t _ =>
    (kty e).bind fun u =>
      match u with
      | .agg _ _ => some t
      | .ptr (.agg _ _) => some t
      | _ => none
end

/-- The type recorded in the analysed node. -/
def kt (e : Expr) : Ty := (kty e).getD .void
def klt (l : LV) : Ty := (klty l).getD .void

end Kefir.Expr
