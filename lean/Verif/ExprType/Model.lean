import Verif.ExprType.Syntax

/-! The analysis of expressions, `ast/analyzer/nodes/*.c`, with the default configuration (`ast/context.c` 5-24: no
extension of the language).  `none` stands for an error and for undefined behaviour of the comparison of types.  Files
are named relative to `/repo/source`. -/
namespace Kefir.ExprType.Model
open Kefir.Types (Basic)
open Kefir.Compat

/-! ### Types -/

/-- `struct kefir_ast_type_qualification`, `headers/kefir/ast/type/base.h` 57-61. -/
structure Quals where
  constant : Bool
  restricted : Bool
  volatile : Bool

/-- The qualification of a qualified type. -/
def Quals.of : Qual → Quals
  | .c => ⟨true, false, false⟩
  | .v => ⟨false, false, true⟩
  | .r => ⟨false, true, false⟩
  | .cv => ⟨true, false, true⟩
  | .cr => ⟨true, true, false⟩
  | .vr => ⟨false, true, true⟩
  | .cvr => ⟨true, true, true⟩

/-- The qualification as a set, unless it is empty (`KEFIR_AST_TYPE_IS_ZERO_QUALIFICATION`,
`headers/kefir/ast/type/qualified.h` 46-47). -/
def Quals.set : Quals → Option Qual
  | ⟨true, false, false⟩ => some .c
  | ⟨false, false, true⟩ => some .v
  | ⟨false, true, false⟩ => some .r
  | ⟨true, false, true⟩ => some .cv
  | ⟨true, true, false⟩ => some .cr
  | ⟨false, true, true⟩ => some .vr
  | ⟨true, true, true⟩ => some .cvr
  | ⟨false, false, false⟩ => none

/-- `kefir_ast_type_retrieve_qualifications`, `ast/type/qualified.c` 128-141. -/
def retrieve : Ty → Quals
  | .qualified q _ => .of q
  | _ => ⟨false, false, false⟩

/-- `kefir_ast_type_merge_qualifications`, `ast/type/qualified.c` 143-156. -/
def merge (a b : Quals) : Quals :=
  ⟨a.constant || b.constant, a.restricted || b.restricted, a.volatile || b.volatile⟩

/-- `kefir_ast_type_qualified`, `ast/type/qualified.c` 75-106, where it is called: not if the qualification is empty. -/
def qualifiedType (t : Ty) (q : Quals) : Ty :=
  match q.set with
  | none => t
  | some _ =>
    match (merge q (retrieve t)).set with
    | none => t
    | some q => .qualified q (unq t)

/-- `resolve_named_structure`, `ast/type_completion.c` 30-46, and its use in 97-110: a type of that tag, of either kind,
replaces an incomplete one. -/
def resolveTag (Γ : Env) (tag : Option String) (t : Ty) : Ty :=
  match tag with
  | none => t
  | some x =>
    match Γ.tag x with
    | none => t
    | some (false, fs) => .struct (some x) (.complete fs)
    | some (true, fs) => .union (some x) (.complete fs)

/-- `kefir_ast_type_completion`, `ast/type_completion.c` 59-170. -/
def completion (Γ : Env) : Ty → Ty
  | .pointer t => .pointer (completion Γ t)
  | .struct tag .incomplete => resolveTag Γ tag (.struct tag .incomplete)
  | .union tag .incomplete => resolveTag Γ tag (.union tag .incomplete)
  | .array b qs t => .array b qs (completion Γ t)
  | .qualified q t => qualifiedType (completion Γ t) (.of q)
  | t => t

/-- `kefir_ast_type_conv_expression_wrapper`, `ast/type_conv.c` 149-200, with all conversions. -/
def conv (t : Ty) : Ty :=
  match unq t with
  | .array _ _ e => .pointer e
  | .func r ps e => .pointer (.func r ps e)
  | .prim .vaList => .pointer (.prim .vaList)
  | t => t

/-- `KEFIR_AST_TYPE_IS_INTEGRAL_TYPE`, `headers/kefir/ast/type/basic.h` 65-66. -/
def integral : Ty → Bool
  | .prim (.arith b) => b.isIntegral
  | .enum .. => true
  | _ => false

/-- `KEFIR_AST_TYPE_IS_FLOATING_POINT`, `headers/kefir/ast/type/basic.h` 67-69. -/
def floating : Ty → Bool
  | .prim (.arith .float) | .prim (.arith .double) | .prim (.arith .ldouble) => true
  | _ => false

/-- `KEFIR_AST_TYPE_IS_ARITHMETIC_TYPE` and `KEFIR_AST_TYPE_IS_REAL_TYPE`, `headers/kefir/ast/type/basic.h` 71-74. -/
def arithmetic (t : Ty) : Bool := integral t || floating t

/-- The tag is `KEFIR_AST_TYPE_SCALAR_POINTER`. -/
def pointerTag : Ty → Bool
  | .pointer _ => true
  | _ => false

/-- `KEFIR_AST_TYPE_IS_SCALAR_TYPE`, `headers/kefir/ast/type/basic.h` 75-76. -/
def scalar (t : Ty) : Bool := arithmetic t || pointerTag t

def voidTag : Ty → Bool
  | .prim .void => true
  | _ => false

def functionTag : Ty → Bool
  | .func .. => true
  | _ => false

def arrayTag : Ty → Bool
  | .array .. => true
  | _ => false

/-- The tag is `KEFIR_AST_TYPE_STRUCTURE` or `KEFIR_AST_TYPE_UNION`. -/
def recordTag : Ty → Bool
  | .struct .. | .union .. => true
  | _ => false

/-- `KEFIR_AST_TYPE_IS_INCOMPLETE`, `headers/kefir/ast/type.h` 110-115. -/
def isIncomplete (t : Ty) : Bool :=
  match unq t with
  | .prim .void => true
  | .array .unbounded _ _ => true
  | .struct _ .incomplete => true
  | .union _ .incomplete => true
  | _ => false

/-- `KEFIR_AST_TYPE_IS_VL_ARRAY`, `headers/kefir/ast/type.h` 116-118. -/
def isVla : Ty → Bool
  | .array (.vla ..) _ _ => true
  | _ => false

/-- The basic type of an arithmetic type: enumerations are replaced, `ast/type_conv.c` 31-33 and 69-74. -/
def basicOf : Ty → Option Basic
  | .prim (.arith b) => some b
  | .enum _ body => some (underlying body)
  | _ => none

/-- `kefir_ast_type_int_promotion`, `ast/type_conv.c` 25-55. -/
def promote (t : Ty) (w : Option Nat) : Option Ty := do
  let b ← basicOf t
  return .arith (← b.intPromotion w)

/-- `kefir_ast_type_common_arithmetic`, `ast/type_conv.c` 59-123. -/
def commonType (t1 : Ty) (w1 : Option Nat) (t2 : Ty) (w2 : Option Nat) : Option Ty := do
  let b1 ← basicOf t1
  let b2 ← basicOf t2
  return .arith (← b1.commonArith w1 b2 w2)

/-- `default_pointer_type_fits`, `ast/type.c` 101-141, for LP64; `none` is the error for enumerations. -/
def pointerFits : Ty → Option Bool
  | .prim (.arith .long) | .prim (.arith .ulong) | .prim (.arith .llong) | .prim (.arith .ullong) => some true
  | .prim (.arith _) => some false
  | _ => none

/-! ### Assignment compatibility -/

/-- The case of two pointers in `kefir_ast_type_assignable`, `ast/analyzer/assignable.c` 43-59. -/
def assignablePointers (target value : Ty) : Bool :=
  let tq := retrieve target
  let vq := retrieve value
  (voidTag (unq target) || voidTag (unq value) || compat (unq target) (unq value) == some true) &&
    ((!vq.constant || tq.constant) && (!vq.restricted || tq.restricted) && (!vq.volatile || tq.volatile))

/-- `kefir_ast_type_assignable`, `ast/analyzer/assignable.c` 27-79. -/
def assignable (value : Ty) (const : Bool) (target : Ty) : Bool :=
  match target, value with
  | .prim (.arith .bool), .pointer _ => true
  | target, value =>
    if arithmetic target then arithmetic value
    else if recordTag target then compat target value == some true
    else
      match target, value with
      | .pointer a, .pointer b => assignablePointers a b
      | .prim .vaList, .prim .vaList => true
      | .prim .vaList, _ => false
      | .pointer _, v =>
        integral v && (match pointerFits v with | some fits => const || fits | none => false)
      | _, _ => false

/-- A pointer to unqualified `void`, as tested in `ast/analyzer/analyzer.c` 167-168. -/
def voidPointer : Ty → Bool
  | .pointer t => voidTag t
  | _ => false

/-- The tests on the value, `ast/analyzer/analyzer.c` 171-196; `none` is an error. -/
def nullValue : Eval → Option Bool
  | .notConstant => some false
  | .error => none
  | .int v => some (v == 0)
  | .address null => some null
  | .other => some false

/-- `kefir_ast_is_null_pointer_constant`, `ast/analyzer/analyzer.c` 155-198. -/
def isNull (Γ : Env) (e : Expr) (d : Desc) : Option Bool :=
  if d.const && (integral d.type || voidPointer d.type) then nullValue (Γ.eval e) else some false

/-! ### Nodes -/

/-- The properties of a node that designates nothing (`kefir_ast_node_properties_init`). -/
def value (t : Ty) (const : Bool) : Desc := ⟨t, false, false, const, false, none⟩

/-- `kefir_ast_try_analyze_identifier`, `ast/analyzer/nodes/identifier.c` 26-82, and the constancy of references,
`visit_identifier`, `ast/analyzer/lvalue_constant_reference.c` 41-68.  Not modelled: names of types. -/
def identifier : Entity → Desc
  | .object t register static => ⟨t, !arrayTag t, !register, arrayTag t && static, static, none⟩
  | .function t => ⟨t, false, true, true, true, none⟩
  | .enumConst => value .int true

/-- `kefir_ast_analyze_string_literal_node`, `ast/analyzer/nodes/string_literal.c` 47-68. -/
def stringLiteral (b : Basic) (n : Nat) : Desc := value (.array (.fixed false n) none (.arith b)) true

/-- `kefir_ast_analyze_unary_operation_node`, `ast/analyzer/nodes/unary_operation.c` 39-86. -/
def unary (op : UnOp) (x : Desc) : Option Desc :=
  let t := conv x.type
  match op with
  | .plus | .neg =>
    if arithmetic t then
      if integral t then do return value (← promote t x.bits) x.const
      else some (value t x.const)
    else none
  | .inv => if integral t then do return value (← promote t x.bits) x.const else none
  | .lnot => if scalar t then some (value .int x.const) else none

/-- Increments and decrements, `ast/analyzer/nodes/unary_operation.c` 88-112. -/
def incDec (x : Desc) : Option Desc :=
  if x.lvalue && !(retrieve x.type).constant && scalar (unq x.type) then some (value (unq x.type) false) else none

/-- The address operator, `ast/analyzer/nodes/unary_operation.c` 114-125. -/
def addressOf (x : Desc) : Option Desc :=
  if x.addressable then some (value (.pointer x.type) x.static) else none

/-- Indirection, `ast/analyzer/nodes/unary_operation.c` 127-143. -/
def indirection (x : Desc) : Option Desc :=
  match conv x.type with
  | .pointer t => some ⟨t, !functionTag t, true, false, false, none⟩
  | _ => none

/-- `sizeof`, `ast/analyzer/nodes/unary_operation.c` 145-166, for the type and width of the operand. -/
def sizeOf (Γ : Env) (t : Ty) (bits : Option Nat) : Option Desc :=
  if bits.isSome || functionTag t || isIncomplete (completion Γ t) then none
  else some (value .int (!isVla (completion Γ t)))

/-- `_Alignof`, `ast/analyzer/nodes/unary_operation.c` 168-183. -/
def alignOf (Γ : Env) (t : Ty) : Option Desc :=
  if functionTag t || isIncomplete (completion Γ t) then none else some (value .int true)

/-- Pointers to complete types, as tested in `ast/analyzer/nodes/binary_operation.c` 67, 74 and 113. -/
def completePointer : Ty → Bool
  | .pointer t => !isIncomplete t
  | _ => false

/-- `analyze_addition`, `ast/analyzer/nodes/binary_operation.c` 60-93. -/
def addition (t1 : Ty) (w1 : Option Nat) (t2 : Ty) (w2 : Option Nat) : Option Ty :=
  if completePointer t1 then (if integral t2 then some t1 else none)
  else if completePointer t2 then (if integral t1 then some t2 else none)
  else if arithmetic t1 && arithmetic t2 then commonType t1 w1 t2 w2 else none

/-- `analyze_subtraction`, `ast/analyzer/nodes/binary_operation.c` 95-132. -/
def subtraction (t1 : Ty) (w1 : Option Nat) (t2 : Ty) (w2 : Option Nat) : Option Ty :=
  match t1, t2 with
  | .pointer a, .pointer b =>
    if !isIncomplete (unq a) && !isIncomplete (unq b) && compat (unq a) (unq b) == some true then some (.arith .long)
    else none
  | t1, t2 =>
    if completePointer t1 then (if integral t2 then some t1 else none)
    else if arithmetic t1 && arithmetic t2 then commonType t1 w1 t2 w2 else none

/-- `analyze_relational`, `ast/analyzer/nodes/binary_operation.c` 150-166. -/
def relational (t1 t2 : Ty) : Option Ty :=
  match t1, t2 with
  | .pointer a, .pointer b => if compat (unq a) (unq b) == some true then some .int else none
  | t1, t2 => if arithmetic t1 && arithmetic t2 then some .int else none

/-- `analyze_equality`, `ast/analyzer/nodes/binary_operation.c` 168-197. -/
def equality (t1 : Ty) (const1 : Bool) (t2 : Ty) (const2 : Bool) : Option Ty :=
  if arithmetic t1 && arithmetic t2 then some .int
  else
    match t1, t2 with
    | .pointer a, .pointer b =>
      match compat (unq a) (unq b) with
      | some true => some .int
      | some false => if voidTag (unq a) || voidTag (unq b) then some .int else none
      | none => none
    | .pointer _, t2 => if integral t2 && const2 then some .int else none
    | t1, .pointer _ => if integral t1 && const1 then some .int else none
    | _, _ => none

/-- The type of a binary operation, `ast/analyzer/nodes/binary_operation.c` 244-308, with `analyze_modulo` 28-41,
`analyze_muldiv` 43-58, `analyze_shift` 134-148, `analyze_bitwise` 199-214 and `analyze_logical` 216-225. -/
def binaryType (op : BinOp) (t1 : Ty) (w1 : Option Nat) (const1 : Bool) (t2 : Ty) (w2 : Option Nat) (const2 : Bool) :
    Option Ty :=
  match op with
  | .mod | .band | .bor | .bxor => if integral t1 && integral t2 then commonType t1 w1 t2 w2 else none
  | .mul | .div => if arithmetic t1 && arithmetic t2 then commonType t1 w1 t2 w2 else none
  | .add => addition t1 w1 t2 w2
  | .sub => subtraction t1 w1 t2 w2
  | .shl | .shr => if integral t1 && integral t2 then promote t1 w1 else none
  | .lt | .le | .gt | .ge => relational t1 t2
  | .eq | .ne => equality t1 const1 t2 const2
  | .land | .lor => if scalar t1 && scalar t2 then some .int else none

/-- `kefir_ast_analyze_binary_operation_node`, `ast/analyzer/nodes/binary_operation.c` 227-310. -/
def binary (op : BinOp) (x y : Desc) : Option Desc := do
  let r ← binaryType op (conv x.type) x.bits x.const (conv y.type) y.bits y.const
  return value r (x.const && y.const)

/-- The tests on the target of an assignment, `ast/analyzer/nodes/assignment_operator.c` 116-124. -/
def assignTarget (x : Desc) : Bool := x.lvalue && !(retrieve x.type).constant

/-- `kefir_ast_analyze_assignment_operator_node`, `ast/analyzer/nodes/assignment_operator.c` 97-140, for `=`:
`validate_simple_assignment` 28-39, `kefir_ast_node_assignable` `ast/analyzer/assignable.c` 81-94. -/
def assignment (x y : Desc) : Option Desc :=
  if assignTarget x && assignable (conv y.type) y.const (conv x.type) then some (value (conv x.type) false) else none

/-- `+=` and `-=`, `ast/analyzer/nodes/assignment_operator.c` 73-90. -/
def compoundAdd (target val : Ty) : Bool :=
  match target with
  | .pointer a => !isIncomplete (unq a) && integral val
  | t => arithmetic t && arithmetic val

/-- `validate_compound_assignment`, `ast/analyzer/nodes/assignment_operator.c` 41-95. -/
def compound (op : AssignOp) (target val : Ty) : Bool :=
  match op with
  | .mul | .div => arithmetic target && arithmetic val
  | .mod | .shl | .shr | .band | .bor | .bxor => integral target && integral val
  | .add | .sub => compoundAdd target val

/-- `kefir_ast_analyze_assignment_operator_node`, `ast/analyzer/nodes/assignment_operator.c` 97-140, for the other
operators. -/
def compoundAssignment (op : AssignOp) (x y : Desc) : Option Desc :=
  if assignTarget x && compound op (conv x.type) (conv y.type) then some (value (conv x.type) false) else none

/-- `kefir_ast_analyze_cast_operator_node`, `ast/analyzer/nodes/cast_operator.c` 29-66. -/
def castOperator (t : Ty) (x : Desc) : Option Desc :=
  let s := conv x.type
  let t' := unq t
  if (scalar s && scalar t' || voidTag t) && !(floating t' && pointerTag s) && !(floating s && pointerTag t')
  then some (value t' x.const) else none

/-- The pointers case of `kefir_ast_analyze_conditional_operator_node`, `ast/analyzer/nodes/conditional_operator.c`
103-128. -/
def conditionalPointers (a b : Ty) : Option Ty :=
  let total := merge (retrieve a) (retrieve b)
  if voidTag (unq a) || voidTag (unq b) then some (.pointer (qualifiedType (.prim .void) total))
  else if compat (unq a) (unq b) == some true then
    match composite (unq a) (unq b) with
    | .ok c => some (.pointer (qualifiedType c total))
    | _ => none
  else none

/-- The type of a conditional expression, `ast/analyzer/nodes/conditional_operator.c` 74-131. -/
def conditionalType (Γ : Env) (e1 : Expr) (x : Desc) (e2 : Expr) (y : Desc) : Option Ty :=
  let t1 := conv x.type
  let t2 := conv y.type
  if arithmetic t1 && arithmetic t2 then commonType t1 x.bits t2 y.bits
  else if recordTag t1 && recordTag t2 && same t1 t2 == none then none
  else if recordTag t1 && recordTag t2 && same t1 t2 == some true then some t1
  else if voidTag t1 && voidTag t2 then some (.prim .void)
  else do
    let null1 ← isNull Γ e1 x
    let null2 ← isNull Γ e2 y
    if pointerTag t1 && null2 then some t1
    else if null1 && pointerTag t2 then some t2
    else if null1 && null2 then some t1
    else
      match t1, t2 with
      | .pointer a, .pointer b => conditionalPointers a b
      | _, _ => none

/-- `kefir_ast_analyze_conditional_operator_node`, `ast/analyzer/nodes/conditional_operator.c` 28-133.  Not modelled:
the GNU form without second operand. -/
def conditional (Γ : Env) (z : Desc) (e1 : Expr) (x : Desc) (e2 : Expr) (y : Desc) : Option Desc :=
  if scalar (conv z.type) then do
    return value (← conditionalType Γ e1 x e2 y) (z.const && x.const && y.const)
  else none

/-- `visit_array_subscript`, `ast/analyzer/lvalue_constant_reference.c` 80-104. -/
def subscriptConstant (x y : Desc) : Bool :=
  if arrayTag (unq x.type) then x.static && y.const
  else if pointerTag (unq x.type) then x.const && y.const
  else if arrayTag (unq y.type) then y.static && x.const
  else x.const && y.const

/-- `kefir_ast_analyze_array_subscript_node`, `ast/analyzer/nodes/array_subscript.c` 28-71. -/
def subscript (x y : Desc) : Option Desc := do
  let t ← (match conv x.type, conv y.type with
    | .pointer t, i => if integral i then some t else none
    | i, .pointer t => if integral i then some t else none
    | _, _ => none)
  return ⟨t, true, true, false, subscriptConstant x y, none⟩

/-- The loop over arguments and the tests after it, `ast/analyzer/nodes/function_call.c` 81-110; `first` as long as no
parameter has been consumed. -/
def arguments (first : Bool) (ellipsis : Bool) : TyList → List Desc → Bool
  | .nil, [] => true
  | .nil, _ :: _ => ellipsis
  | .cons t _ ps, [] => first && voidTag (adjust t) && (match ps with | .nil => true | _ => false)
  | .cons t _ ps, x :: xs =>
    assignable (conv x.type) x.const (unq (adjust t)) && arguments false ellipsis ps xs

/-- Only a prototype is looked at, `ast/analyzer/nodes/function_call.c` 81. -/
def parameters (ps : Params) (ellipsis : Bool) (args : List Desc) : Bool :=
  match ps with
  | .types ps => arguments true ellipsis ps args
  | _ => true

/-- `kefir_ast_analyze_function_call_node`, `ast/analyzer/nodes/function_call.c` 54-125.  Not modelled: the temporary
object for the result. -/
def functionCall (x : Desc) (args : List Desc) : Option Desc :=
  match conv x.type with
  | .pointer (.func r ps ellipsis) =>
    if parameters ps ellipsis args && !arrayTag (unq r) then some (value (unq r) false) else none
  | _ => none

/-- The name index of a structure type, `kefir_hashtree_at` in `ast/type/struct.c` 453: names are unique
(`ast/type/struct.c` 471-573 refuses duplicates). -/
def fieldIndex (x : String) : Fields → Option (Ty × Option Int)
  | .nil => none
  | .cons n _ w t rest => if n = some x then some (t, w) else fieldIndex x rest

mutual
/-- The loop over anonymous members, `ast/type/struct.c` 457-466: `some none` is `KEFIR_NOT_FOUND`, `none` another
error. -/
def resolveAnonymous (x : String) : Fields → Option (Option (Ty × Option Int))
  | .nil => some none
  | .cons (some _) _ _ _ rest => resolveAnonymous x rest
  | .cons none _ _ t rest =>
    match resolveType x t with
    | some (some r) => some (some r)
    | some none => resolveAnonymous x rest
    | none => none
/-- The call for an anonymous member: other types than structures and unions are skipped, incomplete ones refused
(`ast/type/struct.c` 449). -/
def resolveType (x : String) : Ty → Option (Option (Ty × Option Int))
  | .struct _ b => resolveBody x b
  | .union _ b => resolveBody x b
  | _ => some none
/-- `kefir_ast_struct_type_resolve_field`, `ast/type/struct.c` 442-469. -/
def resolveBody (x : String) : Body → Option (Option (Ty × Option Int))
  | .incomplete => none
  | .complete fs =>
    match fieldIndex x fs with
    | some r => some (some r)
    | none => resolveAnonymous x fs
end

/-- `kefir_ast_analyze_struct_member_node`, `ast/analyzer/nodes/struct_member.c` 73-89, with the members of the structure
known. -/
def memberIn (Γ : Env) (q : Quals) (x : String) (static : Bool) (b : Body) : Option Desc :=
  match resolveBody x b with
  | some (some (ft, w)) =>
    some ⟨qualifiedType (completion Γ ft) q, true, w.isNone, false, static, w.map Int.toNat⟩
  | _ => none

/-- `kefir_ast_analyze_struct_member_node`, `ast/analyzer/nodes/struct_member.c` 54-89, from the type of the structure
on. -/
def memberOf (Γ : Env) (t : Ty) (x : String) (static : Bool) : Option Desc :=
  if recordTag (unq t) then
    match completion Γ (unq t) with
    | .struct _ b => memberIn Γ (retrieve t) x static b
    | .union _ b => memberIn Γ (retrieve t) x static b
    | _ => none
  else none

/-- `kefir_ast_analyze_struct_member_node`, `ast/analyzer/nodes/struct_member.c` 30-90, for `.`;
`visit_struct_member`, `ast/analyzer/lvalue_constant_reference.c` 70-78. -/
def structMember (Γ : Env) (x : Desc) (f : String) : Option Desc := memberOf Γ x.type f x.static

/-- `kefir_ast_analyze_struct_member_node`, `ast/analyzer/nodes/struct_member.c` 30-90, for `->`;
`visit_struct_indirect_member`, `ast/analyzer/lvalue_constant_reference.c` 106-115. -/
def indirectMember (Γ : Env) (x : Desc) (f : String) : Option Desc :=
  match conv x.type with
  | .pointer t => memberOf Γ t f x.const
  | _ => none

/-- The loop over associations, `ast/analyzer/nodes/generic_selection.c` 42-55: the first one with a compatible type;
`some none` if there is none. -/
def selectAssoc (control : Ty) : List (Ty × Desc) → Option (Option Desc)
  | [] => some none
  | (t, d) :: rest =>
    match compat control t with
    | some true => some (some d)
    | some false => selectAssoc control rest
    | none => none

mutual
/-- `kefir_ast_analyze_node`, `ast/analyzer/analyzer.c` 99-153, for expressions.  A comma expression is one node with all
its operands in the compiler (`ast/analyzer/nodes/comma_operator.c` 28-55), here they are taken two at a time.  The
types of constants are those of `ast/analyzer/nodes/constant.c` 25-93. -/
def analyze (Γ : Env) : Expr → Option Desc
  | .ident x => (Γ.ident x).map identifier
  | .const b _ => some (value (.arith b) true)
  | .str b n => some (stringLiteral b n)
  | .un op e => (analyze Γ e).bind (unary op)
  | .incdec _ e => (analyze Γ e).bind incDec
  | .addr e => (analyze Γ e).bind addressOf
  | .deref e => (analyze Γ e).bind indirection
  | .sizeofExpr e => (analyze Γ e).bind fun x => sizeOf Γ x.type x.bits
  | .sizeofType t => sizeOf Γ t none
  | .alignofType t => alignOf Γ t
  | .bin op a b => (analyze Γ a).bind fun x => (analyze Γ b).bind fun y => binary op x y
  | .assign a b => (analyze Γ a).bind fun x => (analyze Γ b).bind fun y => assignment x y
  | .assignOp op a b => (analyze Γ a).bind fun x => (analyze Γ b).bind fun y => compoundAssignment op x y
  | .cast t e => (analyze Γ e).bind fun x => castOperator t x
  | .cond c a b =>
    (analyze Γ c).bind fun z => (analyze Γ a).bind fun x => (analyze Γ b).bind fun y => conditional Γ z a x b y
  | .comma a b => (analyze Γ a).bind fun _ => (analyze Γ b).bind fun y => some (value (conv y.type) false)
  | .index a b => (analyze Γ a).bind fun x => (analyze Γ b).bind fun y => subscript x y
  | .call f args => (analyze Γ f).bind fun x => (analyzeArgs Γ args).bind fun xs => functionCall x xs
  | .dot e f => (analyze Γ e).bind fun x => structMember Γ x f
  | .arrow e f => (analyze Γ e).bind fun x => indirectMember Γ x f
  | .generic c as d =>
    (analyze Γ c).bind fun x => (analyzeAssocs Γ as).bind fun ds =>
      (selectAssoc (conv x.type) ds).bind fun r =>
        match r with
        | some d => some { d with static := false }
        | none => (analyzeDflt Γ d).map fun d => { d with static := false }
/-- The arguments of a call, `ast/analyzer/nodes/function_call.c` 67-70. -/
def analyzeArgs (Γ : Env) : Args → Option (List Desc)
  | .nil => some []
  | .cons e rest => (analyze Γ e).bind fun x => (analyzeArgs Γ rest).bind fun xs => some (x :: xs)
/-- The expressions of associations, `ast/analyzer/nodes/generic_selection.c` 46-47. -/
def analyzeAssocs (Γ : Env) : Assocs → Option (List (Ty × Desc))
  | .nil => some []
  | .cons t e rest => (analyze Γ e).bind fun x => (analyzeAssocs Γ rest).bind fun xs => some ((t, x) :: xs)
/-- The default association, `ast/analyzer/nodes/generic_selection.c` 56-61; there must be one (63-66). -/
def analyzeDflt (Γ : Env) : Dflt → Option Desc
  | .none => none
  | .some e => analyze Γ e
end

/-- `kefir_ast_analyze_return_statement_node`, `ast/analyzer/nodes/return_statement.c` 30-74, in a function that returns
`t`. -/
def returnStatement (Γ : Env) (t : Ty) (e : Option Expr) : Bool :=
  match e with
  | none => voidTag (unq t)
  | some e =>
    match analyze Γ e with
    | none => false
    | some x => !voidTag (unq t) && assignable (conv x.type) x.const (unq t)

end Kefir.ExprType.Model
