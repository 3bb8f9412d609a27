import Verif.AddrConst.Spec
/-!
# Address constants: model

`source/ast/analyzer/lvalue_constant_reference.c`, `source/ast/constant_expression/*.c` and the flag
`constant_expression` set by `source/ast/analyzer/nodes/*.c`.

Simplifications. The types nodes carry are those of `typeOf` (C75 is about the analysis of types);
qualifiers, bit-fields, thread-local objects, compound literals, enumeration constants, floating-point
values and operators other than those of `Expr` are left out. The layout of a structure is a parameter
(C11–C13), sizes of other types are those of the target. `pointer_node` and source locations carry
nothing. `struct kefir_ast_constant_expression_value` is a structure whose members are filled according
to `klass`: the member `integer` of an address was never assigned, its contents are the parameter
`junk`.
-/
namespace Verif.AddrConst

/-- `include/kefir/ast/constant_expression.h`: `kefir_ast_constant_expression_pointer_base_type` with the
member `base`: an identifier, a string literal or an integer. -/
inductive KBase where
  | identifier (x : String)
  | literal (k : Nat)
  | integer (n : W64)
  deriving DecidableEq, Repr

/-- `struct kefir_ast_constant_expression_pointer` (include/kefir/ast/constant_expression.h): base and
offset. -/
structure KPtr where
  base : KBase
  offset : W64
  deriving DecidableEq, Repr

/-- `struct kefir_ast_constant_expression_value` (include/kefir/ast/constant_expression.h), classes
`INTEGER` and `ADDRESS`. -/
inductive KVal where
  | int (n : W64)
  | address (p : KPtr)
  deriving DecidableEq, Repr

/-- The member `integer` of a value: unassigned in an address. -/
def KVal.integer (junk : W64) : KVal → W64
  | .int n => n
  | .address _ => junk

/-- source/ast/analyzer/nodes/identifier.c:45-48 and 56: arrays of static storage duration and functions
are constant expressions. -/
def identConstant (w : World) (x : String) : Bool :=
  match w.decl x with
  | some (.object t st) => (match t with | .arr _ _ => true | _ => false) && st
  | some .function => true
  | none => false

mutual
/-- The flag `constant_expression` of a node: source/ast/analyzer/nodes/constant.c:34, string_literal.c:63,
identifier.c:45-56, unary_operation.c:113-124 (address) and 126-142 (indirection: never),
struct_member.c:80-88 and array_subscript.c:62-66 (never), binary_operation.c:251-253 (both operands),
cast_operator.c:64 (the operand), conditional_operator.c:67-70 (all three). -/
def constantFlag (w : World) : Expr → Bool
  | .num _ _ => true
  | .str _ _ => true
  | .id x => identConstant w x
  | .member _ _ => false
  | .arrow _ _ => false
  | .index _ _ => false
  | .addr e => lvalueConstant w e
  | .deref _ => false
  | .add a b => constantFlag w a && constantFlag w b
  | .minus a b => constantFlag w a && constantFlag w b
  | .cast _ e => constantFlag w e
  | .cond c a b => constantFlag w c && constantFlag w a && constantFlag w b

/-- source/ast/analyzer/lvalue_constant_reference.c:31-146
`kefir_ast_node_is_lvalue_reference_constant`: identifiers (41-68), members (70-78), subscripts
(80-104), indirect members (106-115); everything else is not constant (31-39). The types are not
converted, only unqualified (87-88). -/
def lvalueConstant (w : World) : Expr → Bool
  | .id x =>
    match w.decl x with
    | some (.object _ st) => st
    | some .function => true
    | none => false
  | .member e _ => lvalueConstant w e
  | .index a i =>
    match typeOf w a, typeOf w i with
    | some (.arr _ _), _ => lvalueConstant w a && constantFlag w i
    | some (.ptr _), _ => constantFlag w a && constantFlag w i
    | _, some (.arr _ _) => lvalueConstant w i && constantFlag w a
    | _, _ => constantFlag w a && constantFlag w i
  | .arrow e _ => constantFlag w e
  | _ => false
end

/-- source/ast/constant_expression/binary_operation.c:44-75 `evaluate_pointer_offset`: the index counts
elements if the node has pointer type (ast-translator/environment.c:145-156: size times index), bytes if
it has integer type. -/
def pointerOffset (w : World) (t : Option Ty) (p : KPtr) (index : W64) : Option KVal :=
  match t with
  | some (.ptr t') =>
    match w.size t' with
    | some n => some (.address { p with offset := p.offset + index * BitVec.ofNat 64 n })
    | none => none
  | some t' => if t'.integral then some (.address { p with offset := p.offset + index }) else none
  | none => none

/-- source/ast/constant_expression/binary_operation.c:77-117 `evaluate_pointer_diff`: both bases have to
be integers; the signed difference is divided by an unsigned size, hence as an unsigned number. -/
def pointerDiff (w : World) (t : Option Ty) (p q : KPtr) : Option KVal :=
  match p.base, q.base with
  | .integer m, .integer n =>
    let diff := (m + p.offset) - (n + q.offset)
    match t with
    | some (.ptr t') =>
      match w.size t' with
      | some s => some (.int (diff / BitVec.ofNat 64 s))
      | none => none
    | some t' => if t'.integral then some (.int (diff / 1#64)) else none
    | none => none
  | _, _ => none

/-- source/ast/constant_expression/cast_operator.c:26-86 `cast_integral_type`: the size of the type
chooses the width the value is cut to. -/
def castIntegral (t : Ty) (v : W64) : W64 :=
  match t with
  | .bool => if v = 0 then 0 else 1
  | .int s true =>
    match s with
    | 1 => (v.setWidth 8).signExtend 64
    | 2 => (v.setWidth 16).signExtend 64
    | 3 => (v.setWidth 32).signExtend 64
    | 4 => (v.setWidth 32).signExtend 64
    | _ => v
  | .int s false =>
    match s with
    | 1 => (v.setWidth 8).setWidth 64
    | 2 => (v.setWidth 16).setWidth 64
    | 3 => (v.setWidth 32).setWidth 64
    | 4 => (v.setWidth 32).setWidth 64
    | _ => v
  | _ => v

/-- source/ast/constant_expression/cast_operator.c:88-176 `kefir_ast_constant_expression_value_cast`: an
address stays the same whatever the type is (119-123, 164-167), an integer cast to a pointer becomes the
base of one (153-158). -/
def castValue (t : Ty) (v : KVal) : Option KVal :=
  if t.integral then
    match v with
    | .int n => some (.int (castIntegral t n))
    | .address p => some (.address p)
  else
    match t with
    | .ptr _ =>
      match v with
      | .int n => some (.address ⟨.integer n, 0⟩)
      | .address p => some (.address p)
    | _ => none

/-- source/ast/constant_expression/conditional_operator.c:46-69: the condition of the conditional
operator; addresses of objects and literals are never null. -/
def truth : KVal → Bool
  | .int n => n != 0
  | .address ⟨.identifier _, _⟩ => true
  | .address ⟨.literal _, _⟩ => true
  | .address ⟨.integer n, o⟩ => n + o != 0

/-- source/ast/constant_expression/lvalue_constant_reference.c:137-142: the value has to be an
address. -/
def asPointer : Option KVal → Option KPtr
  | some (.address p) => some p
  | _ => none

/-- source/ast/constant_expression/lvalue_constant_reference.c:148-170: the subscript has to be an
integer; the offset of an element is `index * size` (source/ast/type_layout.c:239-251, 283-298). -/
def element (w : World) (t : Ty) : Option KPtr → Option KVal → Option KPtr
  | some p, some (.int n) =>
    match w.size t with
    | some s => some { p with offset := p.offset + n * BitVec.ofNat 64 s }
    | none => none
  | _, _ => none

mutual
/-- source/ast/constant_expression/constant_expression.c:57-86
`kefir_ast_constant_expression_value_evaluate`, refusing nodes that are not flagged (67-72), with
string_literal.c:26-49, identifier.c:26-79, unary_operation.c:134 (address), binary_operation.c:143-184
(addition and subtraction), cast_operator.c:178-199 and conditional_operator.c:26-84. -/
def evaluate (w : World) (junk : W64) : Expr → Option KVal
  | .num _ v => some (.int v)
  | .str k _ => some (.address ⟨.literal k, 0⟩)
  | .id x => if identConstant w x then some (.address ⟨.identifier x, 0⟩) else none
  | .member _ _ => none
  | .arrow _ _ => none
  | .index _ _ => none
  | .deref _ => none
  | .addr e => if lvalueConstant w e then (evaluateLvalue w junk e).map .address else none
  | .add a b =>
    match evaluate w junk a, evaluate w junk b with
    | some (.address p), some y => pointerOffset w (typeOf w (.add a b)) p (y.integer junk)
    | some x, some (.address p) => pointerOffset w (typeOf w (.add a b)) p (x.integer junk)
    | some (.int m), some (.int n) => some (.int (m + n))
    | _, _ => none
  | .minus a b =>
    match evaluate w junk a, evaluate w junk b with
    | some (.address p), some (.address q) => pointerDiff w (typeOf w a) p q
    | some (.address p), some (.int n) => pointerOffset w (typeOf w (.minus a b)) p (-n)
    | some (.int m), some y => some (.int (m - y.integer junk))
    | _, _ => none
  | .cast t e =>
    match evaluate w junk e with
    | some v => castValue t v
    | none => none
  | .cond c a b =>
    if constantFlag w c && constantFlag w a && constantFlag w b then
      match evaluate w junk c with
      | some v => if truth v then evaluate w junk a else evaluate w junk b
      | none => none
    else none

/-- source/ast/constant_expression/lvalue_constant_reference.c:279-298
`kefir_ast_constant_expression_value_evaluate_lvalue_reference`: identifiers (44-77), members (79-110),
subscripts (112-172), indirect members (174-215: the operand has to have pointer type, arrays are not
converted). -/
def evaluateLvalue (w : World) (junk : W64) : Expr → Option KPtr
  | .id x =>
    match w.decl x with
    | some (.object _ true) => some ⟨.identifier x, 0⟩
    | some .function => some ⟨.identifier x, 0⟩
    | _ => none
  | .member e m =>
    match evaluateLvalue w junk e, typeOf w e with
    | some p, some (.struct s) =>
      match w.member s m with
      | some (o, _) => some { p with offset := p.offset + BitVec.ofNat 64 o }
      | none => none
    | _, _ => none
  | .index a i =>
    match typeOf w a, typeOf w i with
    | some (.arr t _), _ => element w t (evaluateLvalue w junk a) (evaluate w junk i)
    | some (.ptr t), _ => element w t (asPointer (evaluate w junk a)) (evaluate w junk i)
    | _, some (.arr t _) => element w t (evaluateLvalue w junk i) (evaluate w junk a)
    | _, some (.ptr t) => element w t (asPointer (evaluate w junk i)) (evaluate w junk a)
    | _, _ => none
  | .arrow e m =>
    match evaluate w junk e, typeOf w e with
    | some (.address p), some (.ptr (.struct s)) =>
      match w.member s m with
      | some (o, _) => some { p with offset := p.offset + BitVec.ofNat 64 o }
      | none => none
    | _, _ => none
  | _ => none
end

/-- An initialiser of a static object, analysed and then evaluated
(source/ast-translator/scope/data_initializer.c:154-269 `visit_value`). The conversion to the type of the
object (167-168) is a cast of the expression. -/
def compile (w : World) (junk : W64) (e : Expr) : Option KVal :=
  match typeOf w e with
  | some _ => evaluate w junk e
  | none => none

/-- The word that ends up in the object for a base (source/ast-translator/scope/data_initializer.c:38-85
`translate_pointer_to_identifier`, 154-269 `visit_value`): the linker puts the address of the symbol; the
sections of static objects are symbols plus offsets, left out here (C83). -/
def KBase.at (P : Placement) : KBase → W64
  | .identifier x => P (.named x)
  | .literal k => P (.literal k)
  | .integer n => n

/-- source/ast-translator/scope/data_initializer.c: symbol plus offset. -/
def KPtr.at (P : Placement) (p : KPtr) : W64 := p.base.at P + p.offset

/-- source/ast-translator/scope/data_initializer.c `visit_value`: the word stored for a value. -/
def KVal.at (P : Placement) : KVal → W64
  | .int n => n
  | .address p => p.at P

end Verif.AddrConst
