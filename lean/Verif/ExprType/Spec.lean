import Verif.ExprType.Syntax

/-! The constraints and types of expressions, C17 6.5 with 6.3, 6.4.4, 6.4.5 and 6.6.

The rules are stated once for three languages: C17, the language the compiler accepts, and what they have in common.
Where they differ the rule names a `Feature`: the comment of the feature says which of the two has it. -/
namespace Kefir.ExprType
open Kefir.Types (Basic)
open Kefir.Compat Kefir.Compat.Spec

/-- Rules that only one of the two languages has. -/
inductive Feature
  /-- C17: qualifying an array qualifies its elements (6.7.3p9). -/
  | qualifiedArrays
  /-- C17: a structure type completed after the pointer type was formed is complete (6.2.5p22). -/
  | lateCompletion
  /-- C17: a null pointer constant may have an enumerated type (6.3.2.3p3). -/
  | enumNull
  /-- C17: a string literal is an lvalue (6.5.1p4). -/
  | stringAddress
  /-- C17: a cast to qualified `void` is a cast to `void` (6.5.4p2). -/
  | qualifiedVoidCast
  /-- C17: the members of a qualified anonymous structure are members of the containing one (6.7.2.1p13). -/
  | qualifiedAnonymous
  /-- Compiler: a qualified array decays to a pointer to its unqualified elements. -/
  | lostQualifiers
  /-- Compiler: an integer that is constant, or at least as wide as a pointer, can be assigned to a pointer. -/
  | integerToPointer
  /-- Compiler: pointers to functions and to `void` can be mixed. -/
  | voidFunction
  /-- Compiler: an array that is not a declared object can be the target of an assignment. -/
  | arrayTarget
  /-- Compiler: a structure with a `const` member can be the target of an assignment. -/
  | constMember
  /-- Compiler: an object of incomplete type can be the target of an assignment. -/
  | incompleteTarget
  /-- Compiler: a member of a structure value is an lvalue. -/
  | rvalueMember
  /-- Compiler: the address of a member of a `register` object or a structure value can be taken. -/
  | registerMember
  /-- Compiler: arithmetic on pointers to functions. -/
  | functionArithmetic
  /-- Compiler: pointers to functions can be compared with `<`. -/
  | functionOrder
  /-- Compiler: `++`, `--` and subscripts on pointers to incomplete types. -/
  | incompleteArithmetic
  /-- Compiler: a pointer can be compared with any integer constant. -/
  | nonNullCompare
  /-- Compiler: any constant of type `void *` whose value is zero is a null pointer constant. -/
  | constantNull
  /-- Compiler: the first of several matching associations is taken. -/
  | ambiguousGeneric
  /-- Compiler: an association may have any type. -/
  | anyAssociationType
  /-- Compiler: the `default` association is not looked at if another one matches. -/
  | uncheckedDefault
  /-- Compiler: a function may return an incomplete type. -/
  | incompleteReturn
  /-- Compiler: a function may return `va_list`. -/
  | vaListReturn
  /-- Compiler: an argument without a parameter may have any type. -/
  | voidArgument
  /-- Compiler: the first of several members with the name is taken. -/
  | ambiguousMember
  /-- Compiler: `sizeof` applies to qualified function types. -/
  | qualifiedFunction
  deriving DecidableEq

/-- The features of C17 that the compiler does not have. -/
def Feature.c17Only : Feature → Bool
  | .qualifiedArrays | .lateCompletion | .enumNull | .stringAddress | .qualifiedVoidCast | .qualifiedAnonymous => true
  | _ => false

/-- A language: `std` if its programs obey the standard, `impl` if they obey the compiler; `size` is the type of
`sizeof` and `_Alignof` expressions, `size_t`. -/
structure Lang where
  std : Bool
  impl : Bool
  size : Basic

/-- C17, for a choice of `size_t`. -/
def c17 (size : Basic) : Lang := ⟨true, false, size⟩
/-- The language of the compiler. -/
def kefir : Lang := ⟨false, true, .int⟩
/-- What the compiler has in common with C17. -/
def common : Lang := ⟨true, true, .int⟩

/-- The language has the feature. -/
def Lang.has (L : Lang) (f : Feature) : Prop := if f.c17Only then L.impl = false else L.std = false

/-- The types are compatible (C17 6.2.7), and the compiler finds them so. -/
def Lang.compatible (L : Lang) (a b : Ty) : Prop :=
  (L.std = true → Compatible a b) ∧ (L.impl = true → compat a b = some true)

/-- The types are not compatible, and the compiler finds them so. -/
def Lang.incompatible (L : Lang) (a b : Ty) : Prop :=
  (L.std = true → ¬ Compatible a b) ∧ (L.impl = true → compat a b = some false)

/-- The types are the same. -/
def Lang.same (L : Lang) (a b : Ty) : Prop :=
  (L.std = true → a = b) ∧ (L.impl = true → Compat.same a b = some true)

/-- `c` is the composite type (C17 6.2.7p3: a type compatible with both). -/
def Lang.composite (L : Lang) (a b c : Ty) : Prop :=
  (L.std = true → Compatible a c ∧ Compatible b c) ∧ (L.impl = true → Compat.composite a b = .ok c)

/-- The integer promotions (C17 6.3.1.1p2). -/
def Lang.promotes (L : Lang) (b : Basic) (w : Option Nat) (p : Basic) : Prop :=
  (L.std = true → C17.Promotes b w p) ∧ (L.impl = true → b.intPromotion w = some p)

/-- The usual arithmetic conversions (C17 6.3.1.8). -/
def CommonType (a : Basic) (v : Option Nat) (b : Basic) (w : Option Nat) (r : Basic) : Prop :=
  if C17.isInteger a = true ∧ C17.isInteger b = true then
    ∃ p q, C17.Promotes a v p ∧ C17.Promotes b w q ∧ r = C17.commonInteger p q
  else r = C17.commonReal a b

def Lang.arith (L : Lang) (a : Basic) (v : Option Nat) (b : Basic) (w : Option Nat) (r : Basic) : Prop :=
  (L.std = true → CommonType a v b w r) ∧ (L.impl = true → a.commonArith v b w = some r)

/-- `p` is the unqualified type of a parameter declared with type `t` (C17 6.5.2.2p2, 6.7.6.3p7 and p8). -/
def Lang.param (L : Lang) (t p : Ty) : Prop :=
  (L.std = true → p = paramType t) ∧ (L.impl = true → p = unq (adjust t))

/-! ### Types -/

abbrev void : Ty := .prim .void

/-- The qualifiers of a type. -/
def qualOf : Ty → Option Qual
  | .qualified q _ => some q
  | _ => none

def hasConst : Option Qual → Bool
  | some .c | some .cv | some .cr | some .cvr => true
  | _ => false
def hasVolatile : Option Qual → Bool
  | some .v | some .cv | some .vr | some .cvr => true
  | _ => false
def hasRestrict : Option Qual → Bool
  | some .r | some .cr | some .vr | some .cvr => true
  | _ => false

/-- Every qualifier of the first is one of the second. -/
def Within (a b : Option Qual) : Prop :=
  (hasConst a = true → hasConst b = true) ∧ (hasVolatile a = true → hasVolatile b = true) ∧
    (hasRestrict a = true → hasRestrict b = true)

/-- All qualifiers of both. -/
def bothQuals : Option Qual → Option Qual → Option Qual
  | some a, some b => some (joinQual a b)
  | some a, none => some a
  | none, b => b

/-- The type, which is not an array, with those qualifiers and its own. -/
def withQuals (q : Option Qual) (t : Ty) : Ty :=
  match bothQuals q (qualOf t) with
  | some q => .qualified q (unqualified t)
  | none => t

/-- The arithmetic type of values of the type: its own, or the one an enumerated type is compatible with. -/
def asArith : Ty → Option Basic
  | .prim (.arith b) => some b
  | .enum _ body => some (enumType body)
  | _ => none

/-- `b` is the integer type of values of type `t`. -/
def IsInteger (t : Ty) (b : Basic) : Prop := asArith t = some b ∧ C17.isInteger b = true

def isPointer : Ty → Bool
  | .pointer _ => true
  | _ => false

/-- Scalar types (C17 6.2.5p21). -/
def Scalar (t : Ty) : Prop := asArith t ≠ none ∨ isPointer t = true

def isFunction : Ty → Bool
  | .func .. => true
  | _ => false

/-- Array types; `va_list` is one. -/
def isArray : Ty → Bool
  | .array .. | .prim .vaList => true
  | _ => false

def isRecord : Ty → Bool
  | .struct .. | .union .. => true
  | _ => false

def isEnum : Ty → Bool
  | .enum .. => true
  | _ => false

/-- Incomplete types (C17 6.2.5p1, p19, p22). -/
def incomplete : Ty → Bool
  | .prim .void | .array .unbounded _ _ | .struct _ .incomplete | .union _ .incomplete => true
  | _ => false

/-- Complete object types, or functions. -/
def Complete (t : Ty) : Prop := incomplete (unqualified t) = false

def isVariable : Ty → Bool
  | .array (.vla ..) _ _ => true
  | _ => false

/-- The type of that tag, if a complete one is declared. -/
def Env.completed (Γ : Env) (tag : Option String) (t : Ty) : Ty :=
  match tag with
  | none => t
  | some x =>
    match Γ.tag x with
    | none => t
    | some (false, fs) => .struct (some x) (.complete fs)
    | some (true, fs) => .union (some x) (.complete fs)

/-- The type with the structure and union types in it completed by the declarations of their tags
(C17 6.2.5p22, 6.7.2.3p4). -/
def Env.fill (Γ : Env) : Ty → Ty
  | .pointer t => .pointer (Γ.fill t)
  | .qualified q t => withQuals (some q) (Γ.fill t)
  | .array b qs t => .array b qs (Γ.fill t)
  | .struct tag .incomplete => Γ.completed tag (.struct tag .incomplete)
  | .union tag .incomplete => Γ.completed tag (.union tag .incomplete)
  | t => t

/-- The type after the conversion of lvalues to values, of arrays and of functions to pointers (C17 6.3.2.1). -/
inductive Conv (L : Lang) : Ty → Ty → Prop
  | array : Conv L (.array b qs e) (.pointer e)
  | vaList : unqualified t = .prim .vaList → Conv L t (.pointer (.prim .vaList))
  | function : unqualified t = .func r ps e → Conv L t (.pointer (.func r ps e))
  | qualifiedArray : L.has .qualifiedArrays → Conv L (.qualified q (.array b qs e)) (.pointer (qualify q e))
  | lostQualifiers : L.has .lostQualifiers → Conv L (.qualified q (.array b qs e)) (.pointer e)
  | value : isArray (unqualified t) = false → isFunction (unqualified t) = false → Conv L t (unqualified t)

/-! ### Constants -/

/-- Integer constant expressions (C17 6.6p6); `sizeof` applied to an expression is left out. -/
def Ice (Γ : Env) : Expr → Prop
  | .const b _ => C17.isInteger b = true
  | .ident x => Γ.ident x = some .enumConst
  | .un _ e => Ice Γ e
  | .bin _ a b => Ice Γ a ∧ Ice Γ b
  | .cond c a b => Ice Γ c ∧ Ice Γ a ∧ Ice Γ b
  | .sizeofType t => isVariable (Γ.fill t) = false
  | .alignofType _ => True
  | .cast t e => (∃ b, IsInteger (unqualified t) b) ∧ (Ice Γ e ∨ ∃ b v, e = .const b v)
  | _ => False

/-- Null pointer constants (C17 6.3.2.3p3).  `(void *)0` is one, whatever its value; the compiler wants it to be a null
address. -/
inductive Null (L : Lang) (Γ : Env) : Expr → Desc → Prop
  | int : Ice Γ e → IsInteger d.type b → Γ.eval e = .int 0 → Null L Γ e d
  | void : Ice Γ e → Γ.eval e = .int 0 → (L.impl = true → Γ.eval (.cast (.pointer void) e) = .address true) →
      d.type = .pointer void → Null L Γ (.cast (.pointer void) e) d
  | constant : L.has .constantNull → d.const = true → (IsInteger d.type b ∨ d.type = .pointer void) →
      (Γ.eval e = .int 0 ∨ Γ.eval e = .address true) → Null L Γ e d

/-- Not a null pointer constant; nor does the compiler take it for one. -/
def NotNull (L : Lang) (Γ : Env) (e : Expr) (d : Desc) : Prop :=
  (L.std = true → ¬ Null (c17 L.size) Γ e d) ∧
    (L.std = true ∧ L.impl = true → Γ.eval e ≠ .int 0 ∧ Γ.eval e ≠ .address true ∧ Γ.eval e ≠ .error)

/-- The compiler wants to know the value of the operands of a conditional operator if one of them is a pointer. -/
def Evaluates (L : Lang) (Γ : Env) (e : Expr) : Prop := L.std = true ∧ L.impl = true → Γ.eval e ≠ .error

/-! ### Operators -/

/-- An operand: the expression, its description and its type after conversion. -/
structure Operand where
  expr : Expr
  desc : Desc
  type : Ty

/-- Integer types at least as wide as a pointer. -/
def wide : Basic → Bool
  | .long | .ulong | .llong | .ullong => true
  | _ => false

/-- The two are `void` and an object or incomplete type (C17 6.3.2.3p1). -/
def VoidAnd (L : Lang) (a b : Ty) : Prop :=
  a = void ∧ (isFunction b = false ∨ L.has .voidFunction) ∨ b = void ∧ (isFunction a = false ∨ L.has .voidFunction)

/-- The operand can be assigned to an object of type `t` (C17 6.5.16.1p1). -/
inductive Assignable (L : Lang) (Γ : Env) : Ty → Operand → Prop
  | arith : asArith t ≠ none → asArith x.type ≠ none → Assignable L Γ t x
  | record : isRecord t = true → L.compatible t x.type → Assignable L Γ t x
  | pointer : x.type = .pointer b → L.compatible (unqualified a) (unqualified b) → Within (qualOf b) (qualOf a) →
      Assignable L Γ (.pointer a) x
  | void : x.type = .pointer b → VoidAnd L (unqualified a) (unqualified b) → Within (qualOf b) (qualOf a) →
      Assignable L Γ (.pointer a) x
  | null : Null L Γ x.expr x.desc → (isEnum x.desc.type = false ∨ L.has .enumNull) → Assignable L Γ (.pointer a) x
  | bool : isPointer x.type = true → Assignable L Γ (.arith .bool) x
  | integer : L.has .integerToPointer → IsInteger x.type b → isEnum x.type = false →
      (x.desc.const = true ∨ wide b = true) → Assignable L Γ (.pointer a) x

mutual
/-- The type, or a member or element of it, is `const`. -/
def constInside : Ty → Bool
  | .qualified q t => hasConst (some q) || constInside t
  | .array _ _ t => constInside t
  | .struct _ (.complete fs) => constFields fs
  | .union _ (.complete fs) => constFields fs
  | _ => false
def constFields : Fields → Bool
  | .nil => false
  | .cons _ _ _ t rest => constInside t || constFields rest
end

/-- Modifiable lvalues (C17 6.3.2.1p1). -/
structure Modifiable (L : Lang) (Γ : Env) (d : Desc) : Prop where
  lvalue : d.lvalue = true
  notConst : hasConst (qualOf d.type) = false
  notArray : isArray (unqualified d.type) = false ∨ L.has .arrayTarget
  complete : Complete (Γ.fill d.type) ∨ L.has .incompleteTarget
  members : constInside (Γ.fill (unqualified d.type)) = false ∨ L.has .constMember

/-- The operand of pointer arithmetic points to a complete object type (C17 6.5.6p2, p3). -/
inductive Steps (L : Lang) (Γ : Env) : Ty → Prop
  | complete : isFunction (unqualified a) = false → Complete a → Steps L Γ a
  | late : L.has .lateCompletion → isFunction (unqualified a) = false → Complete (Γ.fill a) → Steps L Γ a
  | function : L.has .functionArithmetic → Complete a → Steps L Γ a

/-- The same for `++`, `--` and subscripts. -/
def StepsAny (L : Lang) (Γ : Env) (a : Ty) : Prop := Steps L Γ a ∨ L.has .incompleteArithmetic

/-- Unary arithmetic operators (C17 6.5.3.3). -/
inductive UnRule (L : Lang) : UnOp → Operand → Ty → Prop
  | integer : op ≠ .lnot → IsInteger x.type b → L.promotes b x.desc.bits p → UnRule L op x (.arith p)
  | floating : op = .plus ∨ op = .neg → x.type = .arith b → C17.isInteger b = false → UnRule L op x (.arith b)
  | lnot : Scalar x.type → UnRule L .lnot x .int

/-- Binary operators (C17 6.5.5-6.5.14): the constraints and the type of the result. -/
inductive BinRule (L : Lang) (Γ : Env) : BinOp → Operand → Operand → Ty → Prop
  /-- 6.5.5p2, 6.5.6p2 and p3. -/
  | arith : op = .mul ∨ op = .div ∨ op = .add ∨ op = .sub → asArith x.type = some a → asArith y.type = some b →
      L.arith a x.desc.bits b y.desc.bits r → BinRule L Γ op x y (.arith r)
  /-- 6.5.5p2, 6.5.10p2, 6.5.11p2, 6.5.12p2. -/
  | integer : op = .mod ∨ op = .band ∨ op = .bor ∨ op = .bxor → IsInteger x.type a → IsInteger y.type b →
      L.arith a x.desc.bits b y.desc.bits r → BinRule L Γ op x y (.arith r)
  /-- 6.5.7p2, p3. -/
  | shift : op = .shl ∨ op = .shr → IsInteger x.type a → IsInteger y.type b → L.promotes a x.desc.bits r →
      BinRule L Γ op x y (.arith r)
  /-- 6.5.6p2, p3. -/
  | pointerInt : op = .add ∨ op = .sub → x.type = .pointer a → Steps L Γ a → IsInteger y.type b →
      BinRule L Γ op x y (.pointer a)
  | intPointer : IsInteger x.type a → y.type = .pointer b → Steps L Γ b → BinRule L Γ .add x y (.pointer b)
  /-- 6.5.6p3, p9: `ptrdiff_t` is `long`. -/
  | difference : x.type = .pointer a → y.type = .pointer b → Steps L Γ (unqualified a) → Steps L Γ (unqualified b) →
      L.compatible (unqualified a) (unqualified b) → BinRule L Γ .sub x y (.arith .long)
  /-- 6.5.8p2. -/
  | order : op = .lt ∨ op = .le ∨ op = .gt ∨ op = .ge → asArith x.type ≠ none → asArith y.type ≠ none →
      BinRule L Γ op x y .int
  | orderPointers : op = .lt ∨ op = .le ∨ op = .gt ∨ op = .ge → x.type = .pointer a → y.type = .pointer b →
      L.compatible (unqualified a) (unqualified b) →
      (isFunction (unqualified a) = false ∧ isFunction (unqualified b) = false ∨ L.has .functionOrder) →
      BinRule L Γ op x y .int
  /-- 6.5.9p2. -/
  | equal : op = .eq ∨ op = .ne → asArith x.type ≠ none → asArith y.type ≠ none → BinRule L Γ op x y .int
  | equalPointers : op = .eq ∨ op = .ne → x.type = .pointer a → y.type = .pointer b →
      L.compatible (unqualified a) (unqualified b) → BinRule L Γ op x y .int
  | equalVoid : op = .eq ∨ op = .ne → x.type = .pointer a → y.type = .pointer b →
      VoidAnd L (unqualified a) (unqualified b) → BinRule L Γ op x y .int
  | equalNull : op = .eq ∨ op = .ne → isPointer x.type = true → Null L Γ y.expr y.desc → BinRule L Γ op x y .int
  | nullEqual : op = .eq ∨ op = .ne → Null L Γ x.expr x.desc → isPointer y.type = true → BinRule L Γ op x y .int
  | equalInteger : L.has .nonNullCompare → op = .eq ∨ op = .ne → isPointer x.type = true → IsInteger y.type b →
      y.desc.const = true → BinRule L Γ op x y .int
  | integerEqual : L.has .nonNullCompare → op = .eq ∨ op = .ne → IsInteger x.type a → x.desc.const = true →
      isPointer y.type = true → BinRule L Γ op x y .int
  /-- 6.5.13p2, 6.5.14p2. -/
  | logical : op = .land ∨ op = .lor → Scalar x.type → Scalar y.type → BinRule L Γ op x y .int

/-- Compound assignment (C17 6.5.16.2p1, p2); the target is a modifiable lvalue as well. -/
inductive AssignOpRule (L : Lang) (Γ : Env) : AssignOp → Ty → Ty → Prop
  | arith : op = .mul ∨ op = .div ∨ op = .add ∨ op = .sub → asArith t ≠ none → asArith v ≠ none → AssignOpRule L Γ op t v
  | integer : op ≠ .mul → op ≠ .div → op ≠ .add → op ≠ .sub → IsInteger t a → IsInteger v b → AssignOpRule L Γ op t v
  | pointer : op = .add ∨ op = .sub → Steps L Γ (unqualified a) → IsInteger v b → AssignOpRule L Γ op (.pointer a) v

/-- Casts to `t` (C17 6.5.4p2-p4). -/
inductive CastRule (L : Lang) : Ty → Ty → Prop
  | void : CastRule L void v
  | qualifiedVoid : L.has .qualifiedVoidCast → CastRule L (.qualified q void) v
  | arith : asArith (unqualified t) ≠ none → asArith v ≠ none → CastRule L t v
  | toPointer : isPointer (unqualified t) = true → IsInteger v b → CastRule L t v
  | fromPointer : IsInteger (unqualified t) b → isPointer v = true → CastRule L t v
  | pointers : isPointer (unqualified t) = true → isPointer v = true → CastRule L t v

/-- The conditional operator (C17 6.5.15p3-p6): the second and third operand and the type of the result. -/
inductive CondRule (L : Lang) (Γ : Env) : Operand → Operand → Ty → Prop
  | arith : asArith x.type = some a → asArith y.type = some b → L.arith a x.desc.bits b y.desc.bits r →
      CondRule L Γ x y (.arith r)
  | record : isRecord x.type = true → isRecord y.type = true → L.same x.type y.type → CondRule L Γ x y x.type
  | void : x.type = void → y.type = void → CondRule L Γ x y void
  | nullRight : isPointer x.type = true → Evaluates L Γ x.expr → Null L Γ y.expr y.desc → CondRule L Γ x y x.type
  | nullLeft : Null L Γ x.expr x.desc → isPointer y.type = true → Evaluates L Γ y.expr → CondRule L Γ x y y.type
  | pointers : x.type = .pointer a → y.type = .pointer b → NotNull L Γ x.expr x.desc → NotNull L Γ y.expr y.desc →
      L.compatible (unqualified a) (unqualified b) → unqualified a ≠ ExprType.void → unqualified b ≠ ExprType.void →
      L.composite (unqualified a) (unqualified b) c →
      CondRule L Γ x y (.pointer (withQuals (bothQuals (qualOf a) (qualOf b)) c))
  | voidPointer : x.type = .pointer a → y.type = .pointer b → NotNull L Γ x.expr x.desc → NotNull L Γ y.expr y.desc →
      VoidAnd L (unqualified a) (unqualified b) →
      CondRule L Γ x y (.pointer (withQuals (bothQuals (qualOf a) (qualOf b)) ExprType.void))

/-- Arguments (C17 6.5.2.2p1, p2, p4, p6, p7) against the types of parameters; `more` if further arguments may
follow. -/
inductive ArgsRule (L : Lang) (Γ : Env) : TyList → Bool → List Operand → Prop
  | done : (more = true → ∀ x ∈ xs, Complete (Γ.fill x.type) ∨ L.has .voidArgument) → (more = false → xs = []) →
      ArgsRule L Γ .nil more xs
  | next : L.param t p → Assignable L Γ p x → ArgsRule L Γ ps more xs → ArgsRule L Γ (.cons t s ps) more (x :: xs)

inductive CallRule (L : Lang) (Γ : Env) : Params → Bool → List Operand → Prop
  /-- A prototype. -/
  | types : ArgsRule L Γ ps more xs → CallRule L Γ (.types ps) more xs
  /-- The prototype `(void)` (6.7.6.3p10). -/
  | noParameters : CallRule L Γ (.types (.cons void s .nil)) more []
  /-- No prototype. -/
  | empty : (∀ x ∈ xs, Complete (Γ.fill x.type) ∨ L.has .voidArgument) → CallRule L Γ .empty more xs
  | ids : (∀ x ∈ xs, Complete (Γ.fill x.type) ∨ L.has .voidArgument) → CallRule L Γ (.ids n) more xs

/-- `Member L fs x t w`: a member named `x` of type `t`, with width `w` if it is a bit-field; the members of
anonymous structures and unions count (C17 6.7.2.1p13). -/
inductive Member (L : Lang) : Fields → String → Ty → Option Int → Prop
  | here : Member L (.cons (some x) al w t rest) x t w
  | later : Member L rest x t w → Member L (.cons n al w' t' rest) x t w
  | struct : Member L fs x t w → Member L (.cons none al w' (.struct tag (.complete fs)) rest) x t w
  | union : Member L fs x t w → Member L (.cons none al w' (.union tag (.complete fs)) rest) x t w
  | qualifiedStruct : L.has .qualifiedAnonymous → Member L fs x t w →
      Member L (.cons none al w' (.qualified q (.struct tag (.complete fs))) rest) x (qualify q t) w
  | qualifiedUnion : L.has .qualifiedAnonymous → Member L fs x t w →
      Member L (.cons none al w' (.qualified q (.union tag (.complete fs))) rest) x (qualify q t) w

mutual
/-- Anonymous members have complete types (C17 6.7.2.1p3). -/
def SoundFields : Fields → Prop
  | .nil => True
  | .cons name _ _ t rest => (name = none → SoundAnonymous t) ∧ SoundFields rest
def SoundAnonymous : Ty → Prop
  | .struct _ .incomplete | .union _ .incomplete => False
  | .struct _ (.complete fs) | .union _ (.complete fs) => SoundFields fs
  | _ => True
end

/-- The member named `x` (C17 6.5.2.3p1-p2). -/
def MemberRule (L : Lang) (fs : Fields) (x : String) (t : Ty) (w : Option Int) : Prop :=
  Member L fs x t w ∧
    (SoundFields fs ∧ (∀ t' w', Member (c17 L.size) fs x t' w' → t' = t ∧ w' = w) ∨ L.has .ambiguousMember)

/-- The type of a member of a structure with qualifiers `q` (C17 6.5.2.3p3, p4). -/
inductive MemberType (L : Lang) : Option Qual → Ty → Ty → Prop
  | unqualified : MemberType L none t t
  | qualified : isArray (Spec.unqualified t) = false → MemberType L (some q) t (withQuals (some q) t)
  | array : L.has .qualifiedArrays → isArray (Spec.unqualified t) = true → MemberType L (some q) t (qualify q t)
  | lost : L.has .lostQualifiers → MemberType L (some q) t (withQuals (some q) t)

/-- The members of a structure or union type completed by the declarations. -/
def Env.members (Γ : Env) (t : Ty) : Option Fields :=
  match Γ.fill t with
  | .struct _ (.complete fs) => some fs
  | .union _ (.complete fs) => some fs
  | _ => none

/-- `sizeof` and `_Alignof` (C17 6.5.3.4p1). -/
def SizeRule (L : Lang) (Γ : Env) (t : Ty) : Prop :=
  (isFunction (unqualified t) = false ∨ isFunction t = false ∧ L.has .qualifiedFunction) ∧ Complete (Γ.fill t)

/-- The type names of a generic selection (C17 6.5.1.1p2). -/
def AssocTypes (L : Lang) (Γ : Env) (ts : List Ty) : Prop :=
  ((∀ t ∈ ts, isFunction (unqualified t) = false ∧ Complete (Γ.fill t) ∧ isVariable (unqualified t) = false) ∨
      L.has .anyAssociationType) ∧
    (ts.Pairwise (fun a b => ¬ Compatible a b) ∨ L.has .ambiguousGeneric)

/-- The chosen association (C17 6.5.1.1p2, p3). -/
inductive GenericRule (L : Lang) : Ty → List (Ty × Desc) → Option Desc → Desc → Prop
  | matching (pre : List (Ty × Desc)) : (∀ a ∈ pre, L.incompatible c a.1) → L.compatible c t →
      (∀ a ∈ post, L.incompatible c a.1) ∨ L.has .ambiguousGeneric → GenericRule L c (pre ++ (t, d) :: post) dflt d
  | default : (∀ a ∈ as, L.incompatible c a.1) → GenericRule L c as (some d) d

/-! ### Expressions -/

/-- `d` describes a value of type `t` that designates nothing; it may be called constant if `k`. -/
def Value (d : Desc) (t : Ty) (k : Prop) : Prop :=
  d.type = t ∧ d.bits = none ∧ d.lvalue = false ∧ d.addressable = false ∧ d.static = false ∧ (d.const = true → k)

/-- Primary expressions: identifiers (C17 6.5.1p2, 6.7.2.2p3). -/
inductive IdentRule : Entity → Desc → Prop
  | object : d.type = t → d.bits = none → (d.lvalue = true → ∀ b qs e, t ≠ .array b qs e) →
      (d.addressable = true → register = false) → (d.static = true → static = true) →
      (d.const = true → static = true ∧ ∃ b qs e, t = .array b qs e) → IdentRule (.object t register static) d
  | function : d.type = t → d.bits = none → d.lvalue = false → IdentRule (.function t) d
  | enumConst : Value d .int True → IdentRule .enumConst d

/-- The operand of a subscript contributes to an address constant (C17 6.6p9): an array with static storage duration, or
a constant. -/
def StaticPart (x : Desc) : Prop :=
  match unqualified x.type with
  | .array .. => x.static = true
  | _ => x.const = true

mutual
/-- `d` describes the expression. -/
def Typed (L : Lang) (Γ : Env) : Expr → Desc → Prop
  | .ident x, d => ∃ en, Γ.ident x = some en ∧ IdentRule en d
  | .const b _, d => Value d (.arith b) True
  /- 6.4.5p6 -/
  | .str b n, d => d.type = .array (.fixed false n) none (.arith b) ∧ d.bits = none ∧ d.lvalue = false ∧
      (d.addressable = true → L.has .stringAddress) ∧ d.static = false
  | .un op e, d => ∃ x t, Typed L Γ e x ∧ Conv L x.type t ∧
      ∃ r, UnRule L op ⟨e, x, t⟩ r ∧ Value d r (x.const = true)
  /- 6.5.2.4p1, 6.5.3.1p1 -/
  | .incdec _ e, d => ∃ x, Typed L Γ e x ∧ Modifiable L Γ x ∧
      (asArith (unqualified x.type) ≠ none ∨ ∃ a, unqualified x.type = .pointer a ∧ StepsAny L Γ a) ∧
      Value d (unqualified x.type) False
  /- 6.5.3.2p1, p3 -/
  | .addr e, d => ∃ x, Typed L Γ e x ∧ x.addressable = true ∧ Value d (.pointer x.type) (x.static = true)
  /- 6.5.3.2p2, p4 -/
  | .deref e, d => ∃ x, Typed L Γ e x ∧ Conv L x.type (.pointer d.type) ∧
      d.bits = none ∧ (d.lvalue = true → isFunction d.type = false) ∧ d.static = false ∧ d.const = false
  /- 6.5.3.4 -/
  | .sizeofExpr e, d => ∃ x, Typed L Γ e x ∧ x.bits = none ∧ SizeRule L Γ x.type ∧
      Value d (.arith L.size) (isVariable (Γ.fill x.type) = false)
  | .sizeofType t, d => SizeRule L Γ t ∧ Value d (.arith L.size) (isVariable (Γ.fill t) = false)
  | .alignofType t, d => SizeRule L Γ t ∧ Value d (.arith L.size) True
  | .bin op a b, d => ∃ x s y t, Typed L Γ a x ∧ Conv L x.type s ∧ Typed L Γ b y ∧ Conv L y.type t ∧
      ∃ r, BinRule L Γ op ⟨a, x, s⟩ ⟨b, y, t⟩ r ∧ Value d r (x.const = true ∧ y.const = true)
  /- 6.5.16p2, p3, 6.5.16.1 -/
  | .assign a b, d => ∃ x s y t, Typed L Γ a x ∧ Conv L x.type s ∧ Typed L Γ b y ∧ Conv L y.type t ∧
      Modifiable L Γ x ∧ Assignable L Γ s ⟨b, y, t⟩ ∧ Value d s False
  /- 6.5.16p2, p3, 6.5.16.2 -/
  | .assignOp op a b, d => ∃ x s y t, Typed L Γ a x ∧ Conv L x.type s ∧ Typed L Γ b y ∧ Conv L y.type t ∧
      Modifiable L Γ x ∧ AssignOpRule L Γ op s t ∧ Value d s False
  | .cast t e, d => ∃ x s, Typed L Γ e x ∧ Conv L x.type s ∧ CastRule L t s ∧ Value d (unqualified t) (x.const = true)
  /- 6.5.15p2 -/
  | .cond c a b, d => ∃ z r x s y t, Typed L Γ c z ∧ Conv L z.type r ∧ Scalar r ∧ Typed L Γ a x ∧ Conv L x.type s ∧
      Typed L Γ b y ∧ Conv L y.type t ∧
      ∃ u, CondRule L Γ ⟨a, x, s⟩ ⟨b, y, t⟩ u ∧ Value d u (z.const = true ∧ x.const = true ∧ y.const = true)
  /- 6.5.17p2 -/
  | .comma a b, d => ∃ x y t, Typed L Γ a x ∧ Typed L Γ b y ∧ Conv L y.type t ∧ Value d t False
  /- 6.5.2.1p1, p2 -/
  | .index a b, d => ∃ x s y t, Typed L Γ a x ∧ Conv L x.type s ∧ Typed L Γ b y ∧ Conv L y.type t ∧
      (s = .pointer d.type ∧ (∃ i, IsInteger t i) ∨ (∃ i, IsInteger s i) ∧ t = .pointer d.type) ∧
      StepsAny L Γ d.type ∧ d.bits = none ∧ (d.static = true → StaticPart x ∧ StaticPart y) ∧ d.const = false
  /- 6.5.2.2p1, p5 -/
  | .call f args, d => ∃ x r ps more xs, Typed L Γ f x ∧ Conv L x.type (.pointer (.func r ps more)) ∧
      TypedArgs L Γ args xs ∧ CallRule L Γ ps more xs ∧
      (isArray (unqualified r) = false ∨ unqualified r = .prim .vaList ∧ L.has .vaListReturn) ∧
      (Complete (Γ.fill r) ∨ unqualified r = void ∨ L.has .incompleteReturn) ∧ Value d (unqualified r) False
  /- 6.5.2.3p1, p3 -/
  | .dot e f, d => ∃ x fs t w, Typed L Γ e x ∧ Γ.members (unqualified x.type) = some fs ∧ MemberRule L fs f t w ∧
      MemberType L (qualOf x.type) (Γ.fill t) d.type ∧ d.bits = w.map Int.toNat ∧
      (d.lvalue = true → x.lvalue = true ∨ L.has .rvalueMember) ∧
      (d.addressable = true → w = none ∧ (x.addressable = true ∨ L.has .registerMember)) ∧
      (d.static = true → x.static = true) ∧ d.const = false
  /- 6.5.2.3p2, p4 -/
  | .arrow e f, d => ∃ x s fs t w, Typed L Γ e x ∧ Conv L x.type (.pointer s) ∧ Γ.members (unqualified s) = some fs ∧
      MemberRule L fs f t w ∧ MemberType L (qualOf s) (Γ.fill t) d.type ∧ d.bits = w.map Int.toNat ∧
      (d.addressable = true → w = none) ∧ (d.static = true → x.const = true) ∧ d.const = false
  /- 6.5.1.1 -/
  | .generic c as dflt, d => ∃ x s ds r, Typed L Γ c x ∧ Conv L x.type s ∧ TypedAssocs L Γ as ds ∧
      AssocTypes L Γ (ds.map (·.1)) ∧ (TypedDflt L Γ dflt r ∨ L.has .uncheckedDefault ∧ r = none) ∧
      ∃ d', GenericRule L s ds r d' ∧ d = { d' with static := false }
def TypedArgs (L : Lang) (Γ : Env) : Args → List Operand → Prop
  | .nil, xs => xs = []
  | .cons e rest, xs => ∃ x t ys, Typed L Γ e x ∧ Conv L x.type t ∧ TypedArgs L Γ rest ys ∧ xs = ⟨e, x, t⟩ :: ys
def TypedAssocs (L : Lang) (Γ : Env) : Assocs → List (Ty × Desc) → Prop
  | .nil, ds => ds = []
  | .cons t e rest, ds => ∃ x xs, Typed L Γ e x ∧ TypedAssocs L Γ rest xs ∧ ds = (t, x) :: xs
def TypedDflt (L : Lang) (Γ : Env) : Dflt → Option Desc → Prop
  | .none, r => r = none
  | .some e, r => ∃ x, Typed L Γ e x ∧ r = some x
end

/-- A `return` statement in a function that returns `t` (C17 6.8.6.4p1, p3). -/
inductive ReturnRule (L : Lang) (Γ : Env) : Ty → Option Expr → Prop
  | void : unqualified t = ExprType.void → ReturnRule L Γ t none
  | value : unqualified t ≠ ExprType.void → Typed L Γ e x → Conv L x.type s → Assignable L Γ (unqualified t) ⟨e, x, s⟩ →
      ReturnRule L Γ t (some e)

end Kefir.ExprType
