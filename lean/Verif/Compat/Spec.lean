import Verif.Types.Spec

/-! C17 types and the relation "have compatible type" (C17 6.2.7, 6.7.2.2, 6.7.3, 6.7.6.1-3).

Nothing here refers to the functions of the compiler: `Ty` is the language of types, `Compatible` the rules of
the standard. -/
namespace Kefir.Compat
open Kefir.Types (Basic)

/-- Types without structure: `void`, `va_list` and the arithmetic types. -/
inductive Prim
  | void | vaList
  | arith (b : Basic)
  deriving DecidableEq, Repr

/-- A non-empty set of qualifiers. -/
inductive Qual
  | c | v | r | cv | cr | vr | cvr
  deriving DecidableEq, Repr

/-- What stands between the brackets of an array declarator: nothing, an expression that is not constant or `*`
(`len` says whether there is an expression), a constant; `static` says whether that keyword is there. -/
inductive Bound
  | unbounded
  | vla (static len : Bool)
  | fixed (static : Bool) (n : Int)
  deriving DecidableEq, Repr

/-- The enumerators of an enumeration with their values. -/
abbrev Enumerators := List (String × Option Int)

mutual
/-- C17 types.  `_Atomic` and `_Complex` types do not occur in the compiler.  A type is a finite tree: a member
that points to the structure it is a member of has the incomplete type of that tag there. -/
inductive Ty
  | prim (p : Prim)
  | pointer (t : Ty)
  | qualified (q : Qual) (t : Ty)
  /-- `quals` are the qualifiers between the brackets (only in parameters). -/
  | array (b : Bound) (quals : Option Qual) (elem : Ty)
  | enum (tag : Option String) (body : Option Enumerators)
  | struct (tag : Option String) (body : Body)
  | union (tag : Option String) (body : Body)
  | func (ret : Ty) (ps : Params) (ellipsis : Bool)
/-- The member list of a structure or union type, unless it is incomplete. -/
inductive Body
  | incomplete
  | complete (fs : Fields)
/-- Members: name (none for unnamed bit-fields and anonymous members), alignment asked for, width of a bit-field,
type. -/
inductive Fields
  | nil
  | cons (name : Option String) (align : Nat) (width : Option Int) (t : Ty) (rest : Fields)
/-- What is known about the parameters of a function: nothing (`()` in a declaration), the number of names in the
identifier list of an old-style definition, or their types. -/
inductive Params
  | empty
  | ids (n : Nat)
  | types (ps : TyList)
/-- Declared types of parameters.  `storage` is the storage class. -/
inductive TyList
  | nil
  | cons (t : Ty) (storage : Option Nat) (rest : TyList)
end

namespace Ty
abbrev arith (b : Basic) : Ty := .prim (.arith b)
abbrev int : Ty := .arith .int
end Ty

/-- Number of parameters. -/
def TyList.length : TyList → Nat
  | .nil => 0
  | .cons _ _ rest => rest.length + 1

namespace Spec

/-- Union of two sets of qualifiers. -/
def joinQual : Qual → Qual → Qual
  | .c, .c => .c | .v, .v => .v | .r, .r => .r
  | .c, .v => .cv | .v, .c => .cv | .c, .cv => .cv | .cv, .c => .cv | .v, .cv => .cv | .cv, .v => .cv | .cv, .cv => .cv
  | .c, .r => .cr | .r, .c => .cr | .c, .cr => .cr | .cr, .c => .cr | .r, .cr => .cr | .cr, .r => .cr | .cr, .cr => .cr
  | .v, .r => .vr | .r, .v => .vr | .v, .vr => .vr | .vr, .v => .vr | .r, .vr => .vr | .vr, .r => .vr | .vr, .vr => .vr
  | _, _ => .cvr

/-- The type with qualifiers added; C17 6.7.3p9: qualifying an array type qualifies its elements. -/
def qualify (q : Qual) : Ty → Ty
  | .qualified q' t => .qualified (joinQual q q') t
  | .array b qs e => .array b qs (qualify q e)
  | t => .qualified q t

/-- The type a parameter declared with the given type has for the purpose of comparing function types: adjusted
(C17 6.7.6.3p7: array to pointer to element, p8: function to pointer to function; a `va_list` is an array of one
structure on this target) and unqualified (p15). -/
def paramType : Ty → Ty
  | .array _ _ e => .pointer e
  | .func r ps e => .pointer (.func r ps e)
  | .prim .vaList => .pointer (.prim .vaList)
  | .qualified q (.array _ _ e) => .pointer (qualify q e)
  | .qualified _ t => t
  | t => t

/-- The values of enumerators (C17 6.7.2.2p3): the one given, or else one more than that of the previous enumerator;
`next` is the value of the first of them unless it has one of its own. -/
def enumValues (next : Int) : Enumerators → List Int
  | [] => []
  | (_, v) :: rest => v.getD next :: enumValues (v.getD next + 1) rest

/-- The integer type an enumerated type is compatible with (C17 6.7.2.2p4 leaves the choice to the implementation;
this is the documented one, without the option `signed-enums`): `unsigned int` unless an enumerator is negative or the
type is not complete. -/
def enumType : Option Enumerators → Basic
  | some (e :: rest) => if ∀ v ∈ enumValues 0 (e :: rest), 0 ≤ v then .uint else .int
  | _ => .int

/-- The default argument promotions (C17 6.5.2.2p6). -/
def promoteArg : Ty → Ty
  | .prim (.arith .float) => .arith .double
  | .prim (.arith b) => if C17.isInteger b then .arith (C17.promote b) else .arith b
  | .enum _ body => .arith (enumType body)
  | t => t

/-- The unqualified version of a type. -/
def unqualified : Ty → Ty
  | .qualified _ t => t
  | t => t

/-- C17 6.7.6.2p6: if both size specifiers are integer constant expressions they have the same value. -/
def BoundsAgree : Bound → Bound → Prop
  | .fixed _ m, .fixed _ n => m = n
  | _, _ => True

/-- If both enumerations are complete their enumerators have the same names and values. -/
def EnumsAgree : Option Enumerators → Option Enumerators → Prop
  | some a, some b => a = b
  | _, _ => True

/-- `Take fs name align width t rest`: `fs` is the member list `rest` with that member put in somewhere. -/
inductive Take : Fields → Option String → Nat → Option Int → Ty → Fields → Prop
  | head : Take (.cons n a w t fs) n a w t fs
  | tail : Take fs n a w t rest → Take (.cons n' a' w' t' fs) n a w t (.cons n' a' w' t' rest)

mutual
/-- The two types are compatible. -/
inductive Compatible : Ty → Ty → Prop
  | prim (p) : Compatible (.prim p) (.prim p)
  /-- 6.7.2.2p4: an enumerated type is compatible with an implementation-defined integer type. -/
  | enumInt : Compatible (.enum tag body) (.arith (enumType body))
  | intEnum : Compatible (.arith (enumType body)) (.enum tag body)
  /-- 6.2.7p1, enumerations. -/
  | enum : EnumsAgree b1 b2 → Compatible (.enum tag b1) (.enum tag b2)
  /-- 6.7.6.1p2. -/
  | pointer : Compatible a b → Compatible (.pointer a) (.pointer b)
  /-- 6.7.3p10: identically qualified versions of compatible types. -/
  | qualified : Compatible a b → Compatible (.qualified q a) (.qualified q b)
  /-- 6.7.6.2p6. -/
  | array : Compatible a b → BoundsAgree m n → Compatible (.array m q a) (.array n q' b)
  /-- 6.2.7p1: same tag and, if both are complete, corresponding members in the same order. -/
  | struct : BodiesAgree b1 b2 → Compatible (.struct tag b1) (.struct tag b2)
  /-- 6.2.7p1: same tag and, if both are complete, corresponding members in any order. -/
  | union : UnionsAgree b1 b2 → Compatible (.union tag b1) (.union tag b2)
  /-- 6.7.6.3p15: return types compatible, and the parameters agree. -/
  | func : Compatible (unqualified r1) (unqualified r2) → ParamsAgree ps1 e1 ps2 e2 →
      Compatible (.func r1 ps1 e1) (.func r2 ps2 e2)
inductive BodiesAgree : Body → Body → Prop
  | left : BodiesAgree .incomplete b
  | right : BodiesAgree b .incomplete
  | complete : FieldsAgree f1 f2 → BodiesAgree (.complete f1) (.complete f2)
/-- Members in order with the same names, alignments, widths and compatible types. -/
inductive FieldsAgree : Fields → Fields → Prop
  | nil : FieldsAgree .nil .nil
  | cons : Compatible t1 t2 → FieldsAgree f1 f2 → FieldsAgree (.cons n a w t1 f1) (.cons n a w t2 f2)
inductive UnionsAgree : Body → Body → Prop
  | left : UnionsAgree .incomplete b
  | right : UnionsAgree b .incomplete
  | complete : MembersAgree f1 f2 → UnionsAgree (.complete f1) (.complete f2)
/-- A one-to-one correspondence of the members, in any order. -/
inductive MembersAgree : Fields → Fields → Prop
  | nil : MembersAgree .nil .nil
  | cons : Take f2 n a w t2 rest → Compatible t1 t2 → MembersAgree f1 rest →
      MembersAgree (.cons n a w t1 f1) f2
inductive ParamsAgree : Params → Bool → Params → Bool → Prop
  /-- Both have parameter type lists: same number, same use of the ellipsis, compatible types. -/
  | types : TypesAgree p1 p2 → ParamsAgree (.types p1) e (.types p2) e
  /-- One has a parameter type list and the other an empty list: no ellipsis and every type survives the default
  argument promotions. -/
  | typesEmpty : Unpromoted p → ParamsAgree (.types p) false .empty e
  | emptyTypes : Unpromoted p → ParamsAgree .empty e (.types p) false
  /-- The other is an old-style definition: also the same number. -/
  | typesIds : Unpromoted p → p.length = n → ParamsAgree (.types p) false (.ids n) e
  | idsTypes : Unpromoted p → p.length = n → ParamsAgree (.ids n) e (.types p) false
  | emptyEmpty : ParamsAgree .empty e1 .empty e2
  | emptyIds : ParamsAgree .empty e1 (.ids n) e2
  | idsEmpty : ParamsAgree (.ids n) e1 .empty e2
  | idsIds : ParamsAgree (.ids n) e1 (.ids m) e2
inductive TypesAgree : TyList → TyList → Prop
  | nil : TypesAgree .nil .nil
  | cons : Compatible (paramType t1) (paramType t2) → TypesAgree p1 p2 →
      TypesAgree (.cons t1 s1 p1) (.cons t2 s2 p2)
/-- Every parameter type is compatible with what the default argument promotions make of it. -/
inductive Unpromoted : TyList → Prop
  | nil : Unpromoted .nil
  | cons : Compatible (paramType t) (promoteArg (paramType t)) → Unpromoted p → Unpromoted (.cons t s p)
end

end Spec
end Kefir.Compat
