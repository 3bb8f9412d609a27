import Verif.Compat.Spec

/-! The comparisons of `ast/type/{basic,enum,pointer,qualified,array,struct,function}.c`.

Result `none`: the C code passes `NULL` to `strcmp` or reads through a `NULL` pointer, so its behaviour is
undefined.  `NULL` and memory-failure checks on the arguments are left out.  A qualified type always has at least
one qualifier: every call of `kefir_ast_type_qualified` outside the tests is guarded by
`KEFIR_AST_TYPE_IS_ZERO_QUALIFICATION` or copies the qualifiers of a qualified type, so
`kefir_ast_zero_unqualified_type` (`ast/type/qualified.c` 119-126) is the identity and the branch of
`compatbile_qualified_types` for empty qualifiers (lines 46-49) is never taken. -/
namespace Kefir.Compat
open Kefir.Types (Basic)

/-- C's `a && b` on outcomes. -/
def andB (a b : Option Bool) : Option Bool :=
  match a with
  | none => none
  | some false => some false
  | some true => b

/-- C's `a || b` on outcomes. -/
def orB (a b : Option Bool) : Option Bool :=
  match a with
  | none => none
  | some true => some true
  | some false => b

/-- The loop of `resolve_enum_type`, `ast/analyzer/declarator.c` 234-261, as far as the least constant goes:
`value` is `constant_value`, `least` is `min_constant` (`none` while it is `KEFIR_AST_CONSTANT_EXPRESSION_INT_MAX`).
Simplified: the values are unbounded integers. -/
def leastConstant (value : Int) (least : Option Int) : Enumerators → Option Int
  | [] => least
  | (_, v) :: rest =>
    let value := v.getD value
    leastConstant (value + 1) (some (match least with | some l => min l value | none => value)) rest

/-- The underlying type of an enumeration, `ast/analyzer/declarator.c` 229-231, 263-269 and 285-288, without the option
`signed-enums` (`ast/context.c` 9 and `type.c` 166). -/
def underlying (body : Option Enumerators) : Basic :=
  match body with
  | none => .int
  | some [] => .int
  | some (e :: rest) =>
    match leastConstant 0 none (e :: rest) with
    | some l => if 0 ≤ l then .uint else .int
    | none => .uint

/-- The comparison of enumeration tags, `ast/type/enum.c` 45-47 and 85-87: unless both are `NULL` they are passed to
`strcmp`. -/
def enumTags (a b : Option String) : Option Bool :=
  match a, b with
  | none, none => some true
  | some a, some b => some (a == b)
  | _, _ => none

/-- The loop over enumerators, `ast/type/enum.c` 49-66 and 89-106 (the values of enumerators are integer
constants, so the test of their class succeeds). -/
def enumerators : Enumerators → Enumerators → Bool
  | (n1, v1) :: r1, (n2, v2) :: r2 => n1 == n2 && v1 == v2 && enumerators r1 r2
  | _, _ => true

/-- The comparison of bit-field widths, `ast/type/struct.c` 50-52, 75-77, 151-153, 182-184 and 195-196; the width of
a member that is not a bit-field is `NULL` and is read if the other member is a bit-field. -/
def widths (a b : Option Int) : Option Bool :=
  match a, b with
  | none, none => some true
  | some a, some b => some (a == b)
  | _, _ => none

/-- `kefir_list_length` of the members. -/
def Fields.length : Fields → Nat
  | .nil => 0
  | .cons _ _ _ _ rest => rest.length + 1

/-- The number of entries of `field_index` (`kefir_ast_struct_type_field_impl`, `ast/type/struct.c` 371-426, enters the members with a name and
rejects a second one of that name). -/
def Fields.namedCount : Fields → Nat
  | .nil => 0
  | .cons none _ _ _ rest => rest.namedCount
  | .cons (some _) _ _ _ rest => rest.namedCount + 1

/-- `kefir_hashtree_at` on `field_index`: the width and type of the member with that name. -/
def Fields.lookup (name : String) : Fields → Option (Option Int × Ty)
  | .nil => none
  | .cons n _ w t rest => if n = some name then some (w, t) else rest.lookup name

mutual
/-- `KEFIR_AST_TYPE_SAME`, `headers/kefir/ast/type.h` 103, with the functions it calls: `same_basic_type`
`ast/type/basic.c` 25-29, `same_pointer_type` `pointer.c` 25-30, `same_qualified_type` `qualified.c` 32-40,
`same_array_type` `array.c` 25-48, `same_enumeration_type` `enum.c` 40-69, `same_structure_type` `struct.c` 34-57,
`same_union_type` `struct.c` 134-161, `same_function_type` `function.c` 98-123. -/
def same : Ty → Ty → Option Bool
  | .prim p, t2 => match t2 with
    | .prim p' => some (p == p')
    | _ => some false
  | .pointer a, t2 => match t2 with
    | .pointer b => same a b
    | _ => some false
  | .qualified q a, t2 => match t2 with
    | .qualified q' b => if q = q' then same a b else some false
    | _ => some false
  | .array m _ a, t2 => match t2 with
    | .array n _ b => if m = n then same a b else some false
    | _ => some false
  | .enum tag1 b1, t2 => match t2 with
    | .enum tag2 b2 =>
      match b1, b2 with
      | some l1, some l2 =>
        andB (enumTags tag1 tag2) (andB (some (l1.length == l2.length)) (some (enumerators l1 l2)))
      | none, none => enumTags tag1 tag2
      | _, _ => some false
    | _ => some false
  | .struct tag1 b1, t2 => match t2 with
    | .struct tag2 b2 => sameBody tag1 tag2 b1 b2
    | _ => some false
  | .union tag1 b1, t2 => match t2 with
    | .union tag2 b2 => sameUnion tag1 tag2 b1 b2
    | _ => some false
  | .func r1 p1 e1, t2 => match t2 with
    | .func r2 p2 e2 => andB (same r1 r2) (sameParams p1 p2 (some (e1 == e2)))
    | _ => some false
termination_by structural t => t
/-- `same_structure_type`, `ast/type/struct.c` 38-55. -/
def sameBody (tag1 tag2 : Option String) : Body → Body → Option Bool
  | .incomplete, b2 => match b2 with
    | .incomplete => some (tag1 == tag2)
    | _ => some false
  | .complete f1, b2 => match b2 with
    | .complete f2 => if tag1 = tag2 ∧ f1.length = f2.length then sameFields f1 f2 else some false
    | _ => some false
termination_by structural b => b
/-- The loop of `same_structure_type`, `ast/type/struct.c` 45-54. -/
def sameFields : Fields → Fields → Option Bool
  | .nil, _ => some true
  | .cons n1 a1 w1 t1 r1, f2 => match f2 with
    | .nil => some true
    | .cons n2 a2 w2 t2 r2 =>
      if n1 = n2 ∧ a1 = a2 then andB (widths w1 w2) (andB (same t1 t2) (sameFields r1 r2)) else some false
termination_by structural f => f
/-- `same_union_type`, `ast/type/struct.c` 138-159. -/
def sameUnion (tag1 tag2 : Option String) : Body → Body → Option Bool
  | .incomplete, b2 => match b2 with
    | .incomplete => some (tag1 == tag2)
    | _ => some false
  | .complete f1, b2 => match b2 with
    | .complete f2 =>
      if tag1 = tag2 then andB (sameMembers f1 f2) (some (f1.namedCount == f2.namedCount)) else some false
    | _ => some false
termination_by structural b => b
/-- The first loop of `same_union_type`, `ast/type/struct.c` 143-156: members with a name are looked up in the index
of the other type.  The hash tree is walked in the order of the member list here. -/
def sameMembers : Fields → Fields → Option Bool
  | .nil, _ => some true
  | .cons n1 _ w1 t1 r1, f2 => match n1 with
    | none => sameMembers r1 f2
    | some n => match f2.lookup n with
      | none => some false
      | some (w2, t2) => andB (widths w1 w2) (andB (same t1 t2) (sameMembers r1 f2))
termination_by structural f => f
/-- `same_function_type`, `ast/type/function.c` 103-122; `rest` is the test of the ellipsis after the loop. -/
def sameParams : Params → Params → Option Bool → Option Bool
  | .empty, p2, rest => match p2 with
    | .empty => rest
    | _ => some false
  | .ids n, p2, rest => match p2 with
    | .ids m => if n = m then rest else some false
    | _ => some false
  | .types p1, p2, rest => match p2 with
    | .types p2 => if p1.length = p2.length then andB (sameTypes p1 p2) rest else some false
    | _ => some false
termination_by structural p => p
/-- The loop of `same_function_type`, `ast/type/function.c` 108-120. -/
def sameTypes : TyList → TyList → Option Bool
  | .nil, _ => some true
  | .cons t1 s1 r1, p2 => match p2 with
    | .nil => some true
    | .cons t2 s2 r2 => andB (same t1 t2) (if s1 = s2 then sameTypes r1 r2 else some false)
termination_by structural p => p
end

/-- `kefir_ast_unqualified_type`, `ast/type/qualified.c` 108-117. -/
def unq : Ty → Ty
  | .qualified _ t => t
  | t => t

/-- `kefir_ast_type_conv_adjust_function_parameter`, `ast/type_conv.c` 202-230.  The pointer made from an array type
with qualifiers between its brackets is qualified (a pointer type is not, so the qualifiers are not merged). -/
def adjust : Ty → Ty
  | .func r ps e => .pointer (.func r ps e)
  | .array _ none e => .pointer e
  | .array _ (some q) e => .qualified q (.pointer e)
  | .prim .vaList => .pointer (.prim .vaList)
  | t => t

/-- `kefir_ast_type_function_default_argument_promotion`, `ast/type_conv.c` 125-134. -/
def promotion : Ty → Option Ty
  | .prim (.arith b) => (b.defaultArgPromotion).map (fun b => .prim (.arith b))
  | t => some t

/-- The tail of `compatible_enumeration_types`, `ast/type/enum.c` 84-108, after the tests against the underlying
type. -/
def compatEnum (tag1 : Option String) (b1 : Option Enumerators) (tag2 : Option String) (b2 : Option Enumerators) :
    Option Bool :=
  andB (enumTags tag1 tag2)
    (match b1, b2 with
     | some l1, some l2 => andB (some (l1.length == l2.length)) (some (enumerators l1 l2))
     | _, _ => some true)

/-- The loop of `compatible_structure_types`, `ast/type/struct.c` 70-79; `c` compares member types. -/
def compatFields (c : Ty → Ty → Option Bool) : Fields → Fields → Option Bool
  | .cons n1 a1 w1 t1 r1, .cons n2 a2 w2 t2 r2 =>
    if n1 = n2 ∧ a1 = a2 then andB (widths w1 w2) (andB (c t1 t2) (compatFields c r1 r2)) else some false
  | _, _ => some true

/-- The inner loop of `compatible_union_types`, `ast/type/struct.c` 190-200: look for an unnamed member. -/
def findUnnamed (c : Ty → Ty → Option Bool) (w1 : Option Int) (t1 : Ty) : Fields → Option Bool
  | .nil => some false
  | .cons (some _) _ _ _ rest => findUnnamed c w1 t1 rest
  | .cons none _ w2 t2 rest => orB (andB (widths w1 w2) (c t1 t2)) (findUnnamed c w1 t1 rest)

/-- The loop of `compatible_union_types`, `ast/type/struct.c` 171-204.  A member with a name is looked up in
`type1`, the type it comes from (line 177), not in `type2`. -/
def compatMembers (c : Ty → Ty → Option Bool) (all1 all2 : Fields) : Fields → Option Bool
  | .nil => some true
  | .cons (some n) _ w1 t1 rest =>
    match all1.lookup n with
    | none => some false
    | some (w2, t2) => andB (widths w1 w2) (andB (c t1 t2) (compatMembers c all1 all2 rest))
  | .cons none _ w1 t1 rest => andB (findUnnamed c w1 t1 all2) (compatMembers c all1 all2 rest)

/-- The loop of `compatible_function_types`, `ast/type/function.c` 153-164. -/
def compatTypes (c : Ty → Ty → Option Bool) : TyList → TyList → Option Bool
  | .cons t1 _ r1, .cons t2 _ r2 => andB (c (unq (adjust t1)) (unq (adjust t2))) (compatTypes c r1 r2)
  | _, _ => some true

/-- `parameter_list_unaffected_by_promotions`, `ast/type/function.c` 125-136.  The comparison with a `NULL`
promoted type would be undefined; it does not happen (`C12_default_argument`). -/
def unaffected (c : Ty → Ty → Option Bool) : TyList → Option Bool
  | .nil => some true
  | .cons t _ rest =>
    match promotion (unq (adjust t)) with
    | none => none
    | some p => andB (c (unq (adjust t)) p) (unaffected c rest)

/-- The comparison of lengths, `ast/type/array.c` 57-64. -/
def compatBounds : Bound → Bound → Option Bool
  | .fixed _ m, .fixed _ n => some (m == n)
  | _, _ => some true

/-- The comparison of parameters, `ast/type/function.c` 147-175.  In the third branch the ellipsis of `type1` is
tested (line 170), not that of `type2`. -/
def compatParams (c : Ty → Ty → Option Bool) (p1 : Params) (e1 : Bool) (p2 : Params) (e2 : Bool) : Option Bool :=
  match p1, p2 with
  | .types p1, .types p2 =>
    if p1.length = p2.length ∧ e1 = e2 then compatTypes c p1 p2 else some false
  | .types p1, _ => if e1 then some false else unaffected c p1
  | _, .types p2 => if e1 then some false else unaffected c p2
  | _, _ => some true

/-- The `compatible` operation of a type: `compatible_basic_types` `ast/type/basic.c` 31-42,
`compatible_enumeration_types` `enum.c` 71-109, `compatible_pointer_types` `pointer.c` 32-38,
`compatbile_qualified_types` `qualified.c` 42-55, `compatbile_array_types` `array.c` 50-66,
`compatible_structure_types` `struct.c` 59-82, `compatible_union_types` `struct.c` 163-208,
`compatible_function_types` `function.c` 138-176.  `c` is the comparison of component types. -/
def compatOp (c : Ty → Ty → Option Bool) : Ty → Ty → Option Bool
  | .prim p, .enum _ b => some (p == .arith (underlying b))
  | .prim p, .prim p' => some (p == p')
  | .enum _ b, .prim p => some (p == .arith (underlying b))
  | .enum tag1 b1, .enum tag2 b2 => compatEnum tag1 b1 tag2 b2
  | .pointer a, .pointer b => c a b
  | .qualified q a, .qualified q' b => if q = q' then c a b else some false
  | .array m _ a, .array n _ b =>
    andB (c a b) (compatBounds m n)
  | .struct tag1 b1, .struct tag2 b2 =>
    if tag1 = tag2 then
      match b1, b2 with
      | .complete f1, .complete f2 => if f1.length = f2.length then compatFields c f1 f2 else some false
      | _, _ => some true
    else some false
  | .union tag1 b1, .union tag2 b2 =>
    if tag1 = tag2 then
      match b1, b2 with
      | .complete f1, .complete f2 => andB (compatMembers c f1 f2 f1) (some (f1.length == f2.length))
      | _, _ => some true
    else some false
  | .func r1 p1 e1, .func r2 p2 e2 =>
    andB (c (unq r1) (unq r2)) (compatParams c p1 e1 p2 e2)
  | _, _ => some false

/-- `KEFIR_AST_TYPE_COMPATIBLE`, `headers/kefir/ast/type.h` 104-106, to a depth of nesting `n`. -/
def compatN : Nat → Ty → Ty → Option Bool
  | 0, _, _ => none
  | n + 1, t1, t2 => orB (same t1 t2) (compatOp (compatN n) t1 t2)

mutual
/-- Depth of nesting of a type, to bound the recursion. -/
def Ty.depth : Ty → Nat
  | .prim _ => 0
  | .pointer t => t.depth + 1
  | .qualified _ t => t.depth + 1
  | .array _ _ t => t.depth + 1
  | .enum _ _ => 0
  | .struct _ b => b.depth + 1
  | .union _ b => b.depth + 1
  | .func r ps _ => max r.depth ps.depth + 1
def Body.depth : Body → Nat
  | .incomplete => 0
  | .complete fs => fs.depth
def Fields.depth : Fields → Nat
  | .nil => 0
  | .cons _ _ _ t rest => max t.depth rest.depth
def Params.depth : Params → Nat
  | .empty => 0
  | .ids _ => 0
  | .types ps => ps.depth
def TyList.depth : TyList → Nat
  | .nil => 0
  | .cons t _ rest => max (t.depth + 1) rest.depth
end

/-- `KEFIR_AST_TYPE_COMPATIBLE`, `headers/kefir/ast/type.h` 104-106. -/
def compat (t1 t2 : Ty) : Option Bool := compatN (max t1.depth t2.depth + 1) t1 t2

/-- Result of building a composite type. -/
inductive Comp
  /-- A type. -/
  | ok (t : Ty)
  /-- `NULL`. -/
  | null
  /-- Undefined behaviour. -/
  | ub

namespace Comp
/-- A constructor of types applied to the composite of a component: `NULL` arguments give `NULL`
(`pointer.c` 68, `array.c` 151, `qualified.c` 79, `function.c` 305). -/
def map (f : Ty → Ty) : Comp → Comp
  | ok t => ok (f t)
  | null => null
  | ub => ub
end Comp

/-- The loop over members of `composite_struct_types`, `ast/type/struct.c` 104-125.  The members of the result
have the name, alignment and width of the members of the first type. -/
def compositeFields (c : Ty → Ty → Comp) : Fields → Fields → Option (Option Fields)
  | .cons n1 a1 w1 t1 r1, .cons _ _ _ t2 r2 =>
    match c t1 t2 with
    | .ub => none
    | .null => some none
    | .ok t => match compositeFields c r1 r2 with
      | none => none
      | some none => some none
      | some (some rest) => some (some (.cons n1 a1 w1 t rest))
  | _, _ => some (some .nil)

/-- The search for an unnamed member of `composite_union_types`, `ast/type/struct.c` 239-250. -/
def findUnnamedType (cmp : Ty → Ty → Option Bool) (w1 : Option Int) (t1 : Ty) : Fields → Option (Option Ty)
  | .nil => some none
  | .cons (some _) _ _ _ rest => findUnnamedType cmp w1 t1 rest
  | .cons none _ w2 t2 rest =>
    match andB (widths w1 w2) (cmp t1 t2) with
    | none => none
    | some true => some (some t2)
    | some false => findUnnamedType cmp w1 t1 rest

/-- The loop of `composite_union_types`, `ast/type/struct.c` 227-273; members with a name are again looked up in the
first type (line 237). -/
def compositeMembers (cmp : Ty → Ty → Option Bool) (c : Ty → Ty → Comp) (all1 all2 : Fields) :
    Fields → Option (Option Fields)
  | .nil => some (some .nil)
  | .cons n1 a1 w1 t1 r1 =>
    match (match n1 with
      | some n => some ((all1.lookup n).map Prod.snd)
      | none => findUnnamedType cmp w1 t1 all2) with
    | none => none
    | some none => some none
    | some (some t2) =>
      match c t1 t2 with
      | .ub => none
      | .null => some none
      | .ok t => match compositeMembers cmp c all1 all2 r1 with
        | none => none
        | some none => some none
        | some (some rest) => some (some (.cons n1 a1 w1 t rest))

/-- The loop over parameters of `composite_function_types`, `ast/type/function.c` 197-210. -/
def compositeTypes (c : Ty → Ty → Comp) : TyList → TyList → Option (Option TyList)
  | .nil, _ => some (some .nil)
  | .cons _ _ _, .nil => some none
  | .cons t1 _ r1, .cons t2 _ r2 =>
    match c (unq (adjust t1)) (unq (adjust t2)) with
    | .ub => none
    | .null => some none
    | .ok t => match compositeTypes c r1 r2 with
      | none => none
      | some none => some none
      | some (some rest) => some (some (.cons t none rest))

/-- The length of the composite of two array types and its `static` flag, `ast/type/array.c` 78-127. -/
def compositeBound : Bound → Bound → Bound
  | .fixed _ n, _ => .fixed false n
  | _, .fixed _ n => .fixed false n
  | .vla _ l, _ => .vla false l
  | _, .vla _ l => .vla false l
  | .unbounded, .unbounded => .unbounded

/-- What a `composite` operation does once its types are known to be compatible: `composite_basic_types`
`ast/type/basic.c` 44-59, `composite_enum_types` `enum.c` 111-122, `composite_pointer_types` `pointer.c` 40-54,
`composite_qualified_types` `qualified.c` 57-73 (a composite of unqualified types is not a qualified type, so the
qualifiers are not merged), `composite_array_types` `array.c` 68-128, `composite_struct_types` `struct.c` 84-132,
`composite_union_types` `struct.c` 210-279, `composite_function_types` `function.c` 178-224 (lines 213-222 for
the functions without parameter type list; a list without parameters leaves the mode of a new function type at
`KEFIR_AST_FUNCTION_TYPE_PARAM_EMPTY`, line 316). -/
def compositeOp (c : Ty → Ty → Comp) : Ty → Ty → Comp
  | .prim _, .enum tag b => .ok (.enum tag b)
  | .prim p, _ => .ok (.prim p)
  | .enum tag b, _ => .ok (.enum tag b)
  | .pointer a, .pointer b => (c a b).map .pointer
  | .qualified q a, t2 => (c a (unq t2)).map (.qualified q)
  | .array m _ a, .array n _ b => (c a b).map (.array (compositeBound m n) none)
  | .struct tag (.complete f1), .struct _ (.complete f2) =>
    match compositeFields c f1 f2 with
    | none => .ub
    | some none => .null
    | some (some fs) => .ok (.struct tag (.complete fs))
  | .struct tag _, .struct _ _ => .ok (.struct tag .incomplete)
  | .union tag (.complete f1), .union _ (.complete f2) =>
    match compositeMembers compat c f1 f2 f1 with
    | none => .ub
    | some none => .null
    | some (some fs) => .ok (.union tag (.complete fs))
  | .union tag _, .union _ _ => .ok (.union tag .incomplete)
  | .func r1 (.types p1) e1, .func r2 (.types p2) _ =>
    match c r1 r2 with
    | .ub => .ub
    | .null => .null
    | .ok r =>
      match compositeTypes c p1 p2 with
      | none => .ub
      | some none => .null
      | some (some .nil) => .ok (.func r .empty e1)
      | some (some ps) => .ok (.func r (.types ps) e1)
  | .func r1 (.types p1) e1, .func _ _ _ => .ok (.func r1 (.types p1) e1)
  | .func _ _ _, .func r2 (.types p2) e2 => .ok (.func r2 (.types p2) e2)
  | .func r1 (.ids n) e1, .func _ _ _ => .ok (.func r1 (.ids n) e1)
  | .func _ _ _, .func r2 p2 e2 => .ok (.func r2 p2 e2)
  | _, _ => .null

/-- `KEFIR_AST_TYPE_COMPOSITE`, `headers/kefir/ast/type.h` 107-108, to a depth of nesting `n`: every `composite`
operation first requires compatibility (for example `ast/type/basic.c` 53). -/
def compositeN : Nat → Ty → Ty → Comp
  | 0, _, _ => .ub
  | n + 1, t1, t2 =>
    match compat t1 t2 with
    | none => .ub
    | some false => .null
    | some true => compositeOp (compositeN n) t1 t2

/-- `KEFIR_AST_TYPE_COMPOSITE`, `headers/kefir/ast/type.h` 107-108. -/
def composite (t1 t2 : Ty) : Comp := compositeN (max t1.depth t2.depth + 1) t1 t2

end Kefir.Compat
