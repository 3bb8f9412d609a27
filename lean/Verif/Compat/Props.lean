import Verif.Compat.Safe

/-! C35, C61, C62: comparison of types and composite types. -/
namespace Kefir.Compat
open Kefir.Types (Basic)
open Spec

/-! ### C35: reflexive, symmetric, composite -/

/-- C35: every type is compatible with itself.  (Members of one union have different names.) -/
theorem C35_reflexive (t : Ty) (h : Distinct t) : compat t t = some true := by
  rw [compat, compatN, same_self t h]; rfl

/-- C35, part: compatibility does not depend on the order of the types, for plain types.  Missing: unions, functions
without prototype where functions with an ellipsis also occur, old-style definitions, and qualified array types; it
is false for those, see below. -/
theorem C35_symmetric_partial (v : Class) (a b : Ty) (ha : Plain v a) (hb : Plain v b) :
    compat a b = some true ↔ compat b a = some true := by
  rw [compat_iff ha hb, compat_iff hb ha]
  exact ⟨fun h => compatible_symm v h ha hb, fun h => compatible_symm v h hb ha⟩

/-- C35, part: two compatible plain types whose functions return unqualified types have a composite type, and it is
compatible with each of them.  Missing: as above, and functions that return qualified types. -/
theorem C35_composite_partial (v : Class) (hs : v.strict = true) (a b : Ty) (ha : Plain v a) (hb : Plain v b)
    (h : compat a b = some true) :
    ∃ t, composite a b = .ok t ∧ compat t a = some true ∧ compat t b = some true := by
  obtain ⟨t, ht, hp, h1, h2⟩ := compositeN_ok hs (max a.depth b.depth + 1) a b ha hb (by omega) (by omega) ((compat_iff ha hb).1 h)
  exact ⟨t, ht, (compat_iff hp ha).2 h1, (compat_iff hp hb).2 h2⟩

/-- C35, part: types that are not compatible have no composite type. -/
theorem C35_composite_none (a b : Ty) (h : compat a b = some false) : composite a b = .null := by
  rw [composite, compositeN, h]

/-- C17 6.2.7p3: the composite of array types has a known constant size if one of them has. -/
theorem C35_composite_array_size (m n : Bound) (q q' : Option Qual) (a b t : Ty)
    (h : composite (.array m q a) (.array n q' b) = .ok t) :
    ∃ k e, t = .array k none e ∧
      ((∃ s x, m = .fixed s x) ∨ (∃ s x, n = .fixed s x) → ∃ s x, k = .fixed s x) ∧
      (∀ s x, m = .fixed s x → k = .fixed false x) ∧
      (∀ s x, n = .fixed s x → k = .fixed false x) := by
  rw [composite, compositeN] at h
  split at h
  · cases h
  · cases h
  · next hc =>
    rw [compositeOp] at h
    generalize hk : compositeN _ a b = r at h
    cases r with
    | null => cases h
    | ub => cases h
    | ok e =>
      cases h
      have hb : compatBounds m n = some true := by
        rw [compat, compatN, orB_true] at hc
        rcases hc with hc | ⟨_, hc⟩
        · simp only [same, ite_false_true] at hc
          rw [hc.1]; cases n <;> simp [compatBounds]
        · simp only [compatOp, andB_true] at hc
          exact hc.2
      refine ⟨_, _, rfl, ?_, ?_, ?_⟩
      · rintro (⟨s, x, rfl⟩ | ⟨s, x, rfl⟩)
        · exact ⟨_, _, rfl⟩
        · cases m <;> exact ⟨_, _, rfl⟩
      · rintro s x rfl; rfl
      · rintro s x rfl
        cases m <;> simp_all [compatBounds, compositeBound]

/-- C17 6.2.7p3: if only one of two function types has a parameter type list, the composite has that list. -/
theorem C35_composite_prototype (r1 r2 t : Ty) (ps : TyList) (e1 e2 : Bool) :
    (composite (.func r1 (.types ps) e1) (.func r2 .empty e2) = .ok t → t = .func r1 (.types ps) e1) ∧
    (composite (.func r1 .empty e1) (.func r2 (.types ps) e2) = .ok t → t = .func r2 (.types ps) e2) := by
  constructor
  · intro h
    rw [composite, compositeN] at h
    split at h
    · cases h
    · cases h
    · cases h; rfl
  · intro h
    rw [composite, compositeN] at h
    split at h
    · cases h
    · cases h
    · cases h; rfl

/-! ### C61: the comparison agrees with the standard and is always defined -/

/-- C61, part: on plain types the compiler calls two types compatible exactly when the standard does.  Missing:
see `C35_symmetric_partial`. -/
theorem C61_exact_partial (v : Class) (a b : Ty) (ha : Plain v a) (hb : Plain v b) :
    compat a b = some true ↔ Compatible a b := compat_iff ha hb

/-- C62, part: comparing types in which every enumeration has a tag and no member is a bit-field never has undefined
behaviour.  Missing: enumerations without a tag and bit-fields, see below. -/
theorem C62_defined_partial (a b : Ty) (ha : Tagged a) (hb : Tagged b) : compat a b ≠ none :=
  compatN_ne_none _ a b ha hb (by omega) (by omega)

/-! ### Concrete cases that satisfy the hypotheses -/

/-- A function type `int (*)(struct S *, const char [], double)` and one that is compatible with it, with an
enumeration for the result and array sizes. -/
def demoS : Ty := .struct (some "S") (.complete
  (.cons (some "next") 0 none (.pointer (.struct (some "S") .incomplete))
    (.cons (some "bits") 0 (some 3) (.arith .uint) .nil)))
def demoA : Ty := .func .int (.types (.cons (.pointer demoS) none
  (.cons (.array .unbounded (some .c) (.qualified .c (.arith .char))) none (.cons (.qualified .v (.arith .double)) none .nil)))) true
def demoB : Ty := .func (.enum (some "E") (some [("X", some (-1)), ("Y", none)])) (.types (.cons (.pointer (.struct (some "S") .incomplete)) none
  (.cons (.array (.fixed true 4) none (.qualified .c (.arith .char))) none (.cons (.arith .double) none .nil)))) true

example : Plain ⟨true, true⟩ demoA ∧ Plain ⟨true, true⟩ demoB ∧ compat demoA demoB = some true ∧
    same demoA demoB = some false := by
  refine ⟨?_, ?_, by decide +kernel, by decide +kernel⟩ <;>
    simp [demoA, demoB, demoS, Plain, PlainParams, PlainTypes, PlainBody, PlainFields, Ty.decays, Ty.isQualified, FuncOk]

example : Plain ⟨false, true⟩ (.func .int .empty false) ∧
    Plain ⟨false, true⟩ (.func .int (.types (.cons .int none .nil)) false) ∧
    compat (.func .int .empty false) (.func .int (.types (.cons .int none .nil)) false) = some true ∧
    compat (.func .int .empty false) (.func .int (.types (.cons (.arith .char) none .nil)) false) = some false := by
  refine ⟨?_, ?_, by decide +kernel, by decide +kernel⟩ <;>
    simp [Plain, PlainParams, PlainTypes, Ty.isQualified, FuncOk]

/-- `union U { int a; char b; }` -/
def demoU : Ty := .union (some "U") (.complete
  (.cons (some "a") 0 none .int (.cons (some "b") 0 none (.arith .char) .nil)))

example : Distinct demoU ∧ compat demoU demoU = some true ∧ Tagged demoU := by
  refine ⟨?_, by decide +kernel, ?_⟩ <;>
    simp [demoU, Distinct, DistinctBody, DistinctFields, Fields.distinct, Fields.hasName, Tagged, TaggedBody, TaggedFields]

example : compat (.array (.fixed false 3) none .int) (.array .unbounded none .int) = some true ∧
    compat (.array (.fixed false 3) none .int) (.array (.fixed false 4) none .int) = some false := by
  constructor <;> decide +kernel

/-! ### Findings: what the properties are false of -/

/-- `int f()` and `int f(int, ...)`: the standard says they are not compatible, the compiler says so only if the
second is on the left (`ast/type/function.c` 170 tests the ellipsis of the wrong type). -/
theorem C35_ellipsis_false :
    let f := Ty.func .int .empty false
    let g := Ty.func .int (.types (.cons .int none .nil)) true
    compat f g = some true ∧ compat g f = some false ∧ ¬ Compatible f g := by
  refine ⟨by decide +kernel, by decide +kernel, ?_⟩
  intro h
  cases h with | func _ h => cases h

theorem take_single {n n' : Option String} {a a' : Nat} {w w' : Option Int} {t t' : Ty} {rest : Fields}
    (h : Take (.cons n' a' w' t' .nil) n a w t rest) : n = n' := by
  cases h with
  | head => rfl
  | tail h => cases h

/-- `union U { int x; }` and `union U { char *y; }` of two scopes are called compatible: the names of the
members of the first are looked up in the first (`ast/type/struct.c` 177). -/
theorem C61_union_false :
    let u := Ty.union (some "U") (.complete (.cons (some "x") 0 none .int .nil))
    let w := Ty.union (some "U") (.complete (.cons (some "y") 0 none (.pointer (.arith .char)) .nil))
    compat u w = some true ∧ ¬ Compatible u w := by
  refine ⟨by decide +kernel, ?_⟩
  intro h
  cases h with
  | union h => cases h with
    | complete h => cases h with
      | cons ht _ _ => exact absurd (take_single ht) (by decide)

/-- Unions with an unnamed member on one side only are compatible in one order only. -/
theorem C35_union_false :
    let s := Ty.struct none (.complete (.cons (some "z") 0 none .int .nil))
    let u := Ty.union (some "U") (.complete (.cons none 0 none s .nil))
    let w := Ty.union (some "U") (.complete (.cons (some "y") 0 none .int .nil))
    compat u w = some false ∧ compat w u = some true := by
  constructor <;> decide +kernel

/-- Comparing an enumeration without a tag with one that has a tag passes `NULL` to `strcmp`
(`ast/type/enum.c` 45-47). -/
theorem C62_enum_tag_false :
    compat (.enum none (some [("A", none)])) (.enum (some "E") (some [("B", none)])) = none ∧
    ¬ Compatible (.enum none (some [("A", none)])) (.enum (some "E") (some [("B", none)])) := by
  refine ⟨by decide +kernel, ?_⟩
  intro h; cases h

/-- Comparing `struct S { int a; }` with `struct S { int a : 3; }` reads the width of the member that has none
(`ast/type/struct.c` 50-52). -/
theorem C62_bit_field_false :
    let s := Ty.struct (some "S") (.complete (.cons (some "a") 0 none .int .nil))
    let t := Ty.struct (some "S") (.complete (.cons (some "a") 0 (some 3) .int .nil))
    compat s t = none ∧ compat t s = none ∧ ¬ Compatible s t := by
  refine ⟨by decide +kernel, by decide +kernel, ?_⟩
  intro h
  cases h with | struct h => cases h with | complete h => cases h

/-- `const int f(int)` and `int f(int)` are compatible, but have no composite type: the composite of the qualified
return types is asked for (`ast/type/function.c` 188-190). -/
theorem C35_composite_return_false :
    let f := Ty.func (.qualified .c .int) (.types (.cons .int none .nil)) false
    let g := Ty.func .int (.types (.cons .int none .nil)) false
    compat f g = some true ∧ composite f g = .null := by
  exact ⟨by decide +kernel, by rfl⟩

/-- The composite of a complete structure type and the incomplete one of the same tag is incomplete
(`ast/type/struct.c` 127-130). -/
theorem C35_composite_incomplete_false :
    let s := Ty.struct (some "S") (.complete (.cons (some "a") 0 none .int .nil))
    composite s (.struct (some "S") .incomplete) = .ok (.struct (some "S") .incomplete) := by
  rfl

/-- `typedef int A[3]; int f(const A);` and `int f(const int *);` are compatible, the compiler says they are not: a
qualified array type is not adjusted (`ast/type_conv.c` 202-230). -/
theorem C61_qualified_array_false :
    let f := Ty.func .int (.types (.cons (.qualified .c (.array (.fixed false 3) none .int)) none .nil)) false
    let g := Ty.func .int (.types (.cons (.pointer (.qualified .c .int)) none .nil)) false
    compat f g = some false ∧ Compatible f g := by
  refine ⟨by decide +kernel, ?_⟩
  exact .func (.prim _) (.types (.cons (.pointer (.qualified (.prim _))) .nil))

/-- The old-style definition `int f(a, b)` is called compatible with `int f(int)`. -/
theorem C61_old_style_false :
    let f := Ty.func .int (.ids 2) false
    let g := Ty.func .int (.types (.cons .int none .nil)) false
    compat f g = some true ∧ ¬ Compatible f g := by
  refine ⟨by decide +kernel, ?_⟩
  intro h
  cases h with
  | func _ h => cases h with | idsTypes _ h => simp [TyList.length] at h

end Kefir.Compat
