import Verif.Compat.Model
import Verif.Types.Props

/-! Lemmas about the comparison of types. -/
namespace Kefir.Compat
open Kefir.Types (Basic)
open Spec

theorem leastConstant_nonneg : ∀ (l : Enumerators) (n : Int) (m : Option Int),
    (∀ k, leastConstant n m l = some k → 0 ≤ k) ↔ (∀ k, m = some k → 0 ≤ k) ∧ ∀ v ∈ enumValues n l, 0 ≤ v
  | [], n, m => by simp [leastConstant, enumValues]
  | (x, v) :: rest, n, m => by
    cases m <;> simp only [leastConstant, leastConstant_nonneg rest] <;> simp [enumValues, Int.le_min, and_assoc]

theorem leastConstant_some (n : Int) (m : Option Int) (e : String × Option Int) (rest : Enumerators) :
    ∃ k, leastConstant n m (e :: rest) = some k := by
  have h : ∀ (l : Enumerators) (n m : Int), ∃ k, leastConstant n (some m) l = some k := by
    intro l
    induction l with
    | nil => intro n m; exact ⟨m, rfl⟩
    | cons e l ih => intro n m; exact ih _ _
  exact h rest _ _

@[simp] theorem underlying_eq (b : Option Enumerators) : underlying b = enumType b := by
  rcases b with _ | _ | ⟨e, rest⟩
  · rfl
  · rfl
  · obtain ⟨k, hk⟩ := leastConstant_some 0 none e rest
    have h := leastConstant_nonneg (e :: rest) 0 none
    simp only [hk, Option.some.injEq, forall_eq', reduceCtorEq, false_implies, implies_true, true_and] at h
    unfold underlying enumType
    simp only [hk, h]

@[simp] theorem andB_true {a b : Option Bool} : andB a b = some true ↔ a = some true ∧ b = some true := by
  rcases a with _ | _ | _ <;> simp [andB]

@[simp] theorem orB_true {a b : Option Bool} :
    orB a b = some true ↔ a = some true ∨ a = some false ∧ b = some true := by
  rcases a with _ | _ | _ <;> simp [orB]

@[simp] theorem andB_none {a b : Option Bool} : andB a b = none ↔ a = none ∨ a = some true ∧ b = none := by
  rcases a with _ | _ | _ <;> simp [andB]

@[simp] theorem ite_false_true {c : Prop} [Decidable c] {a : Option Bool} :
    (if c then a else some false) = some true ↔ c ∧ a = some true := by
  by_cases h : c <;> simp [h]

@[simp] theorem ite_false_none {c : Prop} [Decidable c] {a : Option Bool} :
    (if c then a else some false) = none ↔ c ∧ a = none := by
  by_cases h : c <;> simp [h]

@[simp] theorem widths_true {a b : Option Int} : widths a b = some true ↔ a = b := by
  rcases a with _ | a <;> rcases b with _ | b <;> simp [widths]

theorem widths_none {a b : Option Int} (h : widths a b = none) : a ≠ b := by
  rcases a with _ | a <;> rcases b with _ | b <;> simp_all [widths]

@[simp] theorem enumTags_true {a b : Option String} : enumTags a b = some true ↔ a = b := by
  rcases a with _ | a <;> rcases b with _ | b <;> simp [enumTags]

theorem enumTags_none {a b : Option String} (h : enumTags a b = none) : a ≠ b := by
  rcases a with _ | a <;> rcases b with _ | b <;> simp_all [enumTags]

theorem enumerators_true : ∀ {a b : Enumerators}, a.length = b.length → (enumerators a b = true ↔ a = b)
  | [], [], _ => by simp [enumerators]
  | [], _ :: _, h => by simp at h
  | _ :: _, [], h => by simp at h
  | (n, v) :: a, (m, w) :: b, h => by
    have ih := enumerators_true (a := a) (b := b) (by simpa using h)
    simp [enumerators, ih, and_assoc]

/-- No type compares as `Types.prim`'s operation does unless equal. -/
theorem option_bool_cases (a : Option Bool) : a = none ∨ a = some true ∨ a = some false := by
  rcases a with _ | _ | _ <;> simp

/-! ### The class of types the comparison is exact on -/

/-- The types that turn into pointers in parameters. -/
def Ty.decays : Ty → Bool
  | .array _ _ _ => true
  | .func _ _ _ => true
  | .prim .vaList => true
  | _ => false

/-- A qualified type. -/
def Ty.isQualified : Ty → Bool
  | .qualified _ _ => true
  | _ => false

/-- Parameters of the class below. -/
structure Class where
  /-- All functions have prototypes.  Otherwise no function has an ellipsis. -/
  proto : Bool
  /-- Functions return unqualified types. -/
  strict : Bool

/-- Either the function has a prototype, or it has no ellipsis; no function has an old-style identifier list.
A prototype has at least one parameter (`(void)` counts as one parameter of type `void`,
`kefir_ast_type_function_parameter`, `ast/type/function.c` 60-66). -/
def FuncOk (v : Class) (ret : Ty) (ps : Params) (ellipsis : Bool) : Prop :=
  (v.strict = true → ret.isQualified = false) ∧
  match ps with
  | .types .nil => False
  | .types (.cons _ _ _) => v.proto = false → ellipsis = false
  | .ids _ => False
  | .empty => v.proto = false ∧ ellipsis = false

mutual
/-- No union, and no qualified array, function or `va_list` type, occurs in the type, and all function types in it satisfy
`FuncOk`.  (`kefir_ast_type_qualified`, `ast/type/qualified.c` 93-99, merges the qualifiers of a qualified base type,
so that the base of a qualified type is never qualified.) -/
def Plain (v : Class) : Ty → Prop
  | .prim _ => True
  | .pointer t => Plain v t
  | .qualified _ t => (t.decays = false ∧ t.isQualified = false) ∧ Plain v t
  | .array _ _ t => Plain v t
  | .enum _ _ => True
  | .struct _ b => PlainBody v b
  | .union _ _ => False
  | .func r ps e => Plain v r ∧ PlainParams v ps ∧ FuncOk v r ps e
def PlainBody (v : Class) : Body → Prop
  | .incomplete => True
  | .complete fs => PlainFields v fs
def PlainFields (v : Class) : Fields → Prop
  | .nil => True
  | .cons _ _ _ t rest => Plain v t ∧ PlainFields v rest
def PlainParams (v : Class) : Params → Prop
  | .empty => True
  | .ids _ => True
  | .types ps => PlainTypes v ps
def PlainTypes (v : Class) : TyList → Prop
  | .nil => True
  | .cons t _ rest => Plain v t ∧ PlainTypes v rest
end

theorem unq_eq (t : Ty) : unq t = unqualified t := by cases t <;> rfl

theorem unq_adjust {v : Class} {t : Ty} (h : Plain v t) : unq (adjust t) = paramType t := by
  match t, h with
  | .prim .void, _ => rfl
  | .prim .vaList, _ => rfl
  | .prim (.arith _), _ => rfl
  | .pointer _, _ => rfl
  | .array _ none _, _ => rfl
  | .array _ (some _) _, _ => rfl
  | .enum _ _, _ => rfl
  | .struct _ _, _ => rfl
  | .func _ _ _, _ => rfl
  | .qualified _ t, h =>
    rw [Plain] at h
    cases t <;> first | rfl | simp [Ty.decays] at h

theorem Plain.unqualified {v : Class} {t : Ty} (h : Plain v t) : Plain v (unqualified t) := by
  cases t <;> first | exact h | (rw [Plain] at h; exact h.2)

theorem depth_unqualified (t : Ty) : (unqualified t).depth ≤ t.depth := by
  cases t <;> simp [unqualified, Ty.depth]

theorem Plain.paramType {v : Class} {t : Ty} (h : Plain v t) : Plain v (paramType t) := by
  match t, h with
  | .prim .void, h => exact h
  | .prim .vaList, h => simp [Spec.paramType, Plain]
  | .prim (.arith _), h => exact h
  | .pointer _, h => exact h
  | .array _ _ _, h => simpa [Spec.paramType, Plain] using h
  | .enum _ _, h => exact h
  | .struct _ _, h => exact h
  | .func _ _ _, h => simpa [Spec.paramType, Plain] using h
  | .qualified _ t, h =>
    rw [Plain] at h
    cases t <;> first | exact h.2 | simp [Ty.decays] at h

theorem depth_paramType {v : Class} {t : Ty} (h : Plain v t) : (paramType t).depth ≤ t.depth + 1 := by
  match t, h with
  | .prim .void, h => simp [Spec.paramType]
  | .prim .vaList, h => simp [Spec.paramType, Ty.depth]
  | .prim (.arith _), h => simp [Spec.paramType]
  | .pointer _, h => simp [Spec.paramType]
  | .array _ _ _, h => simp [Spec.paramType, Ty.depth]
  | .enum _ _, h => simp [Spec.paramType]
  | .struct _ _, h => simp [Spec.paramType]
  | .func _ _ _, h => simp [Spec.paramType, Ty.depth]
  | .qualified _ t, h =>
    rw [Plain] at h
    cases t <;> simp [Ty.decays, Spec.paramType, Ty.depth] at h ⊢ <;> omega

/-- Compatible parameters stay compatible when their types are adjusted. -/
theorem Spec.Compatible.paramType {v : Class} {a b : Ty} (h : Compatible a b) (ha : Plain v a) (hb : Plain v b) :
    Compatible (paramType a) (paramType b) := by
  cases h with
  | prim p => cases p <;> first | exact .prim _ | exact .pointer (.prim _)
  | enumInt => exact .enumInt
  | intEnum => exact .intEnum
  | enum h => exact .enum h
  | pointer h => exact .pointer h
  | @qualified a b q h =>
    rw [Plain] at ha hb
    have e1 : Spec.paramType (.qualified q a) = a := by cases a <;> first | rfl | simp [Ty.decays] at ha
    have e2 : Spec.paramType (.qualified q b) = b := by cases b <;> first | rfl | simp [Ty.decays] at hb
    rw [e1, e2]; exact h
  | array h _ => exact .pointer h
  | struct h => exact .struct h
  | union h => exact .union h
  | func h1 h2 => exact .pointer (.func h1 h2)

/-- Unqualified versions of compatible types are compatible. -/
theorem Spec.Compatible.unqualified {a b : Ty} (hr : Compatible a b) : Compatible (unqualified a) (unqualified b) := by
  cases hr with
  | qualified h => exact h
  | prim p => exact .prim p
  | enumInt => exact .enumInt
  | intEnum => exact .intEnum
  | enum h => exact .enum h
  | pointer h => exact .pointer h
  | array h h' => exact .array h h'
  | struct h => exact .struct h
  | union h => exact .union h
  | func h h' => exact .func h h'

/-! ### `same` implies compatible -/

mutual
theorem same_sound (v : Class) : ∀ (t1 t2 : Ty), Plain v t1 → Plain v t2 → same t1 t2 = some true → Compatible t1 t2
  | .prim p, t2, _, _, h => by
    cases t2 <;> simp [same] at h
    subst h; exact .prim _
  | .pointer a, t2, h1, h2, h => by
    cases t2 <;> simp [same] at h
    rw [Plain] at h1 h2
    exact .pointer (same_sound v _ _ h1 h2 h)
  | .qualified q a, t2, h1, h2, h => by
    cases t2 <;> simp [same] at h
    rw [Plain] at h1 h2
    rw [h.1]
    exact .qualified (same_sound v _ _ h1.2 h2.2 h.2)
  | .array m _ a, t2, h1, h2, h => by
    cases t2 <;> simp [same] at h
    rw [Plain] at h1 h2
    refine .array (same_sound v _ _ h1 h2 h.2) ?_
    rw [← h.1]; cases m <;> simp [BoundsAgree]
  | .enum tag b1, t2, _, _, h => by
    rcases t2 with _ | _ | _ | _ | ⟨tag2, b2⟩ | _ | _ | _ <;> simp [same] at h
    rcases b1 with _ | b1 <;> rcases b2 with _ | b2 <;> simp at h
    · subst h; exact .enum trivial
    · obtain ⟨rfl, hl, he⟩ := h
      exact .enum ((enumerators_true hl).1 he)
  | .struct tag b1, t2, h1, h2, h => by
    rcases t2 with _ | _ | _ | _ | _ | ⟨tag2, b2⟩ | _ | _ <;> simp [same] at h
    rw [Plain] at h1 h2
    obtain ⟨rfl, hb⟩ := same_body_sound v _ _ _ _ h1 h2 h
    exact .struct hb
  | .union _ _, _, h1, _, _ => by simp [Plain] at h1
  | .func r1 p1 e1, t2, h1, h2, h => by
    rcases t2 with _ | _ | _ | _ | _ | _ | _ | ⟨r2, p2, e2⟩ <;> simp [same] at h
    rw [Plain] at h1 h2
    have hr := same_sound v _ _ h1.1 h2.1 h.1
    exact .func hr.unqualified (same_params_sound v _ _ _ _ h1.2.1 h2.2.1 h.2)
theorem same_body_sound (v : Class) (tag1 tag2 : Option String) : ∀ (b1 b2 : Body), PlainBody v b1 → PlainBody v b2 →
    sameBody tag1 tag2 b1 b2 = some true → tag1 = tag2 ∧ BodiesAgree b1 b2
  | .incomplete, b2, _, _, h => by
    cases b2 <;> simp [sameBody] at h
    exact ⟨h, .left⟩
  | .complete f1, b2, h1, h2, h => by
    cases b2 <;> simp [sameBody] at h
    rw [PlainBody] at h1 h2
    exact ⟨h.1.1, .complete (same_fields_sound v _ _ h1 h2 h.1.2 h.2)⟩
theorem same_fields_sound (v : Class) : ∀ (f1 f2 : Fields), PlainFields v f1 → PlainFields v f2 →
    f1.length = f2.length → sameFields f1 f2 = some true → FieldsAgree f1 f2
  | .nil, f2, _, _, hl, _ => by
    cases f2 <;> simp [Fields.length] at hl
    exact .nil
  | .cons n a w t rest, f2, h1, h2, hl, h => by
    cases f2 <;> simp [Fields.length] at hl
    simp [sameFields] at h
    rw [PlainFields] at h1 h2
    obtain ⟨⟨rfl, rfl⟩, rfl, ht, hr⟩ := h
    exact .cons (same_sound v _ _ h1.1 h2.1 ht) (same_fields_sound v _ _ h1.2 h2.2 hl hr)
theorem same_params_sound (v : Class) : ∀ (p1 p2 : Params) (e1 e2 : Bool), PlainParams v p1 → PlainParams v p2 →
    sameParams p1 p2 (some (e1 == e2)) = some true → ParamsAgree p1 e1 p2 e2
  | .empty, p2, e1, e2, _, _, h => by
    cases p2 <;> simp [sameParams] at h
    exact .emptyEmpty
  | .ids n, p2, e1, e2, _, _, h => by
    cases p2 <;> simp [sameParams] at h
    exact .idsIds
  | .types p1, p2, e1, e2, h1, h2, h => by
    cases p2 <;> simp [sameParams] at h
    rw [PlainParams] at h1 h2
    obtain ⟨hl, hp, rfl⟩ := h
    exact .types (same_types_sound v _ _ h1 h2 hl hp)
theorem same_types_sound (v : Class) : ∀ (p1 p2 : TyList), PlainTypes v p1 → PlainTypes v p2 →
    p1.length = p2.length → sameTypes p1 p2 = some true → TypesAgree p1 p2
  | .nil, p2, _, _, hl, _ => by
    cases p2 <;> simp [TyList.length] at hl
    exact .nil
  | .cons t s rest, p2, h1, h2, hl, h => by
    cases p2 <;> simp [TyList.length] at hl
    simp [sameTypes] at h
    rw [PlainTypes] at h1 h2
    exact .cons ((same_sound v _ _ h1.1 h2.1 h.1).paramType h1.1 h2.1) (same_types_sound v _ _ h1.2 h2.2 hl h.2.2)
end

/-! ### Undefined behaviour in `same` only arises for incompatible types -/

mutual
theorem same_none (v : Class) : ∀ (t1 t2 : Ty), Plain v t1 → Plain v t2 → same t1 t2 = none →
    ¬ Compatible t1 t2 ∧ ¬ Compatible (unqualified t1) (unqualified t2) ∧ ¬ Compatible (paramType t1) (paramType t2)
  | .prim p, t2, _, _, h => by
    cases t2 <;> simp [same] at h
  | .pointer a, t2, h1, h2, h => by
    cases t2 <;> simp [same] at h
    rw [Plain] at h1 h2
    have ih := same_none v _ _ h1 h2 h
    have key : ¬ Compatible (.pointer a) (.pointer _) := fun hc => by cases hc with | pointer h => exact ih.1 h
    exact ⟨key, key, key⟩
  | .qualified q a, t2, h1, h2, h => by
    rcases t2 with _ | _ | ⟨q2, b⟩ | _ | _ | _ | _ | _ <;> simp [same] at h
    rw [Plain] at h1 h2
    have ih := same_none v _ _ h1.2 h2.2 h.2
    have e1 : Spec.paramType (.qualified q a) = a := by cases a <;> first | rfl | simp [Ty.decays] at h1
    have e2 : Spec.paramType (.qualified q2 b) = b := by cases b <;> first | rfl | simp [Ty.decays] at h2
    refine ⟨fun hc => ?_, ih.1, ?_⟩
    · cases hc with | qualified h => exact ih.1 h
    · rw [e1, e2]; exact ih.1
  | .array m _ a, t2, h1, h2, h => by
    cases t2 <;> simp [same] at h
    rw [Plain] at h1 h2
    have ih := same_none v _ _ h1 h2 h.2
    have key : ∀ q q' n, ¬ Compatible (.array m q a) (.array n q' _) :=
      fun _ _ _ hc => by cases hc with | array h _ => exact ih.1 h
    exact ⟨key _ _ _, key _ _ _, fun hc => by cases hc with | pointer h => exact ih.1 h⟩
  | .enum tag b1, t2, _, _, h => by
    rcases t2 with _ | _ | _ | _ | ⟨tag2, b2⟩ | _ | _ | _ <;> simp [same] at h
    have ht : tag ≠ tag2 := by
      rcases b1 with _ | b1 <;> rcases b2 with _ | b2 <;> simp at h
      · exact enumTags_none h
      · exact enumTags_none h
    have key : ¬ Compatible (.enum tag b1) (.enum tag2 b2) := fun hc => by cases hc with | enum _ => exact ht rfl
    exact ⟨key, key, key⟩
  | .struct tag b1, t2, h1, h2, h => by
    rcases t2 with _ | _ | _ | _ | _ | ⟨tag2, b2⟩ | _ | _ <;> simp [same] at h
    rw [Plain] at h1 h2
    have key : ¬ Compatible (.struct tag b1) (.struct tag2 b2) := fun hc => by
      cases hc with | struct hb => exact same_body_none v _ _ _ _ h1 h2 h hb
    exact ⟨key, key, key⟩
  | .union _ _, _, h1, _, _ => by simp [Plain] at h1
  | .func r1 p1 e1, t2, h1, h2, h => by
    rcases t2 with _ | _ | _ | _ | _ | _ | _ | ⟨r2, p2, e2⟩ <;> simp [same] at h
    rw [Plain] at h1 h2
    have key : ¬ Compatible (.func r1 p1 e1) (.func r2 p2 e2) := fun hc => by
      cases hc with
      | func hr hp =>
        rcases h with h | h
        · exact (same_none v _ _ h1.1 h2.1 h).2.1 hr
        · exact same_params_none v _ _ _ _ h1.2.1 h2.2.1 h.2 hp
    exact ⟨key, key, fun hc => by cases hc with | pointer h => exact key h⟩
theorem same_body_none (v : Class) (tag1 tag2 : Option String) : ∀ (b1 b2 : Body), PlainBody v b1 → PlainBody v b2 →
    sameBody tag1 tag2 b1 b2 = none → ¬ BodiesAgree b1 b2
  | .incomplete, b2, _, _, h => by
    cases b2 <;> simp [sameBody] at h
  | .complete f1, b2, h1, h2, h => by
    cases b2 <;> simp [sameBody] at h
    rw [PlainBody] at h1 h2
    intro hb
    cases hb with | complete hf => exact same_fields_none v _ _ h1 h2 h.2 hf
theorem same_fields_none (v : Class) : ∀ (f1 f2 : Fields), PlainFields v f1 → PlainFields v f2 →
    sameFields f1 f2 = none → ¬ FieldsAgree f1 f2
  | .nil, f2, _, _, h => by simp [sameFields] at h
  | .cons n a w t rest, f2, h1, h2, h => by
    cases f2 <;> simp [sameFields] at h
    rw [PlainFields] at h1 h2
    intro hf
    cases hf with
    | cons hc hr =>
      rcases h.2 with h | ⟨_, h | ⟨_, h⟩⟩
      · exact widths_none h rfl
      · exact (same_none v _ _ h1.1 h2.1 h).1 hc
      · exact same_fields_none v _ _ h1.2 h2.2 h hr
theorem same_params_none (v : Class) : ∀ (p1 p2 : Params) (e1 e2 : Bool), PlainParams v p1 → PlainParams v p2 →
    sameParams p1 p2 (some (e1 == e2)) = none → ¬ ParamsAgree p1 e1 p2 e2
  | .empty, p2, e1, e2, _, _, h => by
    cases p2 <;> simp [sameParams] at h
  | .ids n, p2, e1, e2, _, _, h => by
    cases p2 <;> simp [sameParams] at h
  | .types p1, p2, e1, e2, h1, h2, h => by
    cases p2 <;> simp [sameParams] at h
    rw [PlainParams] at h1 h2
    intro hp
    cases hp with | types hp => exact same_types_none v _ _ h1 h2 h.2 hp
theorem same_types_none (v : Class) : ∀ (p1 p2 : TyList), PlainTypes v p1 → PlainTypes v p2 →
    sameTypes p1 p2 = none → ¬ TypesAgree p1 p2
  | .nil, p2, _, _, h => by simp [sameTypes] at h
  | .cons t s rest, p2, h1, h2, h => by
    cases p2 <;> simp [sameTypes] at h
    rw [PlainTypes] at h1 h2
    intro hp
    cases hp with
    | cons hc hr =>
      rcases h with h | ⟨_, h⟩
      · exact (same_none v _ _ h1.1 h2.1 h).2.2 hc
      · exact same_types_none v _ _ h1.2 h2.2 h.2 hr
end

end Kefir.Compat
