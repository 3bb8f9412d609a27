import Verif.Compat.Lemmas

/-! The comparison of types decides the relation of the standard, on plain types. -/
namespace Kefir.Compat
open Kefir.Types (Basic)
open Spec

theorem Spec.FieldsAgree.length : ∀ {f1 f2 : Fields}, FieldsAgree f1 f2 → f1.length = f2.length
  | _, _, .nil => rfl
  | _, _, .cons _ h => by simp [Fields.length, h.length]

theorem Spec.TypesAgree.length : ∀ {p1 p2 : TyList}, TypesAgree p1 p2 → p1.length = p2.length
  | _, _, .nil => rfl
  | _, _, .cons _ h => by simp [TyList.length, h.length]

/-- A comparison that is right on plain types of depth below `n`. -/
def RightBelow (v : Class) (n : Nat) (c : Ty → Ty → Option Bool) : Prop :=
  ∀ a b, Plain v a → Plain v b → a.depth < n → b.depth < n → (c a b = some true ↔ Compatible a b)

theorem compatFields_iff {v : Class} {n : Nat} {c : Ty → Ty → Option Bool} (hc : RightBelow v n c) :
    ∀ (f1 f2 : Fields), PlainFields v f1 → PlainFields v f2 → f1.depth < n → f2.depth < n → f1.length = f2.length →
      (compatFields c f1 f2 = some true ↔ FieldsAgree f1 f2)
  | .nil, .nil, _, _, _, _, _ => by simpa [compatFields] using Spec.FieldsAgree.nil
  | .nil, .cons .., _, _, _, _, hl => by simp [Fields.length] at hl
  | .cons .., .nil, _, _, _, _, hl => by simp [Fields.length] at hl
  | .cons n1 a1 w1 t1 r1, .cons n2 a2 w2 t2 r2, h1, h2, hd1, hd2, hl => by
    simp only [Fields.length, Nat.add_right_cancel_iff] at hl
    rw [Fields.depth] at hd1 hd2
    rw [PlainFields] at h1 h2
    have ih := compatFields_iff hc r1 r2 h1.2 h2.2 (by omega) (by omega) hl
    have ht := hc t1 t2 h1.1 h2.1 (by omega) (by omega)
    simp only [compatFields, ite_false_true, andB_true, widths_true, ih, ht]
    constructor
    · rintro ⟨⟨rfl, rfl⟩, rfl, h, h'⟩; exact .cons h h'
    · intro h
      cases h with | cons h h' => exact ⟨⟨rfl, rfl⟩, rfl, h, h'⟩

theorem compatTypes_iff {v : Class} {n : Nat} {c : Ty → Ty → Option Bool} (hc : RightBelow v n c) :
    ∀ (p1 p2 : TyList), PlainTypes v p1 → PlainTypes v p2 → p1.depth < n → p2.depth < n → p1.length = p2.length →
      (compatTypes c p1 p2 = some true ↔ TypesAgree p1 p2)
  | .nil, .nil, _, _, _, _, _ => by simpa [compatTypes] using Spec.TypesAgree.nil
  | .nil, .cons .., _, _, _, _, hl => by simp [TyList.length] at hl
  | .cons .., .nil, _, _, _, _, hl => by simp [TyList.length] at hl
  | .cons t1 s1 r1, .cons t2 s2 r2, h1, h2, hd1, hd2, hl => by
    simp only [TyList.length, Nat.add_right_cancel_iff] at hl
    rw [TyList.depth] at hd1 hd2
    rw [PlainTypes] at h1 h2
    have ih := compatTypes_iff hc r1 r2 h1.2 h2.2 (by omega) (by omega) hl
    have d1 := depth_paramType h1.1
    have d2 := depth_paramType h2.1
    have ht := hc _ _ h1.1.paramType h2.1.paramType (by omega) (by omega)
    simp only [compatTypes, andB_true, ih, unq_adjust h1.1, unq_adjust h2.1, ht]
    constructor
    · rintro ⟨h, h'⟩; exact .cons h h'
    · intro h
      cases h with | cons h h' => exact ⟨h, h'⟩

/-- The promoted type of the compiler is as good as that of the standard to compare with. -/
theorem promotion_spec {v : Class} (t : Ty) (h : Plain v t) :
    ∃ p, promotion t = some p ∧ Plain v p ∧ p.depth ≤ t.depth ∧
      (Compatible t p ↔ Compatible t (promoteArg t)) := by
  match t, h with
  | .prim .void, h => exact ⟨_, rfl, h, Nat.le_refl _, Iff.rfl⟩
  | .prim .vaList, h => exact ⟨_, rfl, h, Nat.le_refl _, Iff.rfl⟩
  | .prim (.arith b), h =>
    have hb : b.defaultArgPromotion.map (fun b => Ty.prim (.arith b)) = some (promoteArg (.prim (.arith b))) := by
      cases b <;> rfl
    refine ⟨_, hb, ?_, ?_, Iff.rfl⟩
    · cases b <;> simp [promoteArg, Plain] <;> split <;> simp [Plain]
    · cases b <;> simp [promoteArg, Ty.depth] <;> split <;> simp [Ty.depth]
  | .enum tag b, h =>
    refine ⟨_, rfl, h, Nat.le_refl _, fun _ => .enumInt, fun _ => .enum ?_⟩
    cases b <;> simp [EnumsAgree]
  | .pointer _, h => exact ⟨_, rfl, h, Nat.le_refl _, Iff.rfl⟩
  | .qualified _ _, h => exact ⟨_, rfl, h, Nat.le_refl _, Iff.rfl⟩
  | .array _ _ _, h => exact ⟨_, rfl, h, Nat.le_refl _, Iff.rfl⟩
  | .struct _ _, h => exact ⟨_, rfl, h, Nat.le_refl _, Iff.rfl⟩
  | .func _ _ _, h => exact ⟨_, rfl, h, Nat.le_refl _, Iff.rfl⟩

theorem unaffected_iff {v : Class} {n : Nat} {c : Ty → Ty → Option Bool} (hc : RightBelow v n c) :
    ∀ (p : TyList), PlainTypes v p → p.depth < n → (unaffected c p = some true ↔ Unpromoted p)
  | .nil, _, _ => by simpa [unaffected] using Spec.Unpromoted.nil
  | .cons t s r, h, hd => by
    rw [TyList.depth] at hd
    rw [PlainTypes] at h
    have ih := unaffected_iff hc r h.2 (by omega)
    have d := depth_paramType h.1
    obtain ⟨p, hp, hpl, hpd, hpc⟩ := promotion_spec _ h.1.paramType
    have ht := hc _ _ h.1.paramType hpl (by omega) (by omega)
    simp only [unaffected, unq_adjust h.1, hp, andB_true, ih, ht, hpc]
    constructor
    · rintro ⟨h, h'⟩; exact .cons h h'
    · intro h
      cases h with | cons h h' => exact ⟨h, h'⟩

theorem enumsAgree_iff (tag1 tag2 : Option String) (b1 b2 : Option Enumerators) :
    compatEnum tag1 b1 tag2 b2 = some true ↔ tag1 = tag2 ∧ EnumsAgree b1 b2 := by
  rcases b1 with _ | b1 <;> rcases b2 with _ | b2 <;> simp [compatEnum, EnumsAgree]
  intro _
  constructor
  · rintro ⟨hl, he⟩; exact (enumerators_true hl).1 he
  · rintro rfl; exact ⟨rfl, (enumerators_true rfl).2 rfl⟩

theorem compatible_enum_iff (tag1 tag2 : Option String) (b1 b2 : Option Enumerators) :
    Compatible (.enum tag1 b1) (.enum tag2 b2) ↔ tag1 = tag2 ∧ EnumsAgree b1 b2 := by
  constructor
  · intro h; cases h with | enum h => exact ⟨rfl, h⟩
  · rintro ⟨rfl, h⟩; exact .enum h

theorem boundsAgree_iff (m n : Bound) :
    compatBounds m n = some true ↔ BoundsAgree m n := by
  cases m <;> cases n <;> simp [compatBounds, BoundsAgree]

/-- The parameters as compared by `compatible_function_types`. -/
theorem paramsAgree_iff {v : Class} {n : Nat} {c : Ty → Ty → Option Bool} (hc : RightBelow v n c)
    (r1 r2 : Ty) (p1 p2 : Params) (e1 e2 : Bool) (h1 : PlainParams v p1) (h2 : PlainParams v p2)
    (k1 : FuncOk v r1 p1 e1) (k2 : FuncOk v r2 p2 e2) (hd1 : p1.depth < n) (hd2 : p2.depth < n) :
    compatParams c p1 e1 p2 e2 = some true ↔ ParamsAgree p1 e1 p2 e2 := by
  unfold compatParams
  replace k1 := k1.2
  replace k2 := k2.2
  match p1, p2, h1, h2, k1, k2, hd1, hd2 with
  | .types p1, .types p2, h1, h2, _, _, hd1, hd2 =>
    rw [PlainParams] at h1 h2
    rw [Params.depth] at hd1 hd2
    by_cases hl : p1.length = p2.length
    · have := compatTypes_iff hc p1 p2 h1 h2 hd1 hd2 hl
      simp only [ite_false_true, this, hl, true_and]
      constructor
      · rintro ⟨rfl, h⟩; exact .types h
      · intro h; cases h with | types h => exact ⟨rfl, h⟩
    · simp only [ite_false_true, hl, false_and, false_iff]
      intro h; cases h with | types h => exact hl h.length
  | .types p1, .empty, h1, _, k1, k2, hd1, _ =>
    rw [PlainParams] at h1
    rw [Params.depth] at hd1
    have := unaffected_iff hc p1 h1 hd1
    have k : e1 = false := by
      cases p1 with
      | nil => exact k1.elim
      | cons => exact k1 k2.1
    subst k
    simp only [Bool.false_eq_true, if_false, this]
    constructor
    · intro h; exact .typesEmpty h
    · intro h; cases h with | typesEmpty h => exact h
  | .empty, .types p2, _, h2, k1, k2, _, hd2 =>
    rw [PlainParams] at h2
    rw [Params.depth] at hd2
    have := unaffected_iff hc p2 h2 hd2
    have k : e2 = false := by
      cases p2 with
      | nil => exact k2.elim
      | cons => exact k2 k1.1
    rw [k1.2, k]
    simp only [Bool.false_eq_true, if_false, this]
    constructor
    · intro h; exact .emptyTypes h
    · intro h; cases h with | emptyTypes h => exact h
  | .empty, .empty, _, _, _, _, _, _ => simpa using Spec.ParamsAgree.emptyEmpty
  | .ids _, _, _, _, k1, _, _, _ => exact k1.elim
  | _, .ids _, _, _, _, k2, _, _ => exact k2.elim

theorem compatOp_iff {v : Class} {n : Nat} {c : Ty → Ty → Option Bool} (hc : RightBelow v n c) (t1 t2 : Ty)
    (h1 : Plain v t1) (h2 : Plain v t2) (hd1 : t1.depth < n + 1) (hd2 : t2.depth < n + 1) :
    compatOp c t1 t2 = some true ↔ Compatible t1 t2 := by
  match t1, t2, h1, h2, hd1, hd2 with
  | .prim p, .enum tag b, _, _, _, _ =>
    simp only [compatOp, underlying_eq, Option.some.injEq, beq_iff_eq]
    constructor
    · rintro rfl; exact .intEnum
    · intro h; cases h; rfl
  | .enum tag b, .prim p, _, _, _, _ =>
    simp only [compatOp, underlying_eq, Option.some.injEq, beq_iff_eq]
    constructor
    · rintro rfl; exact .enumInt
    · intro h; cases h; rfl
  | .prim p, .prim q, _, _, _, _ =>
    simp only [compatOp, Option.some.injEq, beq_iff_eq]
    constructor
    · rintro rfl; exact .prim _
    · intro h; cases h; rfl
  | .enum tag1 b1, .enum tag2 b2, _, _, _, _ =>
    rw [compatOp, enumsAgree_iff, compatible_enum_iff]
  | .pointer a, .pointer b, h1, h2, hd1, hd2 =>
    rw [Plain] at h1 h2
    rw [Ty.depth] at hd1 hd2
    rw [compatOp, hc a b h1 h2 (by omega) (by omega)]
    exact ⟨.pointer, fun h => by cases h with | pointer h => exact h⟩
  | .qualified q a, .qualified q' b, h1, h2, hd1, hd2 =>
    rw [Plain] at h1 h2
    rw [Ty.depth] at hd1 hd2
    rw [compatOp, ite_false_true, hc a b h1.2 h2.2 (by omega) (by omega)]
    constructor
    · rintro ⟨rfl, h⟩; exact .qualified h
    · intro h; cases h with | qualified h => exact ⟨rfl, h⟩
  | .array m q a, .array k q' b, h1, h2, hd1, hd2 =>
    rw [Plain] at h1 h2
    rw [Ty.depth] at hd1 hd2
    rw [compatOp, andB_true, hc a b h1 h2 (by omega) (by omega), boundsAgree_iff]
    constructor
    · rintro ⟨h, h'⟩; exact .array h h'
    · intro h; cases h with | array h h' => exact ⟨h, h'⟩
  | .struct tag1 (.complete f1), .struct tag2 (.complete f2), h1, h2, hd1, hd2 =>
    rw [Plain, PlainBody] at h1 h2
    rw [Ty.depth, Body.depth] at hd1 hd2
    simp only [compatOp, ite_false_true]
    by_cases hl : f1.length = f2.length
    · rw [compatFields_iff hc f1 f2 h1 h2 (by omega) (by omega) hl]
      constructor
      · rintro ⟨rfl, _, h⟩; exact .struct (.complete h)
      · intro h
        cases h with | struct h => cases h with | complete h => exact ⟨rfl, hl, h⟩
    · simp only [hl, false_and, and_false, false_iff]
      intro h
      cases h with | struct h => cases h with | complete h => exact hl h.length
  | .struct tag1 .incomplete, .struct tag2 _, _, _, _, _ =>
    simp only [compatOp, ite_false_true, and_true]
    constructor
    · rintro rfl; exact .struct .left
    · intro h; cases h; rfl
  | .struct tag1 (.complete _), .struct tag2 .incomplete, _, _, _, _ =>
    simp only [compatOp, ite_false_true, and_true]
    constructor
    · rintro rfl; exact .struct .right
    · intro h; cases h; rfl
  | .func r1 p1 e1, .func r2 p2 e2, h1, h2, hd1, hd2 =>
    rw [Plain] at h1 h2
    rw [Ty.depth] at hd1 hd2
    have du1 := depth_unqualified r1
    have du2 := depth_unqualified r2
    rw [compatOp, andB_true, unq_eq, unq_eq, hc _ _ h1.1.unqualified h2.1.unqualified (by omega) (by omega),
      paramsAgree_iff hc r1 r2 p1 p2 e1 e2 h1.2.1 h2.2.1 h1.2.2 h2.2.2 (by omega) (by omega)]
    constructor
    · rintro ⟨h, h'⟩; exact .func h h'
    · intro h; cases h with | func h h' => exact ⟨h, h'⟩
  | .union _ _, _, h1, _, _, _ => simp [Plain] at h1
  | _, .union _ _, _, h2, _, _ => simp [Plain] at h2
  | .prim _, .pointer _, _, _, _, _ | .prim _, .qualified _ _, _, _, _, _ | .prim _, .array .., _, _, _, _
  | .prim _, .struct .., _, _, _, _ | .prim _, .func .., _, _, _, _
  | .enum .., .pointer _, _, _, _, _ | .enum .., .qualified _ _, _, _, _, _ | .enum .., .array .., _, _, _, _
  | .enum .., .struct .., _, _, _, _ | .enum .., .func .., _, _, _, _
  | .pointer _, .prim _, _, _, _, _ | .pointer _, .qualified _ _, _, _, _, _ | .pointer _, .array .., _, _, _, _
  | .pointer _, .struct .., _, _, _, _ | .pointer _, .func .., _, _, _, _ | .pointer _, .enum .., _, _, _, _
  | .qualified _ _, .prim _, _, _, _, _ | .qualified _ _, .pointer _, _, _, _, _
  | .qualified _ _, .array .., _, _, _, _ | .qualified _ _, .struct .., _, _, _, _
  | .qualified _ _, .func .., _, _, _, _ | .qualified _ _, .enum .., _, _, _, _
  | .array .., .prim _, _, _, _, _ | .array .., .pointer _, _, _, _, _
  | .array .., .qualified .., _, _, _, _ | .array .., .struct .., _, _, _, _
  | .array .., .func .., _, _, _, _ | .array .., .enum .., _, _, _, _
  | .struct .., .prim _, _, _, _, _ | .struct .., .pointer _, _, _, _, _
  | .struct .., .qualified .., _, _, _, _ | .struct .., .array .., _, _, _, _
  | .struct .., .func .., _, _, _, _ | .struct .., .enum .., _, _, _, _
  | .func .., .prim _, _, _, _, _ | .func .., .pointer _, _, _, _, _
  | .func .., .qualified .., _, _, _, _ | .func .., .array .., _, _, _, _
  | .func .., .struct .., _, _, _, _ | .func .., .enum .., _, _, _, _ =>
    simp only [compatOp, Option.some.injEq, Bool.false_eq_true, false_iff]
    intro h; cases h

theorem compatN_iff (v : Class) : ∀ n, RightBelow v n (compatN n)
  | 0 => fun _ _ _ _ h _ => by omega
  | n + 1 => fun a b ha hb hda hdb => by
    rw [compatN, orB_true, compatOp_iff (compatN_iff v n) a b ha hb hda hdb]
    constructor
    · rintro (h | ⟨_, h⟩)
      · exact same_sound v a b ha hb h
      · exact h
    · intro h
      rcases option_bool_cases (same a b) with hs | hs | hs
      · exact absurd h (same_none v a b ha hb hs).1
      · exact .inl hs
      · exact .inr ⟨hs, h⟩

end Kefir.Compat
