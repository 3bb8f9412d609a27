import Verif.ExprType.Lemmas

/-! Whatever the analysis accepts obeys the rules of the language of the compiler. -/
namespace Kefir.ExprType
open Kefir.Types (Basic)
open Kefir.Compat Kefir.Compat.Spec
open Model

theorem has (f : Feature) (h : f.c17Only = false := by rfl) : kefir.has f := kefir_has f h

theorem impl_only {p q : Prop} (h : q) : (kefir.std = true → p) ∧ (kefir.impl = true → q) :=
  ⟨fun k => (by cases k), fun _ => h⟩

theorem compatible_kefir {a b : Ty} (h : (compat a b == some true) = true) : kefir.compatible a b :=
  impl_only (by simpa using h)

theorem notNull_kefir (Γ : Env) (e : Expr) (d : Desc) : NotNull kefir Γ e d :=
  ⟨fun k => (by cases k), fun k => (by cases k.1)⟩

theorem evaluates_kefir (Γ : Env) (e : Expr) : Evaluates kefir Γ e := fun k => (by cases k.1)

theorem voidAnd_kefir {a b : Ty} (h : a = void ∨ b = void) : VoidAnd kefir a b :=
  h.imp (fun k => ⟨k, .inr (has _)⟩) (fun k => ⟨k, .inr (has _)⟩)

theorem promote_kefir {t r : Ty} {w : Option Nat} (h : promote t w = some r) (hi : integral t = true) :
    ∃ b p, IsInteger t b ∧ kefir.promotes b w p ∧ r = .arith p := by
  obtain ⟨b, hb⟩ := (integral_iff t).1 hi
  unfold promote at h
  rw [basicOf_eq, hb.1] at h
  simp only [Option.pure_def, Option.bind_eq_bind, Option.bind_some, Option.bind_eq_some_iff, Option.some.injEq] at h
  obtain ⟨p, hp, rfl⟩ := h
  exact ⟨b, p, hb, impl_only hp, rfl⟩

theorem commonType_kefir {s t r : Ty} {v w : Option Nat} (h : commonType s v t w = some r) :
    ∃ a b c, asArith s = some a ∧ asArith t = some b ∧ kefir.arith a v b w c ∧ r = .arith c := by
  unfold commonType at h
  rw [basicOf_eq, basicOf_eq] at h
  simp only [Option.pure_def, Option.bind_eq_bind, Option.bind_eq_some_iff, Option.some.injEq] at h
  obtain ⟨a, ha, b, hb, c, hc, rfl⟩ := h
  exact ⟨a, b, c, ha, hb, impl_only hc, rfl⟩

theorem value_const (t : Ty) (k : Bool) (p : Prop) (h : k = true → p) : Value (value t k) t p :=
  ⟨rfl, rfl, rfl, rfl, rfl, h⟩

theorem conv_ne_vaList (t : Ty) : conv t ≠ .prim .vaList := by
  unfold conv
  split
  · simp
  · simp
  · simp
  · rename_i h; exact h

theorem assignable_kefir (Γ : Env) (e : Expr) (x : Desc) (v t : Ty) (hv : v ≠ .prim .vaList)
    (h : assignable v x.const t = true) : Assignable kefir Γ t ⟨e, x, v⟩ := by
  unfold assignable at h
  split at h
  · exact .bool rfl
  · split at h
    · rename_i h1
      exact .arith ((arithmetic_iff _).1 h1) ((arithmetic_iff _).1 h)
    · split at h
      · rename_i h1
        exact .record (by rw [← recordTag_eq]; exact h1) (compatible_kefir h)
      · split at h
        · unfold assignablePointers at h
          simp only [retrieve_eq, unq_eq] at h
          rw [Bool.and_eq_true, within_iff, Bool.or_eq_true, Bool.or_eq_true, voidTag_iff, voidTag_iff] at h
          obtain ⟨h1, h2⟩ := h
          rcases h1 with h1 | h1
          · exact .void rfl (voidAnd_kefir h1) h2
          · exact .pointer rfl (compatible_kefir h1) h2
        · exact absurd rfl hv
        · cases h
        · rw [Bool.and_eq_true] at h
          obtain ⟨h1, h2⟩ := h
          obtain ⟨b, hb⟩ := (integral_iff _).1 h1
          split at h2
          · rename_i fits hf
            have : isEnum v = false := by
              cases v <;> first | rfl | simp [pointerFits] at hf
            refine .integer (has _) hb this ?_
            rw [Bool.or_eq_true] at h2
            refine h2.imp_right fun k => ?_
            subst k
            cases v with
            | prim p => cases p with
              | arith c =>
                cases hb.1
                cases b <;> first | rfl | simp [pointerFits] at hf
              | _ => cases h1
            | _ => simp [pointerFits] at hf
          · cases h2
        · cases h

theorem modifiable_kefir {Γ : Env} {x : Desc} (h : x.lvalue = true) (hc : (retrieve x.type).constant = false) :
    Modifiable kefir Γ x :=
  ⟨h, by rwa [retrieve_eq, constant_eq] at hc, .inr (has _), .inr (has _), .inr (has _)⟩

theorem assignTarget_kefir {Γ : Env} {x : Desc} (h : assignTarget x = true) : Modifiable kefir Γ x := by
  unfold assignTarget at h
  rw [Bool.and_eq_true, Bool.not_eq_true'] at h
  exact modifiable_kefir h.1 h.2

theorem steps_kefir {Γ : Env} {a : Ty} (h : isIncomplete a = false) : Steps kefir Γ a :=
  .function (has _) ((isIncomplete_false a).1 h)

theorem completePointer_iff {t : Ty} : completePointer t = true ↔ ∃ a, t = .pointer a ∧ isIncomplete a = false := by
  cases t <;> simp [completePointer]

theorem unary_kefir {op : UnOp} {e : Expr} {x d : Desc} (h : unary op x = some d) :
    ∃ r, UnRule kefir op ⟨e, x, conv x.type⟩ r ∧ Value d r (x.const = true) := by
  have int : ∀ op : UnOp, op ≠ .lnot → integral (conv x.type) = true →
      (do return value (← promote (conv x.type) x.bits) x.const) = some d →
      ∃ r, UnRule kefir op ⟨e, x, conv x.type⟩ r ∧ Value d r (x.const = true) := by
    intro op ho hi hp
    simp only [Option.pure_def, Option.bind_eq_bind, Option.bind_eq_some_iff, Option.some.injEq] at hp
    obtain ⟨r, hr, rfl⟩ := hp
    obtain ⟨b, p, hb, hp, rfl⟩ := promote_kefir hr hi
    exact ⟨_, .integer ho hb hp, value_const _ _ _ id⟩
  have sign : ∀ op : UnOp, op = .plus ∨ op = .neg →
      (if arithmetic (conv x.type) then
        if integral (conv x.type) then do return value (← promote (conv x.type) x.bits) x.const
        else some (value (conv x.type) x.const)
      else none) = some d → ∃ r, UnRule kefir op ⟨e, x, conv x.type⟩ r ∧ Value d r (x.const = true) := by
    intro op ho hp
    split at hp
    · rename_i ha
      split at hp
      · rename_i hi
        exact int op (by rcases ho with rfl | rfl <;> simp) hi hp
      · rename_i hi
        cases hp
        have hf : floating (conv x.type) = true := by
          unfold arithmetic at ha
          rw [Bool.or_eq_true] at ha
          exact ha.resolve_left hi
        obtain ⟨b, hb, hi'⟩ := (floating_iff _).1 hf
        refine ⟨_, .floating ho hb hi', ?_⟩
        rw [hb]
        exact value_const _ _ _ id
    · cases hp
  cases op with
  | plus => exact sign _ (.inl rfl) h
  | neg => exact sign _ (.inr rfl) h
  | inv =>
    simp only [unary] at h
    split at h
    · rename_i hi; exact int _ (by simp) hi h
    · cases h
  | lnot =>
    simp only [unary] at h
    split at h
    · rename_i hs
      cases h
      exact ⟨_, .lnot ((scalar_iff _).1 hs), value_const _ _ _ id⟩
    · cases h

theorem incDec_kefir {Γ : Env} {x d : Desc} (h : incDec x = some d) :
    Modifiable kefir Γ x ∧
      (asArith (unqualified x.type) ≠ none ∨ ∃ a, unqualified x.type = .pointer a ∧ StepsAny kefir Γ a) ∧
      Value d (unqualified x.type) False := by
  unfold incDec at h
  split at h
  · rename_i hc
    rw [Bool.and_eq_true, Bool.and_eq_true, Bool.not_eq_true', scalar_iff] at hc
    cases h
    rw [unq_eq] at hc
    refine ⟨modifiable_kefir hc.1.1 hc.1.2, hc.2.imp_right fun k => ?_, ?_⟩
    · obtain ⟨a, ha⟩ := (isPointer_iff _).1 k
      exact ⟨a, ha, .inr (has _)⟩
    · rw [unq_eq]; exact value_const _ _ _ (fun k => (by cases k))
  · cases h

theorem addition_kefir {Γ : Env} {a b : Expr} {x y : Desc} {s t r : Ty} (h : addition s x.bits t y.bits = some r) :
    BinRule kefir Γ .add ⟨a, x, s⟩ ⟨b, y, t⟩ r := by
  unfold addition at h
  split at h
  · rename_i h1
    obtain ⟨c, rfl, hc⟩ := completePointer_iff.1 h1
    split at h
    · rename_i h2
      cases h
      obtain ⟨i, hi⟩ := (integral_iff _).1 h2
      exact .pointerInt (.inl rfl) rfl (steps_kefir hc) hi
    · cases h
  · split at h
    · rename_i h1
      obtain ⟨c, rfl, hc⟩ := completePointer_iff.1 h1
      split at h
      · rename_i h2
        cases h
        obtain ⟨i, hi⟩ := (integral_iff _).1 h2
        exact .intPointer hi rfl (steps_kefir hc)
      · cases h
    · split at h
      · obtain ⟨i, j, c, hi, hj, hc, rfl⟩ := commonType_kefir h
        exact .arith (by simp) hi hj hc
      · cases h

theorem unq_unq_complete {a : Ty} (h : (!isIncomplete (unq a)) = true) : isIncomplete (unqualified a) = false := by
  rw [Bool.not_eq_true', unq_eq] at h; exact h

theorem subtraction_kefir {Γ : Env} {a b : Expr} {x y : Desc} {s t r : Ty}
    (h : subtraction s x.bits t y.bits = some r) : BinRule kefir Γ .sub ⟨a, x, s⟩ ⟨b, y, t⟩ r := by
  unfold subtraction at h
  split at h
  · split at h
    · rename_i h1
      rw [Bool.and_eq_true, Bool.and_eq_true] at h1
      cases h
      refine .difference rfl rfl (steps_kefir (unq_unq_complete h1.1.1)) (steps_kefir (unq_unq_complete h1.1.2)) ?_
      rw [← unq_eq, ← unq_eq]
      exact compatible_kefir h1.2
    · cases h
  · split at h
    · rename_i h1
      obtain ⟨c, rfl, hc⟩ := completePointer_iff.1 h1
      split at h
      · rename_i h2
        cases h
        obtain ⟨i, hi⟩ := (integral_iff _).1 h2
        exact .pointerInt (.inr rfl) rfl (steps_kefir hc) hi
      · cases h
    · split at h
      · obtain ⟨i, j, c, hi, hj, hc, rfl⟩ := commonType_kefir h
        exact .arith (by simp) hi hj hc
      · cases h

theorem relational_kefir {Γ : Env} {op : BinOp} (ho : op = .lt ∨ op = .le ∨ op = .gt ∨ op = .ge) {a b : Expr}
    {x y : Desc} {s t r : Ty} (h : relational s t = some r) : BinRule kefir Γ op ⟨a, x, s⟩ ⟨b, y, t⟩ r := by
  unfold relational at h
  split at h
  · split at h
    · rename_i h1
      cases h
      refine .orderPointers ho rfl rfl ?_ (.inr (has _))
      rw [← unq_eq, ← unq_eq]
      exact compatible_kefir h1
    · cases h
  · split at h
    · rename_i h1
      cases h
      rw [Bool.and_eq_true, arithmetic_iff, arithmetic_iff] at h1
      exact .order ho h1.1 h1.2
    · cases h

theorem equality_kefir {Γ : Env} {op : BinOp} (ho : op = .eq ∨ op = .ne) {a b : Expr} {x y : Desc} {s t r : Ty}
    (h : equality s x.const t y.const = some r) : BinRule kefir Γ op ⟨a, x, s⟩ ⟨b, y, t⟩ r := by
  unfold equality at h
  split at h
  · rename_i h1
    cases h
    rw [Bool.and_eq_true, arithmetic_iff, arithmetic_iff] at h1
    exact .equal ho h1.1 h1.2
  · split at h
    · split at h
      · rename_i h1
        cases h
        refine .equalPointers ho rfl rfl ?_
        rw [← unq_eq, ← unq_eq]
        exact impl_only h1
      · split at h
        · rename_i h1
          cases h
          rw [Bool.or_eq_true, voidTag_iff, voidTag_iff, unq_eq, unq_eq] at h1
          exact .equalVoid ho rfl rfl (voidAnd_kefir h1)
        · cases h
      · cases h
    · split at h
      · rename_i h1
        cases h
        rw [Bool.and_eq_true, integral_iff] at h1
        obtain ⟨⟨i, hi⟩, hc⟩ := h1
        exact .equalInteger (has _) ho rfl hi hc
      · cases h
    · split at h
      · rename_i h1
        cases h
        rw [Bool.and_eq_true, integral_iff] at h1
        obtain ⟨⟨i, hi⟩, hc⟩ := h1
        exact .integerEqual (has _) ho hi hc rfl
      · cases h
    · cases h

theorem binary_kefir {Γ : Env} {op : BinOp} {a b : Expr} {x y d : Desc} (h : binary op x y = some d) :
    ∃ r, BinRule kefir Γ op ⟨a, x, conv x.type⟩ ⟨b, y, conv y.type⟩ r ∧
      Value d r (x.const = true ∧ y.const = true) := by
  have fin : ∀ (o : Option Ty), (do let r ← o; return value r (x.const && y.const)) = some d →
      (∀ r, o = some r → BinRule kefir Γ op ⟨a, x, conv x.type⟩ ⟨b, y, conv y.type⟩ r) →
      ∃ r, BinRule kefir Γ op ⟨a, x, conv x.type⟩ ⟨b, y, conv y.type⟩ r ∧
        Value d r (x.const = true ∧ y.const = true) := by
    intro o h1 h2
    simp only [Option.pure_def, Option.bind_eq_bind, Option.bind_eq_some_iff, Option.some.injEq] at h1
    obtain ⟨r, hr, rfl⟩ := h1
    exact ⟨r, h2 r hr, value_const _ _ _ (by simp)⟩
  have int : op = .mod ∨ op = .band ∨ op = .bor ∨ op = .bxor → ∀ r,
      (if integral (conv x.type) && integral (conv y.type) then commonType (conv x.type) x.bits (conv y.type) y.bits
        else none) = some r → BinRule kefir Γ op ⟨a, x, conv x.type⟩ ⟨b, y, conv y.type⟩ r := by
    intro ho r hr
    split at hr
    · rename_i h1
      rw [Bool.and_eq_true, integral_iff, integral_iff] at h1
      obtain ⟨⟨i, hi⟩, j, hj⟩ := h1
      obtain ⟨i', j', c, hi', hj', hc, rfl⟩ := commonType_kefir hr
      rw [hi.1] at hi'; cases hi'
      rw [hj.1] at hj'; cases hj'
      exact .integer ho hi hj hc
    · cases hr
  have mul : op = .mul ∨ op = .div → ∀ r,
      (if arithmetic (conv x.type) && arithmetic (conv y.type) then
        commonType (conv x.type) x.bits (conv y.type) y.bits else none) = some r →
      BinRule kefir Γ op ⟨a, x, conv x.type⟩ ⟨b, y, conv y.type⟩ r := by
    intro ho r hr
    split at hr
    · obtain ⟨i, j, c, hi, hj, hc, rfl⟩ := commonType_kefir hr
      exact .arith (ho.imp_right .inl) hi hj hc
    · cases hr
  have shift : op = .shl ∨ op = .shr → ∀ r,
      (if integral (conv x.type) && integral (conv y.type) then promote (conv x.type) x.bits else none) = some r →
      BinRule kefir Γ op ⟨a, x, conv x.type⟩ ⟨b, y, conv y.type⟩ r := by
    intro ho r hr
    split at hr
    · rename_i h1
      rw [Bool.and_eq_true] at h1
      obtain ⟨j, hj⟩ := (integral_iff _).1 h1.2
      obtain ⟨i, p, hi, hp, rfl⟩ := promote_kefir hr h1.1
      exact .shift ho hi hj hp
    · cases hr
  have logic : op = .land ∨ op = .lor → ∀ r,
      (if scalar (conv x.type) && scalar (conv y.type) then some Ty.int else none) = some r →
      BinRule kefir Γ op ⟨a, x, conv x.type⟩ ⟨b, y, conv y.type⟩ r := by
    intro ho r hr
    split at hr
    · rename_i h1
      rw [Bool.and_eq_true, scalar_iff, scalar_iff] at h1
      cases hr
      exact .logical ho h1.1 h1.2
    · cases hr
  unfold binary at h
  refine fin _ h ?_
  cases op with
  | mod => exact int (by simp)
  | band => exact int (by simp)
  | bor => exact int (by simp)
  | bxor => exact int (by simp)
  | mul => exact mul (by simp)
  | div => exact mul (by simp)
  | add => exact fun r hr => addition_kefir hr
  | sub => exact fun r hr => subtraction_kefir hr
  | shl => exact shift (by simp)
  | shr => exact shift (by simp)
  | lt => exact fun r hr => relational_kefir (by simp) hr
  | le => exact fun r hr => relational_kefir (by simp) hr
  | gt => exact fun r hr => relational_kefir (by simp) hr
  | ge => exact fun r hr => relational_kefir (by simp) hr
  | eq => exact fun r hr => equality_kefir (by simp) hr
  | ne => exact fun r hr => equality_kefir (by simp) hr
  | land => exact logic (by simp)
  | lor => exact logic (by simp)

theorem assignment_kefir {Γ : Env} {b : Expr} {x y d : Desc} (h : assignment x y = some d) :
    Modifiable kefir Γ x ∧ Assignable kefir Γ (conv x.type) ⟨b, y, conv y.type⟩ ∧ Value d (conv x.type) False := by
  unfold assignment at h
  split at h
  · rename_i h1
    rw [Bool.and_eq_true] at h1
    cases h
    exact ⟨assignTarget_kefir h1.1, assignable_kefir Γ b y _ _ (conv_ne_vaList _) h1.2,
      value_const _ _ _ (fun k => (by cases k))⟩
  · cases h

theorem compound_kefir {Γ : Env} {op : AssignOp} {s t : Ty} (h : compound op s t = true) :
    AssignOpRule kefir Γ op s t := by
  have int : op ≠ .mul → op ≠ .div → op ≠ .add → op ≠ .sub → (integral s && integral t) = true →
      AssignOpRule kefir Γ op s t := by
    intro h1 h2 h3 h4 h5
    rw [Bool.and_eq_true, integral_iff, integral_iff] at h5
    obtain ⟨⟨i, hi⟩, j, hj⟩ := h5
    exact .integer h1 h2 h3 h4 hi hj
  have mul : op = .mul ∨ op = .div ∨ op = .add ∨ op = .sub → (arithmetic s && arithmetic t) = true →
      AssignOpRule kefir Γ op s t := by
    intro ho h5
    rw [Bool.and_eq_true, arithmetic_iff, arithmetic_iff] at h5
    exact .arith ho h5.1 h5.2
  have add : op = .add ∨ op = .sub → compoundAdd s t = true → AssignOpRule kefir Γ op s t := by
    intro ho h5
    unfold compoundAdd at h5
    split at h5
    · rename_i a
      rw [Bool.and_eq_true, integral_iff] at h5
      obtain ⟨h1, j, hj⟩ := h5
      exact .pointer ho (steps_kefir (unq_unq_complete h1)) hj
    · exact mul (by rcases ho with rfl | rfl <;> simp) h5
  cases op with
  | mul => exact mul (by simp) h
  | div => exact mul (by simp) h
  | add => exact add (by simp) h
  | sub => exact add (by simp) h
  | _ => exact int (by simp) (by simp) (by simp) (by simp) h

theorem compoundAssignment_kefir {Γ : Env} {op : AssignOp} {x y d : Desc}
    (h : compoundAssignment op x y = some d) :
    Modifiable kefir Γ x ∧ AssignOpRule kefir Γ op (conv x.type) (conv y.type) ∧ Value d (conv x.type) False := by
  unfold compoundAssignment at h
  split at h
  · rename_i h1
    rw [Bool.and_eq_true] at h1
    cases h
    exact ⟨assignTarget_kefir h1.1, compound_kefir h1.2, value_const _ _ _ (fun k => (by cases k))⟩
  · cases h

theorem castOperator_kefir {t : Ty} {x d : Desc} (h : castOperator t x = some d) :
    CastRule kefir t (conv x.type) ∧ Value d (unqualified t) (x.const = true) := by
  unfold castOperator at h
  simp only [] at h
  split at h
  · rename_i h1
    cases h
    rw [unq_eq] at h1 ⊢
    refine ⟨?_, value_const _ _ _ id⟩
    simp only [Bool.and_eq_true, Bool.or_eq_true, Bool.not_eq_true', scalar_iff, voidTag_iff] at h1
    obtain ⟨⟨h1, h2⟩, h3⟩ := h1
    rw [pointerTag_eq] at h2 h3
    have integer : ∀ s : Ty, asArith s ≠ none → floating s = false → ∃ b, IsInteger s b := by
      intro s ha hf
      rw [← integral_iff]
      have := (arithmetic_iff s).2 ha
      unfold arithmetic at this
      rw [hf, Bool.or_false] at this
      exact this
    rcases h1 with ⟨h4 | h4, h5 | h5⟩ | h1
    · exact .arith h5 h4
    · rw [h5, Bool.and_true] at h3
      obtain ⟨b, hb⟩ := integer _ h4 h3
      exact .toPointer h5 hb
    · rw [h4, Bool.and_true] at h2
      obtain ⟨b, hb⟩ := integer _ h5 h2
      exact .fromPointer hb h4
    · exact .pointers h5 h4
    · subst h1; exact .void
  · cases h

theorem conditionalPointers_kefir {Γ : Env} {e f : Expr} {x y : Desc} {a b r : Ty}
    (h : conditionalPointers a b = some r) : CondRule kefir Γ ⟨e, x, .pointer a⟩ ⟨f, y, .pointer b⟩ r := by
  unfold conditionalPointers at h
  simp only [retrieve_eq, merge_eq, unq_eq, qualifiedType_eq] at h
  split at h
  · rename_i h1
    rw [Bool.or_eq_true, voidTag_iff, voidTag_iff] at h1
    cases h
    exact .voidPointer rfl rfl (notNull_kefir ..) (notNull_kefir ..) (voidAnd_kefir h1)
  · rename_i h1
    rw [Bool.or_eq_true, voidTag_iff, voidTag_iff, not_or] at h1
    split at h
    · rename_i h2
      split at h
      · rename_i c hc
        cases h
        exact .pointers rfl rfl (notNull_kefir ..) (notNull_kefir ..) (compatible_kefir h2) h1.1 h1.2 (impl_only hc)
      · cases h
    · cases h

theorem conditionalType_kefir {Γ : Env} {e f : Expr} {x y : Desc} {r : Ty}
    (h : conditionalType Γ e x f y = some r) :
    CondRule kefir Γ ⟨e, x, conv x.type⟩ ⟨f, y, conv y.type⟩ r := by
  unfold conditionalType at h
  simp only [] at h
  split at h
  · obtain ⟨i, j, c, hi, hj, hc, rfl⟩ := commonType_kefir h
    exact .arith hi hj hc
  · rename_i ha
    split at h
    · cases h
    · split at h
      · rename_i h1
        simp only [Bool.and_eq_true, recordTag_eq, beq_iff_eq] at h1
        cases h
        exact .record h1.1.1 h1.1.2 (impl_only h1.2)
      · split at h
        · rename_i h1
          rw [Bool.and_eq_true, voidTag_iff, voidTag_iff] at h1
          cases h
          exact .void h1.1 h1.2
        · simp only [Option.bind_eq_bind, Option.bind_eq_some_iff] at h
          obtain ⟨n1, hn1, n2, hn2, h⟩ := h
          split at h
          · rename_i h1
            rw [Bool.and_eq_true] at h1
            obtain ⟨h1, rfl⟩ := h1
            cases h
            exact .nullRight (by rw [← pointerTag_eq]; exact h1) (evaluates_kefir Γ _) (isNull_kefir hn2)
          · rename_i h1
            split at h
            · rename_i h2
              rw [Bool.and_eq_true] at h2
              obtain ⟨rfl, h2⟩ := h2
              cases h
              exact .nullLeft (isNull_kefir hn1) (by rw [← pointerTag_eq]; exact h2) (evaluates_kefir Γ _)
            · rename_i h2
              split at h
              · rename_i h3
                exfalso
                rw [Bool.and_eq_true] at h3
                obtain ⟨rfl, rfl⟩ := h3
                obtain ⟨_, k1, _⟩ := isNull_iff.1 hn1
                obtain ⟨_, k2, _⟩ := isNull_iff.1 hn2
                rcases k1 with k1 | k1
                · rcases k2 with k2 | k2
                  · rw [conv_integral k1, conv_integral k2] at ha
                    simp [arithmetic, k1, k2] at ha
                  · rw [k2] at h2; exact h2 rfl
                · rw [k1] at h1; exact h1 rfl
              · split at h
                · rename_i h5 h6
                  rw [h5, h6]
                  exact conditionalPointers_kefir h
                · cases h

theorem conditional_kefir {Γ : Env} {e f : Expr} {z x y d : Desc} (h : conditional Γ z e x f y = some d) :
    Scalar (conv z.type) ∧ ∃ u, CondRule kefir Γ ⟨e, x, conv x.type⟩ ⟨f, y, conv y.type⟩ u ∧
      Value d u (z.const = true ∧ x.const = true ∧ y.const = true) := by
  unfold conditional at h
  split at h
  · rename_i h1
    simp only [Option.pure_def, Option.bind_eq_bind, Option.bind_eq_some_iff, Option.some.injEq] at h
    obtain ⟨r, hr, rfl⟩ := h
    refine ⟨(scalar_iff _).1 h1, r, conditionalType_kefir hr, value_const _ _ _ ?_⟩
    simp only [Bool.and_eq_true]
    exact fun k => ⟨k.1.1, k.1.2, k.2⟩
  · cases h

theorem staticPart_of {x : Desc} (h : arrayTag (unq x.type) = true → x.static = true)
    (h' : arrayTag (unq x.type) = false → x.const = true) : StaticPart x := by
  rw [unq_eq] at h h'
  unfold StaticPart
  split
  · rename_i k; exact h (by rw [k]; rfl)
  · rename_i k
    apply h'
    cases hu : unqualified x.type <;> first | rfl | (exact absurd hu (by apply k))

theorem integral_array {x : Desc} (h : integral (conv x.type) = true) : arrayTag (unq x.type) = false := by
  unfold conv at h
  split at h
  · cases h
  · cases h
  · cases h
  · rename_i k1 _ _
    cases hu : unq x.type <;> first | rfl | exact absurd hu (by apply k1)

theorem subscriptConstant_kefir {x y : Desc} (h : subscriptConstant x y = true)
    (hi : integral (conv x.type) = true ∨ integral (conv y.type) = true) : StaticPart x ∧ StaticPart y := by
  unfold subscriptConstant at h
  split at h
  · rename_i hx
    rw [Bool.and_eq_true] at h
    have hy : arrayTag (unq y.type) = false := by
      rcases hi with hi | hi
      · rw [integral_array hi] at hx; cases hx
      · exact integral_array hi
    exact ⟨staticPart_of (fun _ => h.1) (fun k => by rw [k] at hx; cases hx),
      staticPart_of (fun k => by rw [k] at hy; cases hy) (fun _ => h.2)⟩
  · rename_i hx
    split at h
    · rename_i hp
      rw [Bool.and_eq_true] at h
      have hy : arrayTag (unq y.type) = false := by
        rcases hi with hi | hi
        · exfalso
          rw [pointerTag_eq, isPointer_iff] at hp
          obtain ⟨a, ha⟩ := hp
          unfold conv at hi
          rw [ha] at hi
          cases hi
        · exact integral_array hi
      exact ⟨staticPart_of (fun k => absurd k hx) (fun _ => h.1),
        staticPart_of (fun k => by rw [k] at hy; cases hy) (fun _ => h.2)⟩
    · split at h
      · rename_i hy
        rw [Bool.and_eq_true] at h
        exact ⟨staticPart_of (fun k => absurd k hx) (fun _ => h.2),
          staticPart_of (fun _ => h.1) (fun k => by rw [k] at hy; cases hy)⟩
      · rename_i hy
        rw [Bool.and_eq_true] at h
        exact ⟨staticPart_of (fun k => absurd k hx) (fun _ => h.1),
          staticPart_of (fun k => absurd k hy) (fun _ => h.2)⟩

theorem subscript_kefir {Γ : Env} {x y d : Desc} (h : subscript x y = some d) :
    (conv x.type = .pointer d.type ∧ (∃ i, IsInteger (conv y.type) i) ∨
        (∃ i, IsInteger (conv x.type) i) ∧ conv y.type = .pointer d.type) ∧
      StepsAny kefir Γ d.type ∧ d.bits = none ∧ (d.static = true → StaticPart x ∧ StaticPart y) ∧ d.const = false := by
  unfold subscript at h
  simp only [Option.pure_def, Option.bind_eq_bind, Option.bind_eq_some_iff, Option.some.injEq] at h
  obtain ⟨t, ht, rfl⟩ := h
  split at ht
  · rename_i h1
    split at ht
    · rename_i h2
      cases ht
      exact ⟨.inl ⟨h1, (integral_iff _).1 h2⟩, .inr (has _), rfl, fun k => subscriptConstant_kefir k (.inr h2), rfl⟩
    · cases ht
  · rename_i h1 _
    split at ht
    · rename_i h2
      cases ht
      exact ⟨.inr ⟨(integral_iff _).1 h2, h1⟩, .inr (has _), rfl, fun k => subscriptConstant_kefir k (.inl h2), rfl⟩
    · cases ht
  · cases ht

theorem arguments_next {Γ : Env} {t : Ty} {s : Option Nat} {ps : TyList} {ell : Bool} {x : Operand} {xs : List Operand}
    (hx : x.type = conv x.desc.type) (h : assignable (conv x.desc.type) x.desc.const (unq (adjust t)) = true)
    (ih : ArgsRule kefir Γ ps ell xs) : ArgsRule kefir Γ (.cons t s ps) ell (x :: xs) := by
  refine .next (p := unq (adjust t)) (impl_only rfl) ?_ ih
  have := assignable_kefir Γ x.expr x.desc _ _ (conv_ne_vaList _) h
  rw [← hx] at this
  exact this

theorem arguments_kefir {Γ : Env} {ell : Bool} : ∀ (ps : TyList) (xs : List Operand),
    (∀ x ∈ xs, x.type = conv x.desc.type) → arguments false ell ps (xs.map (·.desc)) = true → ArgsRule kefir Γ ps ell xs
  | .nil, [], _, _ => .done (fun _ x hx => by cases hx) (fun _ => rfl)
  | .nil, x :: xs, _, h => by
    simp only [List.map_cons, arguments] at h
    subst h
    exact .done (fun _ _ _ => .inr (has _)) (fun k => by cases k)
  | .cons t s ps, [], _, h => by simp [arguments] at h
  | .cons t s ps, x :: xs, hx, h => by
    simp only [List.map_cons, arguments, Bool.and_eq_true] at h
    exact arguments_next (hx x (List.mem_cons_self ..)) h.1
      (arguments_kefir ps xs (fun y hy => hx y (List.mem_cons_of_mem _ hy)) h.2)

theorem adjust_void {t : Ty} (h : adjust t = void) : t = void := by
  cases t with
  | prim p => cases p with
    | vaList => cases h
    | _ => exact h
  | array b qs e => cases qs <;> cases h
  | func _ _ _ => cases h
  | _ => exact h

theorem arguments_first {Γ : Env} {ell : Bool} (ps : TyList) (xs : List Operand)
    (hx : ∀ x ∈ xs, x.type = conv x.desc.type) (h : arguments true ell ps (xs.map (·.desc)) = true) :
    CallRule kefir Γ (.types ps) ell xs := by
  cases ps with
  | nil =>
    refine .types (arguments_kefir .nil xs hx ?_)
    cases xs <;> exact h
  | cons t s ps =>
    cases xs with
    | nil =>
      simp only [List.map_nil, arguments, Bool.and_eq_true, voidTag_iff, true_and] at h
      obtain ⟨h1, h2⟩ := h
      have := adjust_void h1
      subst this
      cases ps with
      | nil => exact .noParameters
      | cons _ _ _ => cases h2
    | cons x xs =>
      simp only [List.map_cons, arguments, Bool.and_eq_true] at h
      exact .types (arguments_next (hx x (List.mem_cons_self ..)) h.1
        (arguments_kefir ps xs (fun y hy => hx y (List.mem_cons_of_mem _ hy)) h.2))

theorem functionCall_kefir {Γ : Env} {x d : Desc} {xs : List Operand} (hx : ∀ x ∈ xs, x.type = conv x.desc.type)
    (h : functionCall x (xs.map (·.desc)) = some d) :
    ∃ r ps more, conv x.type = .pointer (.func r ps more) ∧ CallRule kefir Γ ps more xs ∧
      (isArray (unqualified r) = false ∨ unqualified r = .prim .vaList ∧ kefir.has .vaListReturn) ∧
      (Complete (Γ.fill r) ∨ unqualified r = void ∨ kefir.has .incompleteReturn) ∧ Value d (unqualified r) False := by
  unfold functionCall at h
  split at h
  · rename_i r ps ell hf
    refine ⟨r, ps, ell, hf, ?_⟩
    split at h
    · rename_i h1
      rw [Bool.and_eq_true, Bool.not_eq_true', unq_eq] at h1
      cases h
      rw [unq_eq]
      refine ⟨?_, ?_, .inr (.inr (has _)), value_const _ _ _ (fun k => (by cases k))⟩
      · cases ps with
        | types ps => exact arguments_first ps xs hx h1.1
        | empty => exact .empty fun _ _ => .inr (has _)
        | ids n => exact .ids fun _ _ => .inr (has _)
      · have := h1.2
        cases hr : unqualified r with
        | prim p => cases p with
          | vaList => exact .inr ⟨rfl, has _⟩
          | _ => exact .inl rfl
        | array _ _ _ => rw [hr] at this; cases this
        | _ => exact .inl rfl
    · cases h
  · cases h

theorem fieldIndex_member {L : Lang} {x : String} : ∀ {fs : Fields} {t : Ty} {w : Option Int}, fieldIndex x fs = some (t, w) →
    Member L fs x t w
  | .nil, _, _, h => by cases h
  | .cons n al w' t' rest, t, w, h => by
    simp only [fieldIndex] at h
    split at h
    · rename_i hn; subst hn; cases h; exact .here
    · exact .later (fieldIndex_member h)

mutual
theorem resolveAnonymous_member {L : Lang} {x : String} : ∀ (fs : Fields) {t : Ty} {w : Option Int},
    resolveAnonymous x fs = some (some (t, w)) → Member L fs x t w
  | .nil, _, _, h => by simp [resolveAnonymous] at h
  | .cons (some _) _ _ _ rest, _, _, h => by
    simp only [resolveAnonymous] at h
    exact .later (resolveAnonymous_member rest h)
  | .cons none _ _ u rest, _, _, h => by
    simp only [resolveAnonymous] at h
    split at h
    · rename_i hr
      cases h
      exact resolveType_member u _ _ rest hr
    · exact .later (resolveAnonymous_member rest h)
    · cases h
theorem resolveType_member {L : Lang} {x : String} : ∀ (u : Ty) (al : Nat) (w' : Option Int) (rest : Fields) {t : Ty}
    {w : Option Int}, resolveType x u = some (some (t, w)) → Member L (.cons none al w' u rest) x t w
  | .struct _ .incomplete, _, _, _, _, _, h => by simp [resolveType, resolveBody] at h
  | .union _ .incomplete, _, _, _, _, _, h => by simp [resolveType, resolveBody] at h
  | .struct _ (.complete fs), _, _, _, _, _, h => by
    simp only [resolveType, resolveBody] at h
    split at h
    · rename_i hr; cases h; exact .struct (fieldIndex_member hr)
    · exact .struct (resolveAnonymous_member fs h)
  | .union _ (.complete fs), _, _, _, _, _, h => by
    simp only [resolveType, resolveBody] at h
    split at h
    · rename_i hr; cases h; exact .union (fieldIndex_member hr)
    · exact .union (resolveAnonymous_member fs h)
  | .prim _, _, _, _, _, _, h => by simp [resolveType] at h
  | .pointer _, _, _, _, _, _, h => by simp [resolveType] at h
  | .qualified .., _, _, _, _, _, h => by simp [resolveType] at h
  | .array .., _, _, _, _, _, h => by simp [resolveType] at h
  | .enum .., _, _, _, _, _, h => by simp [resolveType] at h
  | .func .., _, _, _, _, _, h => by simp [resolveType] at h
end

theorem resolveBody_member {x : String} {b : Body} {t : Ty} {w : Option Int}
    (h : resolveBody x b = some (some (t, w))) : ∃ fs, b = .complete fs ∧ MemberRule kefir fs x t w := by
  cases b with
  | incomplete => simp [resolveBody] at h
  | complete fs =>
    refine ⟨fs, rfl, ?_, .inr (has _)⟩
    simp only [resolveBody] at h
    split at h
    · rename_i hr; cases h; exact fieldIndex_member hr
    · exact resolveAnonymous_member fs h

theorem memberOf_kefir {Γ : Env} {s : Ty} {f : String} {st : Bool} {d : Desc} (h : memberOf Γ s f st = some d) :
    ∃ fs t w, Γ.members (unqualified s) = some fs ∧ MemberRule kefir fs f t w ∧
      MemberType kefir (qualOf s) (Γ.fill t) d.type ∧ d.bits = w.map Int.toNat ∧ (d.addressable = true → w = none) ∧
      d.static = st ∧ d.const = false := by
  have fin : ∀ b, memberIn Γ (retrieve s) f st b = some d → ∃ fs t w, b = .complete fs ∧ MemberRule kefir fs f t w ∧
      MemberType kefir (qualOf s) (Γ.fill t) d.type ∧ d.bits = w.map Int.toNat ∧ (d.addressable = true → w = none) ∧
      d.static = st ∧ d.const = false := by
    intro b hb
    unfold memberIn at hb
    split at hb
    · rename_i ft w hr
      cases hb
      obtain ⟨fs, hfs, hm⟩ := resolveBody_member hr
      refine ⟨fs, ft, w, hfs, hm, ?_, rfl, fun k => ?_, rfl, rfl⟩
      · simp only [retrieve_eq, qualifiedType_eq, completion_eq]
        cases qualOf s with
        | none => rw [withQuals_none]; exact .unqualified
        | some q => exact .lost (has _)
      · cases w <;> simp_all
    · cases hb
  unfold memberOf at h
  split at h
  · split at h
    · rename_i heq
      rw [completion_eq, unq_eq] at heq
      obtain ⟨fs, t, w, rfl, h'⟩ := fin _ h
      exact ⟨fs, t, w, by unfold Env.members; rw [heq], h'⟩
    · rename_i heq
      rw [completion_eq, unq_eq] at heq
      obtain ⟨fs, t, w, rfl, h'⟩ := fin _ h
      exact ⟨fs, t, w, by unfold Env.members; rw [heq], h'⟩
    · cases h
  · cases h

theorem selectAssoc_kefir {c : Ty} : ∀ {ds : List (Ty × Desc)} {r : Option Desc}, selectAssoc c ds = some r →
    (∀ d, r = some d → ∃ pre t post, ds = pre ++ (t, d) :: post ∧ (∀ a ∈ pre, kefir.incompatible c a.1) ∧
      kefir.compatible c t) ∧ (r = none → ∀ a ∈ ds, kefir.incompatible c a.1)
  | [], r, h => by
    cases h
    exact ⟨fun d k => (by cases k), fun _ a ha => (by cases ha)⟩
  | (t, d) :: rest, r, h => by
    simp only [selectAssoc] at h
    split at h
    · rename_i hc
      cases h
      refine ⟨fun d' k => ?_, fun k => (by cases k)⟩
      cases k
      exact ⟨[], t, rest, rfl, fun a ha => (by cases ha), impl_only hc⟩
    · rename_i hc
      obtain ⟨h1, h2⟩ := selectAssoc_kefir h
      have hi : kefir.incompatible c t := impl_only hc
      refine ⟨fun d' k => ?_, fun k a ha => ?_⟩
      · obtain ⟨pre, t', post, rfl, h3, h4⟩ := h1 d' k
        refine ⟨(t, d) :: pre, t', post, rfl, fun a ha => ?_, h4⟩
        rcases List.mem_cons.1 ha with rfl | ha
        · exact hi
        · exact h3 a ha
      · rcases List.mem_cons.1 ha with rfl | ha
        · exact hi
        · exact h2 k a ha
    · cases h

theorem identifier_kefir (en : Entity) : IdentRule en (identifier en) := by
  cases en with
  | object t reg st =>
    refine .object rfl rfl ?_ ?_ id ?_
    · intro h b qs e k
      subst k; cases h
    · intro h
      cases reg <;> simp_all [identifier]
    · intro h
      have h' : arrayTag t = true ∧ st = true := by simpa [identifier] using h
      exact ⟨h'.2, (arrayTag_iff t).1 h'.1⟩
  | function t => exact .function rfl rfl rfl
  | enumConst => exact .enumConst (value_const _ _ _ fun _ => trivial)

theorem sizeOf_kefir {Γ : Env} {t : Ty} {w : Option Nat} {d : Desc} (h : Model.sizeOf Γ t w = some d) :
    w = none ∧ SizeRule kefir Γ t ∧ Value d (.arith kefir.size) (isVariable (Γ.fill t) = false) := by
  unfold Model.sizeOf at h
  split at h
  · cases h
  · rename_i h1
    cases h
    simp only [Bool.or_eq_true, not_or, functionTag_eq, completion_eq, Bool.not_eq_true] at h1
    refine ⟨by cases w <;> simp_all, ⟨.inr ⟨h1.1.2, has _⟩, (isIncomplete_false _).1 h1.2⟩, value_const _ _ _ ?_⟩
    rw [completion_eq, isVla_eq, Bool.not_eq_true']
    exact id

theorem alignOf_kefir {Γ : Env} {t : Ty} {d : Desc} (h : alignOf Γ t = some d) :
    SizeRule kefir Γ t ∧ Value d (.arith kefir.size) True := by
  unfold alignOf at h
  split at h
  · cases h
  · rename_i h1
    cases h
    simp only [Bool.or_eq_true, not_or, functionTag_eq, completion_eq, Bool.not_eq_true] at h1
    exact ⟨⟨.inr ⟨h1.1, has _⟩, (isIncomplete_false _).1 h1.2⟩, value_const _ _ _ fun _ => trivial⟩

mutual
theorem analyze_sound (Γ : Env) : ∀ (e : Expr) (d : Desc), analyze Γ e = some d → Typed kefir Γ e d
  | .ident x, d, h => by
    simp only [analyze, Option.map_eq_some_iff] at h
    obtain ⟨en, h1, rfl⟩ := h
    exact ⟨en, h1, identifier_kefir en⟩
  | .const b v, d, h => by
    simp only [analyze, Option.some.injEq] at h
    subst h
    exact value_const _ _ _ fun _ => trivial
  | .str b n, d, h => by
    simp only [analyze, Option.some.injEq] at h
    subst h
    exact ⟨rfl, rfl, rfl, fun k => (by cases k), rfl⟩
  | .un op e, d, h => by
    simp only [analyze, Option.bind_eq_some_iff] at h
    obtain ⟨x, hx, h⟩ := h
    exact ⟨x, _, analyze_sound Γ e x hx, conv_kefir _, unary_kefir h⟩
  | .incdec op e, d, h => by
    simp only [analyze, Option.bind_eq_some_iff] at h
    obtain ⟨x, hx, h⟩ := h
    exact ⟨x, analyze_sound Γ e x hx, incDec_kefir h⟩
  | .addr e, d, h => by
    simp only [analyze, Option.bind_eq_some_iff] at h
    obtain ⟨x, hx, h⟩ := h
    unfold addressOf at h
    split at h
    · rename_i ha
      cases h
      exact ⟨x, analyze_sound Γ e x hx, ha, value_const _ _ _ id⟩
    · cases h
  | .deref e, d, h => by
    simp only [analyze, Option.bind_eq_some_iff] at h
    obtain ⟨x, hx, h⟩ := h
    unfold indirection at h
    split at h
    · rename_i t ht
      cases h
      refine ⟨x, analyze_sound Γ e x hx, ?_, rfl, ?_, rfl, rfl⟩
      · have := conv_kefir x.type
        rw [ht] at this
        exact this
      · intro k
        rw [Bool.not_eq_true', functionTag_eq] at k
        exact k
    · cases h
  | .sizeofExpr e, d, h => by
    simp only [analyze, Option.bind_eq_some_iff] at h
    obtain ⟨x, hx, h⟩ := h
    obtain ⟨h1, h2, h3⟩ := sizeOf_kefir h
    exact ⟨x, analyze_sound Γ e x hx, h1, h2, h3⟩
  | .sizeofType t, d, h => by
    simp only [analyze] at h
    exact (sizeOf_kefir h).2
  | .alignofType t, d, h => by
    simp only [analyze] at h
    exact alignOf_kefir h
  | .bin op a b, d, h => by
    simp only [analyze, Option.bind_eq_some_iff] at h
    obtain ⟨x, hx, y, hy, h⟩ := h
    exact ⟨x, _, y, _, analyze_sound Γ a x hx, conv_kefir _, analyze_sound Γ b y hy, conv_kefir _, binary_kefir h⟩
  | .assign a b, d, h => by
    simp only [analyze, Option.bind_eq_some_iff] at h
    obtain ⟨x, hx, y, hy, h⟩ := h
    exact ⟨x, _, y, _, analyze_sound Γ a x hx, conv_kefir _, analyze_sound Γ b y hy, conv_kefir _,
      assignment_kefir h⟩
  | .assignOp op a b, d, h => by
    simp only [analyze, Option.bind_eq_some_iff] at h
    obtain ⟨x, hx, y, hy, h⟩ := h
    exact ⟨x, _, y, _, analyze_sound Γ a x hx, conv_kefir _, analyze_sound Γ b y hy, conv_kefir _,
      compoundAssignment_kefir h⟩
  | .cast t e, d, h => by
    simp only [analyze, Option.bind_eq_some_iff] at h
    obtain ⟨x, hx, h⟩ := h
    exact ⟨x, _, analyze_sound Γ e x hx, conv_kefir _, castOperator_kefir h⟩
  | .cond c a b, d, h => by
    simp only [analyze, Option.bind_eq_some_iff] at h
    obtain ⟨z, hz, x, hx, y, hy, h⟩ := h
    obtain ⟨h1, h2⟩ := conditional_kefir h
    exact ⟨z, _, x, _, y, _, analyze_sound Γ c z hz, conv_kefir _, h1, analyze_sound Γ a x hx, conv_kefir _,
      analyze_sound Γ b y hy, conv_kefir _, h2⟩
  | .comma a b, d, h => by
    simp only [analyze, Option.bind_eq_some_iff, Option.some.injEq] at h
    obtain ⟨x, hx, y, hy, rfl⟩ := h
    exact ⟨x, y, _, analyze_sound Γ a x hx, analyze_sound Γ b y hy, conv_kefir _,
      value_const _ _ _ fun k => (by cases k)⟩
  | .index a b, d, h => by
    simp only [analyze, Option.bind_eq_some_iff] at h
    obtain ⟨x, hx, y, hy, h⟩ := h
    exact ⟨x, _, y, _, analyze_sound Γ a x hx, conv_kefir _, analyze_sound Γ b y hy, conv_kefir _, subscript_kefir h⟩
  | .call f args, d, h => by
    simp only [analyze, Option.bind_eq_some_iff] at h
    obtain ⟨x, hx, ds, hds, h⟩ := h
    obtain ⟨xs, h1, h2, rfl⟩ := analyzeArgs_sound Γ args ds hds
    obtain ⟨r, ps, more, hc, h3⟩ := functionCall_kefir h2 h
    refine ⟨x, r, ps, more, xs, analyze_sound Γ f x hx, ?_, h1, h3⟩
    have := conv_kefir x.type
    rw [hc] at this
    exact this
  | .dot e f, d, h => by
    simp only [analyze, Option.bind_eq_some_iff] at h
    obtain ⟨x, hx, h⟩ := h
    obtain ⟨fs, t, w, h1, h2, h3, h4, h5, h6, h7⟩ := memberOf_kefir h
    exact ⟨x, fs, t, w, analyze_sound Γ e x hx, h1, h2, h3, h4, fun _ => .inr (has _), fun k => ⟨h5 k, .inr (has _)⟩,
      fun k => h6 ▸ k, h7⟩
  | .arrow e f, d, h => by
    simp only [analyze, Option.bind_eq_some_iff] at h
    obtain ⟨x, hx, h⟩ := h
    unfold indirectMember at h
    split at h
    · rename_i s hs
      obtain ⟨fs, t, w, h1, h2, h3, h4, h5, h6, h7⟩ := memberOf_kefir h
      refine ⟨x, s, fs, t, w, analyze_sound Γ e x hx, ?_, h1, h2, h3, h4, h5, fun k => h6 ▸ k, h7⟩
      have := conv_kefir x.type
      rw [hs] at this
      exact this
    · cases h
  | .generic c as o, d, h => by
    simp only [analyze, Option.bind_eq_some_iff] at h
    obtain ⟨x, hx, ds, hds, r, hr, h⟩ := h
    obtain ⟨h1, h2⟩ := selectAssoc_kefir hr
    have types : AssocTypes kefir Γ (ds.map (·.1)) := ⟨.inr (has _), .inr (has _)⟩
    cases r with
    | some d' =>
      simp only [Option.some.injEq] at h
      obtain ⟨pre, t, post, rfl, h3, h4⟩ := h1 d' rfl
      exact ⟨x, _, _, none, analyze_sound Γ c x hx, conv_kefir _, analyzeAssocs_sound Γ as _ hds, types,
        .inr ⟨has _, rfl⟩, d', .matching pre h3 h4 (.inr (has _)), h.symm⟩
    | none =>
      simp only [Option.map_eq_some_iff] at h
      obtain ⟨d', hd, rfl⟩ := h
      exact ⟨x, _, ds, some d', analyze_sound Γ c x hx, conv_kefir _, analyzeAssocs_sound Γ as ds hds, types,
        .inl (analyzeDflt_sound Γ o d' hd), d', .default (h2 rfl), rfl⟩
theorem analyzeArgs_sound (Γ : Env) : ∀ (as : Args) (ds : List Desc), analyzeArgs Γ as = some ds →
    ∃ xs : List Operand, TypedArgs kefir Γ as xs ∧ (∀ x ∈ xs, x.type = conv x.desc.type) ∧ ds = xs.map (·.desc)
  | .nil, ds, h => by
    simp only [analyzeArgs, Option.some.injEq] at h
    subst h
    exact ⟨[], rfl, fun x hx => (by cases hx), rfl⟩
  | .cons e rest, ds, h => by
    simp only [analyzeArgs, Option.bind_eq_some_iff, Option.some.injEq] at h
    obtain ⟨x, hx, ys, hys, rfl⟩ := h
    obtain ⟨xs, h1, h2, rfl⟩ := analyzeArgs_sound Γ rest ys hys
    refine ⟨⟨e, x, conv x.type⟩ :: xs, ⟨x, _, xs, analyze_sound Γ e x hx, conv_kefir _, h1, rfl⟩, ?_, rfl⟩
    intro y hy
    rcases List.mem_cons.1 hy with rfl | hy
    · rfl
    · exact h2 y hy
theorem analyzeAssocs_sound (Γ : Env) : ∀ (as : Assocs) (ds : List (Ty × Desc)), analyzeAssocs Γ as = some ds →
    TypedAssocs kefir Γ as ds
  | .nil, ds, h => by
    simp only [analyzeAssocs, Option.some.injEq] at h
    exact h.symm
  | .cons t e rest, ds, h => by
    simp only [analyzeAssocs, Option.bind_eq_some_iff, Option.some.injEq] at h
    obtain ⟨x, hx, ys, hys, rfl⟩ := h
    exact ⟨x, ys, analyze_sound Γ e x hx, analyzeAssocs_sound Γ rest ys hys, rfl⟩
theorem analyzeDflt_sound (Γ : Env) : ∀ (o : Dflt) (d : Desc), analyzeDflt Γ o = some d → TypedDflt kefir Γ o (some d)
  | .none, d, h => by simp [analyzeDflt] at h
  | .some e, d, h => by
    simp only [analyzeDflt] at h
    exact ⟨d, analyze_sound Γ e d h, rfl⟩
end

theorem return_sound {Γ : Env} {t : Ty} {e : Option Expr} (h : returnStatement Γ t e = true) :
    ReturnRule kefir Γ t e := by
  unfold returnStatement at h
  split at h
  · rw [unq_eq, voidTag_iff] at h
    exact .void h
  · rename_i e
    split at h
    · cases h
    · rename_i x hx
      rw [Bool.and_eq_true, Bool.not_eq_true', unq_eq, voidTag_false] at h
      exact .value h.1 (analyze_sound Γ e x hx) (conv_kefir _) (assignable_kefir Γ e x _ _ (conv_ne_vaList _) h.2)

end Kefir.ExprType
