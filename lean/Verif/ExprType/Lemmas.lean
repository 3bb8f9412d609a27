import Verif.ExprType.Spec
import Verif.ExprType.Model
import Verif.Compat.Lemmas

/-! The predicates of the model and those of the specification agree. -/
namespace Kefir.ExprType
open Kefir.Types (Basic)
open Kefir.Compat Kefir.Compat.Spec
open Model

theorem isIntegral_eq (b : Basic) : b.isIntegral = C17.isInteger b := by cases b <;> rfl

theorem isInteger_underlying (b : Option Enumerators) : C17.isInteger (enumType b) = true := by
  unfold enumType; split
  · split <;> rfl
  · rfl

theorem basicOf_eq (t : Ty) : basicOf t = asArith t := by
  unfold basicOf asArith
  split <;> simp_all

theorem integral_iff (t : Ty) : integral t = true ↔ ∃ b, IsInteger t b := by
  unfold integral IsInteger
  split
  · rename_i b; rw [isIntegral_eq]; simp [asArith]
  · simp [asArith, isInteger_underlying]
  · rename_i h1 h2
    simp only [Bool.false_eq_true, false_iff]
    rintro ⟨b, hb, _⟩
    unfold asArith at hb
    split at hb
    · exact h1 _ rfl
    · exact h2 _ _ rfl
    · cases hb

theorem arithmetic_iff (t : Ty) : arithmetic t = true ↔ asArith t ≠ none := by
  unfold arithmetic
  cases t with
  | prim p => cases p with
    | arith b => cases b <;> simp [integral, floating, asArith, Basic.isIntegral]
    | _ => simp [integral, floating, asArith]
  | _ => simp [integral, floating, asArith]

theorem floating_iff (t : Ty) : floating t = true ↔ ∃ b, t = .arith b ∧ C17.isInteger b = false := by
  cases t with
  | prim p => cases p with
    | arith b => cases b <;> simp [floating, C17.isInteger]
    | _ => simp [floating]
  | _ => simp [floating]

theorem pointerTag_eq (t : Ty) : pointerTag t = isPointer t := by cases t <;> rfl
theorem functionTag_eq (t : Ty) : functionTag t = isFunction t := by cases t <;> rfl
theorem recordTag_eq (t : Ty) : recordTag t = isRecord t := by cases t <;> rfl
theorem voidTag_iff (t : Ty) : voidTag t = true ↔ t = void := by
  cases t with
  | prim p => cases p <;> simp [voidTag, void]
  | _ => simp [voidTag, void]
theorem voidTag_false (t : Ty) : voidTag t = false ↔ t ≠ void := by
  rw [← Bool.not_eq_true, voidTag_iff]
theorem isPointer_iff (t : Ty) : isPointer t = true ↔ ∃ a, t = .pointer a := by cases t <;> simp [isPointer]
theorem arrayTag_iff (t : Ty) : arrayTag t = true ↔ ∃ b qs e, t = .array b qs e := by cases t <;> simp [arrayTag]

theorem scalar_iff (t : Ty) : scalar t = true ↔ Scalar t := by
  unfold scalar Scalar
  rw [Bool.or_eq_true, arithmetic_iff, pointerTag_eq]

theorem isIncomplete_eq (t : Ty) : isIncomplete t = incomplete (unqualified t) := by
  unfold isIncomplete
  rw [unq_eq]
  generalize unqualified t = u
  cases u with
  | prim p => cases p <;> rfl
  | array b _ _ => cases b <;> rfl
  | struct _ b => cases b <;> rfl
  | union _ b => cases b <;> rfl
  | _ => rfl

theorem isIncomplete_false (t : Ty) : isIncomplete t = false ↔ Complete t := by rw [isIncomplete_eq]; rfl

theorem isVla_eq (t : Ty) : isVla t = isVariable t := by
  cases t with
  | array b _ _ => cases b <;> rfl
  | _ => rfl

/-! ### Qualifiers -/

/-- The qualification of a set of qualifiers. -/
def qualsOf : Option Qual → Quals
  | some q => .of q
  | none => ⟨false, false, false⟩

theorem retrieve_eq (t : Ty) : retrieve t = qualsOf (qualOf t) := by cases t <;> rfl

theorem merge_eq (a b : Option Qual) : merge (qualsOf a) (qualsOf b) = qualsOf (bothQuals a b) := by
  cases a with
  | none => cases b with
    | none => rfl
    | some q => cases q <;> rfl
  | some p => cases b with
    | none => cases p <;> rfl
    | some q => cases p <;> cases q <;> rfl

theorem set_eq (q : Option Qual) : (qualsOf q).set = q := by
  cases q with
  | none => rfl
  | some q => cases q <;> rfl

theorem constant_eq (q : Option Qual) : (qualsOf q).constant = hasConst q := by
  cases q with
  | none => rfl
  | some q => cases q <;> rfl
theorem volatile_eq (q : Option Qual) : (qualsOf q).volatile = hasVolatile q := by
  cases q with
  | none => rfl
  | some q => cases q <;> rfl
theorem restricted_eq (q : Option Qual) : (qualsOf q).restricted = hasRestrict q := by
  cases q with
  | none => rfl
  | some q => cases q <;> rfl

theorem qualifiedType_some (t : Ty) (q : Qual) : qualifiedType t (.of q) = withQuals (some q) t := by
  have h : Quals.of q = qualsOf (some q) := rfl
  unfold qualifiedType
  rw [h, set_eq, retrieve_eq, merge_eq, set_eq, unq_eq]
  unfold withQuals
  cases bothQuals (some q) (qualOf t) <;> rfl

theorem withQuals_none (t : Ty) : withQuals none t = t := by cases t <;> rfl

theorem qualifiedType_eq (t : Ty) (q : Option Qual) : qualifiedType t (qualsOf q) = withQuals q t := by
  cases q with
  | none => rw [withQuals_none]; rfl
  | some q => exact qualifiedType_some t q

theorem within_iff (a b : Option Qual) :
    ((!(qualsOf a).constant || (qualsOf b).constant) && (!(qualsOf a).restricted || (qualsOf b).restricted) &&
      (!(qualsOf a).volatile || (qualsOf b).volatile)) = true ↔ Within a b := by
  simp only [constant_eq, volatile_eq, restricted_eq, Within]
  cases hasConst a <;> cases hasConst b <;> cases hasVolatile a <;> cases hasVolatile b <;> cases hasRestrict a <;>
    cases hasRestrict b <;> simp

/-! ### Types -/

theorem completion_eq (Γ : Env) : ∀ t : Ty, completion Γ t = Γ.fill t
  | .pointer t => by simp only [completion, Env.fill, completion_eq Γ t]
  | .qualified q t => by simp only [completion, Env.fill, completion_eq Γ t, qualifiedType_some]
  | .array b qs t => by simp only [completion, Env.fill, completion_eq Γ t]
  | .struct tag b => by cases b <;> rfl
  | .union tag b => by cases b <;> rfl
  | .prim _ => rfl
  | .enum .. => rfl
  | .func .. => rfl

theorem conv_kefir (t : Ty) : Conv kefir t (conv t) := by
  cases t with
  | array b qs e => exact .array
  | func r ps e => exact .function rfl
  | prim p => cases p with
    | vaList => exact .vaList rfl
    | _ => exact .value rfl rfl
  | qualified q t =>
    cases t with
    | array b qs e => exact .lostQualifiers (by simp [Lang.has, Feature.c17Only, kefir])
    | func r ps e => exact .function rfl
    | prim p => cases p with
      | vaList => exact .vaList rfl
      | _ => exact .value rfl rfl
    | _ => exact .value rfl rfl
  | _ => exact .value rfl rfl

theorem common_has (f : Feature) : ¬ common.has f := by
  unfold Lang.has; split <;> simp [common]

theorem kefir_has (f : Feature) (h : f.c17Only = false) : kefir.has f := by
  unfold Lang.has; rw [h]; rfl

theorem conv_value {t : Ty} (h1 : isArray (unqualified t) = false) (h2 : isFunction (unqualified t) = false) :
    conv t = unqualified t := by
  unfold conv
  rw [unq_eq]
  generalize unqualified t = u at h1 h2 ⊢
  split
  · cases h1
  · cases h2
  · cases h1
  · rfl

theorem conv_common {t s : Ty} (h : Conv common t s) : s = conv t := by
  cases h with
  | array => rfl
  | vaList k => unfold conv; rw [unq_eq, k]
  | function k => unfold conv; rw [unq_eq, k]
  | qualifiedArray k => exact absurd k (common_has _)
  | lostQualifiers k => exact absurd k (common_has _)
  | value k1 k2 => rw [conv_value k1 k2]

/-! ### Null pointer constants -/

theorem conv_integral {t : Ty} (h : integral t = true) : conv t = t := by
  cases t with
  | prim p => cases p with
    | arith b => rfl
    | _ => cases h
  | enum _ _ => rfl
  | _ => cases h

theorem conv_arith {t : Ty} (h : asArith t ≠ none) : conv t = t := by
  cases t with
  | prim p => cases p with
    | arith b => rfl
    | _ => exact absurd rfl h
  | enum _ _ => rfl
  | _ => exact absurd rfl h

theorem voidPointer_iff (t : Ty) : voidPointer t = true ↔ t = .pointer void := by
  cases t with
  | pointer t => simp [voidPointer, voidTag_iff]
  | _ => simp [voidPointer]

theorem nullValue_true (v : Eval) : nullValue v = some true ↔ v = .int 0 ∨ v = .address true := by
  cases v <;> simp [nullValue]

theorem nullValue_some {v : Eval} (h : v ≠ .error) : ∃ k, nullValue v = some k := by
  cases v <;> simp_all [nullValue]

theorem isNull_iff {Γ : Env} {e : Expr} {d : Desc} : isNull Γ e d = some true ↔
    d.const = true ∧ (integral d.type = true ∨ d.type = .pointer void) ∧
      (Γ.eval e = .int 0 ∨ Γ.eval e = .address true) := by
  unfold isNull
  split
  · rename_i h
    rw [Bool.and_eq_true, Bool.or_eq_true, voidPointer_iff] at h
    rw [nullValue_true]
    exact ⟨fun k => ⟨h.1, h.2, k⟩, fun k => k.2.2⟩
  · rename_i h
    rw [Bool.and_eq_true, Bool.or_eq_true, voidPointer_iff] at h
    exact ⟨fun k => (by cases k), fun k => absurd ⟨k.1, k.2.1⟩ h⟩

theorem isNull_kefir {Γ : Env} {e : Expr} {d : Desc} (h : isNull Γ e d = some true) : Null kefir Γ e d := by
  obtain ⟨hk, ht, he⟩ := isNull_iff.1 h
  rcases ht with ht | ht
  · obtain ⟨b, hb⟩ := (integral_iff _).1 ht
    exact .constant (b := b) (kefir_has _ rfl) hk (.inl hb) he
  · exact .constant (b := .int) (kefir_has _ rfl) hk (.inr ht) he

theorem isNull_some {Γ : Env} {e : Expr} (d : Desc) (h : Γ.eval e ≠ .error) : ∃ k, isNull Γ e d = some k := by
  unfold isNull
  split
  · exact nullValue_some h
  · exact ⟨_, rfl⟩

theorem isNull_false {Γ : Env} {e : Expr} (d : Desc) (h : Γ.eval e ≠ .int 0) (h' : Γ.eval e ≠ .address true)
    (h'' : Γ.eval e ≠ .error) : isNull Γ e d = some false := by
  obtain ⟨k, hk⟩ := isNull_some d h''
  cases k with
  | false => exact hk
  | true => rcases (isNull_iff.1 hk).2.2 with k | k <;> contradiction

end Kefir.ExprType
