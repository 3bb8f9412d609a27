import Verif.ExprType.Sound

/-! The analysis accepts whatever obeys the rules that the language of the compiler has in common with C17. -/
namespace Kefir.ExprType
open Kefir.Types (Basic)
open Kefir.Compat Kefir.Compat.Spec
open Model

theorem Desc.Le.rfl' (d : Desc) : d.Le d := ⟨rfl, rfl, id, id, id, id⟩

theorem both {p q : Prop} (h : (common.std = true → p) ∧ (common.impl = true → q)) : p ∧ q := ⟨h.1 rfl, h.2 rfl⟩

theorem no {p : Prop} {f : Feature} (h : p ∨ common.has f) : p := h.resolve_right (common_has f)

theorem value_le {d : Desc} {r : Ty} {k : Prop} {kk : Bool} (h : Value d r k) (hk : k → kk = true) :
    d.Le (value r kk) := by
  obtain ⟨h1, h2, h3, h4, h5, h6⟩ := h
  exact ⟨h1.symm, h2.symm, fun i => (by rw [h3] at i; cases i), fun i => (by rw [h4] at i; cases i),
    fun i => hk (h6 i), fun i => (by rw [h5] at i; cases i)⟩

theorem integral_of {t : Ty} {b : Basic} (h : IsInteger t b) : integral t = true := (integral_iff t).2 ⟨b, h⟩

theorem arithmetic_of {t : Ty} {b : Basic} (h : asArith t = some b) : arithmetic t = true :=
  (arithmetic_iff t).2 (by rw [h]; simp)

theorem integral_arithmetic {t : Ty} (h : integral t = true) : arithmetic t = true := by
  unfold arithmetic; rw [h]; rfl

theorem promote_common {t : Ty} {b p : Basic} {w : Option Nat} (h : asArith t = some b) (hp : common.promotes b w p) :
    promote t w = some (.arith p) := by
  unfold promote
  rw [basicOf_eq, h]
  have := (both hp).2
  simp [this]

theorem commonType_common {s t : Ty} {a b r : Basic} {v w : Option Nat} (hs : asArith s = some a)
    (ht : asArith t = some b) (h : common.arith a v b w r) : commonType s v t w = some (.arith r) := by
  unfold commonType
  rw [basicOf_eq, basicOf_eq, hs, ht]
  have := (both h).2
  simp [this]

theorem compatible_common {a b : Ty} (h : common.compatible a b) : compat a b = some true := (both h).2

theorem pointer_arithmetic (a : Ty) : arithmetic (.pointer a) = false := rfl

/-! ### Constants -/

theorem ice_const (Γ : Env) : ∀ (e : Expr) (d : Desc), Ice Γ e → analyze Γ e = some d → d.const = true
  | .const b v, d, _, h => by simp only [analyze, Option.some.injEq] at h; subst h; rfl
  | .ident x, d, hi, h => by
    simp only [Ice] at hi
    simp only [analyze, hi, Option.map_some, Option.some.injEq] at h
    subst h; rfl
  | .un op e, d, hi, h => by
    simp only [analyze, Option.bind_eq_some_iff] at h
    obtain ⟨x, hx, h⟩ := h
    have hc := ice_const Γ e x hi hx
    obtain ⟨r, _, hv⟩ : ∃ r, True ∧ d = value r x.const := by
      unfold unary at h
      cases op <;> simp only [] at h <;> (repeat' split at h) <;>
        simp only [Option.pure_def, Option.bind_eq_bind, Option.bind_eq_some_iff, Option.some.injEq,
          reduceCtorEq] at h
      all_goals first
        | exact ⟨_, trivial, h.symm⟩
        | (obtain ⟨r, _, h⟩ := h; exact ⟨r, trivial, h.symm⟩)
    rw [hv]; exact hc
  | .bin op a b, d, hi, h => by
    simp only [analyze, Option.bind_eq_some_iff] at h
    obtain ⟨x, hx, y, hy, h⟩ := h
    have h1 := ice_const Γ a x hi.1 hx
    have h2 := ice_const Γ b y hi.2 hy
    unfold binary at h
    simp only [Option.pure_def, Option.bind_eq_bind, Option.bind_eq_some_iff, Option.some.injEq] at h
    obtain ⟨r, _, rfl⟩ := h
    simp [value, h1, h2]
  | .cond c a b, d, hi, h => by
    simp only [analyze, Option.bind_eq_some_iff] at h
    obtain ⟨z, hz, x, hx, y, hy, h⟩ := h
    have h0 := ice_const Γ c z hi.1 hz
    have h1 := ice_const Γ a x hi.2.1 hx
    have h2 := ice_const Γ b y hi.2.2 hy
    unfold conditional at h
    split at h
    · simp only [Option.pure_def, Option.bind_eq_bind, Option.bind_eq_some_iff, Option.some.injEq] at h
      obtain ⟨r, _, rfl⟩ := h
      simp [value, h0, h1, h2]
    · cases h
  | .sizeofType t, d, hi, h => by
    simp only [analyze, Model.sizeOf] at h
    split at h
    · cases h
    · cases h
      simp only [Ice] at hi
      simp only [value, completion_eq, isVla_eq, hi, Bool.not_false]
  | .alignofType t, d, _, h => by
    simp only [analyze, alignOf] at h
    split at h
    · cases h
    · cases h; rfl
  | .cast t e, d, hi, h => by
    simp only [analyze, Option.bind_eq_some_iff] at h
    obtain ⟨x, hx, h⟩ := h
    have hc : x.const = true := by
      rcases hi.2 with hi | ⟨b, v, rfl⟩
      · exact ice_const Γ e x hi hx
      · simp only [analyze, Option.some.injEq] at hx; subst hx; rfl
    unfold castOperator at h
    simp only [] at h
    split at h
    · cases h; exact hc
    · cases h
  | .str .., _, hi, _ => hi.elim
  | .incdec .., _, hi, _ => hi.elim
  | .addr _, _, hi, _ => hi.elim
  | .deref _, _, hi, _ => hi.elim
  | .sizeofExpr _, _, hi, _ => hi.elim
  | .assign .., _, hi, _ => hi.elim
  | .assignOp .., _, hi, _ => hi.elim
  | .comma .., _, hi, _ => hi.elim
  | .index .., _, hi, _ => hi.elim
  | .call .., _, hi, _ => hi.elim
  | .dot .., _, hi, _ => hi.elim
  | .arrow .., _, hi, _ => hi.elim
  | .generic .., _, hi, _ => hi.elim

theorem null_common {Γ : Env} {e : Expr} {x x' : Desc} (hn : Null common Γ e x) (hl : x.Le x')
    (ha : analyze Γ e = some x') : isNull Γ e x' = some true := by
  rw [isNull_iff, hl.type]
  cases hn with
  | int h1 h2 h3 => exact ⟨ice_const Γ e x' h1 ha, .inl (integral_of h2), .inl h3⟩
  | void h1 h2 h3 h4 =>
    refine ⟨?_, .inr h4, .inr (h3 rfl)⟩
    simp only [analyze, Option.bind_eq_some_iff] at ha
    obtain ⟨y, hy, ha⟩ := ha
    have hc := ice_const Γ _ y h1 hy
    unfold castOperator at ha
    simp only [] at ha
    split at ha
    · cases ha; exact hc
    · cases ha
  | constant k => exact absurd k (common_has _)

/-! ### Operators -/

theorem voidAnd_or {L : Lang} {a b : Ty} (h : VoidAnd L a b) : a = void ∨ b = void :=
  h.imp And.left And.left

theorem pointers_common {a b : Ty} (h : common.compatible (unqualified a) (unqualified b) ∨
    unqualified a = void ∨ unqualified b = void) (hw : Within (qualOf b) (qualOf a)) :
    assignablePointers a b = true := by
  unfold assignablePointers
  simp only [retrieve_eq, unq_eq]
  rw [Bool.and_eq_true, within_iff, Bool.or_eq_true, Bool.or_eq_true, voidTag_iff, voidTag_iff]
  refine ⟨?_, hw⟩
  rcases h with h | h
  · right; rw [compatible_common h]; rfl
  · exact .inl h

theorem assignable_pointer {a v : Ty} {k : Bool} : assignable v k (.pointer a) =
    (match v with
      | .pointer b => assignablePointers a b
      | v => integral v && (match pointerFits v with | some fits => k || fits | none => false)) := by
  unfold assignable
  cases v <;> rfl

theorem pointerFits_some {t : Ty} (h : integral t = true) (he : isEnum t = false) : ∃ k, pointerFits t = some k := by
  cases t with
  | prim p => cases p with
    | arith b => cases b <;> exact ⟨_, rfl⟩
    | _ => cases h
  | enum _ _ => cases he
  | _ => cases h

theorem assignable_common {Γ : Env} {t v : Ty} {e : Expr} {x x' : Desc} (h : Assignable common Γ t ⟨e, x, v⟩)
    (hv : v = conv x.type) (hl : x.Le x') (ha : analyze Γ e = some x') :
    assignable (conv x'.type) x'.const t = true := by
  rw [hl.type, ← hv]
  cases h with
  | arith h1 h2 =>
    have h1 := (arithmetic_iff _).2 h1
    have h2 := (arithmetic_iff _).2 h2
    unfold assignable
    split
    · rfl
    · rw [if_pos h1]; exact h2
  | record h1 h2 =>
    unfold assignable
    split
    · cases h1
    · rw [if_neg (by cases t <;> simp_all [arithmetic, integral, floating, isRecord]), if_pos (by rw [recordTag_eq]; exact h1),
        compatible_common h2]
      rfl
  | pointer h1 h2 h3 =>
    simp only [] at h1
    rw [assignable_pointer, h1]
    exact pointers_common (.inl h2) h3
  | void h1 h2 h3 =>
    simp only [] at h1
    rw [assignable_pointer, h1]
    exact pointers_common (.inr (voidAnd_or h2)) h3
  | null h1 h2 =>
    have h2 := no h2
    have hn := isNull_iff.1 (null_common h1 hl ha)
    rw [hl.type] at hn
    rcases hn.2.1 with hi | hi
    · rw [conv_integral hi] at hv
      subst hv
      rw [assignable_pointer]
      obtain ⟨k, hk⟩ := pointerFits_some hi h2
      cases ht : x.type with
      | pointer _ => rw [ht] at hi; cases hi
      | _ => rw [ht] at hi hk; simp only [hi, hk, hn.1]; rfl
    · rw [hi] at hv
      subst hv
      rw [assignable_pointer]
      exact pointers_common (.inr (.inr rfl)) ⟨fun k => (by cases k), fun k => (by cases k), fun k => (by cases k)⟩
  | bool h1 =>
    obtain ⟨a, ha⟩ := (isPointer_iff _).1 h1
    simp only [] at ha
    rw [ha]
    rfl
  | integer k => exact absurd k (common_has _)

theorem assignTarget_common {Γ : Env} {x x' : Desc} (h : Modifiable common Γ x) (hl : x.Le x') :
    assignTarget x' = true := by
  unfold assignTarget
  rw [hl.lvalue h.lvalue, hl.type, retrieve_eq, constant_eq, h.notConst]
  rfl

theorem steps_common {Γ : Env} {a : Ty} (h : Steps common Γ a) : isIncomplete a = false := by
  cases h with
  | complete _ h => exact (isIncomplete_false a).2 h
  | late k => exact absurd k (common_has _)
  | function k => exact absurd k (common_has _)

theorem unary_common {op : UnOp} {e : Expr} {x x' d : Desc} {t r : Ty} (h : UnRule common op ⟨e, x, t⟩ r)
    (ht : t = conv x.type) (hd : Value d r (x.const = true)) (hl : x.Le x') :
    ∃ d', unary op x' = some d' ∧ d.Le d' := by
  refine ⟨value r x'.const, ?_, value_le hd hl.const⟩
  cases h with
  | integer h1 h2 h3 =>
    simp only [] at h2 h3
    have hi := integral_of h2
    have ha := integral_arithmetic hi
    have hp := promote_common h2.1 h3
    rw [← hl.bits] at hp
    subst ht
    cases op with
    | lnot => exact absurd rfl h1
    | _ => simp only [unary, hl.type, hi, ha, hp, if_true, Option.pure_def, Option.bind_eq_bind, Option.bind_some]
  | floating h1 h2 h3 =>
    rename_i b
    simp only [] at h2
    have hi : integral (.arith b) = false := by rw [integral, isIntegral_eq]; exact h3
    have ha : arithmetic (.arith b) = true := arithmetic_of rfl
    subst ht
    rcases h1 with rfl | rfl <;> simp only [unary, hl.type, h2, hi, ha] <;> rfl
  | lnot h1 =>
    simp only [] at h1
    subst ht
    simp only [unary, hl.type, (scalar_iff _).2 h1, if_true]

theorem incDec_common {Γ : Env} {x x' d : Desc} (hm : Modifiable common Γ x)
    (h : asArith (unqualified x.type) ≠ none ∨ ∃ a, unqualified x.type = .pointer a ∧ StepsAny common Γ a)
    (hd : Value d (unqualified x.type) False) (hl : x.Le x') : ∃ d', incDec x' = some d' ∧ d.Le d' := by
  have ht := assignTarget_common hm hl
  unfold assignTarget at ht
  have hs : scalar (unqualified x.type) = true :=
    (scalar_iff _).2 (h.imp_right fun ⟨a, ha, _⟩ => by rw [ha]; rfl)
  refine ⟨value (unqualified x.type) false, ?_, value_le hd False.elim⟩
  unfold incDec
  rw [ht, unq_eq, hl.type, hs]
  rfl

theorem compat_void_left (t : Ty) : ∃ k, compat void t = some k := by
  unfold compat compatN
  cases t with
  | prim p => cases p <;> exact ⟨_, rfl⟩
  | _ => simp [same, orB, compatOp]

theorem compat_void_right (t : Ty) : ∃ k, compat t void = some k := by
  unfold compat compatN
  cases t with
  | prim p => cases p <;> exact ⟨_, rfl⟩
  | _ => simp [same, orB, compatOp]

theorem equality_void {a b : Ty} {j k : Bool} (h : unqualified a = void ∨ unqualified b = void) :
    equality (.pointer a) j (.pointer b) k = some .int := by
  have hc : ∃ r, compat (unqualified a) (unqualified b) = some r := by
    rcases h with h | h <;> rw [h]
    · exact compat_void_left _
    · exact compat_void_right _
  obtain ⟨r, hr⟩ := hc
  have hv : (voidTag (unqualified a) || voidTag (unqualified b)) = true := by
    rw [Bool.or_eq_true, voidTag_iff, voidTag_iff]; exact h
  simp only [equality, pointer_arithmetic, unq_eq, hr, hv]
  cases r <;> rfl

theorem equality_null {Γ : Env} {a : Ty} {e : Expr} {y y' : Desc} (k : Bool) (hn : Null common Γ e y) (hl : y.Le y')
    (ha : analyze Γ e = some y') : equality (.pointer a) k (conv y.type) y'.const = some .int := by
  have := isNull_iff.1 (null_common hn hl ha)
  rw [hl.type] at this
  obtain ⟨h1, h2 | h2, _⟩ := this
  · rw [conv_integral h2]
    cases ht : y.type with
    | pointer _ => rw [ht] at h2; cases h2
    | _ => rw [ht] at h2; simp [equality, pointer_arithmetic, h1, h2]
  · rw [h2]
    exact equality_void (.inr rfl)

theorem null_equality {Γ : Env} {a : Ty} {e : Expr} {x x' : Desc} (k : Bool) (hn : Null common Γ e x) (hl : x.Le x')
    (ha : analyze Γ e = some x') : equality (conv x.type) x'.const (.pointer a) k = some .int := by
  have := isNull_iff.1 (null_common hn hl ha)
  rw [hl.type] at this
  obtain ⟨h1, h2 | h2, _⟩ := this
  · rw [conv_integral h2]
    cases ht : x.type with
    | pointer _ => rw [ht] at h2; cases h2
    | _ => rw [ht] at h2; simp [equality, pointer_arithmetic, h1, h2]
  · rw [h2]
    exact equality_void (.inl rfl)

theorem not_completePointer {t : Ty} (h : arithmetic t = true) : completePointer t = false := by
  cases t <;> first | rfl | cases h

theorem binary_common {Γ : Env} {op : BinOp} {a b : Expr} {x y x' y' d : Desc} {s t r : Ty}
    (h : BinRule common Γ op ⟨a, x, s⟩ ⟨b, y, t⟩ r) (hs : s = conv x.type) (ht : t = conv y.type)
    (hd : Value d r (x.const = true ∧ y.const = true)) (hx : x.Le x') (hy : y.Le y')
    (ha : analyze Γ a = some x') (hb : analyze Γ b = some y') : ∃ d', binary op x' y' = some d' ∧ d.Le d' := by
  have hr : binaryType op (conv x'.type) x'.bits x'.const (conv y'.type) y'.bits y'.const = some r → binary op x' y' =
      some (value r (x'.const && y'.const)) := fun k => by unfold binary; rw [k]; rfl
  refine ⟨value r (x'.const && y'.const), hr ?_, value_le hd fun k => ?_⟩
  · rw [hx.type, hy.type, ← hs, ← ht, hx.bits, hy.bits]
    unfold binaryType
    cases h with
    | arith ho h1 h2 h3 =>
      simp only [] at h1 h2 h3
      have a1 := arithmetic_of h1
      have a2 := arithmetic_of h2
      have hc := commonType_common h1 h2 h3
      rcases ho with rfl | rfl | rfl | rfl
      · simp only [a1, a2, hc]; rfl
      · simp only [a1, a2, hc]; rfl
      · simp only [addition, not_completePointer a1, not_completePointer a2, a1, a2, hc]; rfl
      · have : subtraction s x.bits t y.bits = commonType s x.bits t y.bits := by
          cases s with
          | pointer _ => cases a1
          | _ => simp only [subtraction]; rw [if_neg (by simp [completePointer]), if_pos (by rw [a1, a2]; rfl)]
        simp only [this, hc]
    | integer ho h1 h2 h3 =>
      simp only [] at h1 h2 h3
      have hc := commonType_common h1.1 h2.1 h3
      rcases ho with rfl | rfl | rfl | rfl <;> simp only [integral_of h1, integral_of h2, hc] <;> rfl
    | shift ho h1 h2 h3 =>
      simp only [] at h1 h2 h3
      have hc := promote_common h1.1 h3
      rcases ho with rfl | rfl <;> simp only [integral_of h1, integral_of h2, hc] <;> rfl
    | pointerInt ho h1 h2 h3 =>
      simp only [] at h1 h3
      subst h1
      have i := integral_of h3
      have c := steps_common h2
      rcases ho with rfl | rfl
      · simp only [addition, completePointer, c, i]; rfl
      · cases t with
        | pointer _ => cases i
        | _ => simp only [subtraction, completePointer, c, i]; rfl
    | intPointer h1 h2 h3 =>
      simp only [] at h1 h2
      subst h2
      have i := integral_of h1
      have c := steps_common h3
      have hc : completePointer (.pointer _) = true := completePointer_iff.2 ⟨_, rfl, c⟩
      simp only [addition, not_completePointer (integral_arithmetic i), hc, i]; rfl
    | difference h1 h2 h3 h4 h5 =>
      simp only [] at h1 h2
      subst h1 h2
      simp only [subtraction, unq_eq, steps_common h3, steps_common h4, compatible_common h5]; rfl
    | order ho h1 h2 =>
      simp only [] at h1 h2
      have a1 := (arithmetic_iff _).2 h1
      have a2 := (arithmetic_iff _).2 h2
      have : relational s t = some .int := by
        cases s with
        | pointer _ => cases a1
        | _ => simp only [relational, a1, a2]; rfl
      rcases ho with rfl | rfl | rfl | rfl <;> exact this
    | orderPointers ho h1 h2 h3 h4 =>
      simp only [] at h1 h2
      subst h1 h2
      have : ∀ {p q : Ty}, common.compatible (unqualified p) (unqualified q) →
          relational (.pointer p) (.pointer q) = some .int := by
        intro p q h3
        simp only [relational, unq_eq, compatible_common h3]; rfl
      rcases ho with rfl | rfl | rfl | rfl <;> exact this h3
    | equal ho h1 h2 =>
      simp only [] at h1 h2
      have a1 := (arithmetic_iff _).2 h1
      have a2 := (arithmetic_iff _).2 h2
      rcases ho with rfl | rfl <;> simp only [equality, a1, a2] <;> rfl
    | equalPointers ho h1 h2 h3 =>
      simp only [] at h1 h2
      subst h1 h2
      rcases ho with rfl | rfl <;> simp only [equality, pointer_arithmetic, unq_eq, compatible_common h3] <;> rfl
    | equalVoid ho h1 h2 h3 =>
      simp only [] at h1 h2
      subst h1 h2
      rcases ho with rfl | rfl <;> exact equality_void (voidAnd_or h3)
    | equalNull ho h1 h2 =>
      obtain ⟨c, hc⟩ := (isPointer_iff _).1 h1
      simp only [] at hc
      rw [hc, ht]
      rcases ho with rfl | rfl <;> exact equality_null _ h2 hy hb
    | nullEqual ho h1 h2 =>
      obtain ⟨c, hc⟩ := (isPointer_iff _).1 h2
      simp only [] at hc
      rw [hc, hs]
      rcases ho with rfl | rfl <;> exact null_equality _ h1 hx ha
    | equalInteger k => exact absurd k (common_has _)
    | integerEqual k => exact absurd k (common_has _)
    | logical ho h1 h2 =>
      simp only [] at h1 h2
      rcases ho with rfl | rfl <;> simp only [(scalar_iff _).2 h1, (scalar_iff _).2 h2] <;> rfl
  · rw [hx.const k.1, hy.const k.2]; rfl

theorem compound_common {Γ : Env} {op : AssignOp} {s t : Ty} (h : AssignOpRule common Γ op s t) :
    compound op s t = true := by
  cases h with
  | arith ho h1 h2 =>
    have a1 := (arithmetic_iff _).2 h1
    have a2 := (arithmetic_iff _).2 h2
    have : compoundAdd s t = true := by
      cases s with
      | pointer _ => cases a1
      | _ => simp only [compoundAdd, a1, a2]; rfl
    rcases ho with rfl | rfl | rfl | rfl <;> first | exact this | (simp only [compound, a1, a2]; rfl)
  | integer h1 h2 h3 h4 h5 h6 =>
    cases op <;> first | contradiction | (simp only [compound, integral_of h5, integral_of h6]; rfl)
  | pointer ho h1 h2 =>
    have c := steps_common h1
    rcases ho with rfl | rfl <;> simp only [compound, compoundAdd, unq_eq, c, integral_of h2] <;> rfl

theorem castOperator_common {t s : Ty} {x x' d : Desc} (h : CastRule common t s) (hs : s = conv x.type)
    (hd : Value d (unqualified t) (x.const = true)) (hl : x.Le x') : ∃ d', castOperator t x' = some d' ∧ d.Le d' := by
  refine ⟨value (unqualified t) x'.const, ?_, value_le hd hl.const⟩
  have nf : ∀ {u : Ty}, isPointer u = true → floating u = false := by
    intro u hu; cases u <;> first | rfl | cases hu
  have ni : ∀ {u : Ty} {b : Basic}, IsInteger u b → floating u = false := by
    intro u b hu
    rw [← Bool.not_eq_true, floating_iff]
    rintro ⟨c, rfl, hc⟩
    obtain ⟨h1, h2⟩ := hu
    cases h1
    rw [hc] at h2; cases h2
  have np : ∀ {u : Ty}, asArith u ≠ none → pointerTag u = false := by
    intro u hu; cases u with
    | pointer _ => exact absurd rfl hu
    | _ => rfl
  have si : ∀ {u : Ty} {b : Basic}, IsInteger u b → scalar u = true :=
    fun hu => (scalar_iff _).2 (.inl (by rw [hu.1]; simp))
  have sp : ∀ {u : Ty}, isPointer u = true → scalar u = true := fun hu => (scalar_iff _).2 (.inr hu)
  have sa : ∀ {u : Ty}, asArith u ≠ none → scalar u = true := fun hu => (scalar_iff _).2 (.inl hu)
  unfold castOperator
  simp only [hl.type, ← hs, unq_eq]
  cases h with
  | void => simp [unqualified, floating, pointerTag, voidTag]
  | qualifiedVoid k => exact absurd k (common_has _)
  | arith h1 h2 => rw [sa h1, sa h2, np h1, np h2]; simp
  | toPointer h1 h2 => rw [sp h1, si h2, ni h2, nf h1]; simp
  | fromPointer h1 h2 => rw [si h1, sp h2, ni h1, nf h2]; simp
  | pointers h1 h2 => rw [sp h1, sp h2, nf h1, nf h2]; simp

theorem record_not {t : Ty} (h : isRecord t = true) : arithmetic t = false := by
  cases t <;> first | rfl | cases h

theorem pointer_integral {t : Ty} (h : isPointer t = true) : integral t = false := by
  cases t <;> first | rfl | cases h

theorem conditionalType_common {Γ : Env} {a b : Expr} {x y x' y' : Desc} {s t r : Ty}
    (h : CondRule common Γ ⟨a, x, s⟩ ⟨b, y, t⟩ r) (hs : s = conv x.type) (ht : t = conv y.type) (hx : x.Le x')
    (hy : y.Le y') (ha : analyze Γ a = some x') (hb : analyze Γ b = some y') :
    conditionalType Γ a x' b y' = some r := by
  have pointerR : ∀ {p : Ty}, isPointer p = true → recordTag p = false := by
    intro p hp; cases p <;> first | rfl | cases hp
  have pointerV : ∀ {p : Ty}, isPointer p = true → voidTag p = false := by
    intro p hp; cases p <;> first | rfl | cases hp
  have pointerA : ∀ {p : Ty}, isPointer p = true → arithmetic p = false := by
    intro p hp; cases p <;> first | rfl | cases hp
  unfold conditionalType
  simp only [hx.type, hy.type, ← hs, ← ht, hx.bits, hy.bits]
  cases h with
  | arith h1 h2 h3 =>
    simp only [] at h1 h2 h3
    rw [arithmetic_of h1, arithmetic_of h2, commonType_common h1 h2 h3]
    rfl
  | record h1 h2 h3 =>
    simp only [] at h1 h2 h3
    rw [record_not h1, recordTag_eq, recordTag_eq, h1, h2, (both h3).2]
    rfl
  | void h1 h2 =>
    simp only [] at h1 h2
    subst h1 h2
    rfl
  | nullRight h1 h2 h3 =>
    simp only [] at h1 h2 h3
    obtain ⟨k, hk⟩ := isNull_some x' (h2 ⟨rfl, rfl⟩)
    have hn := null_common h3 hy hb
    rw [pointerA h1, pointerR h1, pointerV h1, pointerTag_eq, h1, hk, hn]
    rfl
  | nullLeft h1 h2 h3 =>
    simp only [] at h1 h2 h3
    obtain ⟨k, hk⟩ := isNull_some y' (h3 ⟨rfl, rfl⟩)
    have hn := null_common h1 hx ha
    rw [pointerA h2, pointerR h2, pointerV h2, hk, hn]
    simp only [Bool.and_false, Bool.false_and, Bool.false_eq_true, if_false, Option.bind_eq_bind, Option.bind_some,
      pointerTag_eq, h2, Bool.and_true]
    split
    · rename_i hp
      rw [Bool.and_eq_true] at hp
      obtain ⟨hp, rfl⟩ := hp
      have k1 := (isNull_iff.1 hn).2.1
      have k2 := (isNull_iff.1 hk).2.1
      rw [hx.type] at k1
      rw [hy.type] at k2
      congr 1
      rw [hs] at hp ⊢
      rw [ht] at h2 ⊢
      rcases k1 with k1 | k1
      · rw [conv_integral k1] at hp
        rw [pointer_integral hp] at k1; cases k1
      · rcases k2 with k2 | k2
        · rw [conv_integral k2] at h2
          rw [pointer_integral h2] at k2; cases k2
        · rw [k1, k2]
    · rfl
  | pointers h1 h2 h3 h4 h5 h6 h7 h8 =>
    simp only [] at h1 h2 h3 h4
    subst h1 h2
    obtain ⟨a1, a2, a3⟩ := h3.2 ⟨rfl, rfl⟩
    obtain ⟨b1, b2, b3⟩ := h4.2 ⟨rfl, rfl⟩
    rw [isNull_false x' a1 a2 a3, isNull_false y' b1 b2 b3]
    have v1 := (voidTag_false _).2 h6
    have v2 := (voidTag_false _).2 h7
    simp only [pointer_arithmetic, recordTag, pointerTag, Option.bind_eq_bind, Option.bind_some,
      conditionalPointers, retrieve_eq, merge_eq, unq_eq, qualifiedType_eq, v1, v2, compatible_common h5, (both h8).2]
    rfl
  | voidPointer h1 h2 h3 h4 h5 =>
    simp only [] at h1 h2 h3 h4
    subst h1 h2
    obtain ⟨a1, a2, a3⟩ := h3.2 ⟨rfl, rfl⟩
    obtain ⟨b1, b2, b3⟩ := h4.2 ⟨rfl, rfl⟩
    rw [isNull_false x' a1 a2 a3, isNull_false y' b1 b2 b3]
    rename_i p q
    have v : (voidTag (unqualified p) || voidTag (unqualified q)) = true := by
      rw [Bool.or_eq_true, voidTag_iff, voidTag_iff]; exact voidAnd_or h5
    simp only [pointer_arithmetic, recordTag, pointerTag, Option.bind_eq_bind, Option.bind_some,
      conditionalPointers, retrieve_eq, merge_eq, unq_eq, qualifiedType_eq, v]
    rfl

theorem conditional_common {Γ : Env} {a b : Expr} {z x y z' x' y' d : Desc} {q s t r : Ty}
    (hq : q = conv z.type) (hc : Scalar q) (h : CondRule common Γ ⟨a, x, s⟩ ⟨b, y, t⟩ r) (hs : s = conv x.type)
    (ht : t = conv y.type) (hd : Value d r (z.const = true ∧ x.const = true ∧ y.const = true)) (hz : z.Le z')
    (hx : x.Le x') (hy : y.Le y') (ha : analyze Γ a = some x') (hb : analyze Γ b = some y') :
    ∃ d', conditional Γ z' a x' b y' = some d' ∧ d.Le d' := by
  refine ⟨value r (z'.const && x'.const && y'.const), ?_, value_le hd fun k => ?_⟩
  · unfold conditional
    rw [hz.type, ← hq, (scalar_iff _).2 hc, conditionalType_common h hs ht hx hy ha hb]
    rfl
  · rw [hz.const k.1, hx.const k.2.1, hy.const k.2.2]; rfl

theorem staticPart_le {x x' : Desc} (hl : x.Le x') (h : StaticPart x) : StaticPart x' := by
  unfold StaticPart at h ⊢
  rw [hl.type]
  split at h
  · exact hl.static h
  · exact hl.const h

theorem staticPart_array {x : Desc} (h : StaticPart x) (ha : arrayTag (unq x.type) = true) : x.static = true := by
  unfold StaticPart at h
  rw [unq_eq] at ha
  split at h
  · exact h
  · rename_i k
    obtain ⟨b, qs, e, he⟩ := (arrayTag_iff _).1 ha
    exact absurd he (k _ _ _)

theorem staticPart_const {x : Desc} (h : StaticPart x) (ha : arrayTag (unq x.type) = false) : x.const = true := by
  unfold StaticPart at h
  rw [unq_eq] at ha
  split at h
  · rename_i k; rw [k] at ha; cases ha
  · exact h

theorem pointer_not_array {t : Ty} (h : pointerTag t = true) : arrayTag t = false := by
  cases t <;> first | rfl | cases h

theorem subscriptConstant_common {x y : Desc} (hx : StaticPart x) (hy : StaticPart y)
    (hi : integral (conv x.type) = true ∨ integral (conv y.type) = true) : subscriptConstant x y = true := by
  unfold subscriptConstant
  split
  · rename_i h
    have : arrayTag (unq y.type) = false := by
      rcases hi with hi | hi
      · rw [integral_array hi] at h; cases h
      · exact integral_array hi
    rw [staticPart_array hx h, staticPart_const hy this]; rfl
  · rename_i h
    have cx := staticPart_const hx (by simpa using h)
    split
    · rename_i hp
      have : arrayTag (unq y.type) = false := by
        rcases hi with hi | hi
        · exfalso
          rw [pointerTag_eq, isPointer_iff] at hp
          obtain ⟨a, ha⟩ := hp
          unfold conv at hi
          rw [ha] at hi
          cases hi
        · exact integral_array hi
      rw [cx, staticPart_const hy this]; rfl
    · split
      · rename_i h'
        rw [cx, staticPart_array hy h']; rfl
      · rename_i h'
        rw [cx, staticPart_const hy (by simpa using h')]; rfl

theorem subscript_common {x y x' y' d : Desc}
    (h : conv x.type = .pointer d.type ∧ (∃ i, IsInteger (conv y.type) i) ∨
      (∃ i, IsInteger (conv x.type) i) ∧ conv y.type = .pointer d.type)
    (hb : d.bits = none) (hs : d.static = true → StaticPart x ∧ StaticPart y) (hc : d.const = false) (hx : x.Le x')
    (hy : y.Le y') : ∃ d', subscript x' y' = some d' ∧ d.Le d' := by
  have hi : integral (conv x.type) = true ∨ integral (conv y.type) = true :=
    (h.imp (fun k => (integral_iff _).2 k.2) (fun k => (integral_iff _).2 k.1)).symm
  refine ⟨⟨d.type, true, true, false, subscriptConstant x' y', none⟩, ?_, rfl, hb.symm, fun _ => rfl, fun _ => rfl,
    fun k => (by rw [hc] at k; cases k), fun k => ?_⟩
  · unfold subscript
    rw [hx.type, hy.type]
    rcases h with ⟨h1, h2⟩ | ⟨h1, h2⟩
    · have h2 := (integral_iff _).2 h2
      simp only [h1, h2]; rfl
    · have h1 := (integral_iff _).2 h1
      rw [h2]
      cases hq : conv x.type with
      | pointer _ => rw [hq] at h1; cases h1
      | _ => rw [hq] at h1; simp only [h1]; rfl
  · exact subscriptConstant_common (staticPart_le hx (hs k).1) (staticPart_le hy (hs k).2)
      (by rw [hx.type, hy.type]; exact hi)

/-! ### Calls -/

/-- The analysed arguments. -/
inductive Analysed (Γ : Env) : List Operand → List Desc → Prop
  | nil : Analysed Γ [] []
  | cons : t = conv x.type → x.Le x' → analyze Γ e = some x' → Analysed Γ xs ds →
      Analysed Γ (⟨e, x, t⟩ :: xs) (x' :: ds)

theorem arguments_common {Γ : Env} {ps : TyList} {more : Bool} {xs : List Operand} (h : ArgsRule common Γ ps more xs) :
    ∀ {ds : List Desc} (first : Bool), Analysed Γ xs ds → arguments first more ps ds = true := by
  induction h with
  | done h1 h2 =>
    intro ds first ha
    cases ha with
    | nil => rfl
    | cons _ _ _ _ =>
      simp only [arguments]
      refine Decidable.byContradiction fun k => ?_
      cases h2 (by simpa using k)
  | next h1 h2 _ ih =>
    intro ds first ha
    cases ha with
    | cons k1 k2 k3 k4 =>
      have hp := (both h1).2
      subst hp
      simp only [arguments, assignable_common h2 k1 k2 k3, ih false k4]
      rfl

theorem parameters_common {Γ : Env} {ps : Params} {more : Bool} {xs : List Operand} {ds : List Desc}
    (h : CallRule common Γ ps more xs) (ha : Analysed Γ xs ds) : parameters ps more ds = true := by
  cases h with
  | types h => exact arguments_common h true ha
  | noParameters => cases ha; rfl
  | empty _ => rfl
  | ids _ => rfl

theorem functionCall_common {Γ : Env} {x x' d : Desc} {r : Ty} {ps : Params} {more : Bool} {xs : List Operand}
    {ds : List Desc} (hf : conv x.type = .pointer (.func r ps more)) (h : CallRule common Γ ps more xs)
    (hr : isArray (unqualified r) = false) (hd : Value d (unqualified r) False) (hx : x.Le x')
    (ha : Analysed Γ xs ds) : ∃ d', functionCall x' ds = some d' ∧ d.Le d' := by
  refine ⟨value (unqualified r) false, ?_, value_le hd (fun k => k.elim)⟩
  have har : arrayTag (unqualified r) = false := by
    generalize unqualified r = u at hr
    cases u <;> first | rfl | cases hr
  simp only [functionCall, hx.type, hf, parameters_common h ha, unq_eq, har]
  rfl

/-! ### Members -/

mutual
theorem resolveAnonymous_sound (x : String) : ∀ (fs : Fields), SoundFields fs → resolveAnonymous x fs ≠ none
  | .nil, _ => by simp [resolveAnonymous]
  | .cons (some _) _ _ _ rest, h => by
    simp only [resolveAnonymous]
    exact resolveAnonymous_sound x rest h.2
  | .cons none _ _ u rest, h => by
    have h1 := resolveType_sound x u (h.1 rfl)
    have h2 := resolveAnonymous_sound x rest h.2
    simp only [resolveAnonymous]
    split
    · simp
    · exact h2
    · contradiction
theorem resolveType_sound (x : String) : ∀ (u : Ty), SoundAnonymous u → resolveType x u ≠ none
  | .struct _ .incomplete, h => h.elim
  | .union _ .incomplete, h => h.elim
  | .struct _ (.complete fs), h => by
    have := resolveAnonymous_sound x fs h
    simp only [resolveType, resolveBody]
    split
    · simp
    · exact this
  | .union _ (.complete fs), h => by
    have := resolveAnonymous_sound x fs h
    simp only [resolveType, resolveBody]
    split
    · simp
    · exact this
  | .prim _, _ => by simp [resolveType]
  | .pointer _, _ => by simp [resolveType]
  | .qualified .., _ => by simp [resolveType]
  | .array .., _ => by simp [resolveType]
  | .enum .., _ => by simp [resolveType]
  | .func .., _ => by simp [resolveType]
end

theorem resolveBody_complete {x : String} {fs : Fields} : resolveBody x (.complete fs) =
    match fieldIndex x fs with
    | some r => some (some r)
    | none => resolveAnonymous x fs := by
  simp only [resolveBody]
  rfl

theorem resolve_found {fs : Fields} {x : String} {t : Ty} {w : Option Int} (h : Member common fs x t w) :
    SoundFields fs → resolveBody x (.complete fs) ≠ some none := by
  have anon : ∀ {u : Ty} {al : Nat} {w' : Option Int} {rest : Fields}, SoundAnonymous u → resolveType x u ≠ some none →
      resolveBody x (.complete (.cons none al w' u rest)) ≠ some none := by
    intro u al w' rest hs hn
    have hs := resolveType_sound x u hs
    rw [resolveBody_complete]
    simp only [fieldIndex, reduceCtorEq, if_false, resolveAnonymous]
    split
    · simp
    · split
      · simp
      · contradiction
      · contradiction
  induction h with
  | here =>
    intro _
    rw [resolveBody_complete]
    simp [fieldIndex]
  | later h ih =>
    intro hs
    have ih := ih anon hs.2
    rw [resolveBody_complete] at ih ⊢
    rename_i n _ _ t' _
    simp only [fieldIndex]
    split
    · simp
    · rename_i hf
      split at hf
      · cases hf
      · rw [hf] at ih
        cases n with
        | some n => simpa only [resolveAnonymous] using ih
        | none =>
          have hk := fun y => resolveType_sound y t' (hs.1 rfl)
          simp only [resolveAnonymous]
          split
          · simp
          · exact ih
          · rename_i k; exact absurd k (hk _)
  | struct h ih =>
    intro hs
    exact anon (hs.1 rfl) (ih anon (hs.1 rfl))
  | union h ih =>
    intro hs
    exact anon (hs.1 rfl) (ih anon (hs.1 rfl))
  | qualifiedStruct k => exact absurd k (common_has _)
  | qualifiedUnion k => exact absurd k (common_has _)

theorem resolveBody_common {fs : Fields} {x : String} {t : Ty} {w : Option Int} (h : MemberRule common fs x t w) :
    resolveBody x (.complete fs) = some (some (t, w)) := by
  obtain ⟨hm, hs, hu⟩ := (⟨h.1, no h.2⟩ : _ ∧ _ ∧ _)
  have h1 := resolve_found hm hs
  have h2 := resolveAnonymous_sound x fs hs
  rw [resolveBody_complete] at h1 ⊢
  split
  · rename_i r hr
    obtain ⟨rt, rw'⟩ := r
    obtain ⟨rfl, rfl⟩ := hu _ _ (fieldIndex_member hr)
    rfl
  · rename_i hf
    rw [hf] at h1
    simp only [] at h1
    cases hr : resolveAnonymous x fs with
    | none => exact absurd hr h2
    | some r =>
      cases r with
      | none => exact absurd hr h1
      | some r =>
        obtain ⟨rt, rw'⟩ := r
        obtain ⟨rfl, rfl⟩ := hu _ _ (resolveAnonymous_member fs hr)
        rfl

theorem fill_record {Γ : Env} {u : Ty} (h : recordTag (Γ.fill u) = true) : recordTag u = true := by
  cases u with
  | struct _ _ => rfl
  | union _ _ => rfl
  | qualified q t =>
    exfalso
    simp only [Env.fill, withQuals] at h
    cases hq : qualOf (Γ.fill t) <;> rw [hq] at h <;> cases h
  | _ => simp [Env.fill, recordTag] at h

theorem members_record {Γ : Env} {u : Ty} {fs : Fields} (h : Γ.members u = some fs) : recordTag u = true := by
  refine fill_record (Γ := Γ) ?_
  unfold Env.members at h
  split at h
  · rename_i k; rw [k]; rfl
  · rename_i k; rw [k]; rfl
  · cases h

theorem memberOf_common {Γ : Env} {s t : Ty} {f : String} {st : Bool} {fs : Fields} {w : Option Int} {d : Desc}
    (hf : Γ.members (unqualified s) = some fs) (hm : MemberRule common fs f t w)
    (ht : MemberType common (qualOf s) (Γ.fill t) d.type) (hb : d.bits = w.map Int.toNat)
    (ha : d.addressable = true → w = none) (hs : d.static = true → st = true) (hc : d.const = false) :
    ∃ d', memberOf Γ s f st = some d' ∧ d.Le d' := by
  have hr := members_record hf
  have hq : qualifiedType (completion Γ t) (retrieve s) = d.type := by
    rw [retrieve_eq, qualifiedType_eq, completion_eq]
    revert ht
    generalize qualOf s = q
    generalize Γ.fill t = u
    generalize d.type = v
    intro ht
    cases ht with
    | unqualified => exact withQuals_none _
    | qualified _ => rfl
    | array k => exact absurd k (common_has _)
    | lost k => exact absurd k (common_has _)
  refine ⟨⟨d.type, true, w.isNone, false, st, w.map Int.toNat⟩, ?_, rfl, hb.symm, fun _ => rfl, fun k => ?_, fun k => ?_, hs⟩
  · unfold memberOf
    rw [unq_eq, hr, completion_eq]
    unfold Env.members at hf
    split at hf
    · rename_i k
      cases hf
      rw [k]
      simp only [if_true, memberIn, resolveBody_common hm, hq]
    · rename_i k
      cases hf
      rw [k]
      simp only [if_true, memberIn, resolveBody_common hm, hq]
    · cases hf
  · rw [ha k]; rfl
  · rw [hc] at k; cases k

/-! ### Generic selections -/

/-- The analysed associations. -/
inductive AnalysedAssocs : List (Ty × Desc) → List (Ty × Desc) → Prop
  | nil : AnalysedAssocs [] []
  | cons : x.Le x' → AnalysedAssocs xs ds → AnalysedAssocs ((t, x) :: xs) ((t, x') :: ds)

theorem select_matching {c t : Ty} {d : Desc} {post : List (Ty × Desc)} (hc : compat c t = some true) :
    ∀ (pre : List (Ty × Desc)) {ds : List (Ty × Desc)}, (∀ a ∈ pre, common.incompatible c a.1) →
      AnalysedAssocs (pre ++ (t, d) :: post) ds → ∃ d', selectAssoc c ds = some (some d') ∧ d.Le d'
  | [], ds, _, h => by
    cases h with
    | cons hl _ => exact ⟨_, by simp only [selectAssoc, hc], hl⟩
  | (u, x) :: pre, ds, hp, h => by
    cases h with
    | cons hl ha =>
      obtain ⟨d', h1, h2⟩ := select_matching hc pre (fun a k => hp a (.tail _ k)) ha
      have := (both (hp _ (.head _))).2
      exact ⟨d', by simp only [selectAssoc, this, h1], h2⟩

theorem select_default {c : Ty} : ∀ {as ds : List (Ty × Desc)}, (∀ a ∈ as, common.incompatible c a.1) →
    AnalysedAssocs as ds → selectAssoc c ds = some none
  | [], ds, _, h => by cases h; rfl
  | (u, x) :: as, ds, hp, h => by
    cases h with
    | cons hl ha =>
      have := (both (hp _ (.head _))).2
      simp only [selectAssoc, this, select_default (fun a k => hp a (.tail _ k)) ha]

/-! ### Other expressions -/

theorem identifier_common {en : Entity} {d : Desc} (h : IdentRule en d) : d.Le (identifier en) := by
  cases h with
  | object h1 h2 h3 h4 h5 h6 =>
    refine ⟨h1.symm, h2.symm, fun k => ?_, fun k => ?_, fun k => ?_, h5⟩
    · simp only [identifier]
      rw [Bool.not_eq_true', ← Bool.not_eq_true, arrayTag_iff]
      rintro ⟨b, qs, e, he⟩
      exact h3 k b qs e he
    · simp only [identifier, h4 k]; rfl
    · obtain ⟨h7, h8⟩ := h6 k
      simp only [identifier, h7, (arrayTag_iff _).2 h8]; rfl
  | function h1 h2 h3 =>
    exact ⟨h1.symm, h2.symm, fun k => (by rw [h3] at k; cases k), fun _ => rfl, fun _ => rfl, fun _ => rfl⟩
  | enumConst h => exact value_le h fun _ => rfl

theorem sizeRule_common {Γ : Env} {t : Ty} (h : SizeRule common Γ t) :
    (functionTag t || isIncomplete (completion Γ t)) = false := by
  obtain ⟨h1, h2⟩ := h
  rw [completion_eq, (isIncomplete_false _).2 h2, functionTag_eq, Bool.or_false]
  rcases h1 with h1 | h1
  · cases t <;> first | rfl | (simp [unqualified, isFunction] at h1)
  · exact h1.1

theorem sizeOf_common {Γ : Env} {t : Ty} {w : Option Nat} {d : Desc} (hw : w = none) (h : SizeRule common Γ t)
    (hd : Value d (.arith common.size) (isVariable (Γ.fill t) = false)) :
    ∃ d', Model.sizeOf Γ t w = some d' ∧ d.Le d' := by
  subst hw
  refine ⟨value .int (!isVla (completion Γ t)), ?_, value_le hd fun k => ?_⟩
  · unfold Model.sizeOf
    simp only [Option.isSome_none, Bool.false_or, sizeRule_common h]
    rfl
  · rw [completion_eq, isVla_eq, k]; rfl

theorem alignOf_common {Γ : Env} {t : Ty} {d : Desc} (h : SizeRule common Γ t)
    (hd : Value d (.arith common.size) True) : ∃ d', alignOf Γ t = some d' ∧ d.Le d' := by
  refine ⟨value .int true, ?_, value_le hd fun k => rfl⟩
  unfold alignOf
  rw [sizeRule_common h]
  rfl

mutual
theorem analyze_complete (Γ : Env) : ∀ (e : Expr) (d : Desc), Typed common Γ e d →
    ∃ d', analyze Γ e = some d' ∧ d.Le d'
  | .ident x, d, h => by
    simp only [Typed] at h
    obtain ⟨en, h1, h2⟩ := h
    exact ⟨_, by simp only [analyze, h1, Option.map_some], identifier_common h2⟩
  | .const b v, d, h => by
    simp only [Typed] at h
    exact ⟨_, by simp only [analyze], value_le h fun _ => rfl⟩
  | .str b n, d, h => by
    simp only [Typed] at h
    obtain ⟨h1, h2, h3, h4, h5⟩ := h
    refine ⟨stringLiteral b n, by simp only [analyze], h1.symm, h2.symm, fun k => ?_, fun k => ?_, fun _ => rfl, fun k => ?_⟩
    · rw [h3] at k; cases k
    · exact absurd (h4 k) (common_has _)
    · rw [h5] at k; cases k
  | .un op e, d, h => by
    simp only [Typed] at h
    obtain ⟨x, t, hx, ht, r, hr, hd⟩ := h
    obtain ⟨x', ha, hl⟩ := analyze_complete Γ e x hx
    simp only [analyze, ha, Option.bind_some]
    exact unary_common hr (conv_common ht) hd hl
  | .incdec op e, d, h => by
    simp only [Typed] at h
    obtain ⟨x, hx, hm, hs, hd⟩ := h
    obtain ⟨x', ha, hl⟩ := analyze_complete Γ e x hx
    simp only [analyze, ha, Option.bind_some]
    exact incDec_common hm hs hd hl
  | .addr e, d, h => by
    simp only [Typed] at h
    obtain ⟨x, hx, hm, hd⟩ := h
    obtain ⟨x', ha, hl⟩ := analyze_complete Γ e x hx
    simp only [analyze, ha, Option.bind_some, addressOf, hl.addressable hm, if_true, hl.type]
    exact ⟨_, rfl, value_le hd hl.static⟩
  | .deref e, d, h => by
    simp only [Typed] at h
    obtain ⟨x, hx, ht, h1, h2, h3, h4⟩ := h
    obtain ⟨x', ha, hl⟩ := analyze_complete Γ e x hx
    simp only [analyze, ha, Option.bind_some, indirection, hl.type, ← conv_common ht]
    refine ⟨_, rfl, rfl, h1.symm, fun k => ?_, fun _ => rfl, fun k => ?_, fun k => ?_⟩
    · rw [functionTag_eq, h2 k]; rfl
    · rw [h4] at k; cases k
    · rw [h3] at k; cases k
  | .sizeofExpr e, d, h => by
    simp only [Typed] at h
    obtain ⟨x, hx, h1, h2, h3⟩ := h
    obtain ⟨x', ha, hl⟩ := analyze_complete Γ e x hx
    simp only [analyze, ha, Option.bind_some, hl.type, hl.bits]
    exact sizeOf_common h1 h2 h3
  | .sizeofType t, d, h => by
    simp only [Typed] at h
    simp only [analyze]
    exact sizeOf_common rfl h.1 h.2
  | .alignofType t, d, h => by
    simp only [Typed] at h
    simp only [analyze]
    exact alignOf_common h.1 h.2
  | .bin op a b, d, h => by
    simp only [Typed] at h
    obtain ⟨x, s, y, t, hx, hs, hy, ht, r, hr, hd⟩ := h
    obtain ⟨x', ha, hl⟩ := analyze_complete Γ a x hx
    obtain ⟨y', hb, hm⟩ := analyze_complete Γ b y hy
    simp only [analyze, ha, hb, Option.bind_some]
    exact binary_common hr (conv_common hs) (conv_common ht) hd hl hm ha hb
  | .assign a b, d, h => by
    simp only [Typed] at h
    obtain ⟨x, s, y, t, hx, hs, hy, ht, h1, h2, hd⟩ := h
    obtain ⟨x', ha, hl⟩ := analyze_complete Γ a x hx
    obtain ⟨y', hb, hm⟩ := analyze_complete Γ b y hy
    have hs := conv_common hs
    have h3 := assignable_common h2 (conv_common ht) hm hb
    rw [hs] at h3 hd
    simp only [analyze, ha, hb, Option.bind_some, assignment, assignTarget_common h1 hl, hl.type, h3]
    exact ⟨_, rfl, value_le hd fun k => k.elim⟩
  | .assignOp op a b, d, h => by
    simp only [Typed] at h
    obtain ⟨x, s, y, t, hx, hs, hy, ht, h1, h2, hd⟩ := h
    obtain ⟨x', ha, hl⟩ := analyze_complete Γ a x hx
    obtain ⟨y', hb, hm⟩ := analyze_complete Γ b y hy
    have h3 := compound_common h2
    rw [conv_common hs, conv_common ht] at h3
    rw [conv_common hs] at hd
    simp only [analyze, ha, hb, Option.bind_some, compoundAssignment, assignTarget_common h1 hl, hl.type, hm.type, h3]
    exact ⟨_, rfl, value_le hd fun k => k.elim⟩
  | .cast t e, d, h => by
    simp only [Typed] at h
    obtain ⟨x, s, hx, hs, h1, hd⟩ := h
    obtain ⟨x', ha, hl⟩ := analyze_complete Γ e x hx
    simp only [analyze, ha, Option.bind_some]
    exact castOperator_common h1 (conv_common hs) hd hl
  | .cond c a b, d, h => by
    simp only [Typed] at h
    obtain ⟨z, r, x, s, y, t, hz, hr, h1, hx, hs, hy, ht, u, h2, hd⟩ := h
    obtain ⟨z', hc, hn⟩ := analyze_complete Γ c z hz
    obtain ⟨x', ha, hl⟩ := analyze_complete Γ a x hx
    obtain ⟨y', hb, hm⟩ := analyze_complete Γ b y hy
    simp only [analyze, hc, ha, hb, Option.bind_some]
    exact conditional_common (conv_common hr) h1 h2 (conv_common hs) (conv_common ht) hd hn hl hm ha hb
  | .comma a b, d, h => by
    simp only [Typed] at h
    obtain ⟨x, y, t, hx, hy, ht, hd⟩ := h
    obtain ⟨x', ha, hl⟩ := analyze_complete Γ a x hx
    obtain ⟨y', hb, hm⟩ := analyze_complete Γ b y hy
    rw [conv_common ht] at hd
    simp only [analyze, ha, hb, Option.bind_some, hm.type]
    exact ⟨_, rfl, value_le hd fun k => k.elim⟩
  | .index a b, d, h => by
    simp only [Typed] at h
    obtain ⟨x, s, y, t, hx, hs, hy, ht, h1, _, h2, h3, h4⟩ := h
    obtain ⟨x', ha, hl⟩ := analyze_complete Γ a x hx
    obtain ⟨y', hb, hm⟩ := analyze_complete Γ b y hy
    rw [conv_common hs, conv_common ht] at h1
    simp only [analyze, ha, hb, Option.bind_some]
    exact subscript_common h1 h2 h3 h4 hl hm
  | .call f args, d, h => by
    simp only [Typed] at h
    obtain ⟨x, r, ps, more, xs, hx, hf, hxs, h1, h2, _, hd⟩ := h
    obtain ⟨x', ha, hl⟩ := analyze_complete Γ f x hx
    obtain ⟨ds, hb, hm⟩ := analyzeArgs_complete Γ args xs hxs
    simp only [analyze, ha, hb, Option.bind_some]
    exact functionCall_common (conv_common hf).symm h1 (h2.resolve_right fun k => common_has _ k.2) hd hl hm
  | .dot e f, d, h => by
    simp only [Typed] at h
    obtain ⟨x, fs, t, w, hx, h1, h2, h3, h4, _, h5, h6, h7⟩ := h
    obtain ⟨x', ha, hl⟩ := analyze_complete Γ e x hx
    simp only [analyze, ha, Option.bind_some, structMember, hl.type]
    exact memberOf_common h1 h2 h3 h4 (fun k => (h5 k).1) (fun k => hl.static (h6 k)) h7
  | .arrow e f, d, h => by
    simp only [Typed] at h
    obtain ⟨x, s, fs, t, w, hx, hs, h1, h2, h3, h4, h5, h6, h7⟩ := h
    obtain ⟨x', ha, hl⟩ := analyze_complete Γ e x hx
    simp only [analyze, ha, Option.bind_some, indirectMember, hl.type, ← conv_common hs]
    exact memberOf_common h1 h2 h3 h4 h5 (fun k => hl.const (h6 k)) h7
  | .generic c as dflt, d, h => by
    simp only [Typed] at h
    obtain ⟨x, s, ds, r, hx, hs, hds, _, hr, d1, hg, hd⟩ := h
    obtain ⟨x', ha, hl⟩ := analyze_complete Γ c x hx
    obtain ⟨es, hb, hm⟩ := analyzeAssocs_complete Γ as ds hds
    have hr := hr.resolve_right fun k => common_has _ k.1
    have drop : ∀ {u v : Desc}, u.Le v → ({ u with static := false } : Desc).Le { v with static := false } :=
      fun k => ⟨k.type, k.bits, k.lvalue, k.addressable, k.const, id⟩
    subst hd
    rw [conv_common hs] at hg
    cases hg with
    | matching pre h1 h2 h3 =>
      obtain ⟨d', h4, h5⟩ := select_matching (compatible_common h2) pre h1 hm
      exact ⟨_, by simp only [analyze, ha, hb, Option.bind_some, hl.type, h4], drop h5⟩
    | default h1 =>
      have h4 := select_default h1 hm
      obtain ⟨d', h5, h6⟩ := analyzeDflt_complete Γ dflt _ hr
      exact ⟨_, by simp only [analyze, ha, hb, Option.bind_some, hl.type, h4, h5, Option.map_some], drop h6⟩
theorem analyzeArgs_complete (Γ : Env) : ∀ (as : Args) (xs : List Operand), TypedArgs common Γ as xs →
    ∃ ds, analyzeArgs Γ as = some ds ∧ Analysed Γ xs ds
  | .nil, xs, h => by
    simp only [TypedArgs] at h
    subst h
    exact ⟨[], by simp only [analyzeArgs], .nil⟩
  | .cons e rest, xs, h => by
    simp only [TypedArgs] at h
    obtain ⟨x, t, ys, hx, ht, hy, rfl⟩ := h
    obtain ⟨x', ha, hl⟩ := analyze_complete Γ e x hx
    obtain ⟨ds, hb, hm⟩ := analyzeArgs_complete Γ rest ys hy
    exact ⟨_, by simp only [analyzeArgs, ha, hb, Option.bind_some], .cons (conv_common ht) hl ha hm⟩
theorem analyzeAssocs_complete (Γ : Env) : ∀ (as : Assocs) (xs : List (Ty × Desc)), TypedAssocs common Γ as xs →
    ∃ ds, analyzeAssocs Γ as = some ds ∧ AnalysedAssocs xs ds
  | .nil, xs, h => by
    simp only [TypedAssocs] at h
    subst h
    exact ⟨[], by simp only [analyzeAssocs], .nil⟩
  | .cons t e rest, xs, h => by
    simp only [TypedAssocs] at h
    obtain ⟨x, ys, hx, hy, rfl⟩ := h
    obtain ⟨x', ha, hl⟩ := analyze_complete Γ e x hx
    obtain ⟨ds, hb, hm⟩ := analyzeAssocs_complete Γ rest ys hy
    exact ⟨_, by simp only [analyzeAssocs, ha, hb, Option.bind_some], .cons hl hm⟩
theorem analyzeDflt_complete (Γ : Env) : ∀ (e : Dflt) (x : Desc), TypedDflt common Γ e (some x) →
    ∃ x', analyzeDflt Γ e = some x' ∧ x.Le x'
  | .none, x, h => by simp only [TypedDflt] at h; cases h
  | .some e, x, h => by
    simp only [TypedDflt] at h
    obtain ⟨y, hy, hx⟩ := h
    cases hx
    simp only [analyzeDflt]
    exact analyze_complete Γ e x hy
end

/-! ### Return statements -/

theorem return_complete {Γ : Env} {t : Ty} {e : Option Expr} (h : ReturnRule common Γ t e) :
    returnStatement Γ t e = true := by
  cases h with
  | void h => simp only [returnStatement, unq_eq, (voidTag_iff _).2 h]
  | value h1 h2 h3 h4 =>
    obtain ⟨x', ha, hl⟩ := analyze_complete Γ _ _ h2
    simp only [returnStatement, ha, unq_eq, (voidTag_false _).2 h1, assignable_common h4 (conv_common h3) hl ha]
    rfl

end Kefir.ExprType
