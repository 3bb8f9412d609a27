import Verif.Compat.Exact

/-! Reflexivity, symmetry and composite types. -/
namespace Kefir.Compat
open Kefir.Types (Basic)
open Spec

/-! ### Reflexivity, for all types -/

/-- The name of the first member does not occur in the rest, and so on. -/
def Fields.hasName (n : String) : Fields → Bool
  | .nil => false
  | .cons m _ _ _ rest => m == some n || rest.hasName n

def Fields.distinct : Fields → Prop
  | .nil => True
  | .cons none _ _ _ rest => rest.distinct
  | .cons (some n) _ _ _ rest => rest.hasName n = false ∧ rest.distinct

mutual
/-- Member names of unions are distinct (C17 6.2.3: one name space per structure or union; the compiler rejects a
second member of the same name, `ast/type/struct.c` 380-382). -/
def Distinct : Ty → Prop
  | .prim _ => True
  | .pointer t => Distinct t
  | .qualified _ t => Distinct t
  | .array _ _ t => Distinct t
  | .enum _ _ => True
  | .struct _ b => DistinctBody b
  | .union _ b => DistinctBody b
  | .func r ps _ => Distinct r ∧ DistinctParams ps
def DistinctBody : Body → Prop
  | .incomplete => True
  | .complete fs => fs.distinct ∧ DistinctFields fs
def DistinctFields : Fields → Prop
  | .nil => True
  | .cons _ _ _ t rest => Distinct t ∧ DistinctFields rest
def DistinctParams : Params → Prop
  | .empty => True
  | .ids _ => True
  | .types ps => DistinctTypes ps
def DistinctTypes : TyList → Prop
  | .nil => True
  | .cons t _ rest => Distinct t ∧ DistinctTypes rest
end

/-- Every named member of `fs` is found in `all` as itself. -/
def Found (all : Fields) : Fields → Prop
  | .nil => True
  | .cons none _ _ _ rest => Found all rest
  | .cons (some n) _ w t rest => all.lookup n = some (w, t) ∧ Found all rest

theorem found_cons {all fs : Fields} {n : Option String} {a : Nat} {w : Option Int} {t : Ty}
    (h : Found all fs) (hn : ∀ m, n = some m → fs.hasName m = false) : Found (.cons n a w t all) fs := by
  match fs with
  | .nil => trivial
  | .cons none _ _ _ rest =>
    exact found_cons (fs := rest) h (fun m hm => by simpa [Fields.hasName] using hn m hm)
  | .cons (some k) _ _ _ rest =>
    refine ⟨?_, found_cons (fs := rest) h.2 (fun m hm => ?_)⟩
    · have : n ≠ some k := fun hk => by simpa [Fields.hasName] using hn k hk
      rw [Fields.lookup, if_neg this]; exact h.1
    · have := hn m hm
      simp only [Fields.hasName, Bool.or_eq_false_iff] at this
      exact this.2

theorem found_self : ∀ {fs : Fields}, fs.distinct → Found fs fs
  | .nil, _ => trivial
  | .cons none _ _ _ rest, h => found_cons (fs := rest) (found_self h) (fun m hm => by cases hm)
  | .cons (some n) _ w t rest, h => by
    refine ⟨by simp [Fields.lookup], found_cons (fs := rest) (found_self h.2) (fun m hm => ?_)⟩
    cases hm; exact h.1

theorem enumerators_self (l : Enumerators) : enumerators l l = true := (enumerators_true rfl).2 rfl

mutual
theorem same_self : ∀ (t : Ty), Distinct t → same t t = some true
  | .prim p, _ => by simp [same]
  | .pointer t, h => by rw [Distinct] at h; simp [same, same_self t h]
  | .qualified q t, h => by rw [Distinct] at h; simp [same, same_self t h]
  | .array m q t, h => by rw [Distinct] at h; simp [same, same_self t h]
  | .enum tag b, _ => by cases b <;> simp [same, enumerators_self]
  | .struct tag b, h => by
    rw [Distinct] at h
    cases b with
    | incomplete => simp [same, sameBody]
    | complete fs => rw [DistinctBody] at h; simp [same, sameBody, same_fields_self fs h.2]
  | .union tag b, h => by
    rw [Distinct] at h
    cases b with
    | incomplete => simp [same, sameUnion]
    | complete fs =>
      rw [DistinctBody] at h
      simp [same, sameUnion, same_members_self fs fs h.2 (found_self h.1)]
  | .func r ps e, h => by
    rw [Distinct] at h
    cases ps with
    | empty => simp [same, sameParams, same_self r h.1]
    | ids n => simp [same, sameParams, same_self r h.1]
    | types ps =>
      rw [DistinctParams] at h
      simp [same, sameParams, same_self r h.1, same_types_self ps h.2]
theorem same_fields_self : ∀ (fs : Fields), DistinctFields fs → sameFields fs fs = some true
  | .nil, _ => by simp [sameFields]
  | .cons n a w t rest, h => by
    rw [DistinctFields] at h
    simp [sameFields, same_self t h.1, same_fields_self rest h.2]
theorem same_members_self (all : Fields) : ∀ (fs : Fields), DistinctFields fs → Found all fs →
    sameMembers fs all = some true
  | .nil, _, _ => by simp [sameMembers]
  | .cons none a w t rest, h, hf => by
    rw [DistinctFields] at h
    simp [sameMembers, same_members_self all rest h.2 hf]
  | .cons (some n) a w t rest, h, hf => by
    rw [DistinctFields] at h
    simp [sameMembers, hf.1, same_self t h.1, same_members_self all rest h.2 hf.2]
theorem same_types_self : ∀ (ps : TyList), DistinctTypes ps → sameTypes ps ps = some true
  | .nil, _ => by simp [sameTypes]
  | .cons t s rest, h => by
    rw [DistinctTypes] at h
    simp [sameTypes, same_self t h.1, same_types_self rest h.2]
end

/-! ### The relation of the standard, on plain types -/

theorem Spec.EnumsAgree.refl (b : Option Enumerators) : EnumsAgree b b := by cases b <;> simp [EnumsAgree]
theorem Spec.EnumsAgree.symm {a b : Option Enumerators} (h : EnumsAgree a b) : EnumsAgree b a := by
  cases a <;> cases b <;> simp_all [EnumsAgree]
theorem Spec.BoundsAgree.refl (b : Bound) : BoundsAgree b b := by cases b <;> simp [BoundsAgree]
theorem Spec.BoundsAgree.symm {a b : Bound} (h : BoundsAgree a b) : BoundsAgree b a := by
  cases a <;> cases b <;> simp_all [BoundsAgree]

mutual
theorem compatible_refl (v : Class) : ∀ (t : Ty), Plain v t → Compatible t t
  | .prim p, _ => .prim p
  | .pointer t, h => by rw [Plain] at h; exact .pointer (compatible_refl v t h)
  | .qualified q t, h => by rw [Plain] at h; exact .qualified (compatible_refl v t h.2)
  | .array m q t, h => by rw [Plain] at h; exact .array (compatible_refl v t h) (.refl m)
  | .enum tag b, _ => .enum (.refl b)
  | .struct tag .incomplete, _ => .struct .left
  | .struct tag (.complete fs), h => by
    rw [Plain, PlainBody] at h; exact .struct (.complete (fields_refl v fs h))
  | .union _ _, h => by simp [Plain] at h
  | .func r .empty e, h => by
    rw [Plain] at h; exact .func (compatible_refl v r h.1).unqualified .emptyEmpty
  | .func r (.ids n) e, h => by
    rw [Plain] at h; exact .func (compatible_refl v r h.1).unqualified .idsIds
  | .func r (.types ps) e, h => by
    rw [Plain, PlainParams] at h
    exact .func (compatible_refl v r h.1).unqualified (.types (types_refl v ps h.2.1))
theorem fields_refl (v : Class) : ∀ (fs : Fields), PlainFields v fs → FieldsAgree fs fs
  | .nil, _ => .nil
  | .cons n a w t rest, h => by
    rw [PlainFields] at h; exact .cons (compatible_refl v t h.1) (fields_refl v rest h.2)
theorem types_refl (v : Class) : ∀ (ps : TyList), PlainTypes v ps → TypesAgree ps ps
  | .nil, _ => .nil
  | .cons t s rest, h => by
    rw [PlainTypes] at h
    exact .cons ((compatible_refl v t h.1).paramType h.1 h.1) (types_refl v rest h.2)
end

mutual
theorem compatible_symm (v : Class) : ∀ {a b : Ty}, Compatible a b → Plain v a → Plain v b → Compatible b a
  | _, _, .prim p, _, _ => .prim p
  | _, _, .enumInt, _, _ => .intEnum
  | _, _, .intEnum, _, _ => .enumInt
  | _, _, .enum h, _, _ => .enum h.symm
  | _, _, .pointer h, ha, hb => by
    rw [Plain] at ha hb; exact .pointer (compatible_symm v h ha hb)
  | _, _, .qualified h, ha, hb => by
    rw [Plain] at ha hb; exact .qualified (compatible_symm v h ha.2 hb.2)
  | _, _, .array h h', ha, hb => by
    rw [Plain] at ha hb; exact .array (compatible_symm v h ha hb) h'.symm
  | _, _, .struct .left, _, _ => .struct .right
  | _, _, .struct .right, _, _ => .struct .left
  | _, _, .struct (.complete h), ha, hb => by
    rw [Plain, PlainBody] at ha hb; exact .struct (.complete (fields_symm v h ha hb))
  | _, _, .union _, ha, _ => by simp [Plain] at ha
  | _, _, .func h h', ha, hb => by
    rw [Plain] at ha hb
    exact .func (compatible_symm v h ha.1.unqualified hb.1.unqualified) (params_symm v h' ha.2.1 hb.2.1)
theorem fields_symm (v : Class) : ∀ {a b : Fields}, FieldsAgree a b → PlainFields v a → PlainFields v b →
    FieldsAgree b a
  | _, _, .nil, _, _ => .nil
  | _, _, .cons h h', ha, hb => by
    rw [PlainFields] at ha hb
    exact .cons (compatible_symm v h ha.1 hb.1) (fields_symm v h' ha.2 hb.2)
theorem params_symm (v : Class) : ∀ {a b : Params} {e e' : Bool}, ParamsAgree a e b e' → PlainParams v a →
    PlainParams v b → ParamsAgree b e' a e
  | _, _, _, _, .types h, ha, hb => by
    rw [PlainParams] at ha hb; exact .types (types_symm v h ha hb)
  | _, _, _, _, .typesEmpty h, _, _ => .emptyTypes h
  | _, _, _, _, .emptyTypes h, _, _ => .typesEmpty h
  | _, _, _, _, .typesIds h h', _, _ => .idsTypes h h'
  | _, _, _, _, .idsTypes h h', _, _ => .typesIds h h'
  | _, _, _, _, .emptyEmpty, _, _ => .emptyEmpty
  | _, _, _, _, .emptyIds, _, _ => .idsEmpty
  | _, _, _, _, .idsEmpty, _, _ => .emptyIds
  | _, _, _, _, .idsIds, _, _ => .idsIds
theorem types_symm (v : Class) : ∀ {a b : TyList}, TypesAgree a b → PlainTypes v a → PlainTypes v b → TypesAgree b a
  | _, _, .nil, _, _ => .nil
  | _, _, .cons h h', ha, hb => by
    rw [PlainTypes] at ha hb
    exact .cons (compatible_symm v h ha.1.paramType hb.1.paramType) (types_symm v h' ha.2 hb.2)
end

/-! ### Composite types -/

theorem decays_compatible {a b : Ty} (h : Compatible a b) : a.decays = b.decays := by
  cases h <;> rfl

theorem isQualified_compatible {a b : Ty} (h : Compatible a b) : a.isQualified = b.isQualified := by
  cases h <;> rfl

theorem paramType_decays {v : Class} {t : Ty} (h : Plain v t) : (paramType t).decays = false := by
  match t, h with
  | .prim .void, _ => rfl
  | .prim .vaList, _ => rfl
  | .prim (.arith _), _ => rfl
  | .pointer _, _ => rfl
  | .array _ _ _, _ => rfl
  | .enum _ _, _ => rfl
  | .struct _ _, _ => rfl
  | .func _ _ _, _ => rfl
  | .qualified _ t, h =>
    rw [Plain] at h
    cases t <;> first | exact h.1.1 | simp [Ty.decays] at h

/-- A type that neither turns into a pointer nor is qualified is its own parameter type. -/
theorem paramType_self {t : Ty} (h : t.decays = false) (hq : t.isQualified = false) : paramType t = t := by
  match t with
  | .prim .void => rfl
  | .prim .vaList => simp [Ty.decays] at h
  | .prim (.arith _) => rfl
  | .pointer _ => rfl
  | .array _ _ _ => simp [Ty.decays] at h
  | .enum _ _ => rfl
  | .struct _ _ => rfl
  | .union _ _ => rfl
  | .func _ _ _ => simp [Ty.decays] at h
  | .qualified _ t => simp [Ty.isQualified] at hq

theorem paramType_isQualified {v : Class} {t : Ty} (h : Plain v t) : (paramType t).isQualified = false := by
  match t, h with
  | .prim .void, _ => rfl
  | .prim .vaList, _ => rfl
  | .prim (.arith _), _ => rfl
  | .pointer _, _ => rfl
  | .array _ _ _, _ => rfl
  | .enum _ _, _ => rfl
  | .struct _ _, _ => rfl
  | .func _ _ _, _ => rfl
  | .qualified _ t, h =>
    rw [Plain] at h
    cases t <;> first | rfl | (simp [Ty.decays, Ty.isQualified] at h; done)

/-- A construction of composite types that is right on plain types of depth below `n`. -/
def CompositeBelow (v : Class) (n : Nat) (c : Ty → Ty → Comp) : Prop :=
  ∀ a b, Plain v a → Plain v b → a.depth < n → b.depth < n → Compatible a b →
    ∃ t, c a b = .ok t ∧ Plain v t ∧ Compatible t a ∧ Compatible t b

theorem compositeFields_ok {v : Class} {n : Nat} {c : Ty → Ty → Comp} (hc : CompositeBelow v n c) :
    ∀ {f1 f2 : Fields}, FieldsAgree f1 f2 → PlainFields v f1 → PlainFields v f2 → f1.depth < n → f2.depth < n →
      ∃ fs, compositeFields c f1 f2 = some (some fs) ∧ PlainFields v fs ∧ FieldsAgree fs f1 ∧ FieldsAgree fs f2
  | _, _, .nil, _, _, _, _ => ⟨.nil, rfl, trivial, .nil, .nil⟩
  | .cons n a w t1 f1, .cons _ _ _ t2 f2, .cons h h', h1, h2, hd1, hd2 => by
    rw [PlainFields] at h1 h2
    rw [Fields.depth] at hd1 hd2
    obtain ⟨t, ht, hp, ha, hb⟩ := hc t1 t2 h1.1 h2.1 (by omega) (by omega) h
    obtain ⟨fs, hf, hfp, hfa, hfb⟩ := compositeFields_ok hc h' h1.2 h2.2 (by omega) (by omega)
    refine ⟨.cons n a w t fs, ?_, ?_, .cons ha hfa, .cons hb hfb⟩
    · rw [compositeFields, ht]; dsimp only; rw [hf]
    · rw [PlainFields]; exact ⟨hp, hfp⟩

theorem compositeTypes_ok {v : Class} {n : Nat} {c : Ty → Ty → Comp} (hc : CompositeBelow v n c) :
    ∀ {p1 p2 : TyList}, TypesAgree p1 p2 → PlainTypes v p1 → PlainTypes v p2 → p1.depth < n → p2.depth < n →
      ∃ ps, compositeTypes c p1 p2 = some (some ps) ∧ PlainTypes v ps ∧ TypesAgree ps p1 ∧ TypesAgree ps p2 ∧
        ps.length = p1.length
  | _, _, .nil, _, _, _, _ => ⟨.nil, rfl, trivial, .nil, .nil, rfl⟩
  | .cons t1 s1 p1, .cons t2 s2 p2, .cons h h', h1, h2, hd1, hd2 => by
    rw [PlainTypes] at h1 h2
    rw [TyList.depth] at hd1 hd2
    have d1 := depth_paramType h1.1
    have d2 := depth_paramType h2.1
    obtain ⟨t, ht, hp, ha, hb⟩ := hc _ _ h1.1.paramType h2.1.paramType (by omega) (by omega) h
    obtain ⟨ps, hf, hfp, hfa, hfb, hl⟩ := compositeTypes_ok hc h' h1.2 h2.2 (by omega) (by omega)
    have e : paramType t = t := paramType_self
      ((decays_compatible ha).trans (paramType_decays h1.1))
      ((isQualified_compatible ha).trans (paramType_isQualified h1.1))
    refine ⟨.cons t none ps, ?_, ?_, .cons (by rw [e]; exact ha) hfa, .cons (by rw [e]; exact hb) hfb, ?_⟩
    · rw [compositeTypes, unq_adjust h1.1, unq_adjust h2.1, ht]; dsimp only; rw [hf]
    · rw [PlainTypes]; exact ⟨hp, hfp⟩
    · simp [TyList.length, hl]

theorem compositeBound_left {m n : Bound} (h : BoundsAgree m n) : BoundsAgree (compositeBound m n) m := by
  cases m <;> cases n <;> simp_all [compositeBound, BoundsAgree]

theorem compositeBound_right {m n : Bound} (h : BoundsAgree m n) : BoundsAgree (compositeBound m n) n := by
  cases m <;> cases n <;> simp_all [compositeBound, BoundsAgree]

theorem compositeOp_ok {v : Class} (hs : v.strict = true) {n : Nat} {c : Ty → Ty → Comp} (hc : CompositeBelow v n c) :
    CompositeBelow v (n + 1) (compositeOp c) := by
  intro a b ha hb hda hdb h
  have ra := compatible_refl v a ha
  have rb := compatible_refl v b hb
  have hsym := compatible_symm v h ha hb
  cases h with
  | prim p => exact ⟨_, rfl, ha, ra, ra⟩
  | enumInt => exact ⟨_, rfl, ha, ra, .enumInt⟩
  | intEnum => exact ⟨_, rfl, hb, .enumInt, rb⟩
  | enum h => exact ⟨_, rfl, ha, ra, .enum h⟩
  | @pointer a b h =>
    rw [Plain] at ha hb
    rw [Ty.depth] at hda hdb
    obtain ⟨t, ht, hp, h1, h2⟩ := hc a b ha hb (by omega) (by omega) h
    exact ⟨.pointer t, by rw [compositeOp, ht]; rfl, by rw [Plain]; exact hp, .pointer h1, .pointer h2⟩
  | @qualified a b q h =>
    rw [Plain] at ha hb
    rw [Ty.depth] at hda hdb
    obtain ⟨t, ht, hp, h1, h2⟩ := hc a b ha.2 hb.2 (by omega) (by omega) h
    refine ⟨.qualified q t, by rw [compositeOp, unq, ht]; rfl, ?_, .qualified h1, .qualified h2⟩
    rw [Plain, decays_compatible h1, isQualified_compatible h1]
    exact ⟨ha.1, hp⟩
  | @array a b m k q q' h hk =>
    rw [Plain] at ha hb
    rw [Ty.depth] at hda hdb
    obtain ⟨t, ht, hp, h1, h2⟩ := hc a b ha hb (by omega) (by omega) h
    exact ⟨.array (compositeBound m k) none t, by rw [compositeOp, ht]; rfl, by rw [Plain]; exact hp,
      .array h1 (compositeBound_left hk), .array h2 (compositeBound_right hk)⟩
  | @struct b1 b2 tag h =>
    cases h with
    | left => exact ⟨.struct tag .incomplete, by rw [compositeOp]; simp, by simp [Plain, PlainBody], .struct .left, .struct .left⟩
    | right =>
      refine ⟨.struct tag .incomplete, ?_, by simp [Plain, PlainBody], .struct .left, .struct .left⟩
      cases b1 <;> rw [compositeOp] <;> simp
    | complete h =>
      rw [Plain, PlainBody] at ha hb
      rw [Ty.depth, Body.depth] at hda hdb
      obtain ⟨fs, hf, hp, h1, h2⟩ := compositeFields_ok hc h ha hb (by omega) (by omega)
      exact ⟨.struct tag (.complete fs), by rw [compositeOp, hf], by rw [Plain, PlainBody]; exact hp,
        .struct (.complete h1), .struct (.complete h2)⟩
  | union h => simp [Plain] at ha
  | @func r1 r2 p1 e1 p2 e2 hr hp =>
    cases hp with
    | types hp =>
      rename_i p1 p2
      rw [Plain, PlainParams] at ha hb
      rw [Ty.depth, Params.depth] at hda hdb
      have u1 : unqualified r1 = r1 := by
        have := ha.2.2.1 hs
        cases r1 <;> first | rfl | simp [Ty.isQualified] at this
      have u2 : unqualified r2 = r2 := by
        have := hb.2.2.1 hs
        cases r2 <;> first | rfl | simp [Ty.isQualified] at this
      rw [u1, u2] at hr
      obtain ⟨r, hrt, hrp, hra, hrb⟩ := hc r1 r2 ha.1 hb.1 (by omega) (by omega) hr
      obtain ⟨ps, hf, hfp, hfa, hfb, hl⟩ := compositeTypes_ok hc hp ha.2.1 hb.2.1 (by omega) (by omega)
      have hne : ∃ t s rest, ps = .cons t s rest := by
        cases ps with
        | cons t s rest => exact ⟨t, s, rest, rfl⟩
        | nil =>
          cases p1 with
          | nil => exact ha.2.2.2.elim
          | cons => simp [TyList.length] at hl
      obtain ⟨t, s, rest, rfl⟩ := hne
      refine ⟨.func r (.types (.cons t s rest)) e1, ?_, ?_, .func hra.unqualified (.types hfa),
        .func hrb.unqualified (.types hfb)⟩
      · rw [compositeOp, hrt]; dsimp only; rw [hf]
      · rw [Plain, PlainParams]
        refine ⟨hrp, hfp, ?_, ?_⟩
        · intro h; rw [isQualified_compatible hra]; exact ha.2.2.1 h
        · cases p1 with
          | nil => exact ha.2.2.2.elim
          | cons => exact ha.2.2.2
    | typesEmpty hp => exact ⟨_, by rw [compositeOp]; simp, ha, ra, .func hr (.typesEmpty hp)⟩
    | emptyTypes hp => exact ⟨_, by rw [compositeOp]; simp, hb, hsym, rb⟩
    | typesIds hp => rw [Plain] at hb; exact hb.2.2.2.elim
    | idsTypes hp => rw [Plain] at ha; exact ha.2.2.2.elim
    | emptyEmpty => exact ⟨_, by rw [compositeOp] <;> simp, hb, hsym, rb⟩
    | emptyIds => rw [Plain] at hb; exact hb.2.2.2.elim
    | idsEmpty => rw [Plain] at ha; exact ha.2.2.2.elim
    | idsIds => rw [Plain] at ha; exact ha.2.2.2.elim

theorem compat_iff {v : Class} {a b : Ty} (ha : Plain v a) (hb : Plain v b) :
    compat a b = some true ↔ Compatible a b :=
  compatN_iff v _ a b ha hb (by omega) (by omega)

theorem compositeN_ok {v : Class} (hs : v.strict = true) : ∀ n, CompositeBelow v n (compositeN n)
  | 0 => fun _ _ _ _ h _ _ => by omega
  | n + 1 => fun a b ha hb hda hdb h => by
    have := compositeOp_ok hs (compositeN_ok hs n) a b ha hb hda hdb h
    rw [compositeN, (compat_iff ha hb).2 h]
    exact this

end Kefir.Compat
