import Verif.Compat.Composite

/-! Types whose comparison cannot have undefined behaviour. -/
namespace Kefir.Compat
open Kefir.Types (Basic)

mutual
/-- Every enumeration in the type has a tag and no member is a bit-field. -/
def Tagged : Ty → Prop
  | .prim _ => True
  | .pointer t => Tagged t
  | .qualified _ t => Tagged t
  | .array _ _ t => Tagged t
  | .enum tag _ => tag ≠ none
  | .struct _ b => TaggedBody b
  | .union _ b => TaggedBody b
  | .func r ps _ => Tagged r ∧ TaggedParams ps
def TaggedBody : Body → Prop
  | .incomplete => True
  | .complete fs => TaggedFields fs
def TaggedFields : Fields → Prop
  | .nil => True
  | .cons _ _ w t rest => w = none ∧ Tagged t ∧ TaggedFields rest
def TaggedParams : Params → Prop
  | .empty => True
  | .ids _ => True
  | .types ps => TaggedTypes ps
def TaggedTypes : TyList → Prop
  | .nil => True
  | .cons t _ rest => Tagged t ∧ TaggedTypes rest
end

theorem andB_ne_none {a b : Option Bool} (ha : a ≠ none) (hb : b ≠ none) : andB a b ≠ none := by
  simp [ha, hb]

theorem orB_ne_none {a b : Option Bool} (ha : a ≠ none) (hb : b ≠ none) : orB a b ≠ none := by
  rcases a with _ | _ | _ <;> simp_all [orB]

theorem ite_ne_none {c : Prop} [Decidable c] {a : Option Bool} (ha : a ≠ none) :
    (if c then a else some false) ≠ none := by
  simp [ha]

theorem enumTags_ne_none {a b : Option String} (ha : a ≠ none) (hb : b ≠ none) : enumTags a b ≠ none := by
  cases a <;> cases b <;> simp_all [enumTags]

theorem lookup_tagged {n : String} : ∀ {fs : Fields} {w : Option Int} {t : Ty}, TaggedFields fs →
    fs.lookup n = some (w, t) → w = none ∧ Tagged t ∧ t.depth ≤ fs.depth
  | .nil, _, _, _, h => by simp [Fields.lookup] at h
  | .cons m a w' t' rest, w, t, hf, h => by
    rw [TaggedFields] at hf
    rw [Fields.lookup] at h
    split at h
    · cases h; exact ⟨hf.1, hf.2.1, by rw [Fields.depth]; omega⟩
    · have := lookup_tagged hf.2.2 h
      exact ⟨this.1, this.2.1, by rw [Fields.depth]; omega⟩

mutual
theorem same_ne_none : ∀ (a b : Ty), Tagged a → Tagged b → same a b ≠ none
  | .prim p, b, _, _ => by cases b <;> simp [same]
  | .pointer a, b, ha, hb => by
    cases b with
    | pointer b => rw [Tagged] at ha hb; simpa [same] using same_ne_none a b ha hb
    | _ => simp [same]
  | .qualified q a, b, ha, hb => by
    cases b with
    | qualified q' b =>
      rw [Tagged] at ha hb; rw [same]; exact ite_ne_none (same_ne_none a b ha hb)
    | _ => simp [same]
  | .array m q a, b, ha, hb => by
    cases b with
    | array m' q' b =>
      rw [Tagged] at ha hb; rw [same]; exact ite_ne_none (same_ne_none a b ha hb)
    | _ => simp [same]
  | .enum tag1 b1, b, ha, hb => by
    cases b with
    | enum tag2 b2 =>
      rw [Tagged] at ha hb
      have := enumTags_ne_none ha hb
      cases b1 <;> cases b2 <;> simp [same, this]
    | _ => simp [same]
  | .struct tag1 b1, b, ha, hb => by
    cases b with
    | struct tag2 b2 =>
      rw [Tagged] at ha hb
      rw [same]
      cases b1 with
      | incomplete => cases b2 <;> simp [sameBody]
      | complete f1 =>
        cases b2 with
        | incomplete => simp [sameBody]
        | complete f2 =>
          rw [TaggedBody] at ha hb
          rw [sameBody]; exact ite_ne_none (same_fields_ne_none f1 f2 ha hb)
    | _ => simp [same]
  | .union tag1 b1, b, ha, hb => by
    cases b with
    | union tag2 b2 =>
      rw [Tagged] at ha hb
      rw [same]
      cases b1 with
      | incomplete => cases b2 <;> simp [sameUnion]
      | complete f1 =>
        cases b2 with
        | incomplete => simp [sameUnion]
        | complete f2 =>
          rw [TaggedBody] at ha hb
          rw [sameUnion]; exact ite_ne_none (andB_ne_none (same_members_ne_none f1 f2 ha hb) (by simp))
    | _ => simp [same]
  | .func r1 p1 e1, b, ha, hb => by
    cases b with
    | func r2 p2 e2 =>
      rw [Tagged] at ha hb
      rw [same]
      refine andB_ne_none (same_ne_none r1 r2 ha.1 hb.1) ?_
      cases p1 with
      | empty => cases p2 <;> simp [sameParams]
      | ids n => cases p2 <;> simp [sameParams]
      | types p1 =>
        cases p2 with
        | types p2 =>
          rw [TaggedParams] at ha hb
          rw [sameParams]
          exact ite_ne_none (andB_ne_none (same_types_ne_none p1 p2 ha.2 hb.2) (by simp))
        | _ => simp [sameParams]
    | _ => simp [same]
theorem same_fields_ne_none : ∀ (a b : Fields), TaggedFields a → TaggedFields b → sameFields a b ≠ none
  | .nil, _, _, _ => by simp [sameFields]
  | .cons n a w t rest, b, ha, hb => by
    cases b with
    | nil => simp [sameFields]
    | cons n' a' w' t' rest' =>
      rw [TaggedFields] at ha hb
      rw [sameFields, ha.1, hb.1]
      exact ite_ne_none (andB_ne_none (by simp [widths]) (andB_ne_none (same_ne_none t t' ha.2.1 hb.2.1)
        (same_fields_ne_none rest rest' ha.2.2 hb.2.2)))
theorem same_members_ne_none : ∀ (a b : Fields), TaggedFields a → TaggedFields b → sameMembers a b ≠ none
  | .nil, _, _, _ => by simp [sameMembers]
  | .cons none a w t rest, b, ha, hb => by
    rw [TaggedFields] at ha
    simpa [sameMembers] using same_members_ne_none rest b ha.2.2 hb
  | .cons (some n) a w t rest, b, ha, hb => by
    rw [TaggedFields] at ha
    rw [sameMembers]
    split
    · simp
    · next w2 t2 heq =>
      obtain ⟨h1, h2, _⟩ := lookup_tagged hb heq
      rw [ha.1, h1]
      exact andB_ne_none (by simp [widths]) (andB_ne_none (same_ne_none t t2 ha.2.1 h2)
        (same_members_ne_none rest b ha.2.2 hb))
theorem same_types_ne_none : ∀ (a b : TyList), TaggedTypes a → TaggedTypes b → sameTypes a b ≠ none
  | .nil, _, _, _ => by simp [sameTypes]
  | .cons t s rest, b, ha, hb => by
    cases b with
    | nil => simp [sameTypes]
    | cons t' s' rest' =>
      rw [TaggedTypes] at ha hb
      rw [sameTypes]
      exact andB_ne_none (same_ne_none t t' ha.1 hb.1) (ite_ne_none (same_types_ne_none rest rest' ha.2 hb.2))
end

theorem unq_tagged {t : Ty} (h : Tagged t) : Tagged (unq t) := by
  cases t <;> first | exact h | (rw [Tagged] at h; exact h)

theorem adjust_tagged {t : Ty} (h : Tagged t) : Tagged (adjust t) := by
  match t, h with
  | .prim .void, h => exact h
  | .prim .vaList, h => simp [adjust, Tagged]
  | .prim (.arith _), h => exact h
  | .pointer _, h => exact h
  | .array _ none _, h => simpa [adjust, Tagged] using h
  | .array _ (some _) _, h => simpa [adjust, Tagged] using h
  | .enum _ _, h => exact h
  | .struct _ _, h => exact h
  | .union _ _, h => exact h
  | .qualified _ _, h => exact h
  | .func _ _ _, h => simpa [adjust, Tagged] using h

theorem depth_unq_adjust (t : Ty) : (unq (adjust t)).depth ≤ t.depth + 1 := by
  match t with
  | .prim .void => simp [adjust, unq]
  | .prim .vaList => simp [adjust, unq, Ty.depth]
  | .prim (.arith _) => simp [adjust, unq]
  | .pointer _ => simp [adjust, unq]
  | .array _ none _ => simp [adjust, unq, Ty.depth]
  | .array _ (some _) _ => simp [adjust, unq, Ty.depth]
  | .enum _ _ => simp [adjust, unq]
  | .struct _ _ => simp [adjust, unq]
  | .union _ _ => simp [adjust, unq]
  | .qualified _ _ => simp [adjust, unq, Ty.depth]; omega
  | .func _ _ _ => simp [adjust, unq, Ty.depth]

/-- A comparison that has no undefined behaviour on tagged types of depth below `n`. -/
def DefinedBelow (n : Nat) (c : Ty → Ty → Option Bool) : Prop :=
  ∀ a b, Tagged a → Tagged b → a.depth < n → b.depth < n → c a b ≠ none

theorem compatFields_ne_none {n : Nat} {c : Ty → Ty → Option Bool} (hc : DefinedBelow n c) :
    ∀ (a b : Fields), TaggedFields a → TaggedFields b → a.depth < n → b.depth < n → compatFields c a b ≠ none
  | .nil, _, _, _, _, _ => by simp [compatFields]
  | .cons .., .nil, _, _, _, _ => by simp [compatFields]
  | .cons n1 a1 w1 t1 r1, .cons n2 a2 w2 t2 r2, ha, hb, hda, hdb => by
    rw [TaggedFields] at ha hb
    rw [Fields.depth] at hda hdb
    rw [compatFields, ha.1, hb.1]
    exact ite_ne_none (andB_ne_none (by simp [widths]) (andB_ne_none (hc t1 t2 ha.2.1 hb.2.1 (by omega) (by omega))
      (compatFields_ne_none hc r1 r2 ha.2.2 hb.2.2 (by omega) (by omega))))

theorem findUnnamed_ne_none {n : Nat} {c : Ty → Ty → Option Bool} (hc : DefinedBelow n c) {t : Ty} (ht : Tagged t)
    (hd : t.depth < n) : ∀ (b : Fields), TaggedFields b → b.depth < n → findUnnamed c none t b ≠ none
  | .nil, _, _ => by simp [findUnnamed]
  | .cons (some _) a w t2 rest, hb, hdb => by
    rw [TaggedFields] at hb
    rw [Fields.depth] at hdb
    simpa [findUnnamed] using findUnnamed_ne_none hc ht hd rest hb.2.2 (by omega)
  | .cons none a w t2 rest, hb, hdb => by
    rw [TaggedFields] at hb
    rw [Fields.depth] at hdb
    rw [findUnnamed, hb.1]
    exact orB_ne_none (andB_ne_none (by simp [widths]) (hc t t2 ht hb.2.1 hd (by omega)))
      (findUnnamed_ne_none hc ht hd rest hb.2.2 (by omega))

theorem compatMembers_ne_none {n : Nat} {c : Ty → Ty → Option Bool} (hc : DefinedBelow n c) {all1 all2 : Fields}
    (h1 : TaggedFields all1) (h2 : TaggedFields all2) (hd1 : all1.depth < n) (hd2 : all2.depth < n) :
    ∀ (a : Fields), TaggedFields a → a.depth < n → compatMembers c all1 all2 a ≠ none
  | .nil, _, _ => by simp [compatMembers]
  | .cons (some m) _ w t rest, ha, hda => by
    rw [TaggedFields] at ha
    rw [Fields.depth] at hda
    rw [compatMembers]
    split
    · simp
    · next w2 t2 heq =>
      obtain ⟨e1, e2, e3⟩ := lookup_tagged h1 heq
      rw [ha.1, e1]
      exact andB_ne_none (by simp [widths]) (andB_ne_none (hc t t2 ha.2.1 e2 (by omega) (by omega))
        (compatMembers_ne_none hc h1 h2 hd1 hd2 rest ha.2.2 (by omega)))
  | .cons none _ w t rest, ha, hda => by
    rw [TaggedFields] at ha
    rw [Fields.depth] at hda
    rw [compatMembers, ha.1]
    exact andB_ne_none (findUnnamed_ne_none hc ha.2.1 (by omega) all2 h2 hd2)
      (compatMembers_ne_none hc h1 h2 hd1 hd2 rest ha.2.2 (by omega))

theorem compatTypes_ne_none {n : Nat} {c : Ty → Ty → Option Bool} (hc : DefinedBelow n c) :
    ∀ (a b : TyList), TaggedTypes a → TaggedTypes b → a.depth < n → b.depth < n → compatTypes c a b ≠ none
  | .nil, _, _, _, _, _ => by simp [compatTypes]
  | .cons .., .nil, _, _, _, _ => by simp [compatTypes]
  | .cons t1 s1 r1, .cons t2 s2 r2, ha, hb, hda, hdb => by
    rw [TaggedTypes] at ha hb
    rw [TyList.depth] at hda hdb
    have d1 := depth_unq_adjust t1
    have d2 := depth_unq_adjust t2
    rw [compatTypes]
    exact andB_ne_none (hc _ _ (unq_tagged (adjust_tagged ha.1)) (unq_tagged (adjust_tagged hb.1)) (by omega) (by omega))
      (compatTypes_ne_none hc r1 r2 ha.2 hb.2 (by omega) (by omega))

theorem promotion_tagged {t : Ty} (h : Tagged t) : ∃ p, promotion t = some p ∧ Tagged p ∧ p.depth ≤ t.depth := by
  match t, h with
  | .prim (.arith b), _ => cases b <;> exact ⟨_, rfl, trivial, Nat.le_refl _⟩
  | .prim .void, h | .prim .vaList, h | .pointer _, h | .array _ _ _, h | .enum _ _, h | .struct _ _, h
  | .union _ _, h | .qualified _ _, h | .func _ _ _, h => exact ⟨_, rfl, h, Nat.le_refl _⟩

theorem unaffected_ne_none {n : Nat} {c : Ty → Ty → Option Bool} (hc : DefinedBelow n c) :
    ∀ (a : TyList), TaggedTypes a → a.depth < n → unaffected c a ≠ none
  | .nil, _, _ => by simp [unaffected]
  | .cons t s rest, ha, hda => by
    rw [TaggedTypes] at ha
    rw [TyList.depth] at hda
    have d := depth_unq_adjust t
    obtain ⟨p, hp, h1, h2⟩ := promotion_tagged (unq_tagged (adjust_tagged ha.1))
    rw [unaffected, hp]
    exact andB_ne_none (hc _ _ (unq_tagged (adjust_tagged ha.1)) h1 (by omega) (by omega))
      (unaffected_ne_none hc rest ha.2 (by omega))

theorem compatOp_ne_none {n : Nat} {c : Ty → Ty → Option Bool} (hc : DefinedBelow n c) :
    DefinedBelow (n + 1) (compatOp c) := by
  intro a b ha hb hda hdb
  have hu (t : Ty) : (unq t).depth ≤ t.depth := by rw [unq_eq]; exact depth_unqualified t
  rw [compatOp.eq_def]
  split
  · simp
  · simp
  · simp
  · rw [Tagged] at ha hb
    have := enumTags_ne_none ha hb
    refine andB_ne_none this ?_
    split <;> simp
  · rw [Tagged] at ha hb
    rw [Ty.depth] at hda hdb
    exact hc _ _ ha hb (by omega) (by omega)
  · rw [Tagged] at ha hb
    rw [Ty.depth] at hda hdb
    exact ite_ne_none (hc _ _ ha hb (by omega) (by omega))
  · rw [Tagged] at ha hb
    rw [Ty.depth] at hda hdb
    refine andB_ne_none (hc _ _ ha hb (by omega) (by omega)) ?_
    rw [compatBounds.eq_def]; split <;> simp
  · rw [Tagged] at ha hb
    rw [Ty.depth] at hda hdb
    refine ite_ne_none ?_
    split
    · rw [TaggedBody] at ha hb
      rw [Body.depth] at hda hdb
      exact ite_ne_none (compatFields_ne_none hc _ _ ha hb (by omega) (by omega))
    · simp
  · rw [Tagged] at ha hb
    rw [Ty.depth] at hda hdb
    refine ite_ne_none ?_
    split
    · rw [TaggedBody] at ha hb
      rw [Body.depth] at hda hdb
      exact andB_ne_none (compatMembers_ne_none hc ha hb (by omega) (by omega) _ ha (by omega)) (by simp)
    · simp
  · next r1 p1 e1 r2 p2 e2 =>
    rw [Tagged] at ha hb
    rw [Ty.depth] at hda hdb
    have := hu r1
    have := hu r2
    refine andB_ne_none (hc _ _ (unq_tagged ha.1) (unq_tagged hb.1) (by omega) (by omega)) ?_
    rw [compatParams.eq_def]
    split
    · rw [TaggedParams] at ha hb
      rw [Params.depth] at hda hdb
      exact ite_ne_none (compatTypes_ne_none hc _ _ ha.2 hb.2 (by omega) (by omega))
    · rw [TaggedParams] at ha
      rw [Params.depth] at hda
      split
      · simp
      · exact unaffected_ne_none hc _ ha.2 (by omega)
    · rw [TaggedParams] at hb
      rw [Params.depth] at hdb
      split
      · simp
      · exact unaffected_ne_none hc _ hb.2 (by omega)
    · simp
  · simp

theorem compatN_ne_none : ∀ n, DefinedBelow n (compatN n)
  | 0 => fun _ _ _ _ h _ => by omega
  | n + 1 => fun a b ha hb hda hdb => by
    rw [compatN]
    exact orB_ne_none (same_ne_none a b ha hb) (compatOp_ne_none (compatN_ne_none n) a b ha hb hda hdb)

end Kefir.Compat
