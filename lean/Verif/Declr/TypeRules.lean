import Verif.Declr.Types

/-!
# Constraints on derived types

What 6.7.6.2p1 and 6.7.6.3p1, p4 forbid, as a property of types.
-/

namespace Kefir.Declr
open Model

variable {X : Type}

mutual
/-- Wherever an array occurs in the type, its elements are complete objects; wherever a function type occurs, it
returns neither a function nor an array, and its parameters have complete types.  `deep`: also inside the types that
functions return. -/
def Ty.Ok (deep : Bool) : Ty → Prop
  | .basic _ => True
  | .tagged _ _ => True
  | .vaList => True
  | .ptr t => t.Ok deep
  | .arr _ t => t.Ok deep ∧ t.incomplete = false ∧ t.isFn = false
  | .fn r p _ => r.isFn = false ∧ r.isArr = false ∧ p.Ok deep ∧ (deep = true → r.Ok deep)
  | .qual _ t => t.Ok deep
/-- The same for prototypes. -/
def Proto.Ok (deep : Bool) : Proto → Prop
  | .none => True
  | .some ps => ps.Ok deep
/-- The same for lists of parameters. -/
def Tys.Ok (deep : Bool) : Tys → Prop
  | .nil => True
  | .cons t r => t.Ok deep ∧ t.incomplete = false ∧ r.Ok deep
end

mutual
/-- No function or array type in the type is qualified, and nothing is qualified twice. -/
def Clean : KTy → Prop
  | .basic _ => True
  | .tagged _ _ => True
  | .vaList => True
  | .ptr t => Clean t
  | .arr _ _ _ t => Clean t
  | .fn r _ ps _ => Clean r ∧ CleanParams ps
  | .qual _ t => t.isFn = false ∧ t.isArr = false ∧ t.unqual = t ∧ Clean t
/-- The same for parameters. -/
def CleanParams : KParams → Prop
  | .nil => True
  | .typed t _ r => Clean t ∧ CleanParams r
  | .untyped r => CleanParams r
end

theorem isFn_of_clean {k : KTy} (h : Clean k) (hf : k.isFn = false) : (erase k).isFn = false := by
  cases k with
  | fn r m ps e => simp [KTy.isFn] at hf
  | qual q t =>
    rw [Clean] at h
    cases t with
    | fn r m ps e => simp [KTy.isFn] at h
    | _ => simp [erase, Ty.isFn, Ty.unqual]
  | _ => simp [erase, Ty.isFn, Ty.unqual]

theorem isArr_of_clean {k : KTy} (h : Clean k) (hf : k.isArr = false) : (erase k).isArr = false := by
  cases k with
  | arr n st q t => simp [KTy.isArr] at hf
  | qual q t =>
    rw [Clean] at h
    cases t with
    | arr n st q t => simp [KTy.isArr] at h
    | _ => simp [erase, Ty.isArr, Ty.unqual]
  | _ => simp [erase, Ty.isArr, Ty.unqual]

theorem unqual_ok {t : Ty} (h : t.Ok false) : t.unqual.Ok false := by
  cases t <;> simpa [Ty.unqual, Ty.Ok] using h

theorem unqual_incomplete {k : KTy} (h : Clean k) : (erase k).unqual.incomplete = k.incomplete := by
  rw [erase_incomplete]
  cases k with
  | qual q t =>
    rw [Clean] at h
    cases t with
    | qual q' t => simp only [KTy.unqual] at h; exact absurd h.2.2.1 (by intro h2; have := congrArg sizeOf h2; simp at this)
    | _ => simp [erase, Ty.unqual, Ty.incomplete]
  | _ => simp [erase, Ty.unqual]

/-- No parameter has type `void`. -/
def NoVoid : KParams → Prop
  | .nil => True
  | .typed t _ r => t ≠ .basic .void ∧ NoVoid r
  | .untyped r => NoVoid r

mutual
theorem ok_of_analyze : ∀ (k : KTy) (o : Bool), analyzeType o k = true → Clean k → (erase k).Ok false
  | .basic _, _, _, _ => by simp [erase, Ty.Ok]
  | .tagged _ _, _, _, _ => by simp [erase, Ty.Ok]
  | .vaList, _, _, _ => by simp [erase, Ty.Ok]
  | .ptr t, o, h, hc => by
    rw [analyzeType] at h
    rw [Clean] at hc
    rw [erase, Ty.Ok]
    exact ok_of_analyze t false h hc
  | .arr n st q t, o, h, hc => by
    simp only [analyzeType, Bool.and_eq_true, Bool.not_eq_true'] at h
    rw [Clean] at hc
    rw [erase, Ty.Ok]
    exact ⟨ok_of_analyze t false h.1.1 hc, by rw [← erase_incomplete]; exact h.1.2.1, isFn_of_clean hc h.1.2.2⟩
  | .fn r m ps e, o, h, hc => by
    simp only [analyzeType, Bool.and_eq_true, Bool.not_eq_true'] at h
    rw [Clean] at hc
    have go : ∀ p : Proto, p.Ok false → (Ty.fn (erase r) p e).Ok false := by
      intro p hp
      rw [Ty.Ok]
      exact ⟨isFn_of_clean hc.1 h.1.1, isArr_of_clean hc.1 h.1.2, hp, by simp⟩
    by_cases hm : m = .parameters
    · subst hm
      by_cases hv : ∃ s, ps = .typed (.basic .void) s .nil
      · obtain ⟨s, rfl⟩ := hv
        rw [erase]
        exact go _ (by simp [Proto.Ok, Tys.Ok])
      · rw [erase_fn_list (fun s hs => hv ⟨s, hs⟩)]
        apply go
        rw [Proto.Ok]
        refine params_ok_of_analyze ps ps.single h.2 hc.2 ?_
        cases ps with
        | nil => exact fun _ => trivial
        | typed t s r =>
          cases r with
          | nil =>
            exact fun _ => ⟨fun h2 => hv ⟨s, by rw [h2]⟩, trivial⟩
          | _ => intro hs; simp [KParams.single] at hs
        | untyped r => intro hs; simp [KParams.single] at hs
    · have : erase (.fn r m ps e) = .fn (erase r) .none e := by
        cases m with
        | parameters => exact absurd rfl hm
        | _ => rw [erase]; simp
      rw [this]
      exact go _ (by simp [Proto.Ok])
  | .qual q t, o, h, hc => by
    rw [analyzeType] at h
    rw [Clean] at hc
    rw [erase, Ty.Ok]
    exact ok_of_analyze t o h hc.2.2.2
theorem params_ok_of_analyze : ∀ (ps : KParams) (single : Bool), analyzeParams single ps = true → CleanParams ps →
    (single = true → NoVoid ps) → (eraseParams ps).Ok false
  | .nil, _, _, _, _ => by simp [eraseParams, Tys.Ok]
  | .untyped r, single, h, hc, hs => by
    rw [analyzeParams] at h
    rw [CleanParams] at hc
    rw [eraseParams]
    exact params_ok_of_analyze r single h hc hs
  | .typed t st r, single, h, hc, hs => by
    simp only [analyzeParams, Bool.and_eq_true] at h
    rw [CleanParams] at hc
    rw [eraseParams, Tys.Ok]
    have hv : t ≠ .basic .void := by
      intro hv
      rw [if_pos hv] at h
      exact (hs h.1.2).1 hv
    rw [if_neg hv] at h
    simp only [Bool.and_eq_true, Bool.not_eq_true'] at h
    refine ⟨unqual_ok (ok_of_analyze t true h.1.1 hc.1), by rw [unqual_incomplete hc.1]; exact h.1.2.1, ?_⟩
    exact params_ok_of_analyze r single h.2 hc.2 (fun hsg => (hs hsg).2)
end

end Kefir.Declr
