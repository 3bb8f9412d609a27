import Verif.Init.Length


/-!
# Contents of objects of static storage duration

-/

namespace Kefir.Init

open Model

variable {E : Type}



/-- The subobject that an effect concerns. -/
def Store.path : Store E → Path
  | .zero p => p
  | .value p _ => p
  | .text p _ _ => p

/-- What a part of an object of static storage duration, which is zero to begin with, holds after the
effects; none stands for zero. -/
def contents (s : List (Store E)) (p : Path) : Option (Store E) :=
  match lastStore s p with
  | some (.zero _) => none
  | some x => some x
  | none => none

/-- No list resets a subobject that has been initialised before, as a whole or in part. -/
def NoReset : List (Store E) → Prop
  | [] => True
  | x :: s => (x.isZero = true ∨ ∀ q, .zero q ∈ s → ¬ x.path <+: q ∧ ¬ q <+: x.path) ∧ NoReset s

theorem lastStore_path : ∀ (s : List (Store E)) (p : Path) (x : Store E), lastStore s p = some x →
    x ∈ s ∧ x.path <+: p
  | [], _, _, h => by simp [lastStore] at h
  | y :: s, p, x, h => by
    simp only [lastStore] at h
    split at h
    · rename_i z hz
      cases h
      have := lastStore_path s p x hz
      exact ⟨List.mem_cons_of_mem _ this.1, this.2⟩
    · cases y with
      | zero q =>
        simp only at h
        split at h
        · rename_i hq
          cases h
          exact ⟨by simp, List.isPrefixOf_iff_prefix.mp hq⟩
        · cases h
      | value q e =>
        simp only at h
        split at h
        · rename_i hq
          cases h
          exact ⟨by simp, List.isPrefixOf_iff_prefix.mp hq⟩
        · cases h
      | text q e n =>
        simp only at h
        split at h
        · rename_i hq
          cases h
          exact ⟨by simp, List.isPrefixOf_iff_prefix.mp hq⟩
        · cases h

theorem lastStore_cons (x : Store E) (s : List (Store E)) (p : Path) :
    lastStore (x :: s) p = match lastStore s p with
      | some y => some y
      | none => if x.path.isPrefixOf p then some x else none := by
  rw [lastStore.eq_def]
  dsimp only
  cases lastStore s p with
  | some y => rfl
  | none => cases x <;> rfl

theorem contents_filter : ∀ (s : List (Store E)) (p : Path), NoReset s →
    contents (s.filter fun x => !x.isZero) p = contents s p
  | [], _, _ => rfl
  | x :: s, p, h => by
    obtain ⟨hx, hs⟩ := h
    have ih := contents_filter s p hs
    cases hz : x.isZero with
    | true =>
      have hf : List.filter (fun x => !x.isZero) (x :: s) = s.filter fun x => !x.isZero := by
        simp [List.filter_cons, hz]
      rw [hf, ih]
      unfold contents
      rw [lastStore_cons]
      cases hl : lastStore s p with
      | some y => rfl
      | none =>
        simp only
        split
        · rename_i q hq
          rfl
        · rename_i y hne hy
          split at hy
          · cases hy
            cases x with
            | zero q => exact absurd rfl (hne q)
            | value q e => simp [Store.isZero] at hz
            | text q e n => simp [Store.isZero] at hz
          · cases hy
        · rfl
    | false =>
      have hf : List.filter (fun x => !x.isZero) (x :: s) = x :: s.filter fun x => !x.isZero := by
        simp [List.filter_cons, hz]
      rw [hf]
      unfold contents at ih ⊢
      rw [lastStore_cons, lastStore_cons]
      have hnz : ∀ (l : List (Store E)) y, (∀ z ∈ l, z.isZero = false) → lastStore l p = some y →
          y.isZero = false := by
        intro l y hl hy
        exact hl y (lastStore_path l p y hy).1
      have hfil : ∀ z ∈ s.filter (fun x => !x.isZero), z.isZero = false := by
        intro z hz'
        have := (List.mem_filter.mp hz').2
        simpa using this
      cases hl : lastStore (s.filter fun x => !x.isZero) p with
      | some y =>
        rw [hl] at ih
        have hy := hnz _ y hfil hl
        cases hl' : lastStore s p with
        | some y' =>
          rw [hl'] at ih
          exact ih
        | none =>
          rw [hl'] at ih
          cases y with
          | zero q => simp [Store.isZero] at hy
          | value q e => simp at ih
          | text q e n => simp at ih
      | none =>
        rw [hl] at ih
        cases hl' : lastStore s p with
        | none => rfl
        | some y' =>
          rw [hl'] at ih
          cases y' with
          | value q e => simp at ih
          | text q e n => simp at ih
          | zero q =>
            have hq := lastStore_path s p _ hl'
            by_cases hxp : x.path.isPrefixOf p = true
            · exfalso
              rcases hx with hx | hx
              · rw [hz] at hx
                cases hx
              · have hno := hx q hq.1
                have h1 : x.path <+: p := List.isPrefixOf_iff_prefix.mp hxp
                have h2 : q <+: p := hq.2
                rcases Nat.le_total x.path.length q.length with hle | hle
                · exact hno.1 (List.prefix_of_prefix_length_le h1 h2 hle)
                · exact hno.2 (List.prefix_of_prefix_length_le h2 h1 hle)
            · simp [hxp]

end Kefir.Init
