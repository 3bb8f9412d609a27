import Verif.Vector.Model

/-! # The vector as a bounded sequence -/

namespace Kefir.Vector

variable {E : Type}

/-- The sequence a vector stands for: its first `length` slots. -/
def seq (v : Vec E) : List (Option E) := v.slots.take v.length

/-- Vectors reachable through the API. -/
structure WF (v : Vec E) : Prop where
  slots : v.slots.length = v.capacity
  fits : v.length ≤ v.capacity
  null : v.content = none → v.capacity = 0

theorem wf_alloc (n : Nat) : WF (alloc n : Vec E) := by
  unfold alloc; split
  · constructor <;> simp [Vec.slots]
  · constructor <;> simp [Vec.slots]

theorem slots_set {v : Vec E} (f : List (Option E) → List (Option E)) (hf : f [] = []) :
    (v.content.map f).getD [] = f v.slots := by
  unfold Vec.slots; cases v.content <;> simp [hf]

theorem take_set_succ {α : Type} (l : List α) (n : Nat) (x : α) (h : n < l.length) :
    (l.set n x).take (n + 1) = l.take n ++ [x] := by
  apply List.ext_getElem?
  intro i
  by_cases hi : i < n
  · rw [List.getElem?_take_of_lt (by omega), List.getElem?_set_ne (by omega),
      List.getElem?_append_left (by simp; omega), List.getElem?_take_of_lt hi]
  · by_cases h2 : i = n
    · subst h2
      rw [List.getElem?_take_of_lt (by omega), List.getElem?_set_self h,
        List.getElem?_append_right (by simp; omega)]
      simp [Nat.min_eq_left (Nat.le_of_lt h)]
    · rw [List.getElem?_eq_none (by simp; omega), List.getElem?_eq_none (by simp; omega)]

/-- C45.  Appending to any vector reachable through the API either adds the element at the end,
keeping all others, or reports that the capacity is exhausted. -/
theorem C45_vector_append (v : Vec E) (hv : WF v) (e : E) :
    match append v e with
    | .ok v' => v.length < v.capacity ∧ WF v' ∧ seq v' = seq v ++ [some e] ∧
        v'.capacity = v.capacity
    | .error c => c = .outOfBounds ∧ v.length = v.capacity := by
  unfold append
  by_cases h : v.length < v.capacity
  · simp only [h, if_true]
    have hs : (Vec.mk (v.content.map (fun s => s.set v.length (some e))) (v.length + 1)
        v.capacity).slots = v.slots.set v.length (some e) := by
      exact slots_set (fun s => s.set v.length (some e)) rfl
    refine ⟨trivial, ⟨?_, ?_, ?_⟩, ?_, trivial⟩
    · rw [hs]; simp [hv.slots]
    · simp; omega
    · intro hn; simp at hn; exact hv.null hn
    · unfold seq; rw [hs]
      exact take_set_succ _ _ _ (by rw [hv.slots]; exact h)
  · simp only [h, if_false]
    exact ⟨trivial, by have := hv.fits; omega⟩

/-- C45, element access: in range gives the element of the sequence, out of range gives NULL. -/
theorem C45_vector_at (v : Vec E) (hv : WF v) (i : Nat) :
    at' v i = (seq v)[i]? := by
  unfold at' seq
  split
  · rename_i h
    have := hv.slots; have := hv.fits
    rw [List.getElem?_take_of_lt h, List.getElem?_eq_getElem (by omega)]; rfl
  · rename_i h
    rw [List.getElem?_eq_none (by simp; omega)]

/-- C45, growing: reallocation of a vector that is not allocated-but-empty keeps the sequence. The
excluded case is `C45_realloc_empty_rejected`. -/
theorem C45_vector_realloc_partial (v : Vec E) (hv : WF v) (hne : v.content ≠ none → 0 < v.length)
    (n : Nat) (hn : v.length ≤ n) :
    ∃ v', realloc v n = .ok v' ∧ WF v' ∧ seq v' = seq v ∧ v'.capacity = n := by
  have h0 := hv.slots
  have h1 := hv.fits
  unfold realloc
  have hc : ((v.content.isSome && v.length > 0) || (v.content.isNone && v.length == 0)) = true := by
    cases hcont : v.content with
    | none => have := hv.null hcont; simp; omega
    | some s => have := hne (by simp [hcont]); simp; omega
  rw [if_pos hc, if_pos hn]
  refine ⟨_, rfl, ⟨?_, hn, by simp⟩, ?_, rfl⟩
  · simp [Vec.slots]
  · simp only [seq, Vec.slots, Option.getD_some, List.take_take, Nat.min_eq_left hn]
    rw [List.take_append_of_le_length]
    show v.length ≤ v.slots.length
    omega

/-- C45 is false of `kefir_vector_realloc`: a vector with capacity but no element cannot be grown. -/
theorem C45_realloc_empty_rejected (c n : Nat) (hc : 0 < c) :
    realloc (alloc c : Vec E) n = .error .invalidState := by
  simp [realloc, alloc, hc]

/-- C45 is false of `kefir_vector_copy`: copying into a non-empty vector destroys the elements
already there and exposes uninitialised ones (`[1]` followed by `[2]` reads back as `[2, ?]`). -/
theorem C45_copy_overwrites :
    ∃ v : Vec Nat, WF v ∧ seq v = [some 1] ∧
      ∃ v', copy v [2] = .ok v' ∧ seq v' = [some 2, none] := by
  refine ⟨⟨some [some 1, none], 1, 2⟩, ⟨rfl, by decide, by simp⟩, rfl, ?_⟩
  exact ⟨⟨some [some 2, none], 2, 2⟩, rfl, rfl⟩

theorem writeFrom_append (s : List (Option E)) (i : Nat) (es : List E)
    (h : i + es.length ≤ s.length) :
    writeFrom s i es = s.take i ++ es.map some ++ s.drop (i + es.length) := by
  induction es generalizing s i with
  | nil => simp [writeFrom]
  | cons e es ih =>
    simp only [List.length_cons] at h
    rw [writeFrom, ih _ _ (by simp; omega), take_set_succ _ _ _ (by omega)]
    rw [List.drop_set_of_lt (by omega)]
    simp [Nat.add_comm, Nat.add_left_comm]

/-- C45, the part of `kefir_vector_copy` that holds: copying into an empty vector (what
`kefir_irblock_copy` and the other callers do on fresh vectors) stores the elements in order. -/
theorem C45_vector_copy_partial (v : Vec E) (hv : WF v) (he : v.length = 0) (src : List E)
    (hfit : src.length ≤ v.capacity) :
    ∃ v', copy v src = .ok v' ∧ WF v' ∧ seq v' = src.map some := by
  have h0 := hv.slots
  unfold copy
  have h1 : available v ≥ src.length := by simp [available, he]; exact hfit
  rw [if_pos h1]
  by_cases hn : v.content = none
  · have hc := hv.null hn
    have : src = [] := List.eq_nil_of_length_eq_zero (by omega)
    subst this
    refine ⟨_, rfl, ⟨?_, by simp [he], by simp [hn, hc]⟩, by simp [seq, he]⟩
    simp [Vec.slots, hn, hc]
  · have hs : (Vec.mk (v.content.map (fun s => writeFrom s 0 src)) (v.length + src.length)
        v.capacity).slots = writeFrom v.slots 0 src := by
      unfold Vec.slots; cases hcont : v.content with
      | none => exact absurd hcont hn
      | some s => simp
    refine ⟨_, rfl, ⟨?_, by simp [he, hfit], ?_⟩, ?_⟩
    · rw [hs, writeFrom_append _ _ _ (by omega)]; simp; omega
    · intro h; simp at h; exact absurd h hn
    · unfold seq
      rw [hs, writeFrom_append _ _ _ (by omega)]
      simp [he]

/-- The hypotheses are met: a vector filled through the API, then grown. -/
example : ∃ v : Vec Nat, WF v ∧ seq v = [some 5] ∧ v.length = v.capacity :=
  ⟨⟨some [some 5], 1, 1⟩, ⟨rfl, by decide, by simp⟩, rfl, rfl⟩

example : WF (⟨some [some 5, none], 1, 2⟩ : Vec Nat) ∧
    ((⟨some [some 5, none], 1, 2⟩ : Vec Nat).content ≠ none → 0 < 1) :=
  ⟨⟨rfl, by decide, by simp⟩, by decide⟩

end Kefir.Vector
