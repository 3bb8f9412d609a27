import Verif.Layout.Aligned
import Verif.Alignas.Model

/-!
# Lemmas: the recorded alignment is the largest
-/

namespace Kefir.Alignas

/-- The number that a specifier contributes. -/
def contribution : Request → Nat
  | .type a => a
  | .value v => toSize v

theorem evaluate_eq (a : Nat) (r : Request) : evaluate a r = max a (contribution r) := by
  cases r <;> rfl

/-- `m` is the largest of the contributions and `a`. -/
def Largest (a : Nat) (rs : List Request) (m : Nat) : Prop :=
  a ≤ m ∧ (∀ r ∈ rs, contribution r ≤ m) ∧ (m = a ∨ ∃ r ∈ rs, contribution r = m)

theorem fold_largest (rs : List Request) : ∀ a, Largest a rs (rs.foldl evaluate a) := by
  induction rs with
  | nil => intro a; exact ⟨Nat.le_refl _, by simp, .inl rfl⟩
  | cons r rs ih =>
    intro a
    obtain ⟨h1, h2, h3⟩ := ih (evaluate a r)
    rw [List.foldl_cons]
    have he := evaluate_eq a r
    refine ⟨by omega, ?_, ?_⟩
    · intro x hx
      rcases List.mem_cons.mp hx with rfl | hx
      · omega
      · exact h2 x hx
    · rcases h3 with h3 | ⟨x, hx, h3⟩
      · by_cases hc : a ≤ contribution r
        · exact .inr ⟨r, List.mem_cons_self, by omega⟩
        · exact .inl (by omega)
      · exact .inr ⟨x, List.mem_cons_of_mem _ hx, h3⟩

theorem specified_some {base a : Nat} {rs : List Request} (h : specified base rs = some a) :
    a = evaluateAll rs ∧ (a ≠ 0 → base ≤ a) := by
  rw [specified] at h
  split at h
  · split at h
    · injection h with h; subst h; exact ⟨rfl, fun _ => by assumption⟩
    · cases h
  · injection h with h; subst h; exact ⟨by omega, fun h => absurd rfl h⟩

theorem merge_wrap {o a : Nat} (ha : a < 2 ^ 64) : merge o (wrap a) = max o a := by
  have hs : toSize (a : Int) = a := by simp only [toSize]; omega
  simp only [wrap]
  split
  · simp only [merge, hs]; split <;> omega
  · simp only [merge]; omega

theorem allocate_wrap {a : Nat} (ha : a < 2 ^ 64) : allocate (wrap a) = a := by
  have hs : toSize (a : Int) = a := by simp only [toSize]; omega
  simp only [wrap]
  split
  · simp only [allocate, hs]
  · simp only [allocate]; omega

theorem largest_lt {rs : List Request} {m : Nat} (h : Largest 0 rs m) (hb : ∀ r ∈ rs, contribution r < 2 ^ 64) :
    m < 2 ^ 64 := by
  rcases h.2.2 with h | ⟨r, hr, h⟩
  · omega
  · have := hb r hr; omega

theorem mergeAll_largest (base : Nat) : ∀ (ds : List (List Request)) (o a : Nat),
    (∀ rs ∈ ds, ∀ r ∈ rs, contribution r < 2 ^ 64) → mergeAll base o ds = some a → Largest o ds.flatten a ∧
      ((o ≠ 0 → base ≤ o) → a ≠ 0 → base ≤ a) := by
  intro ds
  induction ds with
  | nil =>
    intro o a _ h
    rw [mergeAll] at h
    injection h with h
    subst h
    exact ⟨⟨Nat.le_refl _, by simp, .inl rfl⟩, fun h => h⟩
  | cons rs rest ih =>
    intro o a hb h
    rw [mergeAll] at h
    split at h
    · cases h
    · rename_i b hs
      obtain ⟨hb1, hb2⟩ := specified_some hs
      have hl : Largest 0 rs b := hb1 ▸ fold_largest rs 0
      have hlt := largest_lt hl (hb rs List.mem_cons_self)
      rw [merge_wrap hlt] at h
      obtain ⟨⟨h1, h2, h3⟩, h4⟩ := ih _ _ (fun rs hr => hb rs (List.mem_cons_of_mem _ hr)) h
      refine ⟨⟨by omega, ?_, ?_⟩, ?_⟩
      · intro r hr
        rw [List.flatten_cons] at hr
        rcases List.mem_append.mp hr with hr | hr
        · have := hl.2.1 r hr; omega
        · exact h2 r hr
      · rw [List.flatten_cons]
        rcases h3 with h3 | ⟨r, hr, h3⟩
        · rcases hl.2.2 with h5 | ⟨r, hr, h5⟩
          · exact .inl (by omega)
          · by_cases hc : o ≤ b
            · exact .inr ⟨r, List.mem_append_left _ hr, by omega⟩
            · exact .inl (by omega)
        · exact .inr ⟨r, List.mem_append_right _ hr, h3⟩
      · intro ho ha
        clear h3 hl
        apply h4 _ ha
        intro hm
        by_cases h5 : b = 0
        · have : o ≠ 0 := by omega
          have := ho this
          omega
        · have := hb2 h5
          omega

theorem declare_largest {base a : Nat} {ds : List (List Request)}
    (hb : ∀ rs ∈ ds, ∀ r ∈ rs, contribution r < 2 ^ 64) (h : declare base ds = some a) :
    Largest 0 ds.flatten a ∧ (a ≠ 0 → base ≤ a) := by
  cases ds with
  | nil => cases h
  | cons rs rest =>
    have h' : mergeAll base 0 (rs :: rest) = some a := by
      rw [declare] at h
      rw [mergeAll]
      split at h
      · cases h
      · rename_i b hs
        obtain ⟨hb1, -⟩ := specified_some hs
        have hl : Largest 0 rs b := hb1 ▸ fold_largest rs 0
        have hlt := largest_lt hl (hb rs List.mem_cons_self)
        rw [allocate_wrap hlt] at h
        simp only [merge_wrap hlt]
        rw [Nat.zero_max]; exact h
    obtain ⟨h1, h2⟩ := mergeAll_largest base (rs :: rest) 0 a hb h'
    exact ⟨h1, h2 (fun h => absurd rfl h)⟩

theorem contribution_eq {r : Request} (h0 : 0 ≤ r.amount) (h1 : r.amount < 2 ^ 64) :
    (contribution r : Int) = r.amount := by
  cases r with
  | type a => rfl
  | value v =>
    simp only [Request.amount] at h0 h1
    simp only [contribution, toSize, Request.amount]
    omega

theorem Request.Valid.nonneg {r : Request} (h : r.Valid) : 0 ≤ r.amount := by
  rcases h with h | ⟨k, h⟩
  · omega
  · rw [h]; exact Int.le_of_lt (Int.pow_pos (by omega))

theorem specified_isSome {base : Nat} {rs : List Request} (hb : ∀ r ∈ rs, 0 ≤ r.amount ∧ r.amount < 2 ^ 64) :
    (specified base rs).isSome = true ↔ (Declaration.mk rs base).Valid := by
  have hl : Largest 0 rs (evaluateAll rs) := fold_largest rs 0
  obtain ⟨-, h2, h3⟩ := hl
  have hc : ∀ r ∈ rs, (contribution r : Int) = r.amount := fun r hr => contribution_eq (hb r hr).1 (hb r hr).2
  simp only [Declaration.Valid, specified]
  by_cases hz : evaluateAll rs > 0
  · rw [if_pos hz]
    rcases h3 with h3 | ⟨x, hx, h3⟩
    · omega
    have hxa := hc x hx
    split
    · rename_i hle
      simp only [Option.isSome_some, true_iff]
      exact .inr ⟨x, hx, by omega⟩
    · rename_i hle
      simp only [Option.isSome_none, Bool.false_eq_true, false_iff, not_or, not_exists, not_and]
      refine ⟨fun h => ?_, fun y hy => ?_⟩
      · have := h x hx; omega
      · have := h2 y hy; have := hc y hy; omega
  · rw [if_neg hz]
    simp only [Option.isSome_some, true_iff]
    refine .inl fun r hr => ?_
    have := h2 r hr; have := hc r hr; omega

theorem mergeAll_isSome (base : Nat) : ∀ (ds : List (List Request)) (o : Nat),
    (mergeAll base o ds).isSome = true ↔ ∀ rs ∈ ds, (specified base rs).isSome = true := by
  intro ds
  induction ds with
  | nil => intro o; simp [mergeAll]
  | cons rs rest ih =>
    intro o
    rw [mergeAll]
    split
    · rename_i h; simp [h]
    · rename_i b h
      rw [ih]; simp [h]

theorem declare_isSome (base : Nat) (ds : List (List Request)) :
    (declare base ds).isSome = true ↔ ds ≠ [] ∧ ∀ rs ∈ ds, (specified base rs).isSome = true := by
  cases ds with
  | nil => simp [declare]
  | cons rs rest =>
    rw [declare]
    split
    · rename_i h; simp [h]
    · rename_i b h; rw [mergeAll_isSome]; simp [h]

end Kefir.Alignas
