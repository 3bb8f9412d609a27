import Verif.Slots.Sound
/-!
# Values that fit the designated parts suit the objects
-/

namespace Kefir.Slots

open Kefir.Layout Kefir.Abi Kefir.StaticData

/-- What a slot has to hold. -/
def SlotSuits (vals : Nat → Value) : Ty → LTree → Nat → Prop
  | .leaf k _ n, _, j => vals j ≠ .undefined → LeafSuits k n (vals j)
  | .array _ n e, l, j =>
    (∃ bs, (vals j = .string bs ∨ vals j = .raw bs) ∧ bs.length ≤ l.data.size ∧
      ∀ i, j < i → i ≤ j + n * objects e → vals i = .undefined) ∨ NoValue (vals j)
  | _, _, j => NoValue (vals j)

theorem part_cons {t t1 u : Ty} {l l1 l' : LTree} {s : Step} {o1 o : Nat} {q : List Step}
    (h : step t l s = some (t1, l1, o1)) (hq : part t1 l1 q = some (u, l', o)) :
    part t l (s :: q) = some (u, l', o1 + o) := by
  rw [part, h]; simp only; rw [hq]; rfl

theorem walk_cons {t t1 : Ty} {s : Step} {r b : Nat} {q : List Step} (h : inside t s = some (t1, r)) :
    walk b t (s :: q) = walk (b + r) t1 q := by
  rw [walk, h]

mutual
theorem suits_of {vals : Nat → Value} : ∀ {t : Ty} {l : LTree} {b : Nat}, Laid t l →
    Suits (fun _ => .undefined) t l b →
    (∀ q u l' o j, part t l q = some (u, l', o) → walk b t q = some (u, j) → SlotSuits vals u l' j) →
    Suits vals t l b
  | .leaf k al n, l, b, hl, h0, h => by
    rw [Suits] at h0 ⊢
    have := h [] _ _ _ _ rfl rfl
    rw [SlotSuits] at this
    by_cases hv : vals b = .undefined
    · rw [hv]; exact h0
    · exact this hv
  | .struct al ms, .node d ls, b, hl, h0, h => by
    cases hl with
    | struct h1 h2 h3 h4 h5 h6 h7 =>
      rw [Suits] at h0 ⊢
      refine ⟨h [] _ _ _ _ rfl rfl, suitsAll_of h1 h0.2 ?_⟩
      intro i t l q u l' o j hi hi' hp hw
      refine h (.member i :: q) u l' (l.data.offset + o) j (part_cons (by rw [step, hi, hi']) hp) ?_
      rw [walk_cons (by rw [inside, hi]; rfl), ← Nat.add_assoc]
      exact hw
  | .union al ms, .node d ls, b, hl, h0, h => by
    cases hl with
    | union h1 h2 h3 h4 h5 h6 h7 =>
      rw [Suits] at h0 ⊢
      refine ⟨h [] _ _ _ _ rfl rfl, suitsAll_of h1 h0.2 ?_⟩
      intro i t l q u l' o j hi hi' hp hw
      refine h (.member i :: q) u l' (l.data.offset + o) j (part_cons (by rw [step, hi, hi']) hp) ?_
      rw [walk_cons (by rw [inside, hi]; rfl), ← Nat.add_assoc]
      exact hw
  | .array al n e, .node d ls, b, hl, h0, h => by
    cases hl with
    | array h1 h2 h3 h4 =>
      rename_i l
      rw [Suits] at h0 ⊢
      refine ⟨h [] _ _ _ _ rfl rfl, ?_⟩
      intro i hi
      refine suits_of h1 (h0.2 i hi) ?_
      intro q u l' o j hp hw
      refine h (.element i :: q) u l' (i * l.data.size + o) j (part_cons (by rw [step, if_pos hi]) hp) ?_
      rw [walk_cons (by rw [inside, if_pos hi]), ← Nat.add_assoc]
      exact hw

theorem suitsAll_of {vals : Nat → Value} : ∀ {ts : List Ty} {ls : List LTree} {b : Nat}, LaidAll ts ls →
    SuitsAll (fun _ => .undefined) ts ls b →
    (∀ i t l q u l' o j, ts[i]? = some t → ls[i]? = some l → part t l q = some (u, l', o) →
      walk (b + objectsAll (ts.take i)) t q = some (u, j) → SlotSuits vals u l' j) →
    SuitsAll vals ts ls b
  | [], ls, b, hl, h0, h => by cases hl; simp [SuitsAll]
  | t :: ts, l :: ls, b, hl, h0, h => by
    cases hl with
    | cons h1 h2 =>
      rw [SuitsAll] at h0 ⊢
      refine ⟨suits_of h1 h0.1 ?_, suitsAll_of h2 h0.2 ?_⟩
      · intro q u l' o j hp hw
        exact h 0 t l q u l' o j rfl rfl hp (by simpa [objectsAll] using hw)
      · intro i t' l1 q u l' o j hi hi' hp hw
        refine h (i + 1) t' l1 q u l' o j hi hi' hp ?_
        rw [List.take_succ_cons, objectsAll, ← Nat.add_assoc]
        exact hw
end

/-- A slot inside of the part at `p` belongs to a designation that continues `p`. -/
theorem walk_inside : ∀ {p q : List Step} {b : Nat} {t t1 t2 : Ty} {s j : Nat}, walk b t p = some (t1, s) →
    walk b t q = some (t2, j) → s < j → j < s + objects t1 → ∃ x r, q = p ++ x :: r
  | [], [], b, t, t1, t2, s, j, h1, h2, a1, a2 => by cases h1; cases h2; omega
  | [], y :: q, b, t, t1, t2, s, j, h1, h2, a1, a2 => ⟨y, q, rfl⟩
  | x :: p, [], b, t, t1, t2, s, j, h1, h2, a1, a2 => by
    cases h2
    have := walk_range h1
    omega
  | x :: p, y :: q, b, t, t1, t2, s, j, h1, h2, a1, a2 => by
    rw [walk] at h1 h2
    split at h1
    · rename_i u1 r1 e1
      split at h2
      · rename_i u2 r2 e2
        have w1 := walk_range h1
        have w2 := walk_range h2
        have p2 := Kefir.Abi.objects_pos t2
        have he := inside_apart e1 e2 (j := j - b) (by omega) (by omega) (by omega) (by omega)
        subst he
        rw [e1] at e2
        cases e2
        obtain ⟨z, r, hr⟩ := walk_inside h1 h2 a1 a2
        exact ⟨z, r, by rw [hr]; rfl⟩
      · cases h2
    · cases h1

/-- Whatever a slot holds was given for the designation of the slot. -/
theorem slot_given {ts : List Ty} {vs : List ((Nat × List Step) × Value)}
    (hv : ∀ x ∈ vs, ∃ t u, ts[x.1.1]? = some t ∧ walk (firstSlot ts x.1.1) t x.1.2 = some (u, slotIn ts x.1))
    {k : Nat} {t : Ty} (ht : ts[k]? = some t) {j : Nat} (h1 : firstSlot ts k ≤ j) (h2 : j < firstSlot ts k + objects t)
    (h : valueOf (vs.map fun x => (slotIn ts x.1, x.2)) j ≠ .undefined) :
    ∃ x ∈ vs, x.1.1 = k ∧ x.2 = valueOf (vs.map fun x => (slotIn ts x.1, x.2)) j ∧
      ∃ u, walk (firstSlot ts k) t x.1.2 = some (u, j) := by
  have key : ∃ x ∈ vs, slotIn ts x.1 = j ∧ x.2 = valueOf (vs.map fun x => (slotIn ts x.1, x.2)) j := by
    unfold valueOf at h ⊢
    split at h
    · rename_i w hw
      have e1 := List.find?_some hw
      have e2 := List.mem_of_find?_eq_some hw
      rw [List.mem_reverse, List.mem_map] at e2
      obtain ⟨x, hx, rfl⟩ := e2
      exact ⟨x, hx, by simpa using e1, rfl⟩
    · exact absurd rfl h
  obtain ⟨x, hx, e1, e2⟩ := key
  obtain ⟨t', u, g1, g2⟩ := hv x hx
  have r1 := walk_range g2
  have p1 := Kefir.Abi.objects_pos u
  have o1 := objectsAll_take g1
  have o2 := objectsAll_take ht
  rw [e1] at g2
  unfold firstSlot at r1 h1 h2
  have hk : x.1.1 = k := by
    rcases Nat.lt_trichotomy x.1.1 k with hlt | heq | hlt
    · have := objectsAll_mono (ms := ts) (show x.1.1 + 1 ≤ k from hlt)
      omega
    · exact heq
    · have := objectsAll_mono (ms := ts) (show k + 1 ≤ x.1.1 from hlt)
      omega
  refine ⟨x, hx, hk, e2, u, ?_⟩
  rw [hk] at g1 g2
  rw [ht] at g1
  cases g1
  exact g2

theorem suits_given {ts : List Ty} {ls : List LTree} {vs : List ((Nat × List Step) × Value)} (hl : LaidAll ts ls)
    (hv : ∀ x ∈ vs, ∃ t u, ts[x.1.1]? = some t ∧ walk (firstSlot ts x.1.1) t x.1.2 = some (u, slotIn ts x.1))
    (h0 : SuitsAll (fun _ => .undefined) ts ls 0) (hf : FitsAll ts ls vs) (hm : NoMixture vs) :
    SuitsAll (valueOf (vs.map fun x => (slotIn ts x.1, x.2))) ts ls 0 := by
  refine suitsAll_of hl h0 ?_
  intro k t l q u l' o j ht hl' hp hw
  rw [Nat.zero_add] at hw
  have hr := walk_range hw
  have hpos := Kefir.Abi.objects_pos u
  have given := @slot_given ts vs hv k t ht
  have fits : valueOf (vs.map fun x => (slotIn ts x.1, x.2)) j ≠ .undefined → ∃ x ∈ vs, x.1 = (k, q) ∧
      Fits u l' (valueOf (vs.map fun x => (slotIn ts x.1, x.2)) j) := by
    intro hne
    obtain ⟨x, hx, e1, e2, u', e3⟩ := given hr.1 (Nat.lt_of_lt_of_le (by omega) hr.2) hne
    have e4 := walk_inj e3 hw
    refine ⟨x, hx, by rw [← e1, ← e4], ?_⟩
    rw [← e2]
    exact (hf x hx).2 t l u l' o (by rw [e1]; exact ht) (by rw [e1]; exact hl') (by rw [e4]; exact hp)
  cases u with
  | leaf k' al n =>
    rw [SlotSuits]
    intro hne
    obtain ⟨x, hx, e, hfit⟩ := fits hne
    exact hfit
  | struct al ms =>
    rw [SlotSuits]
    · by_cases hne : valueOf (vs.map fun x => (slotIn ts x.1, x.2)) j = .undefined
      · exact Or.inl hne
      · obtain ⟨x, hx, e, hfit⟩ := fits hne
        exact hfit.elim
    all_goals (intros; contradiction)
  | union al ms =>
    rw [SlotSuits]
    · by_cases hne : valueOf (vs.map fun x => (slotIn ts x.1, x.2)) j = .undefined
      · exact Or.inl hne
      · obtain ⟨x, hx, e, hfit⟩ := fits hne
        exact hfit.elim
    all_goals (intros; contradiction)
  | array al n e =>
    rw [SlotSuits]
    by_cases hne : valueOf (vs.map fun x => (slotIn ts x.1, x.2)) j = .undefined
    · exact Or.inr (Or.inl hne)
    · obtain ⟨x, hx, e1, hfit⟩ := fits hne
      rw [Fits] at hfit
      obtain ⟨bs, f1, f2⟩ := hfit
      refine Or.inl ⟨bs, f1, f2, ?_⟩
      intro i i1 i2
      rw [objects] at hr
      apply Classical.byContradiction
      intro hi
      obtain ⟨y, hy, g1, g2, u', g3⟩ := given (j := i) (Nat.le_trans hr.1 (by omega)) (Nat.lt_of_lt_of_le (by omega) hr.2) hi
      obtain ⟨z, r, hz⟩ := walk_inside hw g3 i1 (by rw [objects]; omega)
      exact hm x hx y hy z r (by rw [e1, g1]) (by rw [e1]; exact hz)

end Kefir.Slots
