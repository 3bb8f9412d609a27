import Verif.Slots.Model
import Verif.Abi.Flat
/-!
# The nodes of a type tree and the slots of designations
-/

namespace Kefir.Slots

open Kefir.Layout Kefir.Abi Kefir.StaticData

mutual
/-- The nodes of a type. -/
def nodesOf : Ty → Nat → Option Nat → Nat → List Node
  | .leaf _ _ _, i, par, s => [⟨i, s, 1, par⟩]
  | .struct _ ms, i, par, s => ⟨i, s, 1 + objectsAll ms, par⟩ :: nodesAll ms (i + 1) (some i) 1
  | .union _ ms, i, par, s => ⟨i, s, 1 + objectsAll ms, par⟩ :: nodesAll ms (i + 1) (some i) 1
  | .array _ n e, i, par, s => ⟨i, s, 1 + n * objects e, par⟩ :: nodesOf e (i + 1) (some i) 1

def nodesAll : List Ty → Nat → Option Nat → Nat → List Node
  | [], _, _, _ => []
  | t :: ts, i, par, s => nodesOf t i par s ++ nodesAll ts (i + (flatten t).length) par (s + objects t)
end

mutual
theorem visit_step : ∀ (ty : Ty), WF ty → ∀ (pre post : List Entry) (n : Nat) (par : Option Nat) (s : Nat),
    visit (pre ++ (flatten ty ++ post)) pre.length (n + 1) par s =
      match visit (pre ++ (flatten ty ++ post)) (pre ++ flatten ty).length n par (s + objects ty) with
      | none => none
      | some (more, x) => some (nodesOf ty pre.length par s ++ more, x)
  | .leaf k al p, _, pre, post, n, par, s => by
    have hn := nodeLen_flatten (.leaf k al p) pre post
    simp only [flatten, List.cons_append, List.nil_append] at hn ⊢
    rw [visit, dif_pos (by simp)]
    simp only [List.getElem_append_right (Nat.le_refl _), Nat.sub_self, List.getElem_cons_zero, hn, objects,
      List.length_append, List.length_cons, List.length_nil, nodesOf, List.cons_append, List.nil_append]
    rfl
  | .struct al ms, hw, pre, post, n, par, s => by
    obtain ⟨hne, hws⟩ : ms ≠ [] ∧ WFAll ms := by cases hw; constructor <;> assumption
    have hpos := List.length_pos_iff.2 hne
    have hn := nodeLen_flatten (.struct al ms) pre post
    have ih := visit_steps ms hws (pre ++ [⟨.struct, al, ms.length⟩]) post (some pre.length) 1
    simp only [List.append_assoc, List.cons_append, List.nil_append, List.length_append,
      List.length_cons, List.length_nil, Nat.zero_add] at ih
    simp only [flatten, List.cons_append] at hn ⊢
    rw [visit, dif_pos (by simp)]
    simp only [List.getElem_append_right (Nat.le_refl _), Nat.sub_self, List.getElem_cons_zero, hn, hpos,
      if_true, ih, objects, List.length_append, nodesOf, List.cons_append]
    rfl
  | .union al ms, hw, pre, post, n, par, s => by
    obtain ⟨hne, hws⟩ : ms ≠ [] ∧ WFAll ms := by cases hw; constructor <;> assumption
    have hpos := List.length_pos_iff.2 hne
    have hn := nodeLen_flatten (.union al ms) pre post
    have ih := visit_steps ms hws (pre ++ [⟨.union, al, ms.length⟩]) post (some pre.length) 1
    simp only [List.append_assoc, List.cons_append, List.nil_append, List.length_append,
      List.length_cons, List.length_nil, Nat.zero_add] at ih
    simp only [flatten, List.cons_append] at hn ⊢
    rw [visit, dif_pos (by simp)]
    simp only [List.getElem_append_right (Nat.le_refl _), Nat.sub_self, List.getElem_cons_zero, hn, hpos,
      if_true, ih, objects, List.length_append, nodesOf, List.cons_append]
    rfl
  | .array al k e, hw, pre, post, n, par, s => by
    have hwe : WF e := by cases hw; assumption
    have hn := nodeLen_flatten (.array al k e) pre post
    have ih := visit_step e hwe (pre ++ [⟨.array, al, k⟩]) post 0 (some pre.length) 1
    simp only [List.append_assoc, List.cons_append, List.nil_append, List.length_append,
      List.length_cons, List.length_nil, Nat.zero_add] at ih
    rw [visit.eq_def _ _ 0] at ih
    simp only [List.append_nil] at ih
    have hm : (1 + objects e - 1) * k + 1 = 1 + k * objects e := by
      rw [Nat.add_sub_cancel_left, Nat.mul_comm, Nat.add_comm]
    simp only [flatten, List.cons_append] at hn ⊢
    rw [visit, dif_pos (by simp)]
    simp only [List.getElem_append_right (Nat.le_refl _), Nat.sub_self, List.getElem_cons_zero, hn,
      ih, objects, List.length_append, nodesOf, List.cons_append, hm]
    rfl

theorem visit_steps : ∀ (ts : List Ty), WFAll ts → ∀ (pre post : List Entry) (par : Option Nat) (s : Nat),
    visit (pre ++ (flattenAll ts ++ post)) pre.length ts.length par s =
      some (nodesAll ts pre.length par s, s + objectsAll ts)
  | [], _, pre, post, par, s => by rw [List.length_nil, visit.eq_def]; simp [objectsAll, nodesAll]
  | t :: ts, hw, pre, post, par, s => by
    obtain ⟨hwt, hws⟩ : WF t ∧ WFAll ts := by cases hw; constructor <;> assumption
    have h1 := visit_step t hwt pre (flattenAll ts ++ post) ts.length par s
    have h2 := visit_steps ts hws (pre ++ flatten t) post par (s + objects t)
    simp only [List.append_assoc] at h2
    simp only [flattenAll, List.append_assoc, List.length_cons, objectsAll, nodesAll]
    rw [h1, h2]
    simp only [List.length_append, Nat.add_assoc]
end

theorem treeInit_eq (ts : List Ty) (hw : WFAll ts) : treeInit (flattenAll ts) = nodesAll ts 0 none 0 := by
  have h := visit_steps ts hw [] [] none 0
  simp only [List.nil_append, List.append_nil, List.length_nil, Nat.zero_add] at h
  rw [treeInit, nodes_flattenAll ts hw, h]

/-! ## Nodes by their index -/

mutual
theorem nodesOf_index : ∀ (t : Ty) (i : Nat) (par : Option Nat) (s : Nat),
    (nodesOf t i par s).map (·.index) = List.range' i (flatten t).length
  | .leaf _ _ _, i, par, s => by simp [nodesOf, flatten]
  | .struct _ ms, i, par, s => by
    simp only [nodesOf, flatten, List.map_cons, List.length_cons, List.range'_succ, nodesAll_index ms]
  | .union _ ms, i, par, s => by
    simp only [nodesOf, flatten, List.map_cons, List.length_cons, List.range'_succ, nodesAll_index ms]
  | .array _ _ e, i, par, s => by
    simp only [nodesOf, flatten, List.map_cons, List.length_cons, List.range'_succ, nodesOf_index e]

theorem nodesAll_index : ∀ (ts : List Ty) (i : Nat) (par : Option Nat) (s : Nat),
    (nodesAll ts i par s).map (·.index) = List.range' i (flattenAll ts).length
  | [], i, par, s => by simp [nodesAll, flattenAll]
  | t :: ts, i, par, s => by
    simp only [nodesAll, flattenAll, List.map_append, List.length_append, nodesOf_index t, nodesAll_index ts]
    rw [List.range'_append_1]
end

theorem treeAt_mem {tree : List Node} (hd : (tree.map (·.index)).Nodup) {n : Node} (h : n ∈ tree) :
    treeAt tree n.index = some n := by
  induction tree with
  | nil => cases h
  | cons m tree ih =>
    rw [List.map_cons, List.nodup_cons] at hd
    unfold treeAt
    rw [List.find?_cons]
    rcases List.mem_cons.1 h with rfl | h
    · simp
    · have : (m.index == n.index) = false := by
        rw [beq_eq_false_iff_ne]
        intro he
        exact hd.1 (List.mem_map.2 ⟨n, h, he.symm⟩)
      rw [this]
      exact ih hd.2 h

theorem nodup_tree (ts : List Ty) (i : Nat) (par : Option Nat) (s : Nat) :
    ((nodesAll ts i par s).map (·.index)).Nodup := by
  rw [nodesAll_index]
  exact List.nodup_range'

/-! ## The slots of designations -/

/-- The part of a type that a step leads to, and its slot in the object. -/
def inside : Ty → Step → Option (Ty × Nat)
  | .struct _ ms, .member i | .union _ ms, .member i => ms[i]?.map fun t => (t, 1 + objectsAll (ms.take i))
  | .array _ n e, .element i => if i < n then some (e, 1 + i * objects e) else none
  | _, _ => none

def walk : Nat → Ty → List Step → Option (Ty × Nat)
  | b, t, [] => some (t, b)
  | b, t, s :: p =>
    match inside t s with
    | some (t', r) => walk (b + r) t' p
    | none => none

theorem step_inside {t : Ty} {l : LTree} {s : Step} {t' : Ty} {l' : LTree} {o : Nat}
    (h : step t l s = some (t', l', o)) : ∃ r, inside t s = some (t', r) := by
  unfold step at h
  split at h
  · split at h
    · rename_i h1 _
      cases h
      exact ⟨_, by rw [inside, h1]; rfl⟩
    · cases h
  · split at h
    · rename_i h1 _
      cases h
      exact ⟨_, by rw [inside, h1]; rfl⟩
    · cases h
  · split at h
    · rename_i h1
      cases h
      exact ⟨_, by rw [inside, if_pos h1]⟩
    · cases h
  · cases h

theorem part_walk : ∀ {p : List Step} {t : Ty} {l : LTree} {x : Ty × LTree × Nat} (b : Nat),
    part t l p = some x → ∃ s, walk b t p = some (x.1, s)
  | [], t, l, x, b, h => by cases h; exact ⟨b, rfl⟩
  | s :: p, t, l, x, b, h => by
    rw [part] at h
    split at h
    · rename_i t' l' o h1
      obtain ⟨r, hr⟩ := step_inside h1
      cases h2 : part t' l' p with
      | none => rw [h2] at h; cases h
      | some y =>
        rw [h2] at h
        cases h
        obtain ⟨z, hz⟩ := part_walk (b + r) h2
        exact ⟨z, by rw [walk, hr]; exact hz⟩
    · cases h

theorem objectsAll_take {ms : List Ty} : ∀ {i : Nat} {t : Ty}, ms[i]? = some t →
    objectsAll (ms.take (i + 1)) = objectsAll (ms.take i) + objects t ∧
      objectsAll (ms.take (i + 1)) ≤ objectsAll ms := by
  induction ms with
  | nil => intro i t h; simp at h
  | cons m ms ih =>
    intro i t h
    cases i with
    | zero =>
      simp only [List.getElem?_cons_zero, Option.some.injEq] at h
      subst h
      simp [objectsAll]
    | succ i =>
      rw [List.getElem?_cons_succ] at h
      obtain ⟨h1, h2⟩ := ih h
      rw [List.take_succ_cons, objectsAll, List.take_succ_cons, objectsAll, objectsAll]
      omega

theorem objectsAll_mono {ms : List Ty} : ∀ {i j : Nat}, i ≤ j → objectsAll (ms.take i) ≤ objectsAll (ms.take j) := by
  induction ms with
  | nil => intro i j _; simp
  | cons m ms ih =>
    intro i j h
    cases i with
    | zero => simp [objectsAll]
    | succ i =>
      cases j with
      | zero => omega
      | succ j =>
        rw [List.take_succ_cons, List.take_succ_cons, objectsAll, objectsAll]
        have := ih (i := i) (j := j) (by omega)
        omega

/-- A part lies behind the slot of its object and within its slots. -/
theorem inside_range {t t' : Ty} {s : Step} {r : Nat} (h : inside t s = some (t', r)) :
    1 ≤ r ∧ r + objects t' ≤ objects t := by
  unfold inside at h
  split at h
  · rename_i ms i
    cases hm : ms[i]? with
    | none => rw [hm] at h; cases h
    | some m =>
      rw [hm] at h
      cases h
      obtain ⟨h1, h2⟩ := objectsAll_take hm
      rw [objects]
      omega
  · rename_i ms i
    cases hm : ms[i]? with
    | none => rw [hm] at h; cases h
    | some m =>
      rw [hm] at h
      cases h
      obtain ⟨h1, h2⟩ := objectsAll_take hm
      rw [objects]
      omega
  · rename_i n e i
    split at h
    · rename_i hi
      simp only [Option.some.injEq, Prod.mk.injEq] at h
      obtain ⟨h1, h2⟩ := h
      rw [objects, ← h1, ← h2]
      have : (i + 1) * objects e ≤ n * objects e := Nat.mul_le_mul_right _ hi
      rw [Nat.add_mul] at this
      omega
    · cases h
  · cases h

theorem walk_range : ∀ {p : List Step} {b : Nat} {t t' : Ty} {s : Nat}, walk b t p = some (t', s) →
    b ≤ s ∧ s + objects t' ≤ b + objects t
  | [], b, t, t', s, h => by cases h; omega
  | x :: p, b, t, t', s, h => by
    rw [walk] at h
    split at h
    · rename_i t1 r h1
      have := inside_range h1
      have := walk_range h
      omega
    · cases h

/-- The parts of an object have different slots. -/
theorem inside_apart {t t1 t2 : Ty} {s1 s2 : Step} {r1 r2 j : Nat} (h1 : inside t s1 = some (t1, r1))
    (h2 : inside t s2 = some (t2, r2)) (a1 : r1 ≤ j) (a2 : j < r1 + objects t1) (b1 : r2 ≤ j)
    (b2 : j < r2 + objects t2) : s1 = s2 := by
  have members : ∀ {ms : List Ty} {i k : Nat} {x y : Ty}, ms[i]? = some x → ms[k]? = some y →
      1 + objectsAll (ms.take i) ≤ j → j < 1 + objectsAll (ms.take i) + objects x →
      1 + objectsAll (ms.take k) ≤ j → j < 1 + objectsAll (ms.take k) + objects y → i = k := by
    intro ms i k x y hx hy c1 c2 c3 c4
    have hx := objectsAll_take hx
    have hy := objectsAll_take hy
    rcases Nat.lt_trichotomy i k with h | h | h
    · have := objectsAll_mono (ms := ms) (show i + 1 ≤ k from h)
      omega
    · exact h
    · have := objectsAll_mono (ms := ms) (show k + 1 ≤ i from h)
      omega
  cases t with
  | leaf => cases s1 <;> cases h1
  | struct al ms =>
    cases s1 with
    | element => cases h1
    | member i =>
      cases s2 with
      | element => cases h2
      | member k =>
        rw [inside] at h1 h2
        cases hx : ms[i]? with
        | none => rw [hx] at h1; cases h1
        | some x =>
          cases hy : ms[k]? with
          | none => rw [hy] at h2; cases h2
          | some y =>
            rw [hx] at h1; rw [hy] at h2
            cases h1; cases h2
            rw [members hx hy a1 a2 b1 b2]
  | union al ms =>
    cases s1 with
    | element => cases h1
    | member i =>
      cases s2 with
      | element => cases h2
      | member k =>
        rw [inside] at h1 h2
        cases hx : ms[i]? with
        | none => rw [hx] at h1; cases h1
        | some x =>
          cases hy : ms[k]? with
          | none => rw [hy] at h2; cases h2
          | some y =>
            rw [hx] at h1; rw [hy] at h2
            cases h1; cases h2
            rw [members hx hy a1 a2 b1 b2]
  | array al n e =>
    cases s1 with
    | member => cases h1
    | element i =>
      cases s2 with
      | member => cases h2
      | element k =>
        rw [inside] at h1 h2
        split at h1
        · split at h2
          · simp only [Option.some.injEq, Prod.mk.injEq] at h1 h2
            obtain ⟨h1, h1'⟩ := h1
            obtain ⟨h2, h2'⟩ := h2
            rw [← h1'] at a1
            rw [← h1', ← h1] at a2
            rw [← h2'] at b1
            rw [← h2', ← h2] at b2
            rcases Nat.lt_trichotomy i k with h | h | h
            · have : (i + 1) * objects e ≤ k * objects e := Nat.mul_le_mul_right _ h
              rw [Nat.add_mul] at this
              omega
            · rw [h]
            · have : (k + 1) * objects e ≤ i * objects e := Nat.mul_le_mul_right _ h
              rw [Nat.add_mul] at this
              omega
          · cases h2
        · cases h1

/-- Different designations have different slots. -/
theorem walk_inj : ∀ {p q : List Step} {b : Nat} {t t1 t2 : Ty} {s : Nat}, walk b t p = some (t1, s) →
    walk b t q = some (t2, s) → p = q
  | [], [], _, _, _, _, _, _, _ => rfl
  | [], y :: q, b, t, t1, t2, s, h1, h2 => by
    cases h1
    rw [walk] at h2
    split at h2
    · rename_i h3
      have := inside_range h3
      have := walk_range h2
      omega
    · cases h2
  | x :: p, [], b, t, t1, t2, s, h1, h2 => by
    cases h2
    rw [walk] at h1
    split at h1
    · rename_i h3
      have := inside_range h3
      have := walk_range h1
      omega
    · cases h1
  | x :: p, y :: q, b, t, t1, t2, s, h1, h2 => by
    rw [walk] at h1 h2
    split at h1
    · rename_i u1 r1 h3
      split at h2
      · rename_i u2 r2 h4
        have e1 := walk_range h1
        have e2 := walk_range h2
        have p1 := objects_pos t1
        have p2 := objects_pos t2
        have : x = y := inside_apart (j := s - b) h3 h4 (by omega) (by omega) (by omega) (by omega)
        subst this
        rw [h3] at h4
        cases h4
        rw [walk_inj h1 h2]
      · cases h2
    · cases h1

end Kefir.Slots
