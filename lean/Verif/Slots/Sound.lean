import Verif.Slots.Image
/-!
# The slots that the translator computes
-/

namespace Kefir.Slots

open Kefir.Layout Kefir.Abi Kefir.StaticData

theorem node_mem (t : Ty) (i : Nat) (par : Option Nat) (s : Nat) : ⟨i, s, objects t, par⟩ ∈ nodesOf t i par s := by
  cases t <;> simp [nodesOf, objects]

theorem laysOf_get {ms : List Ty} : ∀ {i k : Nat} {t : Ty}, ms[k]? = some t →
    (laysOf ms i)[k]? = some (layOf t (i + (flattenAll (ms.take k)).length)) := by
  induction ms with
  | nil => intro i k t h; simp at h
  | cons m ms ih =>
    intro i k t h
    rw [laysOf]
    cases k with
    | zero =>
      simp only [List.getElem?_cons_zero, Option.some.injEq] at h
      subst h
      simp [flattenAll]
    | succ k =>
      rw [List.getElem?_cons_succ] at h ⊢
      rw [ih h, List.take_succ_cons, flattenAll, List.length_append, Nat.add_assoc]

theorem nodesAll_get {ms : List Ty} : ∀ {i k s : Nat} {par : Option Nat} {t : Ty}, ms[k]? = some t →
    ∀ n ∈ nodesOf t (i + (flattenAll (ms.take k)).length) par (s + objectsAll (ms.take k)),
      n ∈ nodesAll ms i par s := by
  induction ms with
  | nil => intro i k s par t h; simp at h
  | cons m ms ih =>
    intro i k s par t h n hn
    rw [nodesAll]
    cases k with
    | zero =>
      simp only [List.getElem?_cons_zero, Option.some.injEq] at h
      subst h
      simp only [List.take_zero, flattenAll, List.length_nil, objectsAll, Nat.add_zero] at hn
      exact List.mem_append_left _ hn
    | succ k =>
      rw [List.getElem?_cons_succ] at h
      rw [List.take_succ_cons, flattenAll, List.length_append, objectsAll, ← Nat.add_assoc, ← Nat.add_assoc] at hn
      exact List.mem_append_right _ (ih h n hn)

variable {tree : List Node}

theorem part_slot (hd : (tree.map (·.index)).Nodup) {t t' : Ty} {i : Nat} {par : Option Nat} {s r : Nat} {x : Step}
    (b : Nat) (hm : ∀ n ∈ nodesOf t i par s, n ∈ tree) (h : inside t x = some (t', r)) :
    ∃ i' s', resolvePart (layOf t i) x = some (layOf t' i') ∧
      addDesignatedSlot tree b (layOf t' i') x = some (b + r) ∧ ∀ n ∈ nodesOf t' i' (some i) s', n ∈ tree := by
  have at_node : ∀ {i' : Nat} {s' : Nat}, (∀ n ∈ nodesOf t' i' (some i) s', n ∈ tree) →
      treeAt tree (layOf t' i').value = some ⟨i', s', objects t', some i⟩ := by
    intro i' s' hn
    have h1 := treeAt_mem hd (hn _ (node_mem t' i' (some i) s'))
    have h2 : (layOf t' i').value = i' := by cases t' <;> rfl
    rw [h2]
    exact h1
  cases t with
  | leaf => cases x <;> cases h
  | struct al ms =>
    cases x with
    | element => cases h
    | member k =>
      rw [inside] at h
      cases hx : ms[k]? with
      | none => rw [hx] at h; cases h
      | some u =>
        rw [hx] at h
        cases h
        have hn : ∀ n ∈ nodesOf t' (i + 1 + (flattenAll (ms.take k)).length) (some i) (1 + objectsAll (ms.take k)),
            n ∈ tree := fun n hn => hm n (by rw [nodesOf]; exact List.mem_cons_of_mem _ (nodesAll_get hx n hn))
        refine ⟨_, _, ?_, ?_, hn⟩
        · rw [layOf]; exact laysOf_get hx
        · rw [addDesignatedSlot, at_node hn]
  | union al ms =>
    cases x with
    | element => cases h
    | member k =>
      rw [inside] at h
      cases hx : ms[k]? with
      | none => rw [hx] at h; cases h
      | some u =>
        rw [hx] at h
        cases h
        have hn : ∀ n ∈ nodesOf t' (i + 1 + (flattenAll (ms.take k)).length) (some i) (1 + objectsAll (ms.take k)),
            n ∈ tree := fun n hn => hm n (by rw [nodesOf]; exact List.mem_cons_of_mem _ (nodesAll_get hx n hn))
        refine ⟨_, _, ?_, ?_, hn⟩
        · rw [layOf]; exact laysOf_get hx
        · rw [addDesignatedSlot, at_node hn]
  | array al m e =>
    cases x with
    | member => cases h
    | element k =>
      rw [inside] at h
      split at h
      · injection h with h
        injection h with h1 h2
        subst h1; subst h2
        have hn : ∀ n ∈ nodesOf e (i + 1) (some i) 1, n ∈ tree :=
          fun n hn => hm n (by rw [nodesOf]; exact List.mem_cons_of_mem _ hn)
        refine ⟨_, _, ?_, ?_, hn⟩
        · rw [layOf]; rfl
        · rw [addDesignatedSlot, at_node hn]
      · cases h

theorem resolve_walk (hd : (tree.map (·.index)).Nodup) : ∀ {p : List Step} {t t' : Ty} {i : Nat} {par : Option Nat}
    {s b slot : Nat}, (∀ n ∈ nodesOf t i par s, n ∈ tree) → walk b t p = some (t', slot) →
    ∃ i' par' s', resolveSlot tree (layOf t i) b p = some (layOf t' i', slot) ∧
      ∀ n ∈ nodesOf t' i' par' s', n ∈ tree
  | [], t, t', i, par, s, b, slot, hm, h => by cases h; exact ⟨i, par, s, rfl, hm⟩
  | x :: p, t, t', i, par, s, b, slot, hm, h => by
    rw [walk] at h
    split at h
    · rename_i t1 r h1
      obtain ⟨i', s', g1, g2, g3⟩ := part_slot hd b hm h1
      obtain ⟨i2, par2, s2, k1, k2⟩ := resolve_walk hd g3 h
      refine ⟨i2, par2, s2, ?_, k2⟩
      rw [resolveSlot, g1]
      simp only
      rw [g2]
      exact k1
    · cases h

theorem walk_append : ∀ {p q : List Step} {b : Nat} {t : Ty}, walk b t (p ++ q) =
    match walk b t p with
    | some (t', s) => walk s t' q
    | none => none
  | [], q, b, t => rfl
  | x :: p, q, b, t => by
    rw [List.cons_append, walk, walk]
    cases inside t x with
    | none => rfl
    | some y => exact walk_append

/-- The slot of a designation. -/
def slotOf (b : Nat) (t : Ty) (p : List Step) : Nat :=
  match walk b t p with
  | some x => x.2
  | none => 0

mutual
theorem translate_eq (hd : (tree.map (·.index)).Nodup) {b0 : Nat} {t0 : Ty} : ∀ (i : Init) {t : Ty} {l : LTree}
    {k : Nat} {par : Option Nat} {s b : Nat} {r : List Step}, (∀ n ∈ nodesOf t k par s, n ∈ tree) →
    walk b0 t0 r = some (t, b) → i.Valid t l →
    translate tree (layOf t k) b i = some ((i.values r).map fun x => (slotOf b0 t0 x.1, x.2)) ∧
      ∀ x ∈ i.values r, ∃ u, walk b0 t0 x.1 = some (u, slotOf b0 t0 x.1)
  | .value p v, t, l, k, par, s, b, r, hm, hr, hv => by
    rw [Init.Valid] at hv
    obtain ⟨x, hx⟩ := hv
    obtain ⟨slot, hs⟩ := part_walk b hx
    obtain ⟨i', par', s', g1, -⟩ := resolve_walk hd hm hs
    have hw : walk b0 t0 (r ++ p) = some (x.1, slot) := by rw [walk_append, hr]; exact hs
    have hslot : slotOf b0 t0 (r ++ p) = slot := by rw [slotOf, hw]
    rw [translate, g1, Init.values]
    refine ⟨by rw [List.map_cons, List.map_nil, hslot], ?_⟩
    intro y hy
    rw [List.mem_singleton] at hy
    subst hy
    exact ⟨x.1, by rw [hslot]; exact hw⟩
  | .list p is, t, l, k, par, s, b, r, hm, hr, hv => by
    rw [Init.Valid] at hv
    obtain ⟨x, hx, hv⟩ := hv
    obtain ⟨slot, hs⟩ := part_walk b hx
    obtain ⟨i', par', s', g1, g2⟩ := resolve_walk hd hm hs
    have hw : walk b0 t0 (r ++ p) = some (x.1, slot) := by rw [walk_append, hr]; exact hs
    rw [translate, g1, Init.values]
    exact translateAll_eq hd is g2 hw hv

theorem translateAll_eq (hd : (tree.map (·.index)).Nodup) {b0 : Nat} {t0 : Ty} : ∀ (is : List Init) {t : Ty}
    {l : LTree} {k : Nat} {par : Option Nat} {s b : Nat} {r : List Step}, (∀ n ∈ nodesOf t k par s, n ∈ tree) →
    walk b0 t0 r = some (t, b) → ValidAll t l is →
    translateAll tree (layOf t k) b is = some ((valuesAll r is).map fun x => (slotOf b0 t0 x.1, x.2)) ∧
      ∀ x ∈ valuesAll r is, ∃ u, walk b0 t0 x.1 = some (u, slotOf b0 t0 x.1)
  | [], t, l, k, par, s, b, r, hm, hr, hv => by
    rw [translateAll, valuesAll]
    exact ⟨rfl, fun x hx => by cases hx⟩
  | i :: is, t, l, k, par, s, b, r, hm, hr, hv => by
    rw [ValidAll] at hv
    obtain ⟨h1, h2⟩ := translate_eq hd i hm hr hv.1
    obtain ⟨h3, h4⟩ := translateAll_eq hd is hm hr hv.2
    rw [translateAll, h1]
    simp only
    rw [h3, valuesAll, List.map_append]
    refine ⟨rfl, fun x hx => ?_⟩
    rcases List.mem_append.1 hx with hx | hx
    · exact h2 x hx
    · exact h4 x hx
end

/-- The first slot of an object. -/
def firstSlot (ts : List Ty) (k : Nat) : Nat := objectsAll (ts.take k)

/-- The slot of a designation in one of several objects. -/
def slotIn (ts : List Ty) (x : Nat × List Step) : Nat :=
  match ts[x.1]? with
  | some t => slotOf (firstSlot ts x.1) t x.2
  | none => 0

theorem initializeData_eq (ts : List Ty) (hw : WFAll ts) {k : Nat} {t : Ty} {l : LTree} (ht : ts[k]? = some t)
    {is : List Init} (hv : ValidAll t l is) :
    ∃ lay, (laysOf ts 0)[k]? = some lay ∧ initializeData (flattenAll ts) lay is =
      some ((valuesAll [] is).map fun x => (slotIn ts (k, x.1), x.2)) ∧
      ∀ x ∈ valuesAll [] is, ∃ u, walk (firstSlot ts k) t x.1 = some (u, slotIn ts (k, x.1)) := by
  refine ⟨_, laysOf_get ht, ?_⟩
  rw [Nat.zero_add]
  have hd := nodup_tree ts 0 none 0
  have hm : ∀ n ∈ nodesOf t (flattenAll (ts.take k)).length none (firstSlot ts k), n ∈ nodesAll ts 0 none 0 := by
    intro n hn
    refine nodesAll_get ht n ?_
    rw [Nat.zero_add, Nat.zero_add]
    exact hn
  have hn := hm _ (node_mem t _ none (firstSlot ts k))
  have hat := treeAt_mem hd hn
  have hval : (layOf t (flattenAll (ts.take k)).length).value = (flattenAll (ts.take k)).length := by cases t <;> rfl
  simp only at hat
  unfold initializeData
  rw [treeInit_eq ts hw, hval, hat]
  simp only
  rw [baseSlot, hat]
  simp only
  have hz : baseSlot (nodesAll ts 0 none 0) (nodesAll ts 0 none 0).length none = 0 := by
    cases (nodesAll ts 0 none 0).length <;> rfl
  rw [hz, Nat.zero_add]
  have := translateAll_eq (tree := nodesAll ts 0 none 0) hd (b0 := firstSlot ts k) (t0 := t) is (r := []) hm rfl hv
  simp only [slotIn, ht]
  exact this

theorem translateObjects_eq (ts : List Ty) (ls : List LTree) (hw : WFAll ts) : ∀ (os : List (Nat × List Init)),
    (∀ o ∈ os, ∃ t l, ts[o.1]? = some t ∧ ls[o.1]? = some l ∧ ValidAll t l o.2) →
    translateObjects (flattenAll ts) (laysOf ts 0) os = some ((designated os).map fun x => (slotIn ts x.1, x.2)) ∧
      ∀ x ∈ designated os, ∃ t u, ts[x.1.1]? = some t ∧
        walk (firstSlot ts x.1.1) t x.1.2 = some (u, slotIn ts x.1)
  | [], _ => ⟨rfl, fun x hx => by cases hx⟩
  | (k, is) :: os, h => by
    obtain ⟨t, l, h1, h2, h3⟩ := h (k, is) List.mem_cons_self
    obtain ⟨lay, g1, g2, g3⟩ := initializeData_eq ts hw h1 h3
    obtain ⟨g4, g5⟩ := translateObjects_eq ts ls hw os (fun o ho => h o (List.mem_cons_of_mem _ ho))
    rw [translateObjects, g1]
    simp only
    rw [g2]
    simp only
    rw [g4, designated, List.map_append, List.map_map]
    refine ⟨rfl, fun x hx => ?_⟩
    rcases List.mem_append.1 hx with hx | hx
    · obtain ⟨y, hy, rfl⟩ := List.mem_map.1 hx
      obtain ⟨u, hu⟩ := g3 y hy
      exact ⟨t, u, h1, hu⟩
    · exact g5 x hx

/-- Different designations of the same or of different objects have different slots. -/
theorem slotIn_inj {ts : List Ty} {x y : Nat × List Step} {t1 t2 u1 u2 : Ty} (h1 : ts[x.1]? = some t1)
    (h2 : ts[y.1]? = some t2) (w1 : walk (firstSlot ts x.1) t1 x.2 = some (u1, slotIn ts x))
    (w2 : walk (firstSlot ts y.1) t2 y.2 = some (u2, slotIn ts y)) (h : slotIn ts x = slotIn ts y) : x = y := by
  have r1 := walk_range w1
  have r2 := walk_range w2
  have p1 := Kefir.Abi.objects_pos u1
  have p2 := Kefir.Abi.objects_pos u2
  have o1 := objectsAll_take h1
  have o2 := objectsAll_take h2
  unfold firstSlot at r1 r2
  have hk : x.1 = y.1 := by
    rcases Nat.lt_trichotomy x.1 y.1 with hlt | heq | hlt
    · have := objectsAll_mono (ms := ts) (show x.1 + 1 ≤ y.1 from hlt)
      omega
    · exact heq
    · have := objectsAll_mono (ms := ts) (show y.1 + 1 ≤ x.1 from hlt)
      omega
  obtain ⟨k, p⟩ := x
  obtain ⟨k', q⟩ := y
  simp only at hk
  subst hk
  simp only at h1 h2 w1 w2
  rw [h1] at h2
  cases h2
  rw [h] at w1
  rw [walk_inj w1 w2]

/-- The last of several assignments counts. -/
theorem valueOf_last {ts : List Ty} {vs : List ((Nat × List Step) × Value)}
    (hv : ∀ x ∈ vs, ∃ t u, ts[x.1.1]? = some t ∧ walk (firstSlot ts x.1.1) t x.1.2 = some (u, slotIn ts x.1))
    {as bs : List ((Nat × List Step) × Value)} {d : Nat × List Step} {v : Value} (h : vs = as ++ (d, v) :: bs)
    (hb : ∀ x ∈ bs, x.1 ≠ d) :
    valueOf (vs.map fun x => (slotIn ts x.1, x.2)) (slotIn ts d) = v := by
  have hd := hv (d, v) (by rw [h]; simp)
  obtain ⟨t, u, d1, d2⟩ := hd
  unfold valueOf
  rw [h, List.map_append, List.map_cons, List.reverse_append, List.reverse_cons, List.append_assoc]
  have hn : ((bs.map fun x => (slotIn ts x.1, x.2)).reverse).find? (fun w => decide (w.1 = slotIn ts d)) = none := by
    rw [List.find?_eq_none]
    intro w hw
    rw [List.mem_reverse, List.mem_map] at hw
    obtain ⟨x, hx, rfl⟩ := hw
    obtain ⟨t', u', e1, e2⟩ := hv x (by rw [h]; simp [hx])
    rw [decide_eq_true_eq]
    intro he
    exact hb x hx (slotIn_inj e1 d1 e2 d2 he)
  rw [List.find?_append, hn]
  simp

theorem valueOf_some {writes : List (Nat × Value)} {j : Nat} (h : valueOf writes j ≠ .undefined) :
    ∃ w ∈ writes, w.1 = j := by
  unfold valueOf at h
  split at h
  · rename_i w hw
    have := List.find?_some hw
    exact ⟨w, List.mem_reverse.1 (List.mem_of_find?_eq_some hw), by simpa using this⟩
  · exact absurd rfl h

end Kefir.Slots
