import Verif.Slots.Lemmas
import Verif.StaticData.Emission
/-!
# The bytes of a part of an object
-/

namespace Kefir.Slots

open Kefir.Layout Kefir.Abi Kefir.StaticData

theorem place_at {size : Nat} {ps : List (Nat × List Cell)} {o y : Nat} {cs : List Cell} (hs : o + y < size)
    (hy : y < cs.length) (h : ps.find? (fun x => decide (x.1 ≤ o + y ∧ o + y < x.1 + x.2.length)) = some (o, cs)) :
    (place size ps)[o + y]? = cs[y]? := by
  unfold place
  rw [List.getElem?_map, List.getElem?_range hs, Option.map_some, h]
  simp only [Nat.add_sub_cancel_left]
  rw [List.getElem?_eq_getElem hy, Option.getD_some]

theorem consecutive_ge {start : Nat} {ts : List Ty} {ls : List LTree} (h : Consecutive start ts ls) :
    ∀ {i : Nat} {l : LTree}, ls[i]? = some l → start ≤ l.data.offset := by
  induction h with
  | nil => intro i l h; simp at h
  | cons h1 _ _ _ _ ih =>
    intro i l h
    cases i with
    | zero =>
      simp only [List.getElem?_cons_zero, Option.some.injEq] at h
      rw [← h]; exact h1
    | succ i =>
      rw [List.getElem?_cons_succ] at h
      have := ih h
      unfold LTree.stop at this
      omega

theorem consecutive_stop {start : Nat} {ts : List Ty} {ls : List LTree} (h : Consecutive start ts ls) :
    (∀ {i : Nat} {l : LTree}, ls[i]? = some l → l.stop ≤ lastStop ls) ∧ (ls ≠ [] → start ≤ lastStop ls) := by
  induction h with
  | nil => exact ⟨by intro i l h; simp at h, fun h => absurd rfl h⟩
  | cons h1 h2 h3 h4 h5 ih =>
    rename_i start t l ts ls
    have hstop : l.stop ≤ lastStop (l :: ls) := by
      cases ls with
      | nil => exact Nat.le_refl _
      | cons m ls => exact ih.2 (by simp)
    refine ⟨?_, fun _ => ?_⟩
    · intro i l' h
      cases i with
      | zero =>
        simp only [List.getElem?_cons_zero, Option.some.injEq] at h
        rw [← h]; exact hstop
      | succ i =>
        rw [List.getElem?_cons_succ] at h
        have := ih.1 h
        cases ls with
        | nil => simp at h
        | cons m ls => exact this
    · refine Nat.le_trans ?_ hstop
      unfold LTree.stop
      omega

theorem laidAll_get {ts : List Ty} {ls : List LTree} (h : LaidAll ts ls) : ∀ {i : Nat} {t : Ty} {l : LTree},
    ts[i]? = some t → ls[i]? = some l → Laid t l := by
  induction ts generalizing ls with
  | nil => intro i t l h1; simp at h1
  | cons x xs ih =>
    cases h with
    | cons ha hb =>
      intro i t l h1 h2
      cases i with
      | zero =>
        simp only [List.getElem?_cons_zero, Option.some.injEq] at h1 h2
        rw [← h1, ← h2]; exact ha
      | succ i =>
        rw [List.getElem?_cons_succ] at h1 h2
        exact ih hb h1 h2

theorem suitsAll_get {vals : Nat → Value} {ts : List Ty} : ∀ {ls : List LTree} {slot : Nat},
    SuitsAll vals ts ls slot → ∀ {i : Nat} {t : Ty} {l : LTree}, ts[i]? = some t → ls[i]? = some l →
    Suits vals t l (slot + objectsAll (ts.take i)) := by
  induction ts with
  | nil => intro ls slot _ i t l h1; simp at h1
  | cons x xs ih =>
    intro ls slot h i t l h1 h2
    cases ls with
    | nil => simp at h2
    | cons y ys =>
      rw [SuitsAll] at h
      cases i with
      | zero =>
        simp only [List.getElem?_cons_zero, Option.some.injEq] at h1 h2
        rw [← h1, ← h2]
        simpa [objectsAll] using h.1
      | succ i =>
        rw [List.getElem?_cons_succ] at h1 h2
        have := ih h.2 h1 h2
        rw [List.take_succ_cons, objectsAll, ← Nat.add_assoc]
        exact this

/-- The byte of a member belongs to the piece of the member. -/
theorem pieces_find {vals : Nat → Value} {ts : List Ty} : ∀ {ls : List LTree} {start slot : Nat}, LaidAll ts ls →
    Consecutive start ts ls → SuitsAll vals ts ls slot → ∀ {i : Nat} {t : Ty} {l : LTree} {y : Nat},
    ts[i]? = some t → ls[i]? = some l → y < l.data.size →
    (pieces vals ts ls slot).find?
        (fun x => decide (x.1 ≤ l.data.offset + y ∧ l.data.offset + y < x.1 + x.2.length)) =
      some (l.data.offset, image vals t l (slot + objectsAll (ts.take i))) := by
  induction ts with
  | nil => intro ls start slot _ _ _ i t l y h1; simp at h1
  | cons x xs ih =>
    intro ls start slot hl hc hs i t l y h1 h2 hy
    cases hl with
    | cons ha hb =>
      rename_i m ms
      cases hc with
      | cons c1 _ _ _ c5 =>
        rw [SuitsAll] at hs
        rw [pieces, List.find?_cons]
        cases i with
        | zero =>
          simp only [List.getElem?_cons_zero, Option.some.injEq] at h1 h2
          subst h1; subst h2
          rw [image_length ha hs.1]
          rw [decide_eq_true (by omega)]
          simp [objectsAll]
        | succ i =>
          rw [List.getElem?_cons_succ] at h1 h2
          have := consecutive_ge c5 h2
          unfold LTree.stop at this
          rw [image_length ha hs.1, decide_eq_false (by omega)]
          rw [List.take_succ_cons, objectsAll, ← Nat.add_assoc]
          exact ih hb c5 hs.2 h1 h2 hy

theorem unionPieces_find {vals : Nat → Value} {ts : List Ty} : ∀ {ls : List LTree} {slot : Nat},
    ∀ {i : Nat} {t : Ty} {l : LTree}, ts[i]? = some t → ls[i]? = some l → ts.length = ls.length →
    init vals t (slot + objectsAll (ts.take i)) = true →
    (∀ k u, k < i → ts[k]? = some u → init vals u (slot + objectsAll (ts.take k)) = false) →
    unionPieces vals ts ls slot = [(0, image vals t l (slot + objectsAll (ts.take i)))] := by
  induction ts with
  | nil => intro ls slot i t l h1; simp at h1
  | cons x xs ih =>
    intro ls slot i t l h1 h2 hlen hi hn
    cases ls with
    | nil => simp at h2
    | cons m ms =>
      rw [unionPieces]
      cases i with
      | zero =>
        simp only [List.getElem?_cons_zero, Option.some.injEq] at h1 h2
        subst h1; subst h2
        simp only [List.take_zero, objectsAll, Nat.add_zero] at hi ⊢
        rw [if_pos hi]
      | succ i =>
        rw [List.getElem?_cons_succ] at h1 h2
        have h0 := hn 0 x (by omega) rfl
        simp only [List.take_zero, objectsAll, Nat.add_zero] at h0
        rw [h0]
        simp only [Bool.false_eq_true, if_false]
        rw [List.take_succ_cons, objectsAll, ← Nat.add_assoc] at hi ⊢
        refine ih h1 h2 (by simpa using hlen) hi ?_
        intro k u hk hu
        have := hn (k + 1) u (by omega) (by rw [List.getElem?_cons_succ]; exact hu)
        rw [List.take_succ_cons, objectsAll, ← Nat.add_assoc] at this
        exact this

theorem flatMap_at {f : Nat → List Cell} {m : Nat} : ∀ {n : Nat}, (∀ i, i < n → (f i).length = m) →
    ∀ {i y : Nat}, i < n → y < m → ((List.range n).flatMap f)[i * m + y]? = (f i)[y]? := by
  intro n
  induction n with
  | zero => intro _ i y hi; omega
  | succ n ih =>
    intro h i y hi hy
    rw [List.range_succ, List.flatMap_append]
    have hlen : ((List.range n).flatMap f).length = n * m := by
      have := flatMap_length f m (List.range n) (fun x hx => h x (by have := List.mem_range.1 hx; omega))
      rw [this, List.length_range]
    by_cases hin : i < n
    · have : (i + 1) * m ≤ n * m := Nat.mul_le_mul_right _ hin
      rw [Nat.add_mul] at this
      rw [List.getElem?_append_left (by omega)]
      exact ih (fun k hk => h k (by omega)) hin hy
    · have : i = n := by omega
      subst this
      rw [List.getElem?_append_right (by omega), hlen, Nat.add_sub_cancel_left]
      simp

theorem laidAll_length {ts : List Ty} : ∀ {ls : List LTree}, LaidAll ts ls → ts.length = ls.length := by
  induction ts with
  | nil => intro ls h; cases h; rfl
  | cons t ts ih =>
    intro ls h
    cases h with
    | cons _ h => rw [List.length_cons, List.length_cons, ih h]

/-- A part lies within its object. -/
theorem step_within {t t' : Ty} {l l' : LTree} {s : Step} {o : Nat} (hl : Laid t l)
    (h : step t l s = some (t', l', o)) : Laid t' l' ∧ o + l'.data.size ≤ l.data.size := by
  cases hl with
  | leaf => simp [step] at h
  | struct h1 h2 h3 h4 h5 h6 h7 =>
    cases s with
    | element => simp [step] at h
    | member i =>
      rename_i ms d ls n
      rw [step] at h
      split at h
      · rename_i hx hy
        cases h
        have hst := (consecutive_stop h2).1 hy
        unfold LTree.stop at hst
        exact ⟨laidAll_get h1 hx hy, Nat.le_trans hst h6⟩
      · cases h
  | union h1 h2 h3 h4 h5 h6 h7 =>
    cases s with
    | element => simp [step] at h
    | member i =>
      rename_i ms d ls n
      rw [step] at h
      split at h
      · rename_i hx hy
        cases h
        have hm := List.mem_of_getElem? hy
        rw [h2 _ hm, Nat.zero_add]
        exact ⟨laidAll_get h1 hx hy, h6 _ hm⟩
      · cases h
  | array h1 h2 h3 h4 =>
    cases s with
    | member => simp [step] at h
    | element i =>
      rw [step] at h
      split at h
      · rename_i hi
        cases h
        refine ⟨h1, ?_⟩
        have hm := Nat.mul_le_mul_right l'.data.size (Nat.succ_le_of_lt hi)
        rw [Nat.succ_mul] at hm
        rw [data_node, h4]
        exact hm
      · cases h

theorem part_within : ∀ {p : List Step} {t t' : Ty} {l l' : LTree} {o : Nat}, Laid t l →
    part t l p = some (t', l', o) → Laid t' l' ∧ o + l'.data.size ≤ l.data.size
  | [], t, t', l, l', o, hl, h => by cases h; exact ⟨hl, by omega⟩
  | s :: p, t, t', l, l', o, hl, h => by
    rw [part] at h
    split at h
    · rename_i t1 l1 o1 h1
      obtain ⟨g1, g2⟩ := step_within hl h1
      cases h2 : part t1 l1 p with
      | none => rw [h2] at h; cases h
      | some y =>
        obtain ⟨y1, y2, y3⟩ := y
        rw [h2] at h
        cases h
        obtain ⟨g3, g4⟩ := part_within g1 h2
        refine ⟨g3, ?_⟩
        show o1 + y3 + y2.data.size ≤ _
        omega
    · cases h

/-- The bytes of a part that is visible are those of its own image. -/
theorem step_image {vals : Nat → Value} {t t' : Ty} {l l' : LTree} {s : Step} {o r b : Nat} (hl : Laid t l)
    (hs : Suits vals t l b) (h : step t l s = some (t', l', o)) (hr : inside t s = some (t', r))
    (hv : ∃ j, b + r ≤ j ∧ j < b + r + objects t' ∧ vals j ≠ .undefined)
    (hb : vals b = .undefined)
    (hu : Ty.isUnion t = true → ∀ s' u r', inside t s' = some (u, r') → s' ≠ s → ∀ j, b + r' ≤ j →
      j < b + r' + objects u → vals j = .undefined) :
    Suits vals t' l' (b + r) ∧ ∀ y, y < l'.data.size → (image vals t l b)[o + y]? = (image vals t' l' (b + r))[y]? := by
  cases hl with
  | leaf => simp [step] at h
  | struct h1 h2 h3 h4 h5 h6 h7 =>
    cases s with
    | element => simp [step] at h
    | member i =>
      rename_i ms d ls n
      rw [step] at h
      rw [Suits] at hs
      split at h
      · rename_i hx hy
        cases h
        rw [inside, hx] at hr
        cases hr
        have hsu := suitsAll_get hs.2 hx hy
        have hst := (consecutive_stop h2).1 hy
        unfold LTree.stop at hst
        rw [← Nat.add_assoc]
        refine ⟨hsu, fun y hyl => ?_⟩
        rw [image]
        exact place_at (by omega) (by rw [image_length (laidAll_get h1 hx hy) hsu]; exact hyl)
          (pieces_find h1 h2 hs.2 hx hy hyl)
      · cases h
  | union h1 h2 h3 h4 h5 h6 h7 =>
    cases s with
    | element => simp [step] at h
    | member i =>
      rename_i ms d ls n
      rw [step] at h
      rw [Suits] at hs
      split at h
      · rename_i hx hy
        cases h
        rw [inside, hx] at hr
        cases hr
        have hsu := suitsAll_get hs.2 hx hy
        have hm := List.mem_of_getElem? hy
        rw [← Nat.add_assoc] at hv ⊢
        refine ⟨hsu, fun y hyl => ?_⟩
        have hlen := image_length (laidAll_get h1 hx hy) hsu
        have hsz := h6 _ hm
        have hinit : init vals t' (b + 1 + objectsAll (ms.take i)) = true := by
          obtain ⟨j, j1, j2, j3⟩ := hv
          unfold init
          rw [List.any_eq_true]
          refine ⟨j - (b + 1 + objectsAll (ms.take i)), List.mem_range.2 (by omega), ?_⟩
          rw [decide_eq_true_eq, show b + 1 + objectsAll (ms.take i) + (j - (b + 1 + objectsAll (ms.take i))) = j by omega]
          exact j3
        have hno : ∀ k u, k < i → ms[k]? = some u → init vals u (b + 1 + objectsAll (ms.take k)) = false := by
          intro k u hk hu'
          unfold init
          rw [List.any_eq_false]
          intro x hx'
          have hx' := List.mem_range.1 hx'
          have := hu rfl (.member k) u (1 + objectsAll (ms.take k)) (by rw [inside, hu']; rfl)
            (by intro he; injection he; omega) (b + 1 + objectsAll (ms.take k) + x) (by omega) (by omega)
          rw [this]
          decide
        rw [image, unionPieces_find hx hy (laidAll_length h1) hinit hno, h2 _ hm]
        refine place_at (by omega) (by rw [hlen]; exact hyl) ?_
        rw [List.find?_cons, hlen, decide_eq_true (by omega)]
      · cases h
  | array h1 h2 h3 h4 =>
    cases s with
    | member => simp [step] at h
    | element i =>
      rename_i d l n
      rw [step] at h
      rw [Suits] at hs
      split at h
      · rename_i hi
        cases h
        rw [inside, if_pos hi] at hr
        injection hr with hr
        injection hr with _ hr
        subst hr
        have hs2 := hs.2
        rw [← Nat.add_assoc]
        refine ⟨hs2 i hi, fun y hyl => ?_⟩
        rw [image, hb]
        exact flatMap_at (fun k hk => image_length h1 (hs2 k hk)) hi hyl
      · cases h

theorem part_image {vals : Nat → Value} : ∀ {p : List Step} {t t' : Ty} {l l' : LTree} {o b s : Nat}, Laid t l →
    Suits vals t l b → part t l p = some (t', l', o) → walk b t p = some (t', s) → vals s ≠ .undefined →
    (∀ j, b ≤ j → j < b + objects t → vals j ≠ .undefined → ∃ q u, walk b t q = some (u, j) ∧ Clear t l p q) →
    ∀ y, y < l'.data.size → (image vals t l b)[o + y]? = (image vals t' l' s)[y]?
  | [], t, t', l, l', o, b, s, hl, hs, h, hw, hv, hq, y, hy => by
    cases h
    cases hw
    rw [Nat.zero_add]
  | x :: p, t, t', l, l', o, b, s, hl, hs, h, hw, hv, hq, y, hy => by
    rw [part] at h
    rw [walk] at hw
    split at h
    · rename_i t1 l1 o1 h1
      cases h2 : part t1 l1 p with
      | none => rw [h2] at h; cases h
      | some z =>
        obtain ⟨z1, z2, z3⟩ := z
        rw [h2] at h
        cases h
        obtain ⟨r, hr⟩ := step_inside h1
        rw [hr] at hw
        simp only at hw
        have hrange := walk_range hw
        have hpos := Kefir.Abi.objects_pos z1
        have hin := inside_range hr
        have hb : vals b = .undefined := by
          apply Classical.byContradiction
          intro hne
          obtain ⟨q, u, q1, q2⟩ := hq b (Nat.le_refl _) (by omega) hne
          cases q with
          | nil => exact q2
          | cons x' q =>
            rw [walk] at q1
            split at q1
            · rename_i g
              have := inside_range g
              have := walk_range q1
              omega
            · cases q1
        obtain ⟨g1, g2⟩ := step_image hl hs h1 hr ⟨s, by omega, by omega, hv⟩ hb (by
          intro hu s' u r' hs' hne j j1 j2
          apply Classical.byContradiction
          intro hvj
          have hin' := inside_range hs'
          obtain ⟨q, u', q1, q2⟩ := hq j (by omega) (by omega) hvj
          cases q with
          | nil => exact q2
          | cons x' q =>
            rw [Clear] at q2
            have := q2.1 hu
            subst this
            rw [walk, hr] at q1
            simp only at q1
            have hr2 := walk_range q1
            have hp2 := Kefir.Abi.objects_pos u'
            exact hne (inside_apart (j := j - b) hs' hr (by omega) (by omega) (by omega) (by omega)))
        obtain ⟨k1, k2⟩ := step_within hl h1
        have k3 := part_within k1 h2
        have hy' : y < z2.data.size := hy
        show (image vals t l b)[o1 + z3 + y]? = _
        rw [show o1 + z3 + y = o1 + (z3 + y) by omega, g2 _ (by omega)]
        refine part_image k1 g1 h2 hw hv ?_ y hy
        intro j j1 j2 hvj
        obtain ⟨q, u, q1, q2⟩ := hq j (by omega) (by omega) hvj
        cases q with
        | nil => exact q2.elim
        | cons x' q =>
          rw [walk] at q1
          split at q1
          · rename_i t2 r2 e2
            have e3 := walk_range q1
            have e4 := Kefir.Abi.objects_pos u
            have : x' = x := inside_apart (j := j - b) e2 hr (by omega) (by omega) (by omega) (by omega)
            subst this
            rw [hr] at e2
            cases e2
            rw [Clear] at q2
            exact ⟨q, u, q1, q2.2 rfl _ _ _ h1⟩
          · cases q1
    · cases h

end Kefir.Slots
