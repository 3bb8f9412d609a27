import Verif.Slots.Suits
import Verif.StaticData.Props
/-!
# C100: the values of initialisers are stored in the designated bytes
-/

namespace Kefir.Slots

open Kefir.Layout Kefir.Abi Kefir.StaticData

/-- Initialisers of objects whose designations lead to parts of the objects. -/
def Valid (ts : List Ty) (ls : List LTree) (os : List (Nat × List Init)) : Prop :=
  ∀ o ∈ os, ∃ t l, ts[o.1]? = some t ∧ ls[o.1]? = some l ∧ ValidAll t l o.2

/-- C100: the values of initialisers are numbered without confusion.  For objects of any types and any
initialisers with valid designations, nested to any depth, the translator stores the values, in their order,
in slots that depend on the object and the designation only; every slot is one of the slots of the objects, and
different designations, or different objects, have different slots. -/
theorem C100_slots (ts : List Ty) (ls : List LTree) (hw : WFAll ts) :
    ∃ slot : Nat × List Step → Nat,
      (∀ os, Valid ts ls os → translateObjects (flattenAll ts) (laysOf ts 0) os =
        some ((designated os).map fun x => (slot x.1, x.2))) ∧
      (∀ k t l p, ts[k]? = some t → ls[k]? = some l → part t l p ≠ none → slot (k, p) < objectsAll ts) ∧
      ∀ k k' t t' l l' p p', ts[k]? = some t → ls[k]? = some l → part t l p ≠ none → ts[k']? = some t' →
        ls[k']? = some l' → part t' l' p' ≠ none → slot (k, p) = slot (k', p') → k = k' ∧ p = p' := by
  have walks : ∀ k t l p, ts[k]? = some t → ls[k]? = some l → part t l p ≠ none →
      ∃ u, walk (firstSlot ts k) t p = some (u, slotIn ts (k, p)) := by
    intro k t l p ht hl hp
    cases hx : part t l p with
    | none => exact absurd hx hp
    | some x =>
      obtain ⟨s, hs⟩ := part_walk (firstSlot ts k) hx
      refine ⟨x.1, ?_⟩
      rw [slotIn]
      simp only [ht]
      rw [slotOf, hs]
  refine ⟨slotIn ts, fun os ho => (translateObjects_eq ts ls hw os ho).1, ?_, ?_⟩
  · intro k t l p ht hl hp
    obtain ⟨u, hu⟩ := walks k t l p ht hl hp
    have r := walk_range hu
    have o := objectsAll_take ht
    have pos := Kefir.Abi.objects_pos u
    unfold firstSlot at r
    omega
  · intro k k' t t' l l' p p' h1 h2 h3 h4 h5 h6 he
    obtain ⟨u, hu⟩ := walks k t l p h1 h2 h3
    obtain ⟨u', hu'⟩ := walks k' t' l' p' h4 h5 h6
    have := slotIn_inj (x := (k, p)) (y := (k', p')) h1 h4 hu hu' he
    cases this
    exact ⟨rfl, rfl⟩

theorem part_append : ∀ {p q : List Step} {t t' : Ty} {l l' : LTree} {o : Nat}, part t l p = some (t', l', o) →
    part t l (p ++ q) = (part t' l' q).map fun x => (x.1, x.2.1, o + x.2.2)
  | [], q, t, t', l, l', o, h => by
    cases h
    rw [List.nil_append]
    cases part t l q <;> simp
  | s :: p, q, t, t', l, l', o, h => by
    rw [part] at h
    split at h
    · rename_i t1 l1 o1 h1
      rw [List.cons_append, part, h1]
      simp only
      cases h2 : part t1 l1 p with
      | none => rw [h2] at h; cases h
      | some y =>
        obtain ⟨y1, y2, y3⟩ := y
        rw [h2] at h
        cases h
        rw [part_append h2]
        cases part y1 y2 q <;> simp [Nat.add_assoc]
    · cases h

mutual
theorem values_part {t0 : Ty} {l0 : LTree} : ∀ (i : Init) {t : Ty} {l : LTree} {o : Nat} {r : List Step},
    part t0 l0 r = some (t, l, o) → i.Valid t l → ∀ x ∈ i.values r, ∃ t' l' o', part t0 l0 x.1 = some (t', l', o')
  | .value p v, t, l, o, r, hr, hv, x, hx => by
    rw [Init.Valid] at hv
    obtain ⟨y, hy⟩ := hv
    rw [Init.values, List.mem_singleton] at hx
    subst hx
    simp only
    rw [part_append hr, hy]
    exact ⟨_, _, _, rfl⟩
  | .list p is, t, l, o, r, hr, hv, x, hx => by
    rw [Init.Valid] at hv
    obtain ⟨y, hy, hv⟩ := hv
    rw [Init.values] at hx
    refine valuesAll_part is ?_ hv x hx (o := o + y.2.2)
    rw [part_append hr, hy]
    rfl

theorem valuesAll_part {t0 : Ty} {l0 : LTree} : ∀ (is : List Init) {t : Ty} {l : LTree} {o : Nat} {r : List Step},
    part t0 l0 r = some (t, l, o) → ValidAll t l is →
    ∀ x ∈ valuesAll r is, ∃ t' l' o', part t0 l0 x.1 = some (t', l', o')
  | [], t, l, o, r, hr, hv, x, hx => by rw [valuesAll] at hx; cases hx
  | i :: is, t, l, o, r, hr, hv, x, hx => by
    rw [ValidAll] at hv
    rw [valuesAll] at hx
    rcases List.mem_append.1 hx with hx | hx
    · exact values_part i hr hv.1 x hx
    · exact valuesAll_part is hr hv.2 x hx
end

theorem valid_part {ts : List Ty} {ls : List LTree} : ∀ {os : List (Nat × List Init)}, Valid ts ls os →
    ∀ x ∈ designated os, ∃ t l t' l' o, ts[x.1.1]? = some t ∧ ls[x.1.1]? = some l ∧
      part t l x.1.2 = some (t', l', o)
  | [], _, x, hx => by rw [designated] at hx; cases hx
  | (k, is) :: os, h, x, hx => by
    rw [designated] at hx
    rcases List.mem_append.1 hx with hx | hx
    · obtain ⟨y, hy, rfl⟩ := List.mem_map.1 hx
      obtain ⟨t, l, e1, e2, e3⟩ := h (k, is) List.mem_cons_self
      obtain ⟨t', l', o, e4⟩ := valuesAll_part is (t0 := t) (l0 := l) (r := []) (o := 0) rfl e3 y hy
      exact ⟨t, l, t', l', o, e1, e2, e4⟩
    · exact valid_part (fun o ho => h o (List.mem_cons_of_mem _ ho)) x hx

theorem fits_ne {t : Ty} {l : LTree} {v : Value} (h : Fits t l v) : v ≠ .aggregate := by
  cases t with
  | leaf k al n =>
    rw [Fits] at h
    rintro rfl
    cases k <;> simp [LeafSuits] at h
  | array al n e =>
    rw [Fits] at h
    obtain ⟨bs, h | h, -⟩ := h <;> rw [h] <;> simp
  | struct al ms => exact h.elim
  | union al ms => exact h.elim

theorem image_bytes {vals : Nat → Value} {t : Ty} {l : LTree} {s : Nat} (hl : Laid t l) (h : Fits t l (vals s)) :
    image vals t l s = bytesFor t l (vals s) := by
  cases t with
  | leaf k al n => rw [image, bytesFor]
  | array al n e =>
    rw [Fits] at h
    obtain ⟨bs, h | h, -⟩ := h
    · cases hl
      rw [image, h]
      rfl
    · cases hl
      rw [image, h]
      rfl
  | struct al ms => exact h.elim
  | union al ms => exact h.elim

/-- C100: the values of initialisers are stored in the designated bytes.  For objects of any types and any
initialisers whose designations are valid, nested to any depth, in any order, and whose values fit the parts
they are given for: in the bytes that are emitted, every part for which a value is given has, at the offset of
the part in the layout of the object, the bytes of the last value that is given for it, as long as no value is
given for another member of a union that contains the part.

Missing: values for which slots are used with gaps (`C40_gap_false`), several members of a union, and the
values of single bit-fields (C55). -/
theorem C100_value_partial (ts : List Ty) (ls : List LTree) (hw : WFAll ts) (hl : LaidAll ts ls)
    (hc : Consecutive 0 ts ls) (hu : UnpackedAll ts ls) (hb : ∀ t ∈ ts, t.isBits = false)
    (h0 : SuitsAll (fun _ => .undefined) ts ls 0) (os : List (Nat × List Init)) (hv : Valid ts ls os)
    (hf : FitsAll ts ls (designated os)) (hm : NoMixture (designated os)) :
    ∃ writes, translateObjects (flattenAll ts) (laysOf ts 0) os = some writes ∧
      (NoGaps writes → ∃ d d' bytes, setAll (alloc (objectsAll ts)) writes = .ok d ∧ finalize ts d = .ok d' ∧
        staticData d' ts ls = .ok bytes ∧
        ∀ k t l p t' l' o v before after, ts[k]? = some t → ls[k]? = some l → part t l p = some (t', l', o) →
          designated os = before ++ ((k, p), v) :: after → (∀ x ∈ after, x.1 ≠ (k, p)) →
          (∀ x ∈ designated os, x.1.1 = k → Clear t l p x.1.2) →
          ∀ y, y < l'.data.size → bytes[l.data.offset + o + y]? = (bytesFor t' l' v)[y]?) := by
  obtain ⟨g1, g2⟩ := translateObjects_eq ts ls hw os hv
  refine ⟨_, g1, ?_⟩
  intro hg
  have hs := suits_given hl g2 h0 hf hm
  have lays : ∀ x ∈ designated os, ∃ t l t' l' o, ts[x.1.1]? = some t ∧ ls[x.1.1]? = some l ∧
      part t l x.1.2 = some (t', l', o) := by
    intro x hx
    exact valid_part hv x hx
  have hna : ∀ w ∈ (designated os).map (fun x => (slotIn ts x.1, x.2)), w.2 ≠ .aggregate := by
    intro w hw
    obtain ⟨x, hx, rfl⟩ := List.mem_map.1 hw
    obtain ⟨t, l, t', l', o, e1, e2, e3⟩ := lays x hx
    exact fits_ne ((hf x hx).2 t l t' l' o e1 e2 e3)
  obtain ⟨d, d', k1, k2, k3⟩ := C40_image_partial ts ls hw hl hc hu hb _ hna hg hs
  refine ⟨d, d', _, k1, k2, k3, ?_⟩
  intro k t l p t' l' o v before after ht hlk hp hd ha hcl y hy
  have hin : ((k, p), v) ∈ designated os := by rw [hd]; simp
  have hlaid := laidAll_get hl ht hlk
  obtain ⟨hl', hin'⟩ := part_within hlaid hp
  have hlast := valueOf_last g2 hd ha
  obtain ⟨u, t1, w1, w2⟩ := g2 _ hin
  simp only at w1 w2
  rw [ht] at w1
  cases w1
  obtain ⟨s, hs'⟩ := part_walk (firstSlot ts k) hp
  rw [hs'] at w2
  simp only [Option.some.injEq, Prod.mk.injEq] at w2
  obtain ⟨w2, w3⟩ := w2
  subst w2; subst w3
  have hfit := (hf _ hin).2 t l t' l' o ht hlk hp
  have hne := (hf _ hin).1
  have hstop := (consecutive_stop hc).1 hlk
  rw [LTree.stop] at hstop
  have hsuit := suitsAll_get hs ht hlk
  rw [Nat.zero_add] at hsuit
  change Suits _ t l (firstSlot ts k) at hsuit
  have him := part_image hlaid hsuit hp hs' (by rw [hlast]; exact hne) (by
    intro j j1 j2 hj
    obtain ⟨x, hx, e1, e2, u, e3⟩ := slot_given g2 ht j1 j2 hj
    exact ⟨x.1.2, u, e3, hcl x hx e1⟩) y hy
  have hlen : (image (valueOf ((designated os).map fun x => (slotIn ts x.1, x.2))) t l (firstSlot ts k)).length =
      l.data.size := image_length hlaid hsuit
  rw [Nat.add_assoc, place_at (cs := image (valueOf ((designated os).map fun x => (slotIn ts x.1, x.2))) t l
    (firstSlot ts k)) (by omega) (by omega), him, image_bytes hl' (by rw [hlast]; exact hfit), hlast]
  have := pieces_find hl hc hs ht hlk (y := o + y) (by omega)
  rw [Nat.zero_add] at this
  exact this

/-- C100: for objects with at most 128 parts there are no gaps. -/
theorem C100_small_partial (ts : List Ty) (ls : List LTree) (hw : WFAll ts) (hl : LaidAll ts ls)
    (hc : Consecutive 0 ts ls) (hu : UnpackedAll ts ls) (hb : ∀ t ∈ ts, t.isBits = false)
    (h0 : SuitsAll (fun _ => .undefined) ts ls 0) (hsm : objectsAll ts ≤ 128) (os : List (Nat × List Init))
    (hv : Valid ts ls os) (hf : FitsAll ts ls (designated os)) (hm : NoMixture (designated os)) :
    ∃ writes d d' bytes, translateObjects (flattenAll ts) (laysOf ts 0) os = some writes ∧
      setAll (alloc (objectsAll ts)) writes = .ok d ∧ finalize ts d = .ok d' ∧ staticData d' ts ls = .ok bytes ∧
      ∀ k t l p t' l' o v before after, ts[k]? = some t → ls[k]? = some l → part t l p = some (t', l', o) →
        designated os = before ++ ((k, p), v) :: after → (∀ x ∈ after, x.1 ≠ (k, p)) →
        (∀ x ∈ designated os, x.1.1 = k → Clear t l p x.1.2) →
        ∀ y, y < l'.data.size → bytes[l.data.offset + o + y]? = (bytesFor t' l' v)[y]? := by
  obtain ⟨writes, h1, h2⟩ := C100_value_partial ts ls hw hl hc hu hb h0 os hv hf hm
  obtain ⟨slot, s1, s2, -⟩ := C100_slots ts ls hw
  have hg : NoGaps writes := by
    intro w hw b hb
    have e := h1.symm.trans (s1 os hv)
    injection e with e
    rw [e] at hw
    obtain ⟨x, hx, rfl⟩ := List.mem_map.1 hw
    obtain ⟨t, l, t', l', o, e1, e2, e3⟩ := valid_part hv x hx
    have := s2 x.1.1 t l x.1.2 e1 e2 (by rw [e3]; simp)
    have hlt : slot x.1 < blockCapacity := Nat.lt_of_lt_of_le this hsm
    simp only at hb
    rw [Nat.div_eq_of_lt hlt] at hb
    omega
  obtain ⟨d, d', bytes, k1, k2, k3, k4⟩ := h2 hg
  exact ⟨writes, d, d', bytes, h1, k1, k2, k3, k4⟩

/-! ### Example -/

/-- `{ .c = 'A', .i = { [1] = 0x01020304 }, .u.d = 1.0, .s = "xy" }`. -/
def sampleInit : List (Nat × List Init) :=
  [(0, [.value [.member 0] (.integer 65), .list [.member 1] [.value [.element 1] (.integer 0x01020304)],
    .value [.member 2, .member 1] (.float64 0x3ff0000000000000), .value [.member 3] (.string [120, 121, 0])])]

theorem sampleInit_valid : Valid [sample] [sampleLayout] sampleInit := by
  intro o ho
  simp only [sampleInit, List.mem_singleton] at ho
  subst ho
  refine ⟨sample, sampleLayout, rfl, rfl, ?_⟩
  simp [ValidAll, Init.Valid, part, step, sample, sampleLayout]

/-- The slots of the example are those of `sampleWrites`. -/
example : translateObjects (flattenAll [sample]) (laysOf [sample] 0) sampleInit = some sampleWrites := by
  rw [(translateObjects_eq [sample] [sampleLayout] sample_wf sampleInit sampleInit_valid).1]
  decide +kernel

/-- The hypotheses about the values hold for the example. -/
example : FitsAll [sample] [sampleLayout] (designated sampleInit) ∧ NoMixture (designated sampleInit) ∧
    SuitsAll (fun _ => .undefined) [sample] [sampleLayout] 0 ∧ objectsAll [sample] ≤ 128 := by
  refine ⟨?_, ?_, ?_, by decide +kernel⟩
  · intro x hx
    simp [sampleInit, designated, valuesAll, Init.values] at hx
    rcases hx with rfl | rfl | rfl | rfl <;> refine ⟨by simp, ?_⟩ <;> intro t l t' l' o h1 h2 h3 <;> cases h1 <;>
      cases h2 <;> cases h3 <;> simp [Fits, LeafSuits, LTree.data]
  · intro x hx y hy s q _
    simp [sampleInit, designated, valuesAll, Init.values] at hx hy
    rcases hx with rfl | rfl | rfl | rfl <;> rcases hy with rfl | rfl | rfl | rfl <;> simp
  · simp [sample, sampleLayout, SuitsAll, Suits, LeafSuits, NoValue]

/-- The value of the second member of the union is visible. -/
example : ∀ x ∈ designated sampleInit, Clear sample sampleLayout [.member 2, .member 1] x.1.2 := by
  intro x hx
  simp [sampleInit, designated, valuesAll, Init.values] at hx
  rcases hx with rfl | rfl | rfl | rfl <;> simp [Clear, sample, sampleLayout, Ty.isUnion, step]

/-- When the traversal of a type fails, its tree is emptied and success is reported: with a structure without
members inside of another one, even the object before them has no slot. -/
theorem C100_empty_struct_false (k : Leaf) :
    treeInit [⟨.leaf k, 0, 0⟩, ⟨.struct, 0, 1⟩, ⟨.struct, 0, 0⟩] = [] := by
  simp [treeInit, nodes, countNodes, nodeLen, childrenLen, visit]

end Kefir.Slots
