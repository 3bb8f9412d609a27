import Verif.Temps.Lemmas
import Verif.Locals.Props
import Verif.Slots.Sound
/-!
# The storage of the object with the temporaries
-/

namespace Kefir.Temps

open Kefir.Layout Kefir.Slots Kefir.Locals

/-! ## Entries of nested layouts -/

mutual
theorem laid_length {t : Ty} {l : LTree} (h : Laid t l) : l.flat.length = (flatten t).length := by
  cases h with
  | leaf _ _ => simp [LTree.flat, flatL, flatten]
  | struct h _ _ _ _ _ _ => simp only [LTree.flat, flatten, List.length_cons, laidAll_length h]
  | union h _ _ _ _ _ _ => simp only [LTree.flat, flatten, List.length_cons, laidAll_length h]
  | array h _ _ _ =>
    simp only [LTree.flat, flatL, flatten, List.length_cons, List.append_nil, laid_length h]

theorem laidAll_length {ts : List Ty} {ls : List LTree} (h : LaidAll ts ls) :
    (flatL ls).length = (flattenAll ts).length := by
  cases h with
  | nil => rfl
  | cons h hs => simp only [flatL, flattenAll, List.length_append, laid_length h, laidAll_length hs]
end

theorem laidAll_flat : ∀ {ts : List Ty} {ls : List LTree}, LaidAll ts ls → ∀ {k : Nat} {l : LTree}, ls[k]? = some l →
    ∀ (j : Nat) d, l.flat[j]? = some d → (flatL ls)[(flattenAll (ts.take k)).length + j]? = some d
  | _, _, .nil, k, l, h, j, d, hj => by simp at h
  | _, _, .cons h1 hs, 0, l, h, j, d, hj => by
    simp only [List.getElem?_cons_zero, Option.some.injEq] at h
    subst h
    simp only [List.take_zero, flattenAll, List.length_nil, Nat.zero_add, flatL]
    rw [List.getElem?_append_left (List.getElem?_eq_some_iff.1 hj).1]
    exact hj
  | _, _, @LaidAll.cons t ts _ _ h1 hs, k + 1, l, h, j, d, hj => by
    simp only [List.getElem?_cons_succ] at h
    have ih := laidAll_flat hs h j d hj
    simp only [List.take_succ_cons, flattenAll, List.length_append, flatL]
    rw [List.getElem?_append_right (by rw [laid_length h1]; omega), laid_length h1]
    rw [show (flatten t).length + (flattenAll (ts.take k)).length + j - (flatten t).length =
      (flattenAll (ts.take k)).length + j by omega]
    exact ih

theorem sub_part {v : List (Option Data)} {q : Nat} {d : Data} {ts : List Ty} {ls : List LTree}
    (h : Sub v q (.node d ls)) (hl : LaidAll ts ls) {k : Nat} {l : LTree} (hk : ls[k]? = some l) :
    Sub v (q + 1 + (flattenAll (ts.take k)).length) l := by
  intro j d' hj
  have := laidAll_flat hl hk j d' hj
  have := h ((flattenAll (ts.take k)).length + j + 1) d' (by rw [LTree.flat, List.getElem?_cons_succ]; exact this)
  rw [← this]
  congr 1
  omega

theorem stop_le_last : ∀ {o ts ls}, Consecutive o ts ls → ∀ l ∈ ls, l.stop ≤ lastStop ls
  | _, _, _, .nil, l, h => by cases h
  | _, _, _, .cons (ls := []) _ _ _ _ _, l, h => by
    rw [List.mem_singleton] at h
    subst h
    exact Nat.le_refl _
  | _, _, _, .cons (ls := m :: ls) _ _ _ _ hc, l, h => by
    rw [lastStop]
    · rcases List.mem_cons.1 h with rfl | h
      · refine Nat.le_trans ?_ (stop_le_last hc m List.mem_cons_self)
        cases hc with
        | cons h1 _ _ _ _ => unfold LTree.stop at *; omega
      · exact stop_le_last hc l h
    · simp

/-! ## Objects of the root scope -/

theorem root_object {ids : List Ident} {subs : List Scope} (hp : Proper (.node ids subs)) {n : Nat} {ty : Ty}
    (hn : ids[n]? = some (.auto ty)) :
    ∃ f, build (.node ids subs) = .ok f ∧ ∃ o ∈ f.objs, o.path = [] ∧ o.num = n ∧ ∃ q l, o.chain = [0, q] ∧
      Sub f.layout q l ∧ Laid ty l ∧ l.stop ≤ f.size 0 ∧ f.extent o = ⟨l.data.offset, l.data.size⟩ ∧
      l.data.offset % l.data.alignment = 0 := by
  obtain ⟨f, hf, hobjs, hpl⟩ := build_placed False _ hp (fun h => h.elim)
  refine ⟨f, hf, ?_⟩
  obtain ⟨o, ho, hpath, hnum⟩ := objs_complete (.node ids subs) (.here hn) [] [] 0
  have hidsne : ∀ (ids : List Ident) (k : Nat), ids[k]? = some (.auto ty) → idsEmpty ids = false := by
    intro ids
    induction ids with
    | nil => intro k h; simp at h
    | cons x ids ih =>
      intro k h
      cases x with
      | auto t => rfl
      | label => rfl
      | other =>
        cases k with
        | zero => simp at h
        | succ k => rw [idsEmpty]; exact ih k (by simpa using h)
  have he : scopeEmpty (.node ids subs) = false := by rw [scopeEmpty, hidsne ids n hn]; rfl
  obtain ⟨d0, hd0, hpl⟩ := hpl he
  simp only [Placed] at hpl
  obtain ⟨d, ls, hd, hoff, hds, hda, hlaid, hcons, hidx, hmem, hun⟩ := hpl he
  obtain ⟨o, ho, hpath, hnum⟩ := objIds_complete hn [0] [] 1 0
  obtain ⟨n', m, ty', h1, h2, h3, h4, h5, h6⟩ := objIds_mem ho
  have e : n' = n := by omega
  subst e
  rw [hn] at h1
  cases h1
  obtain ⟨l, hl, hll⟩ := Kefir.Locals.laidAll_get hlaid m ty h2
  have hsub := hidx m l hl
  rw [Nat.zero_add] at hsub
  have hlm := List.mem_of_getElem? hl
  have hty : ∀ ty, Ident.auto ty ∈ ids → WF ty ∧ ty.isBits = false := by
    cases hp; assumption
  rw [hd] at hd0
  cases hd0
  refine ⟨o, ?_, hpath, by omega, 1 + (flattenAll ((autos ids).take m)).length, l, h6, hsub, hll, ?_, ?_, ?_⟩
  · rw [hobjs]
    simp only [objs, he, Bool.false_eq_true, if_false, List.mem_append]
    exact Or.inl ho
  · rw [Frame.size, hd]
    exact (hmem l hlm).1
  · have hsz : sizeOf f.layout o = l.data.size := sizeOf_of (chain := []) (pre := [0]) (by rw [h6]; rfl) hsub.head
    rw [extent_eq, hsz, h6]
    simp only [List.cons_append, List.nil_append, sumOff, offAt_of hd, offAt_of hsub.head, hoff]
    congr 1
    omega
  · exact consecutive_aligned hcons (fun ty hty' => (hty ty (autos_mem hty')).2) l hlm

/-! ## Parts of the object with the temporaries -/

theorem typeOf_wf {bs : List (Name × List (Name × Ty))} (hne : bs ≠ []) (hf : ∀ b ∈ bs, b.2 ≠ [])
    (hw : ∀ b ∈ bs, ∀ m ∈ b.2, WF m.2) : WF (typeOf bs) := by
  refine .union (by simpa using hne) (wfAll_of _ ?_)
  intro ty hty
  obtain ⟨b, hb, rfl⟩ := List.mem_map.1 hty
  refine .struct (by simpa using hf b hb) (wfAll_of _ ?_)
  intro ty hty
  obtain ⟨m, hm, rfl⟩ := List.mem_map.1 hty
  exact hw b hb m hm

/-- Where a temporary is. -/
theorem fetch_found {f : Frame} {bs : List (Name × List (Name × Ty))} {q : Nat} {l : LTree} (hs : Sub f.layout q l)
    (hl : Laid (typeOf bs) l) {id : Id} {k j : Nat} {ty : Ty} (h : Found bs id k j ty) :
    ∃ lvs lv lms lm, l = .node l.data lvs ∧ lvs[k]? = some lv ∧ lv = .node lv.data lms ∧ lms[j]? = some lm ∧
      Laid ty lm ∧ fetch f bs (layOf (typeOf bs) q) id = some ⟨l.data.offset + lm.data.offset, lm.data.size⟩ ∧
      (∃ ts, Consecutive 0 ts lms) ∧ lm.stop ≤ l.data.size ∧
      lm.data.alignment ≤ l.data.alignment ∧ (ty.isBits = false → lm.data.offset % lm.data.alignment = 0) := by
  obtain ⟨h1, ms, h2, h3, h4⟩ := h
  have hk : (bs.map fun b => Ty.struct 0 (b.2.map (·.2)))[k]? = some (.struct 0 (ms.map (·.2))) := by
    rw [List.getElem?_map, h2]; rfl
  have hj : (ms.map (·.2))[j]? = some ty := by rw [List.getElem?_map, h4]; rfl
  unfold typeOf at hl
  cases hl with
  | @union al _ d lvs n u1 u2 u3 u4 u5 u6 u7 =>
    obtain ⟨lv, hlv, hlvl⟩ := Kefir.Locals.laidAll_get u1 k _ hk
    have hsv := sub_part hs u1 hlv
    have hlvm := List.mem_of_getElem? hlv
    have hv0 := u2 lv hlvm
    have hvs := u6 lv hlvm
    have hva := u3.1 lv hlvm
    cases hlvl with
    | @struct al _ dv lms n' s1 s2 s3 s4 s5 s6 s7 =>
      obtain ⟨lm, hlm, hlml⟩ := Kefir.Locals.laidAll_get s1 j _ hj
      have hsm := sub_part hsv s1 hlm
      have hlmm := List.mem_of_getElem? hlm
      refine ⟨lvs, _, lms, lm, rfl, hlv, rfl, hlm, hlml, ?_, ⟨_, s2⟩, ?_, ?_, ?_⟩
      · have e1 := laysOf_get (i := q + 1) hk
        have e2 := laysOf_get (i := q + 1 + (flattenAll ((bs.map fun b => Ty.struct 0 (b.2.map (·.2))).take k)).length + 1) hj
        have hval : ∀ (t : Ty) (i : Nat), (layOf t i).value = i := by
          intro t i; cases t <;> rfl
        rw [fetch, resolve, h1]
        simp only [h2, typeOf, layOf, Lay.parts, e1, h3, e2]
        simp only [hval]
        simp only [Lay.value, Frame.run, Frame.size, Frame.offset, hs.head, hsv.head, hsm.head]
        rw [hv0]
        congr 2
        omega
      · have a1 : dv.size ≤ d.size := hvs
        exact Nat.le_trans (stop_le_last s2 lm hlmm) (Nat.le_trans s6 a1)
      · have a1 : lm.data.alignment ≤ n' := s3.1 lm hlmm
        have a2 : dv.alignment ≤ n := hva
        have a3 : dv.alignment = n' := by rw [s4, effective, if_pos rfl]
        have a4 : d.alignment = n := by rw [u4, effective, if_pos rfl]
        change lm.data.alignment ≤ d.alignment
        omega
      · intro hb
        have key : ∀ {o ts ls}, Consecutive o ts ls → ∀ (j : Nat) t m, ts[j]? = some t → ls[j]? = some m →
            t.isBits = false → m.data.offset % m.data.alignment = 0 := by
          intro o ts ls hc
          induction hc with
          | nil => intro j t m h; simp at h
          | cons _ _ c3 _ _ ih =>
            intro j t m ht hm hb
            cases j with
            | zero =>
              simp only [List.getElem?_cons_zero, Option.some.injEq] at ht hm
              subst ht hm
              exact c3 hb
            | succ j => exact ih j t m (by simpa using ht) (by simpa using hm) hb
        exact key s2 j ty lm hj hlm hb

end Kefir.Temps
