import Verif.Locals.Place

/-!
# The layout of the frame
-/

namespace Kefir.Locals

open Kefir.Layout

/-- What reading `n` nodes from `i` does if it takes the scopes `con`. -/
def Result (P : Prop) (t : List Entry) (i n : Nat) (c : Compound) (v : List (Option Data)) (con : List Scope) :
    Prop :=
  ∃ c' v', layoutNodes t i n c v = .ok (c', v') ∧ v'.length = v.length ∧
    (∀ k, k < i ∨ i + (entAll con).length ≤ k → v'[k]? = v[k]?) ∧
    c'.aggregate = c.aggregate ∧ (c.aggregate = false → c'.offset = c.offset) ∧
    c.maxSize ≤ c'.maxSize ∧ c.maxAlignment ≤ c'.maxAlignment ∧
    (P → P2 c.maxAlignment → P2 c'.maxAlignment) ∧
    ∀ w : List (Option Data), (∀ k, i ≤ k → k < i + (entAll con).length → w[k]? = v'[k]?) →
      PlacedAll P w i c'.maxSize c'.maxAlignment con

/-- What reading the members of the structure of a scope at `i` does, if behind the scope `con` is taken. -/
def Inner (P : Prop) (t : List Entry) (i : Nat) (ids : List Ident) (subs : List Scope) (v : List (Option Data))
    (con : List Scope) : Prop :=
  ∃ cn vn, layoutNodes t (i + 1) ((autos ids).length + unionCount subs) (.fresh true) v = .ok (cn, vn) ∧
    vn.length = v.length ∧
    (∀ k, k < i + 1 ∨ i + (ent (.node ids subs)).length + (entAll con).length ≤ k → vn[k]? = v[k]?) ∧
    (P → P2 cn.maxAlignment) ∧
    ∀ w : List (Option Data), (∀ k, i + 1 ≤ k →
        k < i + (ent (.node ids subs)).length + (entAll con).length → w[k]? = vn[k]?) →
      PlacedAll P w (i + (ent (.node ids subs)).length) cn.offset cn.maxAlignment con ∧
      ∃ ls, LaidAll (autos ids) ls ∧ Consecutive 0 (autos ids) ls ∧
      (∀ (k : Nat) l, ls[k]? = some l →
        Sub w (i + 1 + (flattenAll ((autos ids).take k)).length) l) ∧
      (∀ l ∈ ls, l.stop ≤ cn.offset ∧ l.data.alignment ≤ cn.maxAlignment) ∧
      (subsEmpty subs = false → ∃ du, w[i + 1 + (flattenAll (autos ids)).length]? = some (some du) ∧
        (∀ l ∈ ls, l.stop ≤ du.offset) ∧ du.offset + du.size ≤ cn.offset ∧ du.alignment ≤ cn.maxAlignment ∧
        (0 < du.alignment → du.offset % du.alignment = 0) ∧ (P → P2 du.alignment) ∧
        PlacedAll P w (i + 1 + (flattenAll (autos ids)).length + 1) du.size du.alignment subs)

/-- From the members to the scope and what was taken behind it. -/
theorem step_of_inner {P : Prop} {pre post : List Entry} {ids : List Ident} {subs : List Scope} {c : Compound}
    {v : List (Option Data)} {con : List Scope} (he : scopeEmpty (.node ids subs) = false)
    (hpos : 0 < (autos ids).length + unionCount subs)
    (hv : v.length = (pre ++ (ent (.node ids subs) ++ post)).length)
    (h : Inner P (pre ++ (ent (.node ids subs) ++ post)) pre.length ids subs v con)
    (hc : c.offset = 0) :
    Result P (pre ++ (ent (.node ids subs) ++ post)) pre.length 1 c v (.node ids subs :: con) := by
  obtain ⟨cn, vn, hl, hlen, hout, hp2, hin⟩ := h
  have hent : ent (.node ids subs) = ⟨.struct, 0, (autos ids).length + unionCount subs⟩ ::
      (flattenAll (autos ids) ++
      (if subsEmpty subs then [] else ⟨.union, 0, subs.length⟩ :: entAll subs)) := by
    simp only [ent, he, Bool.false_eq_true, if_false]
  have hlt : pre.length < vn.length := by rw [hlen, hv, hent]; simp
  have hel : 0 < (ent (.node ids subs)).length := by rw [hent]; simp
  have hs := layout_struct (c := c) hpos (pre := pre) (v := v) (cn := cn) (vn := vn)
    (post := (flattenAll (autos ids) ++
      (if subsEmpty subs then [] else ⟨.union, 0, subs.length⟩ :: entAll subs)) ++ post)
    (by rw [hent] at hl; exact hl)
  have hoff : (update c (compoundData true cn) ⟨.struct, 0, (autos ids).length + unionCount subs⟩).2.offset = 0 := by
    rw [update_offset]; split <;> simp [hc, padAligned]
  have hsz : (update c (compoundData true cn) ⟨.struct, 0, (autos ids).length + unionCount subs⟩).2.size =
      padAligned cn.offset cn.maxAlignment := by rw [update_size]; simp [compoundData]
  have hal : (update c (compoundData true cn) ⟨.struct, 0, (autos ids).length + unionCount subs⟩).2.alignment =
      cn.maxAlignment := by rw [update_alignment]; simp [compoundData, effective]
  have hms := update_maxSize c (compoundData true cn) ⟨.struct, 0, (autos ids).length + unionCount subs⟩
  have hma := update_maxAlignment c (compoundData true cn) ⟨.struct, 0, (autos ids).length + unionCount subs⟩
  rw [hsz] at hms
  rw [hal] at hma
  have hge := padAligned_ge cn.offset cn.maxAlignment
  refine ⟨_, _, by rw [hent]; exact hs, by simpa using hlen, ?_, update_aggregate _ _ _,
    fun h => (update_stay _ _ _ h).1, by omega, by omega, ?_, ?_⟩
  · intro k hk
    simp only [entAll, List.length_append] at hk
    rw [List.getElem?_set_ne (by omega)]
    exact hout k (by omega)
  · intro hP hp
    rw [hma]; exact P2.max hp (hp2 hP)
  · intro w hw
    simp only [entAll, List.length_append] at hw
    obtain ⟨hcon, ls, h1, h2, h3, h4, h5⟩ := hin w (by
      intro k hk1 hk2
      rw [hw k (by omega) (by omega), List.getElem?_set_ne (by omega)])
    have hwd := hw pre.length (Nat.le_refl _) (by omega)
    rw [List.getElem?_set_self hlt] at hwd
    refine ⟨?_, placedAll_mono (by omega) (by omega) _ _ hcon⟩
    simp only [Placed]
    intro _
    refine ⟨_, ls, hwd, hoff, by omega, by omega, h1, h2, h3, ?_, ?_⟩
    · intro l hl
      have := h4 l hl
      rw [hsz, hal]; omega
    · intro hs
      obtain ⟨du, a1, a2, a3, a4, a5⟩ := h5 hs
      exact ⟨du, a1, a2, by omega, by omega, a5⟩

/-! ## Members of the structure -/

theorem consecutive_mem_stop {ts ls} (h : Consecutive 0 ts ls) : ∀ l ∈ ls, l.stop ≤ stopFrom 0 ls := by
  intro l hl
  obtain ⟨k, hk⟩ := List.mem_iff_getElem?.1 hl
  rw [stopFrom_lastStop ls 0 (by intro e; subst e; simp at hl)]
  exact consecutive_stop h k l hk

theorem layAll_p2 : ∀ (ts : List Ty), WFAll ts → (∀ ty ∈ ts, PowTy ty) → ∀ c : Compound, P2 c.maxAlignment →
    P2 (layAll c ts).1.maxAlignment
  | [], _, _, c, h => by simpa [layAll] using h
  | t :: ts, hw, hp, c, h => by
    obtain ⟨hwt, hws⟩ : WF t ∧ WFAll ts := by cases hw; constructor <;> assumption
    simp only [layAll]
    refine layAll_p2 ts hws (fun ty hty => hp ty (by simp [hty])) _ ?_
    rw [update_maxAlignment]
    have h1 := hp t (by simp) _ (laid t hwt c)
    simp only [LTree.data] at h1
    exact P2.max h (.inr h1)

theorem layAll_mem_alignment (ts : List Ty) (c : Compound) : ∀ l ∈ (layAll c ts).2,
    l.data.alignment ≤ (layAll c ts).1.maxAlignment := by
  intro l hl
  rw [layAll_maxAlignment]
  exact greatestFrom_mem _ _ l hl

/-- The objects of a scope, without nested scopes. -/
theorem inner_flat {P : Prop} {pre : List Entry} {ids : List Ident} {subs : List Scope} {post : List Entry}
    {v : List (Option Data)} (he : scopeEmpty (.node ids subs) = false) (hs : subsEmpty subs = true)
    (hw : WFAll (autos ids)) (hP : P → ∀ ty ∈ autos ids, PowTy ty)
    (hv : v.length = (pre ++ (ent (.node ids subs) ++ post)).length) :
    Inner P (pre ++ (ent (.node ids subs) ++ post)) pre.length ids subs v [] := by
  have hent : ent (.node ids subs) = ⟨.struct, 0, (autos ids).length⟩ :: flattenAll (autos ids) := by
    simp only [ent, he, hs, Bool.false_eq_true, if_false, if_true, unionCount, Nat.add_zero, List.append_nil]
  have hel : (ent (.node ids subs)).length = (flattenAll (autos ids)).length + 1 := by rw [hent]; simp
  obtain ⟨v', h1, h2, h3, h4⟩ := autos_layout (autos ids) hw (pre ++ [⟨.struct, 0, (autos ids).length⟩]) post
    (.fresh true) v (by rw [hv, hent]; simp)
  simp only [List.append_assoc, List.cons_append, List.nil_append, List.length_append, List.length_cons,
    List.length_nil, Nat.zero_add] at h1 h3 h4
  have hcons := layAll_consecutive (autos ids) hw (.fresh true) rfl
  have hoff := layAll_offset (autos ids) (.fresh true) rfl
  refine ⟨_, v', by rw [hent]; simpa [unionCount, hs] using h1, h2, ?_, ?_, ?_⟩
  · intro k hk
    refine h3 k ?_
    simp only [entAll, List.length_nil] at hk
    omega
  · intro hp
    exact layAll_p2 _ hw (hP hp) _ (.inl rfl)
  · intro w hwk
    simp only [entAll, List.length_nil, PlacedAll, true_and] at hwk ⊢
    refine ⟨_, laidAll _ hw _, hcons, ?_, ?_, ?_⟩
    · intro k l hk j d hj
      have := h4 k l hk j d hj
      have hlt : (flattenAll ((autos ids).take k)).length + j < (flattenAll (autos ids)).length := by
        have hf := flatL_at (autos ids) _ k l hk j d hj
        have := (List.getElem?_eq_some_iff.1 hf).1
        rwa [length_flatL] at this
      rw [hwk _ (by omega) (by omega)]
      exact this
    · intro l hl
      refine ⟨?_, layAll_mem_alignment _ _ l hl⟩
      rw [hoff]
      exact consecutive_mem_stop hcons l hl
    · intro h; rw [hs] at h; cases h

/-- The objects of a scope and the union of the nested scopes, which takes `con` too. -/
theorem inner_deep {P : Prop} {pre : List Entry} {ids : List Ident} {subs : List Scope} {post : List Entry}
    {v : List (Option Data)} {con : List Scope}
    (he : scopeEmpty (.node ids subs) = false) (hs : subsEmpty subs = false)
    (hw : WFAll (autos ids)) (hP : P → ∀ ty ∈ autos ids, PowTy ty)
    (hv : v.length = (pre ++ (ent (.node ids subs) ++ post)).length)
    (ih : ∀ v' : List (Option Data), v'.length = v.length →
      Result P (pre ++ (ent (.node ids subs) ++ post)) (pre.length + 1 + (flattenAll (autos ids)).length + 1)
        subs.length (.fresh false) v' (subs ++ con)) :
    Inner P (pre ++ (ent (.node ids subs) ++ post)) pre.length ids subs v con := by
  have hent : ent (.node ids subs) = ⟨.struct, 0, (autos ids).length + 1⟩ :: (flattenAll (autos ids) ++
      ⟨.union, 0, subs.length⟩ :: entAll subs) := by
    simp only [ent, he, hs, Bool.false_eq_true, if_false, unionCount]
  have hel : (ent (.node ids subs)).length = (flattenAll (autos ids)).length + (entAll subs).length + 2 := by
    rw [hent]; simp only [List.length_cons, List.length_append]; omega
  obtain ⟨v1, h1, h2, h3, h4⟩ := autos_layout (autos ids) hw (pre ++ [⟨.struct, 0, (autos ids).length + 1⟩])
    (⟨.union, 0, subs.length⟩ :: entAll subs ++ post) (.fresh true) v (by rw [hv, hent]; simp)
  have hF := childrenLen_autos (pre ++ [⟨.struct, 0, (autos ids).length + 1⟩])
    (⟨.union, 0, subs.length⟩ :: entAll subs ++ post) (autos ids)
  have ht : pre ++ [⟨.struct, 0, (autos ids).length + 1⟩] ++ (flattenAll (autos ids) ++
      (⟨.union, 0, subs.length⟩ :: entAll subs ++ post)) = pre ++ (ent (.node ids subs) ++ post) := by
    rw [hent]; simp
  rw [ht] at h1 hF
  simp only [List.length_append, List.length_cons, List.length_nil, Nat.zero_add] at h1 h3 h4 hF
  obtain ⟨cu, v2, i1, i2, i3, i4, i5, i6, i7, i8, i9⟩ := ih v1 h2
  have hcons := layAll_consecutive (autos ids) hw (.fresh true) rfl
  have hoff := layAll_offset (autos ids) (.fresh true) rfl
  have hagg := layAll_aggregate (autos ids) (.fresh true)
  have hlen0 : 0 < subs.length := by
    cases subs with
    | nil => simp [subsEmpty] at hs
    | cons => simp
  have hu := layout_union (c := (layAll (.fresh true) (autos ids)).1) (cn := cu) (vn := v2) (v := v1)
    (pre := pre ++ [⟨.struct, 0, (autos ids).length + 1⟩] ++ flattenAll (autos ids)) (post := entAll subs ++ post)
    hlen0 (by
      rw [show pre ++ [⟨.struct, 0, (autos ids).length + 1⟩] ++ flattenAll (autos ids) ++
        ⟨.union, 0, subs.length⟩ :: (entAll subs ++ post) = pre ++ (ent (.node ids subs) ++ post) by rw [hent]; simp]
      simp only [List.length_append, List.length_cons, List.length_nil, Nat.zero_add]
      exact i1)
  rw [show pre ++ [⟨.struct, 0, (autos ids).length + 1⟩] ++ flattenAll (autos ids) ++
        ⟨.union, 0, subs.length⟩ :: (entAll subs ++ post) = pre ++ (ent (.node ids subs) ++ post) by rw [hent]; simp] at hu
  simp only [List.length_append, List.length_cons, List.length_nil, Nat.zero_add] at hu
  have htot : layoutNodes (pre ++ (ent (.node ids subs) ++ post)) (pre.length + 1)
      ((autos ids).length + unionCount subs) (.fresh true) v =
      .ok ((update (layAll (.fresh true) (autos ids)).1 (compoundData false cu) ⟨.union, 0, subs.length⟩).1,
        v2.set (pre.length + 1 + (flattenAll (autos ids)).length)
          (some (update (layAll (.fresh true) (autos ids)).1 (compoundData false cu)
            ⟨.union, 0, subs.length⟩).2)) := by
    rw [show unionCount subs = 1 by simp [unionCount, hs], layoutNodes_add, h1]
    simp only [Except.bind]
    rw [hF]
    exact hu
  -- data of the union
  let e : Entry := ⟨.union, 0, subs.length⟩
  let c1 := (layAll (.fresh true) (autos ids)).1
  let du := (update c1 (compoundData false cu) e).2
  have hduo : du.offset = padAligned c1.offset cu.maxAlignment := by
    show (update c1 (compoundData false cu) e).2.offset = _
    rw [update_offset]
    have : c1.aggregate = true := hagg
    simp [e, this, effective, compoundData]
  have hdus : du.size = padAligned cu.maxSize cu.maxAlignment := by
    show (update c1 (compoundData false cu) e).2.size = _
    rw [update_size]; simp [compoundData]
  have hdua : du.alignment = cu.maxAlignment := by
    show (update c1 (compoundData false cu) e).2.alignment = _
    rw [update_alignment]; simp [compoundData, effective, e]
  have hnext : (update c1 (compoundData false cu) e).1.offset = du.offset + du.size :=
    update_next _ _ _ hagg
  have hmax : (update c1 (compoundData false cu) e).1.maxAlignment = max c1.maxAlignment du.alignment :=
    update_maxAlignment _ _ _
  have hge := padAligned_ge c1.offset cu.maxAlignment
  have hge2 := padAligned_ge cu.maxSize cu.maxAlignment
  have hlt : pre.length + 1 + (flattenAll (autos ids)).length < v2.length := by
    rw [i2, h2, hv, List.length_append, List.length_append, hel]; omega
  have hp2u : P → P2 cu.maxAlignment := fun hp => i8 hp (.inl rfl)
  refine ⟨_, _, htot, by simp only [List.length_set]; omega, ?_, ?_, ?_⟩
  · intro k hk
    rw [List.getElem?_set_ne (by omega), i3 k, h3 k]
    · omega
    · simp only [entAll_append, List.length_append]; omega
  · intro hp
    show P2 (update c1 (compoundData false cu) e).1.maxAlignment
    rw [hmax, hdua]
    exact P2.max (layAll_p2 _ hw (hP hp) _ (.inl rfl)) (hp2u hp)
  · intro w hwk
    have hpl := i9 w (by
      intro k hk1 hk2
      simp only [entAll_append, List.length_append] at hk2
      rw [hwk k (by omega) (by omega), List.getElem?_set_ne (by omega)])
    rw [placedAll_append] at hpl
    show PlacedAll P w _ (update c1 (compoundData false cu) e).1.offset
      (update c1 (compoundData false cu) e).1.maxAlignment con ∧ _
    refine ⟨?_, (layAll (.fresh true) (autos ids)).2, laidAll _ hw _, hcons, ?_, ?_, ?_⟩
    · have := placedAll_mono (sz' := (update c1 (compoundData false cu) e).1.offset)
        (al' := (update c1 (compoundData false cu) e).1.maxAlignment) (by omega) (by omega) _ _ hpl.2
      rw [show pre.length + (ent (.node ids subs)).length =
        pre.length + 1 + (flattenAll (autos ids)).length + 1 + (entAll subs).length by omega]
      exact this
    · intro k l hk j d hj
      have := h4 k l hk j d hj
      have hlt : (flattenAll ((autos ids).take k)).length + j < (flattenAll (autos ids)).length := by
        have hf := flatL_at (autos ids) _ k l hk j d hj
        have := (List.getElem?_eq_some_iff.1 hf).1
        rwa [length_flatL] at this
      rw [hwk _ (by omega) (by omega), List.getElem?_set_ne (by omega), i3 _ (by omega)]
      exact this
    · intro l hl
      have b1 := consecutive_mem_stop hcons l hl
      have b2 := layAll_mem_alignment _ _ l hl
      have b3 : stopFrom 0 (layAll (.fresh true) (autos ids)).2 = c1.offset := hoff.symm
      refine ⟨?_, ?_⟩
      · rw [hnext]; omega
      · rw [hmax]; exact Nat.le_trans b2 (Nat.le_max_left _ _)
    · intro _
      refine ⟨du, ?_, ?_, Nat.le_of_eq hnext.symm, by
        show _ ≤ (update c1 (compoundData false cu) e).1.maxAlignment
        omega, ?_, fun hp => by rw [hdua]; exact hp2u hp, ?_⟩
      · rw [hwk _ (by omega) (by omega), List.getElem?_set_self hlt]
      · intro l hl
        have b1 := consecutive_mem_stop hcons l hl
        have b3 : stopFrom 0 (layAll (.fresh true) (autos ids)).2 = c1.offset := hoff.symm
        omega
      · intro h0
        rw [hduo, hdua]
        exact padAligned_mod _ _ (by omega)
      · exact placedAll_mono (by omega) (by omega) _ _ hpl.1

/-! ## All scopes -/

theorem autos_mem : ∀ {ids : List Ident} {ty}, ty ∈ autos ids → Ident.auto ty ∈ ids
  | .auto t :: ids, ty, h => by
    simp only [autos, List.mem_cons] at h
    rcases h with rfl | h
    · simp
    · simp [autos_mem h]
  | .label :: ids, ty, h => by simp only [autos] at h; simp [autos_mem h]
  | .other :: ids, ty, h => by simp only [autos] at h; simp [autos_mem h]

theorem wfAll_of : ∀ ts : List Ty, (∀ ty ∈ ts, WF ty) → WFAll ts
  | [], _ => .nil
  | t :: ts, h => .cons (h t (by simp)) (wfAll_of ts (fun ty hty => h ty (by simp [hty])))

theorem properAll_append : ∀ {xs ys}, ProperAll xs → ProperAll ys → ProperAll (xs ++ ys)
  | [], _, _, h => h
  | _ :: _, _, .cons h1 h2, h => .cons h1 (properAll_append h2 h)

theorem properAll_right : ∀ {xs ys}, ProperAll (xs ++ ys) → ProperAll ys
  | [], _, h => h
  | _ :: _, _, .cons _ h2 => properAll_right h2

theorem autos_or_union {ids subs} (hl : Ident.label ∉ ids) (he : scopeEmpty (.node ids subs) = false) :
    0 < (autos ids).length + unionCount subs := by
  simp only [scopeEmpty, Bool.and_eq_false_iff] at he
  rcases he with he | he
  · have : ∀ ids : List Ident, Ident.label ∉ ids → idsEmpty ids = false → 0 < (autos ids).length := by
      intro ids
      induction ids with
      | nil => simp [idsEmpty]
      | cons x ids ih =>
        intro h1 h2
        cases x with
        | auto t => simp [autos]
        | label => simp at h1
        | other => simp only [idsEmpty] at h2; simp only [autos]; exact ih (by simp at h1; exact h1) h2
    have := this ids hl he
    omega
  · simp [unionCount, he]

/-- Uses of nested scopes are uses. -/
theorem uses_sub {ids subs s ty} (hs : s ∈ subs) (h : s.Uses ty) : (Scope.node ids subs).Uses ty := by
  obtain ⟨i, hi⟩ := List.mem_iff_getElem?.1 hs
  obtain ⟨path, k, h⟩ := h
  exact ⟨i :: path, k, .sub hi h⟩

theorem uses_auto {ids subs ty} (h : ty ∈ autos ids) : (Scope.node ids subs).Uses ty := by
  obtain ⟨k, hk⟩ := List.mem_iff_getElem?.1 (autos_mem h)
  exact ⟨[], k, .here hk⟩

/-- Joining two results. -/
theorem Result.append {P : Prop} {t : List Entry} {i n : Nat} {c : Compound} {v : List (Option Data)}
    {con1 con2 : List Scope} (h1 : Result P t i 1 c v con1)
    (hn : nodeLen t i = (entAll con1).length)
    (h2 : ∀ c' v', v'.length = v.length → c'.aggregate = c.aggregate →
      (c.aggregate = false → c'.offset = c.offset) →
      Result P t (i + (entAll con1).length) n c' v' con2) :
    Result P t i (n + 1) c v (con1 ++ con2) := by
  obtain ⟨c1, v1, a1, a2, a3, a4, a5, a6, a7, a8, a9⟩ := h1
  obtain ⟨c2, v2, b1, b2, b3, b4, b5, b6, b7, b8, b9⟩ := h2 c1 v1 a2 a4 a5
  refine ⟨c2, v2, ?_, by omega, ?_, by rw [b4, a4], ?_, by omega, by omega, fun hp h => b8 hp (a8 hp h), ?_⟩
  · rw [layoutNodes_succ, a1]; simp only [Except.bind]; rw [hn, b1]
  · intro k hk
    simp only [entAll_append, List.length_append] at hk
    rw [b3 k (by omega), a3 k (by omega)]
  · intro h; rw [b5 (by rw [a4, h]), a5 h]
  · intro w hw
    simp only [entAll_append, List.length_append] at hw
    rw [placedAll_append]
    refine ⟨placedAll_mono b6 b7 _ _ (a9 w ?_), b9 w ?_⟩
    · intro k hk1 hk2
      rw [hw k hk1 (by omega), b3 k (by omega)]
    · intro k hk1 hk2
      exact hw k (by omega) (by omega)

theorem eats_result {P : Prop} {n rs con rem} (h : Eats n rs con rem) : ∀ (pre : List Entry) (c : Compound)
    (v : List (Option Data)), ProperAll rs → (P → ∀ s ∈ rs, ∀ ty, s.Uses ty → PowTy ty) →
    v.length = (pre ++ entAll rs).length → (n = 0 ∨ (c.offset = 0 ∧ (c.aggregate = false ∨ n = 1))) →
    Result P (pre ++ entAll rs) pre.length n c v con := by
  induction h with
  | zero =>
    intro pre c v _ _ _ _
    exact ⟨c, v, layoutNodes_zero _ _ _ _, rfl, fun _ _ => rfl, rfl, fun _ => rfl, Nat.le_refl _, Nat.le_refl _,
      fun _ h => h, fun _ _ => trivial⟩
  | nil =>
    intro pre c v _ _ _ _
    exact ⟨c, v, layoutNodes_out _ _ _ _ _ (by simp [entAll]), rfl, fun _ _ => rfl, rfl, fun _ => rfl,
      Nat.le_refl _, Nat.le_refl _, fun _ h => h, fun _ _ => trivial⟩
  | @skip n s ss con rem he _ ih =>
    intro pre c v hp hP hv hc
    obtain ⟨hps, hpss⟩ : Proper s ∧ ProperAll ss := by cases hp; constructor <;> assumption
    have hn := ent_nil_of_empty s he
    have h1 := ih pre c v hpss (fun p s' hs' => hP p s' (by simp [hs'])) (by simpa [entAll, hn] using hv) hc
    simp only [entAll, hn, List.nil_append]
    obtain ⟨c', v', a1, a2, a3, a4, a5, a6, a7, a8, a9⟩ := h1
    refine ⟨c', v', a1, a2, by simpa [entAll, hn] using a3, a4, a5, a6, a7, a8, ?_⟩
    intro w hw
    obtain ⟨ids, subs⟩ := s
    refine ⟨?_, ?_⟩
    · simp only [Placed]; intro h; rw [he] at h; cases h
    · rw [hn]
      exact a9 w (by simpa [entAll, hn] using hw)
  | @flat n ids subs ss con rem he hs _ ih =>
    intro pre c v hp hP hv hc
    obtain ⟨hps, hpss⟩ : Proper (.node ids subs) ∧ ProperAll ss := by cases hp; constructor <;> assumption
    obtain ⟨hty, hlab, _⟩ : (∀ ty, Ident.auto ty ∈ ids → WF ty ∧ ty.isBits = false) ∧ Ident.label ∉ ids ∧
      ProperAll subs := by cases hps; exact ⟨by assumption, by assumption, by assumption⟩
    have hwf := wfAll_of (autos ids) (fun ty h => (hty ty (autos_mem h)).1)
    obtain ⟨hc0, hc1⟩ : c.offset = 0 ∧ (c.aggregate = false ∨ n + 1 = 1) := by
      rcases hc with h | h
      · omega
      · exact h
    simp only [entAll] at hv ⊢
    have hin := inner_flat (P := P) (pre := pre) (post := entAll ss) (v := v) he hs hwf
      (fun p ty hty => hP p (.node ids subs) (by simp) ty (uses_auto hty)) hv
    have h1 := step_of_inner (c := c) he (autos_or_union hlab he) hv hin hc0
    have h2 := Result.append (n := n) (con2 := con) h1
      (by rw [nodeLen_flat he hs]; simp [entAll]) (by
        intro c' v' hv' ha ho
        have := ih (pre ++ ent (.node ids subs)) c' v' hpss (fun p s' hs' => hP p s' (by simp [hs']))
          (by rw [hv', hv, List.append_assoc]) (by
            rcases hc1 with h | h
            · exact .inr ⟨by rw [ho h, hc0], .inl (by rw [ha, h])⟩
            · exact .inl (by omega))
        simpa [entAll] using this)
    simpa using h2
  | @deep n ids subs ss con1 rem1 con2 rem he hs he1 e _ ih1 ih2 =>
    intro pre c v hp hP hv hc
    obtain ⟨hps, hpss⟩ : Proper (.node ids subs) ∧ ProperAll ss := by cases hp; constructor <;> assumption
    obtain ⟨hty, hlab, hsubs⟩ : (∀ ty, Ident.auto ty ∈ ids → WF ty ∧ ty.isBits = false) ∧ Ident.label ∉ ids ∧
      ProperAll subs := by cases hps; exact ⟨by assumption, by assumption, by assumption⟩
    have hwf := wfAll_of (autos ids) (fun ty h => (hty ty (autos_mem h)).1)
    obtain ⟨hc0, hc1⟩ : c.offset = 0 ∧ (c.aggregate = false ∨ n + 1 = 1) := by
      rcases hc with h | h
      · omega
      · exact h
    simp only [entAll] at hv ⊢
    have hent : ent (.node ids subs) = ⟨.struct, 0, (autos ids).length + 1⟩ :: (flattenAll (autos ids) ++
        ⟨.union, 0, subs.length⟩ :: entAll subs) := by
      simp only [ent, he, hs, Bool.false_eq_true, if_false, unionCount]
    have ht : pre ++ [⟨.struct, 0, (autos ids).length + 1⟩] ++ flattenAll (autos ids) ++
        [⟨.union, 0, subs.length⟩] ++ entAll (subs ++ ss) = pre ++ (ent (.node ids subs) ++ entAll ss) := by
      rw [hent, entAll_append]; simp
    have hlen : (pre ++ [(⟨.struct, 0, (autos ids).length + 1⟩ : Entry)] ++ flattenAll (autos ids) ++
        [(⟨.union, 0, subs.length⟩ : Entry)]).length = pre.length + 1 + (flattenAll (autos ids)).length + 1 := by
      simp only [List.length_append, List.length_cons, List.length_nil, Nat.zero_add]
    have hin := inner_deep (P := P) (pre := pre) (post := entAll ss) (v := v) (con := con1) he hs hwf
      (fun p ty hty => hP p (.node ids subs) (by simp) ty (uses_auto hty)) hv (by
        intro v' hv'
        have := ih1 (pre ++ [⟨.struct, 0, (autos ids).length + 1⟩] ++ flattenAll (autos ids) ++
          [⟨.union, 0, subs.length⟩]) (.fresh false) v' (properAll_append hsubs hpss)
          (by
            intro p s' hs' ty hu
            rcases List.mem_append.1 hs' with h | h
            · exact hP p (.node ids subs) (by simp) ty (uses_sub h hu)
            · exact hP p s' (by simp [h]) ty hu)
          (by rw [ht, hv', hv]) (.inr ⟨rfl, .inl rfl⟩)
        rw [ht, hlen] at this
        exact this)
    have h1 := step_of_inner (c := c) he (autos_or_union hlab he) hv hin hc0
    have hnl := nodeLen_deep he hs pre (entAll ss) (entAll (subs ++ con1)).length (by
      have := eats_length he1 (pre ++ [⟨.struct, 0, (autos ids).length + 1⟩] ++ flattenAll (autos ids) ++
          [⟨.union, 0, subs.length⟩])
      rw [ht, hlen] at this
      exact this)
    have h2 := Result.append (n := n) (con2 := con2) h1
      (by
        rw [hnl.2, entAll, List.length_append, hent, entAll_append]
        simp only [List.length_append, List.length_cons]; omega) (by
        intro c' v' hv' ha ho
        have := ih2 (pre ++ ent (.node ids subs) ++ entAll con1) c' v' (by rw [e] at hpss; exact properAll_right hpss)
          (fun p s' hs' => hP p s' (by rw [e]; simp [hs']))
          (by rw [hv', hv, e, entAll_append]; simp) (by
            rcases hc1 with h | h
            · exact .inr ⟨by rw [ho h, hc0], .inl (by rw [ha, h])⟩
            · exact .inl (by omega))
        have e2 : pre ++ ent (.node ids subs) ++ entAll con1 ++ entAll rem1 =
            pre ++ (ent (.node ids subs) ++ entAll ss) := by rw [e, entAll_append]; simp
        rw [e2] at this
        simp only [List.length_append, entAll] at this ⊢
        rw [← Nat.add_assoc]
        exact this)
    simpa using h2

end Kefir.Locals
