import Verif.Locals.Objects

/-!
# Objects alive at the same time are apart
-/

namespace Kefir.Locals

open Kefir.Layout

/-- Size stored for the entry of an object. -/
def sizeOf (v : List (Option Data)) (o : Obj) : Nat :=
  match v[o.chain.getLast?.getD 0]? with
  | some (some d) => d.size
  | _ => 0

theorem sizeOf_of {v : List (Option Data)} {o : Obj} {chain pre : List Nat} {i : Nat} {d : Data}
    (hc : o.chain = chain ++ (pre ++ [i])) (h : v[i]? = some (some d)) : sizeOf v o = d.size := by
  simp [sizeOf, hc, h]

theorem extent_eq (f : Frame) (o : Obj) : f.extent o = ⟨sumOff f.layout o.chain, sizeOf f.layout o⟩ := by
  rw [Frame.extent, address_eq]; rfl

theorem objIds_path {ids : List Ident} {chain path : List Nat} {i k : Nat} {o : Obj} (h : o ∈ objIds chain path i k ids) :
    o.path = path := by
  obtain ⟨_, _, _, _, _, h, _⟩ := objIds_mem h; exact h

mutual
theorem objs_path : ∀ (s : Scope) {chain path : List Nat} {i : Nat} {o : Obj}, o ∈ objs chain path i s →
    ∃ r, o.path = path ++ r
  | .node ids subs, chain, path, i, o, h => by
    by_cases he : scopeEmpty (.node ids subs) = true
    · simp [objs, he] at h
    · simp only [objs, he, Bool.false_eq_true, if_false, List.mem_append] at h
      rcases h with h | h
      · exact ⟨[], by simp [objIds_path h]⟩
      · by_cases hs : subsEmpty subs = true
        · simp [hs] at h
        · simp only [hs, Bool.false_eq_true, if_false] at h
          obtain ⟨j, r, _, h⟩ := objsAll_path subs h
          exact ⟨j :: r, h⟩

theorem objsAll_path : ∀ (ss : List Scope) {chain path : List Nat} {i n : Nat} {o : Obj}, o ∈ objsAll chain path i n ss →
    ∃ j r, n ≤ j ∧ o.path = path ++ j :: r
  | [], _, _, _, _, _, h => by simp [objsAll] at h
  | s :: ss, chain, path, i, n, o, h => by
    simp only [objsAll, List.mem_append] at h
    rcases h with h | h
    · obtain ⟨r, h⟩ := objs_path s h
      exact ⟨n, r, Nat.le_refl _, by simp [h]⟩
    · obtain ⟨j, r, h1, h2⟩ := objsAll_path ss h
      exact ⟨j, r, by omega, h2⟩
end

theorem Coexist.symm {p q : List Nat} (h : Coexist p q) : Coexist q p := h.elim .inr .inl

theorem not_coexist {p a b : List Nat} {i j : Nat} (h : i ≠ j) : ¬ Coexist (p ++ i :: a) (p ++ j :: b) := by
  rintro (⟨r, h1⟩ | ⟨r, h1⟩)
  · simp only [List.append_assoc, List.append_cancel_left_eq, List.cons_append, List.cons.injEq] at h1
    exact h h1.1
  · simp only [List.append_assoc, List.append_cancel_left_eq, List.cons_append, List.cons.injEq] at h1
    exact h h1.1.symm

/-- Two objects are apart. -/
def Apart (v : List (Option Data)) (o1 o2 : Obj) : Prop :=
  sumOff v o1.chain + sizeOf v o1 ≤ sumOff v o2.chain ∨ sumOff v o2.chain + sizeOf v o2 ≤ sumOff v o1.chain

theorem Apart.symm {v : List (Option Data)} {o1 o2 : Obj} (h : Apart v o1 o2) : Apart v o2 o1 := h.elim .inr .inl

mutual
theorem objs_apart {P : Prop} {v : List (Option Data)} : ∀ (s : Scope) (chain path : List Nat) (i sz al : Nat),
    Placed P v i sz al s → ∀ o1 ∈ objs chain path i s, ∀ o2 ∈ objs chain path i s, Coexist o1.path o2.path →
    (o1.path, o1.num) ≠ (o2.path, o2.num) → Apart v o1 o2
  | .node ids subs, chain, path, i, sz, al, hpl, o1, ho1, o2, ho2, hco, hne => by
    by_cases he : scopeEmpty (.node ids subs) = true
    · simp [objs, he] at ho1
    · simp only [Placed] at hpl
      obtain ⟨d, ls, hd, hd0, hds, hda, hlaid, hcons, hidx, hmem, hun⟩ := hpl (by simpa using he)
      simp only [objs, he, Bool.false_eq_true, if_false, List.mem_append] at ho1 ho2
      have hid : ∀ o ∈ objIds (chain ++ [i]) path (i + 1) 0 ids, ∃ (m : Nat) (ty : Ty) (l : LTree), ids[o.num]? = some (.auto ty) ∧
          m = (autos (ids.take o.num)).length ∧ ls[m]? = some l ∧ sumOff v o.chain = sumOff v chain + l.data.offset ∧
          sizeOf v o = l.data.size := by
        intro o ho
        obtain ⟨n, m, ty, h1, h2, h3, h4, h5, h6⟩ := objIds_mem ho
        obtain ⟨l, hl, hll⟩ := laidAll_get hlaid m ty h2
        have hv := (hidx m l hl).head
        have hn : o.num = n := by omega
        refine ⟨m, ty, l, by rw [hn]; exact h1, by rw [hn]; exact h5, hl, ?_, ?_⟩
        · rw [h6, sumOff_append, sumOff_append]
          simp only [sumOff, offAt_of hd, offAt_of hv, hd0]; omega
        · exact sizeOf_of (pre := []) (by rw [h6]; rfl) hv
      have hidsub : ∀ o ∈ objIds (chain ++ [i]) path (i + 1) 0 ids, ∀ o' ∈ (if subsEmpty subs = true then [] else
          objsAll (chain ++ [i] ++ [i + 1 + (flattenAll (autos ids)).length]) path
            (i + 1 + (flattenAll (autos ids)).length + 1) 0 subs), Apart v o o' := by
        intro o ho o' ho'
        by_cases hs : subsEmpty subs = true
        · simp [hs] at ho'
        · simp only [hs, Bool.false_eq_true, if_false] at ho'
          obtain ⟨du, u1, u2, u3, u4, u5, u6, u7⟩ := hun (by simpa using hs)
          obtain ⟨m, ty, l, _, _, hl, ha, hsz⟩ := hid o ho
          have hst := u2 l (List.mem_of_getElem? hl)
          obtain ⟨r, hr⟩ := objsAll_chain subs ho'
          left
          rw [ha, hsz, hr]
          simp only [sumOff_append, sumOff, offAt_of hd, offAt_of u1, hd0]
          simp only [LTree.stop] at hst
          omega
      rcases ho1 with ho1 | ho1 <;> rcases ho2 with ho2 | ho2
      · obtain ⟨m1, ty1, l1, e1, h1, hl1, ha1, hs1⟩ := hid o1 ho1
        obtain ⟨m2, ty2, l2, e2, h2, hl2, ha2, hs2⟩ := hid o2 ho2
        have hnum : o1.num ≠ o2.num := by
          intro h; exact hne (by rw [objIds_path ho1, objIds_path ho2, h])
        rcases Nat.lt_or_gt_of_ne hnum with h | h
        · have := autos_take_lt ids _ _ h ⟨ty1, e1⟩
          have := consecutive_lt hcons m1 m2 l1 l2 (by omega) hl1 hl2
          left; rw [ha1, ha2, hs1]; simp only [LTree.stop] at this; omega
        · have := autos_take_lt ids _ _ h ⟨ty2, e2⟩
          have := consecutive_lt hcons m2 m1 l2 l1 (by omega) hl2 hl1
          right; rw [ha1, ha2, hs2]; simp only [LTree.stop] at this; omega
      · exact hidsub o1 ho1 o2 ho2
      · exact (hidsub o2 ho2 o1 ho1).symm
      · by_cases hs : subsEmpty subs = true
        · simp [hs] at ho1
        · simp only [hs, Bool.false_eq_true, if_false] at ho1 ho2
          obtain ⟨du, u1, u2, u3, u4, u5, u6, u7⟩ := hun (by simpa using hs)
          exact objsAll_apart subs _ _ _ _ _ _ u7 o1 ho1 o2 ho2 hco hne

theorem objsAll_apart {P : Prop} {v : List (Option Data)} : ∀ (ss : List Scope) (chain path : List Nat) (i n sz al : Nat),
    PlacedAll P v i sz al ss → ∀ o1 ∈ objsAll chain path i n ss, ∀ o2 ∈ objsAll chain path i n ss,
    Coexist o1.path o2.path → (o1.path, o1.num) ≠ (o2.path, o2.num) → Apart v o1 o2
  | [], _, _, _, _, _, _, _, o1, h, _, _, _, _ => by simp [objsAll] at h
  | s :: ss, chain, path, i, n, sz, al, hpl, o1, ho1, o2, ho2, hco, hne => by
    have key : ∀ o ∈ objs chain (path ++ [n]) i s, ∀ o' ∈ objsAll chain path (i + (ent s).length) (n + 1) ss,
        ¬ Coexist o.path o'.path := by
      intro o ho o' ho'
      obtain ⟨r, hr⟩ := objs_path s ho
      obtain ⟨j, r', hj, hr'⟩ := objsAll_path ss ho'
      rw [hr, hr', List.append_assoc]
      exact not_coexist (by omega)
    simp only [objsAll, List.mem_append] at ho1 ho2
    rcases ho1 with ho1 | ho1 <;> rcases ho2 with ho2 | ho2
    · exact objs_apart s _ _ _ _ _ hpl.1 o1 ho1 o2 ho2 hco hne
    · exact absurd hco (key _ ho1 _ ho2)
    · exact absurd hco.symm (key _ ho2 _ ho1)
    · exact objsAll_apart ss _ _ _ _ _ _ hpl.2 o1 ho1 o2 ho2 hco hne

theorem objs_chain : ∀ (s : Scope) {chain path : List Nat} {i : Nat} {o : Obj}, o ∈ objs chain path i s →
    ∃ r, o.chain = chain ++ r
  | .node ids subs, chain, path, i, o, h => by
    by_cases he : scopeEmpty (.node ids subs) = true
    · simp [objs, he] at h
    · simp only [objs, he, Bool.false_eq_true, if_false, List.mem_append] at h
      rcases h with h | h
      · obtain ⟨_, _, _, _, _, _, _, _, h⟩ := objIds_mem h
        exact ⟨_, by rw [h, List.append_assoc]⟩
      · by_cases hs : subsEmpty subs = true
        · simp [hs] at h
        · simp only [hs, Bool.false_eq_true, if_false] at h
          obtain ⟨r, h⟩ := objsAll_chain subs h
          exact ⟨_, by rw [h, List.append_assoc, List.append_assoc]⟩

theorem objsAll_chain : ∀ (ss : List Scope) {chain path : List Nat} {i n : Nat} {o : Obj}, o ∈ objsAll chain path i n ss →
    ∃ r, o.chain = chain ++ r
  | [], _, _, _, _, _, h => by simp [objsAll] at h
  | s :: ss, chain, path, i, n, o, h => by
    simp only [objsAll, List.mem_append] at h
    rcases h with h | h
    · exact objs_chain s h
    · exact objsAll_chain ss h
end

/-! ## The frame -/

theorem nodes_one {t : List Entry} {e : Entry} (h0 : t[0]? = some e) (hc : e.code = .struct) (hp : 0 < e.param)
    (hl : nodeLen t 0 = t.length) : nodes t = 1 := by
  have hlen : 0 < t.length := by
    cases t with
    | nil => simp at h0
    | cons => simp
  have he : t[0] = e := by simpa [List.getElem?_eq_getElem hlen] using h0
  rw [nodes]
  obtain ⟨n, hn⟩ : ∃ n, t.length = n + 1 := ⟨t.length - 1, by omega⟩
  rw [hn, countNodes, dif_pos hlen]
  simp only [he, hc, hp, if_true, hl, Nat.zero_add]
  cases n with
  | zero => rw [countNodes]
  | succ n => rw [countNodes, dif_neg (by omega)]

/-- The frame of a function's scopes exists, and its objects are placed in it. -/
theorem build_placed (P : Prop) (s : Scope) (hp : Proper s) (hP : P → ∀ ty, s.Uses ty → PowTy ty) :
    ∃ f, build s = .ok f ∧ f.objs = objs [] [] 0 s ∧
      (scopeEmpty s = false → ∃ d, f.layout[0]? = some (some d) ∧ Placed P f.layout 0 d.size d.alignment s) := by
  by_cases he : scopeEmpty s = true
  · have hent : ent s = [] := ent_nil_of_empty s he
    have ht := traverse_eq s [] [] []
    simp only [hent, List.append_nil, List.length_nil] at ht
    refine ⟨⟨[], [], objs [] [] 0 s⟩, ?_, rfl, fun h => by simp [he] at h⟩
    simp only [build, ht, typeLayout, typeLayoutOf, nodes, countNodes, List.length_nil, List.replicate_zero,
      Nat.le_refl, if_true, layoutNodes_zero]
    rfl
  · have hef : scopeEmpty s = false := by simpa using he
    obtain ⟨con, rem, hE, hcr⟩ := eats_exists (weightAll ([s] ++ [])) 1 [s] [] (Nat.le_refl _) (by simp)
    obtain ⟨rfl, rfl⟩ : con = [] ∧ rem = [] := by simpa [eq_comm] using hcr
    simp only [List.append_nil] at hE
    have hent : entAll [s] = ent s := by simp [entAll]
    have hl := eats_length hE []
    simp only [List.nil_append, List.length_nil, hent, childrenLen_one] at hl
    have hne : ∃ e, (ent s)[0]? = some e ∧ e.code = .struct ∧ 0 < e.param := by
      obtain ⟨ids, subs⟩ := s
      refine ⟨⟨.struct, 0, (autos ids).length + unionCount subs⟩, by simp [ent, hef], rfl, ?_⟩
      have := autos_or_union (by cases hp; assumption) hef
      simpa using this
    obtain ⟨e, he0, hec, hep⟩ := hne
    have hnodes := nodes_one he0 hec hep hl
    obtain ⟨c', v', hlay, _, _, _, _, _, _, _, hplace⟩ := eats_result (P := P) hE [] (.fresh true)
      (List.replicate (ent s).length none) (.cons hp .nil)
      (fun p s' hs' ty hu => by
        simp only [List.mem_cons, List.not_mem_nil, or_false] at hs'
        exact hP p ty (hs' ▸ hu)) (by simp [hent]) (.inr ⟨rfl, .inr rfl⟩)
    simp only [List.nil_append, List.length_nil, hent] at hlay
    have hpl := (hplace v' (fun _ _ _ => rfl)).1
    simp only [List.length_nil] at hpl
    have ht := traverse_eq s [] [] []
    simp only [List.nil_append, List.length_nil] at ht
    refine ⟨⟨ent s, v', objs [] [] 0 s⟩, ?_, rfl, fun _ => ?_⟩
    · simp only [build, ht, typeLayout, hnodes, typeLayoutOf, Nat.zero_le, if_true, hlay]
      rfl
    · obtain ⟨ids, subs⟩ := s
      simp only [Placed] at hpl ⊢
      obtain ⟨d, ls, hd, h0, _, _, r⟩ := hpl hef
      exact ⟨d, hd, fun _ => ⟨d, ls, hd, h0, Nat.le_refl _, Nat.le_refl _, r⟩⟩

end Kefir.Locals
