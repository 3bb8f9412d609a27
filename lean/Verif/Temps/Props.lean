import Verif.Temps.Storage
/-!
# Properties of temporary objects (C101)
-/

namespace Kefir.Temps

open Kefir.Layout Kefir.Slots Kefir.Locals

/-- The state after the first use. -/
theorem begun_inv : Inv (init true start).1 := by
  refine ⟨rfl, ?_, ?_, ?_⟩ <;> intro b hb <;> exact absurd hb (by simp [init, start])

theorem analyse_start : ∀ (es : List Event) (c : Nat), (∀ ty, Event.temporary ty ∈ es → WF ty) →
    ∃ t ids d, analyse start es = some (t, ids) ∧ (∀ b ∈ t.blocks, b.2 ≠ []) ∧
      (∀ b ∈ t.blocks, ∀ m ∈ b.2, WF m.2 ∧ Event.temporary m.2 ∈ es) ∧
      ids.length = (temporaries c es).length ∧
      (∀ (n : Nat) id b ty, ids[n]? = some id → (temporaries c es)[n]? = some (b, ty) →
        b = id.identifier + d ∧ ∃ k j, Found t.blocks id k j ty) ∧ ids.Pairwise After
  | [], c, _ => ⟨start, [], 0, rfl, by simp [start], by simp [start], rfl, by simp, by simp⟩
  | .nextBlock :: es, c, he => by
    obtain ⟨t, ids, d, h1, h2, h3, h4⟩ := analyse_start es (c + 1) (fun ty h => he ty (List.mem_cons_of_mem _ h))
    refine ⟨t, ids, d, ?_, h2, fun b hb m hm => ⟨(h3 b hb m hm).1, List.mem_cons_of_mem _ (h3 b hb m hm).2⟩, ?_⟩
    · rw [analyse]; exact h1
    · rw [temporaries]; exact h4
  | .temporary ty :: es, c, he => by
    obtain ⟨t, ids, h1, h2, h3, h4, h5, h6, h7, h8⟩ := analyse_ok (.temporary ty :: es) (t := (init true start).1) c
      (fun ty' => WF ty' ∧ Event.temporary ty' ∈ Event.temporary ty :: es) begun_inv rfl
      (by intro b hb; exact absurd hb (by simp [init, start])) (fun ty' h => ⟨he ty' h, h⟩)
    have e : (init true start).1.current.identifier + c = c := Nat.zero_add c
    rw [e] at h5 h6
    have : analyse start (.temporary ty :: es) = analyse (init true start).1 (.temporary ty :: es) := rfl
    exact ⟨t, ids, c, by rw [this]; exact h1, h2.filled, h3, h5, h6, h8⟩

/-! ## C101 -/

/-- **C101**, unnamed objects of a function: each compound literal and each returned structure or union has
storage as large as its type, inside the frame; it has none of its bytes in common with a named object or with
another unnamed object that is needed at the same time.  The storage is where the instructions that the
translator emits lead to. -/
theorem C101_local (before after : List Ident) (subs : List Scope) (hp : Proper (.node (before ++ after) subs))
    (es : List Event) (hw : ∀ ty, Event.temporary ty ∈ es → WF ty) (hne : ∃ ty, Event.temporary ty ∈ es) :
    ∃ t ids f o q, analyse start es = some (t, ids) ∧ ids.length = (temporaries 0 es).length ∧
      build (scopeOf before after subs t) = .ok f ∧
      o ∈ f.objs ∧ o.path = [] ∧ o.num = before.length ∧ o.chain.getLast? = some q ∧
      ∀ (n : Nat) b ty, (temporaries 0 es)[n]? = some (b, ty) →
        ∃ id e l, ids[n]? = some id ∧ fetch f t.blocks (layOf (typeOf t.blocks) q) id = some e ∧
          Laid ty l ∧ e.size = l.data.size ∧ e.start + e.size ≤ f.size 0 ∧
          (∀ o' ∈ f.objs, (o'.path, o'.num) ≠ ([], before.length) → e.Disjoint (f.extent o')) ∧
          (∀ (n' : Nat) ty' id' e', n' ≠ n → (temporaries 0 es)[n']? = some (b, ty') → ids[n']? = some id' →
            fetch f t.blocks (layOf (typeOf t.blocks) q) id' = some e' → e.Disjoint e') ∧
          ((∀ ty', Event.temporary ty' ∈ es → Pow2Aligned ty') → ty.isBits = false → l.data.alignment ∣ e.start) := by
  obtain ⟨t, ids, c, h1, h2, h3, h4, h5, h6⟩ := analyse_start es 0 hw
  have hblocks : t.blocks ≠ [] := by
    obtain ⟨ty, hty⟩ := hne
    have hex : ∀ (es : List Event) (b : Nat), Event.temporary ty ∈ es → temporaries b es ≠ [] := by
      intro es
      induction es with
      | nil => intro b h; cases h
      | cons x es ih =>
        intro b h
        cases x with
        | temporary ty' => simp [temporaries]
        | nextBlock =>
          rw [temporaries]
          refine ih _ ?_
          rcases List.mem_cons.1 h with h | h
          · cases h
          · exact h
    have hlen : 0 < (temporaries 0 es).length := List.length_pos_iff.2 (hex es 0 hty)
    have h0 := List.getElem?_eq_getElem (l := ids) (i := 0) (by omega)
    have h0' := List.getElem?_eq_getElem (l := temporaries 0 es) (i := 0) hlen
    obtain ⟨_, k, j, hf⟩ := h5 0 _ _ _ h0 h0'
    obtain ⟨_, ms, hms, _⟩ := hf
    intro he
    rw [he] at hms
    simp at hms
  have hwf : WF (typeOf t.blocks) := typeOf_wf hblocks h2 (fun b hb m hm => (h3 b hb m hm).1)
  have hproper : Proper (scopeOf before after subs t) := by
    cases hp with
    | node a1 a2 a3 =>
      refine .node ?_ ?_ a3
      · intro ty hty
        rcases List.mem_append.1 hty with h | h
        · exact a1 ty (List.mem_append_left _ h)
        · rcases List.mem_cons.1 h with h | h
          · cases h; exact ⟨hwf, rfl⟩
          · exact a1 ty (List.mem_append_right _ h)
      · intro h
        rcases List.mem_append.1 h with h | h
        · exact a2 (List.mem_append_left _ h)
        · rcases List.mem_cons.1 h with h | h
          · cases h
          · exact a2 (List.mem_append_right _ h)
  have hat : (before ++ Ident.auto (typeOf t.blocks) :: after)[before.length]? = some (.auto (typeOf t.blocks)) := by
    simp
  obtain ⟨f, hf, o, ho, hpath, hnum, q, l, hchain, hsub, hlaid, hstop, hext, hal⟩ := root_object hproper hat
  refine ⟨t, ids, f, o, q, h1, h4, hf, ho, hpath, hnum, by rw [hchain]; rfl, ?_⟩
  intro n b ty hn
  have hlt : n < ids.length := by rw [h4]; exact (List.getElem?_eq_some_iff.1 hn).1
  have hid := List.getElem?_eq_getElem hlt
  obtain ⟨hb, k, j, hfound⟩ := h5 n _ b ty hid hn
  obtain ⟨lvs, lv, lms, lm, e1, e2, e3, e4, e5, e6, ⟨ts, e7⟩, e8, e9, e10⟩ := fetch_found hsub hlaid hfound
  have hs1 : lm.data.offset + lm.data.size ≤ l.data.size := e8
  have hs2 : l.data.offset + l.data.size ≤ f.size 0 := hstop
  refine ⟨ids[n], _, lm, hid, e6, e5, rfl, ?_, ?_, ?_, ?_⟩
  · simp only
    omega
  · intro o' ho' hdiff
    have := C83_disjoint _ hproper f hf o o' ho ho' (by rw [hpath, hnum]; exact fun h => hdiff h.symm)
      (by rw [hpath]; exact Or.inl List.nil_prefix)
    rw [hext] at this
    unfold Extent.Disjoint at *
    simp only at *
    omega
  · intro n' ty' id' e' hnn hn' hid' hfe
    obtain ⟨hb', k', j', hfound'⟩ := h5 n' _ b ty' hid' hn'
    obtain ⟨lvs', lv', lms', lm', e1', e2', e3', e4', e5', e6', _⟩ := fetch_found hsub hlaid hfound'
    rw [e6'] at hfe
    cases hfe
    have hident : id'.identifier = ids[n].identifier := by omega
    rw [e1] at e1'
    injection e1' with _ e1'
    subst e1'
    have hk : k' = k := by
      have a := hfound.1
      have b := hfound'.1
      rw [hident, a] at b
      injection b with b; exact b.symm
    subst hk
    rw [e2] at e2'
    cases e2'
    rw [e3] at e3'
    injection e3' with _ e3'
    subst e3'
    have hfield : id'.field ≠ ids[n].field := by
      have hp := List.pairwise_iff_getElem.1 h6
      have hlt' := (List.getElem?_eq_some_iff.1 hid').1
      have hidv : ids[n'] = id' := (List.getElem?_eq_some_iff.1 hid').2
      rcases Nat.lt_or_gt_of_ne hnn with h | h
      · have := hp n' n hlt' hlt h
        rw [hidv] at this
        rcases this with h | h <;> omega
      · have := hp n n' hlt hlt' h
        rw [hidv] at this
        rcases this with h | h <;> omega
    have hjj : j ≠ j' := by
      intro he
      subst he
      obtain ⟨_, ms, a1, a2, a3⟩ := hfound
      obtain ⟨_, ms', b1, b2, b3⟩ := hfound'
      rw [hident, a1] at b1
      injection b1 with b1
      injection b1 with _ b1
      subst b1
      rw [a3] at b3
      injection b3 with b3
      injection b3 with b3 _
      exact hfield (memberName_inj b3).symm
    unfold Extent.Disjoint
    simp only
    rcases Nat.lt_or_gt_of_ne hjj with h | h
    · have := consecutive_lt e7 j j' lm lm' h e4 e4'
      unfold LTree.stop at this
      omega
    · have := consecutive_lt e7 j' j lm' lm h e4' e4
      unfold LTree.stop at this
      omega
  · intro hpow hbits
    have hpl : Pow2Aligned (typeOf t.blocks) := by
      have all : ∀ ts : List Ty, (∀ ty ∈ ts, Pow2Aligned ty) → Pow2AlignedAll ts := by
        intro ts
        induction ts with
        | nil => intro _; exact .nil
        | cons x ts ih =>
          intro h
          exact .cons (h x List.mem_cons_self) (ih fun ty hty => h ty (List.mem_cons_of_mem _ hty))
      refine .union (Or.inl rfl) (all _ ?_)
      intro ty hty
      obtain ⟨b, hb, rfl⟩ := List.mem_map.1 hty
      refine .struct (Or.inl rfl) (all _ ?_)
      intro ty hty
      obtain ⟨m, hm, rfl⟩ := List.mem_map.1 hty
      exact hpow _ (h3 b hb m hm).2
    have hty : Pow2Aligned ty := by
      obtain ⟨_, ms, a1, a2, a3⟩ := hfound
      exact hpow _ (h3 _ (List.mem_of_getElem? a1) _ (List.mem_of_getElem? a3)).2
    have d1 : lm.data.alignment ∣ l.data.alignment := pow_dvd_of_le (powTy_of e5 hty) (powTy_of hlaid hpl) e9
    exact Nat.dvd_add (Nat.dvd_trans d1 (Nat.dvd_of_mod_eq_zero hal)) (Nat.dvd_of_mod_eq_zero (e10 hbits))

theorem analyseGlobal_ok : ∀ (es : List Event) (t : Temps), t.initDone = true → t.current.nested = false →
    ∃ ids : List Id, analyseGlobal t es = some (ids.map fun i => globalName i.identifier i.field) ∧
      (∀ b, ids.length = (temporaries b es).length) ∧ (∀ id ∈ ids, NotBefore t.current id) ∧ ids.Pairwise After
  | [], t, _, _ => ⟨[], rfl, fun _ => rfl, by simp, by simp⟩
  | .temporary ty :: es, t, hi, hn => by
    obtain ⟨ids, h1, h2, h3, h4⟩ := analyseGlobal_ok es
      { t with current := { t.current with field := t.current.field + 1 } } hi hn
    refine ⟨t.current :: ids, ?_, ?_, ?_, ?_⟩
    · have hal : allocateGlobal t ty = some ({ t with current := { t.current with field := t.current.field + 1 } },
          t.current, globalName t.current.identifier t.current.field) := by
        have hne : ¬ (t.current.nested = true) := by rw [hn]; simp
        rw [allocateGlobal, init, if_pos hi]
        simp only
        rw [newTemporary]
        simp only
        rw [if_neg hne]
        simp only
        rw [if_neg hne]
      rw [analyseGlobal, hal]
      simp only
      rw [h1]
      rfl
    · intro b
      rw [temporaries, List.length_cons, List.length_cons, h2 b]
    · intro id hid
      rcases List.mem_cons.1 hid with rfl | hid
      · exact Or.inr ⟨rfl, Nat.le_refl _⟩
      · rcases h3 id hid with h | ⟨h, h'⟩
        · exact Or.inl h
        · exact Or.inr ⟨h, by simp only at h'; omega⟩
    · refine List.pairwise_cons.2 ⟨?_, h4⟩
      intro id hid
      rcases h3 id hid with h | ⟨h, h'⟩
      · exact Or.inl h
      · exact Or.inr ⟨h, by simp only at h'; omega⟩
  | .nextBlock :: es, t, hi, hn => by
    obtain ⟨ids, h1, h2, h3, h4⟩ := analyseGlobal_ok es
      { t with current := { t.current with identifier := t.current.identifier + 1, field := 0 } } hi hn
    refine ⟨ids, ?_, ?_, ?_, h4⟩
    · rw [analyseGlobal, nextBlock, if_pos hi]; exact h1
    · intro b
      rw [temporaries]
      exact h2 (b + 1)
    · intro id hid
      rcases h3 id hid with h | ⟨h, h'⟩
      · exact Or.inl (by simp only at h; omega)
      · exact Or.inl (by simp only at h; omega)

/-- **C101**, unnamed objects outside of functions: each is an object of its own, as no two of them have the
same name. -/
theorem C101_global (es : List Event) :
    ∃ names, analyseGlobal start es = some names ∧ names.length = (temporaries 0 es).length ∧ names.Nodup := by
  have base : ∀ es : List Event, ∃ ids : List Id,
      analyseGlobal start es = some (ids.map fun i => globalName i.identifier i.field) ∧
        (∀ b, ids.length = (temporaries b es).length) ∧ ids.Pairwise After := by
    intro es
    induction es with
    | nil => exact ⟨[], rfl, fun _ => rfl, .nil⟩
    | cons x es ih =>
      cases x with
      | nextBlock =>
        obtain ⟨ids, h1, h2, h3⟩ := ih
        exact ⟨ids, by rw [analyseGlobal]; exact h1, fun b => by rw [temporaries]; exact h2 _, h3⟩
      | temporary ty =>
        obtain ⟨ids, h1, h2, _, h4⟩ := analyseGlobal_ok (.temporary ty :: es) (init false start).1 rfl rfl
        exact ⟨ids, h1, h2, h4⟩
  obtain ⟨ids, h1, h2, h3⟩ := base es
  refine ⟨_, h1, by rw [List.length_map]; exact h2 0, ?_⟩
  refine List.pairwise_map.2 (h3.imp ?_)
  intro a b hab he
  obtain ⟨e1, e2⟩ := globalName_inj he
  rcases hab with h | h <;> omega

/-! ## A function with two compound literals and a returned structure

`void f(void) { int x; g(&(struct { char c; long l; }){…}, (int[3]){…}); { long y; h(); } }`. -/

def exampleEvents : List Event :=
  [.temporary (.struct 0 [.leaf .char 0 0, .leaf .long 0 0]), .temporary (.array 0 3 (.leaf .int 0 0)),
    .temporary (.struct 0 [.leaf .char 0 0])]

def exampleSubs : List Scope := [.node [.auto (.leaf .long 0 0)] []]

example : Proper (.node ([.auto (.leaf .int 0 0)] ++ [.other]) exampleSubs) := by
  refine .node ?_ (by simp) (.cons (.node ?_ (by simp) .nil) .nil)
  · intro ty hty
    simp at hty
    subst hty
    exact ⟨.leaf (by simp), rfl⟩
  · intro ty hty
    simp at hty
    subst hty
    exact ⟨.leaf (by simp), rfl⟩

example : ∀ ty, Event.temporary ty ∈ exampleEvents → WF ty := by
  intro ty hty
  simp [exampleEvents] at hty
  rcases hty with rfl | rfl | rfl
  · exact .struct (by simp) (.cons (.leaf (by simp)) (.cons (.leaf (by simp)) .nil))
  · exact .array (.leaf (by simp))
  · exact .struct (by simp) (.cons (.leaf (by simp)) .nil)

/-! Its temporaries, one after the other behind `x`, in spite of the different scopes: -/

def exampleBlocks : List (Name × List (Name × Ty)) :=
  [(valueName 0, [(memberName 0, .struct 0 [.leaf .char 0 0, .leaf .long 0 0]),
    (memberName 1, .array 0 3 (.leaf .int 0 0)), (memberName 2, .struct 0 [.leaf .char 0 0])])]

theorem example_analyse : analyse start exampleEvents =
    some (⟨true, exampleBlocks, ⟨true, 0, 3⟩⟩, [⟨true, 0, 0⟩, ⟨true, 0, 1⟩, ⟨true, 0, 2⟩]) := by rfl

theorem example_traverse : traverse [] [] []
      (scopeOf [.auto (.leaf .int 0 0)] [.other] exampleSubs ⟨true, exampleBlocks, ⟨true, 0, 3⟩⟩) =
    ([⟨.struct, 0, 3⟩, ⟨.leaf .int, 0, 0⟩, ⟨.union, 0, 1⟩, ⟨.struct, 0, 3⟩, ⟨.struct, 0, 2⟩, ⟨.leaf .char, 0, 0⟩,
      ⟨.leaf .long, 0, 0⟩, ⟨.array, 0, 3⟩, ⟨.leaf .int, 0, 0⟩, ⟨.struct, 0, 1⟩, ⟨.leaf .char, 0, 0⟩,
      ⟨.union, 0, 1⟩, ⟨.struct, 0, 1⟩, ⟨.leaf .long, 0, 0⟩],
    [⟨[], 0, [0, 1]⟩, ⟨[], 1, [0, 2]⟩, ⟨[0], 0, [0, 11, 12, 13]⟩]) := by rfl

theorem example_layout : typeLayout [⟨.struct, 0, 3⟩, ⟨.leaf .int, 0, 0⟩, ⟨.union, 0, 1⟩, ⟨.struct, 0, 3⟩,
      ⟨.struct, 0, 2⟩, ⟨.leaf .char, 0, 0⟩, ⟨.leaf .long, 0, 0⟩, ⟨.array, 0, 3⟩, ⟨.leaf .int, 0, 0⟩, ⟨.struct, 0, 1⟩,
      ⟨.leaf .char, 0, 0⟩, ⟨.union, 0, 1⟩, ⟨.struct, 0, 1⟩, ⟨.leaf .long, 0, 0⟩] =
    .ok [some ⟨48, 8, true, 0⟩, some ⟨4, 4, true, 0⟩, some ⟨32, 8, true, 8⟩, some ⟨32, 8, true, 0⟩,
      some ⟨16, 8, true, 0⟩, some ⟨1, 1, true, 0⟩, some ⟨8, 8, true, 8⟩, some ⟨12, 4, true, 16⟩, some ⟨4, 4, true, 0⟩,
      some ⟨1, 1, true, 28⟩, some ⟨1, 1, true, 0⟩, some ⟨8, 8, true, 40⟩, some ⟨8, 8, true, 0⟩,
      some ⟨8, 8, true, 0⟩] := by
  simp [typeLayout, typeLayoutOf, nodes, countNodes, nodeLen, childrenLen, layoutNodes]
  rfl

example : ∃ f, build (scopeOf [.auto (.leaf .int 0 0)] [.other] exampleSubs ⟨true, exampleBlocks, ⟨true, 0, 3⟩⟩) = .ok f ∧
    [(⟨true, 0, 0⟩ : Id), ⟨true, 0, 1⟩, ⟨true, 0, 2⟩].map (fetch f exampleBlocks (layOf (typeOf exampleBlocks) 2)) =
      [some ⟨8, 16⟩, some ⟨24, 12⟩, some ⟨36, 1⟩] ∧ f.objs.map f.extent = [⟨0, 4⟩, ⟨8, 32⟩, ⟨40, 8⟩] := by
  refine ⟨_, by rw [build, example_traverse]; simp only [example_layout]; rfl, rfl, rfl⟩

/-- Outside of functions. -/
example : analyseGlobal start [.temporary (.leaf .int 0 0), .temporary (.leaf .int 0 0)] =
    some ["__kefirrt_temporary_0_0".toList, "__kefirrt_temporary_0_1".toList] := by decide +kernel

end Kefir.Temps
