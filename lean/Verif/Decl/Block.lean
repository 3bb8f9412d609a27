import Verif.Decl.FileStep

/-!
# Declarations in blocks
-/

namespace Kefir.Decl

open Model (Entry Class Global Local at?)

variable {N T : Type} [DecidableEq N]

/-- The block scopes and the file scope of a local context. -/
def tables (c : Local N T) : List (List (N × Nat)) := c.top :: (c.rest ++ [c.global.ordinary])

def SimL (strict : Bool) (c : Local N T) (s : State N T) (o : Outcome (State N T) (Reply T))
    (mo : Option (Local N T × Nat)) : Prop :=
  match o with
  | .undefined => True
  | .reject => mo = none
  | .next s' r => ∃ c' id, mo = some (c', id) ∧ c'.rest = c.rest ∧ s'.scopes.tail = s.scopes.tail ∧
      Inv strict c'.global (tables c') s' ∧ ReplyRel strict (Model.reply c'.global id) r

section
variable {strict : Bool} {c : Local N T} {s : State N T} {sc : List (N × Ref T)} {rest : List (List (N × Ref T))}

theorem here_cons (hs : s.scopes = sc :: rest) (n : N) : s.here n = lookup sc n := by
  unfold State.here; rw [hs]

theorem hereUnlinked_false' (hs : s.scopes = sc :: rest) {n : N} (hu : s.hereUnlinked n = false) :
    ∀ b, lookup sc n = some b → b.linkage ≠ .none := by
  intro b hb hl
  unfold State.hereUnlinked at hu
  rw [here_cons hs, hb] at hu
  simp [hl] at hu

theorem hereUnlinked_true' (hs : s.scopes = sc :: rest) {n : N} (hu : s.hereUnlinked n = true) :
    ∃ b, lookup sc n = some b ∧ b.linkage = .none := by
  unfold State.hereUnlinked at hu
  rw [here_cons hs] at hu
  cases hb : lookup sc n with
  | none => rw [hb] at hu; cases hu
  | some b => rw [hb] at hu; exact ⟨b, rfl, by simpa using hu⟩

theorem bind_cons (hs : s.scopes = sc :: rest) (n : N) (r : Ref T) :
    s.bind n r = ⟨s.next, put sc n r :: rest, s.linked⟩ := by
  unfold State.bind; rw [hs]

theorem Inv.topRel (h : Inv strict c.global (tables c) s) (hs : s.scopes = sc :: rest) :
    ScopeRel c.global.heap c.top sc := h.scopes 0 _ _ rfl (by rw [hs]; rfl)

theorem topBound {g g' : Global N T} {m : List (N × Nat)} {ms : List (List (N × Nat))} (hms : ms ≠ []) {n : N} {id : Nat}
    (ho : g'.ordinary = g.ordinary) : Bound g g' m ((n, id) :: m) ms n id :=
  ⟨fun k => at?_cons m n id k, .inr ⟨hms, ho⟩⟩

theorem sameBound {g g' : Global N T} {m : List (N × Nat)} {ms : List (List (N × Nat))} (hms : ms ≠ []) {n : N} {id : Nat}
    (hn : at? m n = some id) (ho : g'.ordinary = g.ordinary) : Bound g g' m m ms n id :=
  ⟨fun k => by by_cases hk : k = n
               · rw [if_pos hk, hk, hn]
               · rw [if_neg hk], .inr ⟨hms, ho⟩⟩

theorem insertTop_new (c : Local N T) (g : Global N T) {n : N} (id : Nat) (hn : at? c.top n = none) :
    c.insertTop g n id = some ({ c with global := g, top := (n, id) :: c.top }, id) := by
  unfold Local.insertTop; rw [insert_new hn]

/-! ### entities without linkage -/

/-- Every function that adds an entity without linkage to the current block. -/
theorem blockNew (h : Inv strict c.global (tables c) s) (hs : s.scopes = sc :: rest) {n : N} (x : Entry T)
    (hb : lookup sc n = none) (hl : (x.ref s.next).linkage = .none) :
    SimL strict c s
      (.next { (s.bind n (x.ref s.next)) with next := s.next + 1 } (.refers (x.ref s.next)))
      (c.insertTop (c.global.alloc x).1 n (c.global.alloc x).2) := by
  have hn := ((h.topRel hs).none_iff n).mpr hb
  rw [insertTop_new _ _ _ hn]
  have hrest : rest ≠ [] := by
    intro hx
    have := h.len
    rw [hs, hx] at this
    simp [tables] at this
  refine ⟨_, _, rfl, rfl, ?_, ?_, ?_⟩
  · rw [bind_cons hs, hs]; rfl
  · rw [bind_cons hs]
    refine h.unlinkedNew (g' := (c.global.alloc x).1) (x := x) hs hb hl (fun hx => absurd hx hrest)
      ?_ rfl rfl rfl (fun k => ⟨fun hx => absurd hx.1 (by simp), fun _ => rfl⟩) (fun k i hk => .inl hk)
    rw [← h.next]
    exact topBound (by simp) rfl
  · have : (c.global.alloc x).2 = s.next := h.next
    rw [this]
    refine reply_unlinked ?_
    rw [← h.next]; exact append_get _ _

theorem sim_blockConstant (h : Inv strict c.global (tables c) s) (hs : s.scopes = sc :: rest) (n : N) (v : Int) :
    SimL strict c s (declareConstant s n v) (c.defineConstant n v) := by
  unfold declareConstant Local.defineConstant
  rw [here_cons hs]
  cases hb : lookup sc n with
  | some b => rw [((h.topRel hs).some_of hb).1]; rfl
  | none =>
    rw [((h.topRel hs).none_iff n).mpr hb]
    exact blockNew h hs (.constant v) hb rfl

/-- The storage class kefir gives to a block-scope object. -/
def blockStorage : Storage → Storage
  | .none => .auto
  | x => x

theorem sim_blockObject (h : Inv strict c.global (tables c) s) (hs : s.scopes = sc :: rest) (ty : Types T)
    (d : Declaration N T) (own : Storage)
    (hst : (own = .auto ∧ (d.storage = .none ∨ d.storage = .auto)) ∨ (own = .register ∧ d.storage = .register))
    (hcov : d.init.isSome = true → ty.variablyModified d.type = ty.variableLength d.type) :
    SimL strict c s (declareUnlinked ty false s d) (c.defineAuto ty own d.name d.type d.init) := by
  have hnt : d.storage ≠ .typedef := by
    rcases hst with ⟨_, hx | hx⟩ | ⟨_, hx⟩ <;> rw [hx] <;> simp
  have hns : d.storage.isStatic = false := by
    rcases hst with ⟨_, hx | hx⟩ | ⟨_, hx⟩ <;> rw [hx] <;> rfl
  have href : ∀ (i : Nat) (t : T) (b : Bool),
      Ref.object i .none (durationOf .none d.storage) t = Entry.ref i (.object t own .none false b) := by
    intro i t b
    rcases hst with ⟨ho, hx | hx⟩ | ⟨ho, hx⟩ <;> rw [hx, ho] <;> rfl
  unfold declareUnlinked Local.defineAuto
  rw [if_neg hnt, hns, here_cons hs]
  simp only [Bool.false_or]
  cases hi : d.init with
  | none =>
    simp only [Option.isSome_none, Bool.and_false, Option.isNone_none, Bool.true_and, Bool.false_eq_true,
      if_false, show complete none d.type = d.type from rfl]
    by_cases hinc : ty.incomplete d.type = true
    · rw [if_pos hinc, if_pos hinc]; rfl
    · rw [if_neg hinc, if_neg hinc]
      cases hb : lookup sc d.name with
      | some b => rw [((h.topRel hs).some_of hb).1]; rfl
      | none =>
        rw [((h.topRel hs).none_iff d.name).mpr hb]
        dsimp only
        rw [href _ _ false]
        exact blockNew h hs (.object d.type own .none false false) hb rfl
  | some f =>
    rw [hi] at hcov
    have hvl := hcov rfl
    simp only [Option.isSome_some, Bool.and_true, Option.isNone_some, Bool.false_and, Bool.false_eq_true,
      if_false, show complete (some f) d.type = f d.type from rfl]
    rw [hvl]
    cases hv : ty.variableLength d.type with
    | true => rfl
    | false =>
      simp only [Bool.false_eq_true, if_false]
      by_cases hinc : ty.incomplete (f d.type) = true
      · rw [if_pos hinc, if_pos hinc]
        cases at? c.top d.name <;> rfl
      · rw [if_neg hinc, if_neg hinc]
        cases hb : lookup sc d.name with
        | some b => rw [((h.topRel hs).some_of hb).1]; rfl
        | none =>
          rw [((h.topRel hs).none_iff d.name).mpr hb]
          dsimp only
          rw [href _ _ true]
          exact blockNew h hs (.object (f d.type) own .none false true) hb rfl

theorem sim_blockStatic (h : Inv strict c.global (tables c) s) (hs : s.scopes = sc :: rest) (ty : Types T)
    (d : Declaration N T) (hst : d.storage = .static ∨ d.storage = .staticThread)
    (hcov : d.init.isSome = true → ty.variablyModified d.type = ty.variableLength d.type)
    (hcov' : d.init = none → (ty.variablyModified d.type && !ty.isPointer d.type) = ty.variableLength d.type) :
    SimL strict c s (declareUnlinked ty false s d) (c.defineStatic ty d.storage d.name d.type d.init) := by
  have hnt : d.storage ≠ .typedef := by
    rcases hst with hx | hx <;> rw [hx] <;> simp
  have hns : d.storage.isStatic = true := by
    rcases hst with hx | hx <;> rw [hx] <;> rfl
  have href : ∀ (i : Nat) (t : T) (b : Bool),
      Ref.object i .none (durationOf .none d.storage) t = Entry.ref i (.object t d.storage .none false b) := by
    intro i t b
    rcases hst with hx | hx <;> rw [hx] <;> rfl
  unfold declareUnlinked Local.defineStatic
  rw [if_neg hnt, hns, here_cons hs]
  simp only [Bool.true_or, Bool.and_true]
  cases hi : d.init with
  | none =>
    rw [hcov' hi]
    simp only [Option.isSome_none, Bool.and_false, Option.isNone_none, Bool.true_and, Bool.false_eq_true,
      if_false, show complete none d.type = d.type from rfl]
    by_cases hv : ty.variableLength d.type = true
    · rw [if_pos hv, if_pos hv]; rfl
    rw [if_neg hv, if_neg hv]
    by_cases hinc : ty.incomplete d.type = true
    · rw [if_pos hinc, if_pos hinc]; rfl
    · rw [if_neg hinc, if_neg hinc]
      cases hb : lookup sc d.name with
      | some b => rw [((h.topRel hs).some_of hb).1]; rfl
      | none =>
        rw [((h.topRel hs).none_iff d.name).mpr hb]
        dsimp only
        rw [href _ _ false]
        exact blockNew h hs (.object d.type d.storage .none false false) hb rfl
  | some f =>
    rw [hi] at hcov
    have hvl := hcov rfl
    simp only [Option.isSome_some, Bool.and_true, Option.isNone_some, Bool.false_and, Bool.false_eq_true,
      if_false, show complete (some f) d.type = f d.type from rfl]
    rw [hvl]
    cases hv : ty.variableLength d.type with
    | true => simp [SimL]
    | false =>
      simp only [Bool.false_and, Bool.false_eq_true, if_false]
      by_cases hinc : ty.incomplete (f d.type) = true
      · rw [if_pos hinc, if_pos hinc]
        cases at? c.top d.name <;> rfl
      · rw [if_neg hinc, if_neg hinc]
        cases hb : lookup sc d.name with
        | some b => rw [((h.topRel hs).some_of hb).1]; rfl
        | none =>
          rw [((h.topRel hs).none_iff d.name).mpr hb]
          dsimp only
          rw [href _ _ true]
          exact blockNew h hs (.object (f d.type) d.storage .none false true) hb rfl

theorem sim_blockType (h : Inv strict c.global (tables c) s) (hs : s.scopes = sc :: rest) (ty : Types T)
    (d : Declaration N T) (hst : d.storage = .typedef)
    (hcov : ∀ i old, lookup sc d.name = some (.typedefName i old) →
      ty.compatible old d.type = (ty.same old d.type && !ty.variablyModified d.type)) :
    SimL strict c s (declareUnlinked ty false s d) (c.defineType ty d.name d.type) := by
  unfold declareUnlinked Local.defineType
  rw [if_pos hst, here_cons hs]
  simp only [Bool.false_and, Bool.false_eq_true, if_false]
  cases hb : lookup sc d.name with
  | none =>
    rw [((h.topRel hs).none_iff d.name).mpr hb]
    exact blockNew h hs (.typedefName d.type) hb rfl
  | some b =>
    obtain ⟨h1, hr⟩ := (h.topRel hs).some_of hb
    rw [h1]
    dsimp only
    have notTd : ∀ x, c.global.heap[b.id]? = some x → (∀ t, x ≠ .typedefName t) →
        (match c.global.heap[b.id]? with
        | some (.typedefName t₀) =>
          if (!ty.compatible t₀ d.type) = true then none
          else if (ty.incomplete t₀ && !ty.incomplete d.type) = true then
            some ({ c with global := c.global.write b.id (.typedefName d.type) }, b.id)
          else some (c, b.id)
        | _ => none) = none := by
      intro x hx hnt
      rw [hx]
      cases x with
      | typedefName t => exact absurd rfl (hnt t)
      | _ => rfl
    have lnk : b.linkage ≠ .none → (match c.global.heap[b.id]? with
        | some (.typedefName t₀) =>
          if (!ty.compatible t₀ d.type) = true then none
          else if (ty.incomplete t₀ && !ty.incomplete d.type) = true then
            some ({ c with global := c.global.write b.id (.typedefName d.type) }, b.id)
          else some (c, b.id)
        | _ => none) = none := by
      intro hl
      obtain ⟨e, he, hu⟩ := h.bound 0 sc d.name b (by rw [hs]; rfl) hb hl
      have hid : b.id = e.id := by rw [untyped_id _ _ hu, Linked.ref_id]
      refine notTd (entryOf e) (by rw [hid]; exact (h.linkedSome he).2.2) (entryOf_not_typedef e)
    have unl : b.linkage = .none → (∀ i t, b ≠ .typedefName i t) → (match c.global.heap[b.id]? with
        | some (.typedefName t₀) =>
          if (!ty.compatible t₀ d.type) = true then none
          else if (ty.incomplete t₀ && !ty.incomplete d.type) = true then
            some ({ c with global := c.global.write b.id (.typedefName d.type) }, b.id)
          else some (c, b.id)
        | _ => none) = none := by
      intro hl hnt
      obtain ⟨x, hx, hxr⟩ := hr.2 hl
      refine notTd x hx (fun t ht => ?_)
      rw [ht] at hxr
      exact hnt _ _ hxr.symm
    cases b with
    | object i l dd t =>
      by_cases hl : (Ref.object i l dd t).linkage = .none
      · exact unl hl (fun _ _ hx => by cases hx)
      · exact lnk hl
    | function i l t =>
      by_cases hl : (Ref.function i l t).linkage = .none
      · exact unl hl (fun _ _ hx => by cases hx)
      · exact lnk hl
    | constant i v => exact unl rfl (fun _ _ hx => by cases hx)
    | typedefName i old =>
      obtain ⟨x, hx, hxr⟩ := hr.2 rfl
      have hx' : c.global.heap[i]? = some x := hx
      have hx0 : x = .typedefName old := by
        have hxr' : Entry.ref i x = .typedefName i old := hxr
        cases x <;> simp [Entry.ref] at hxr'
        rw [hxr']
      subst hx0
      show SimL strict c s _ (match c.global.heap[i]? with
        | some (.typedefName t₀) =>
          if (!ty.compatible t₀ d.type) = true then none
          else if (ty.incomplete t₀ && !ty.incomplete d.type) = true then
            some ({ c with global := c.global.write i (.typedefName d.type) }, i)
          else some (c, i)
        | _ => none)
      rw [hx']
      dsimp only
      rw [hcov i old hb]
      cases hsame : (ty.same old d.type && !ty.variablyModified d.type) with
      | false => rfl
      | true =>
        simp only [Bool.not_true, Bool.false_eq_true, if_false, if_true]
        have hlt : i < c.global.heap.length := (List.getElem?_eq_some_iff.mp hx').1
        cases hinc : (ty.incomplete old && !ty.incomplete d.type) with
        | true =>
          simp only [if_true]
          refine ⟨_, _, rfl, rfl, ?_, ?_, ?_⟩
          · rw [bind_cons hs, hs]; rfl
          · rw [bind_cons hs]
            exact h.typedefUpdate (g' := c.global.write i (.typedefName d.type)) hs hb rfl rfl rfl rfl rfl rfl
          · exact reply_unlinked (x := .typedefName d.type) (write_get hlt _)
        | false =>
          simp only [Bool.false_eq_true, if_false]
          refine ⟨_, _, rfl, rfl, ?_, ?_, ?_⟩
          · rw [bind_cons hs, hs]; rfl
          · rw [bind_cons hs]
            refine h.typedefUpdate hs hb (t' := old) ?_ rfl rfl rfl rfl rfl
            obtain ⟨_, heq⟩ := List.getElem?_eq_some_iff.mp hx'
            rw [← heq]; exact (List.set_getElem_self hlt).symm
          · exact reply_unlinked (x := .typedefName old) hx'

end

end Kefir.Decl
