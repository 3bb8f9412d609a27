import Verif.Decl.Block

/-!
# Declarations with linkage in blocks; `context_define_identifier` of the local context
-/

namespace Kefir.Decl

open Model (Entry Class Global Local at?)

variable {N T : Type} [DecidableEq N]

section
variable {c : Local N T} {s : State N T} {sc : List (N × Ref T)} {rest : List (List (N × Ref T))}

theorem visible_linked {strict : Bool} {g : Global N T} {ms : List (List (N × Nat))} (h : Inv strict g ms s)
    {n : N} {r : Ref T} (hv : s.visible n = some r) :
    ∃ (i : Nat) (sc : List (N × Ref T)), s.scopes[i]? = some sc ∧ lookup sc n = some r := by
  unfold State.visible at hv
  obtain ⟨sc, hsc, hl⟩ := List.exists_of_findSome?_eq_some hv
  obtain ⟨i, hi⟩ := List.mem_iff_getElem?.mp hsc
  exact ⟨i, sc, hi, hl⟩

theorem asExtern_new' {strict : Bool} {g : Global N T} {ms : List (List (N × Nat))} (h : Inv strict g ms s) {n : N}
    (hn : lookup s.linked n = none) : asExtern (s.visible n) = .external := by
  cases hv : s.visible n with
  | none => rfl
  | some b =>
    unfold asExtern
    by_cases hl : b.linkage = .none
    · simp [hl]
    · obtain ⟨i, sc, hi, hb⟩ := visible_linked h hv
      obtain ⟨e, he, _⟩ := h.bound i sc n b hi hb hl
      rw [hn] at he; cases he

/-- The two functions that declare entities with linkage in blocks have this shape. -/
theorem blockLinked (h : Inv false c.global (tables c) s) (hs : s.scopes = sc :: rest) (ty : Types T)
    (l : Linkage) (d : Declaration N T) (req : Option (Option Nat))
    (upd ins : Nat → Option (Local N T × Nat)) (new : Option (Local N T × Nat)) {mo : Option (Local N T × Nat)}
    (hmo : mo = if ty.variablyModified d.type then none
      else match req with
        | none => none
        | some there =>
          match at? c.top d.name with
          | some id => if some id ≠ there then none else upd id
          | none =>
            match there with
            | some id => ins id
            | none => new)
    (hfn : ty.isFunction d.type = true → d.storage.thread = false)
    (hstat : statusOf (ty.isFunction d.type) false d = .declared)
    (hbad : badTentative ty l d = false)
    (hl0 : l ≠ .none)
    (hreqNone : lookup s.linked d.name = none → req = some none)
    (hreqOther : ∀ e, lookup s.linked d.name = some e → e.isFunction ≠ ty.isFunction d.type → req = some none)
    (hreq : ∀ e, lookup s.linked d.name = some e → e.isFunction = ty.isFunction d.type →
      req = if e.thread ≠ d.storage.thread then none else if !ty.compatible e.type d.type then none
        else some (some e.id))
    (hupd : ∀ e, lookup s.linked d.name = some e → e.isFunction = ty.isFunction d.type →
      ty.compatible e.type d.type = true →
      upd e.id = some ({ c with global := c.global.write e.id (entryOf (again ty false false e d)) }, e.id))
    (hins : ∀ e, lookup s.linked d.name = some e → e.isFunction = ty.isFunction d.type →
      ins e.id = c.insertTop (c.global.write e.id (entryOf (again ty false false e d))) d.name e.id)
    (hnew : lookup s.linked d.name = none →
      ∃ g₁ : Global N T, new = c.insertTop g₁ d.name s.next ∧
        g₁.heap = c.global.heap ++ [entryOf (fresh ty false false l s.next d)] ∧
        g₁.objects = (if ty.isFunction d.type then c.global.objects else (d.name, s.next) :: c.global.objects) ∧
        g₁.functions = (if ty.isFunction d.type then (d.name, s.next) :: c.global.functions else c.global.functions) ∧
        g₁.types = c.global.types ∧ g₁.constants = c.global.constants ∧ g₁.ordinary = c.global.ordinary) :
    SimL false c s (declareLinked ty false false l s d) mo := by
  subst hmo
  have h0 : s.scopes[0]? = some sc := by rw [hs]; rfl
  have hms : c.rest ++ [c.global.ordinary] ≠ [] := by simp
  cases hvm : ty.variablyModified d.type with
  | true => rw [declareLinked_vm _ _ _ _ _ hvm]; rfl
  | false =>
  rw [if_neg (by simp)]
  cases hu : s.hereUnlinked d.name with
  | true =>
    rw [declareLinked_unlinked _ _ _ _ _ hvm hu]
    obtain ⟨b, hb, hbl⟩ := hereUnlinked_true' hs hu
    rw [((h.topRel hs).some_of hb).1]
    have key : ∀ e, lookup s.linked d.name = some e → some b.id ≠ some e.id :=
      fun e he hx => h.bind_ne h0 hb hbl he (Option.some.inj hx)
    cases he : lookup s.linked d.name with
    | none => rw [hreqNone he]; exact if_pos (by simp)
    | some e =>
      by_cases hef : e.isFunction = ty.isFunction d.type
      · rw [hreq e he hef]
        split
        · rfl
        · rename_i hx
          split at hx
          · cases hx
          · split at hx
            · cases hx
            · cases hx; exact if_pos (key e he)
      · rw [hreqOther e he hef]; exact if_pos (by simp)
  | false =>
  have hh := hereUnlinked_false' hs hu
  cases he : lookup s.linked d.name with
  | none =>
    have hb : lookup sc d.name = none := by
      cases hb : lookup sc d.name with
      | none => rfl
      | some b =>
        obtain ⟨e, he', _⟩ := h.bound 0 sc _ b h0 hb (hh b hb)
        rw [he] at he'; cases he'
    have hn := ((h.topRel hs).none_iff d.name).mpr hb
    rw [declareLinked_none _ _ _ _ _ hvm hu he, hbad, hreqNone he, hn]
    simp only [Bool.false_eq_true, if_false]
    obtain ⟨g₁, h1, h2, h3, h4, h5, h6, h7⟩ := hnew he
    rw [h1, insertTop_new _ _ _ hn]
    refine ⟨_, _, rfl, rfl, ?_, ?_, ?_⟩
    · rw [bind_cons hs, hs]; rfl
    · rw [bind_cons hs]
      have := h.linkNew (g' := g₁) (m' := (d.name, s.next) :: c.top) (e := fresh ty false false l s.next d)
        (t := visibleType ty s d) hs he hb rfl ⟨hl0, fun hf => ⟨hfn hf, ?_⟩⟩ (topBound hms h7)
        h2 h3 h4 h5 h6 (fun hx => by cases hx)
      · show Inv false g₁ (((d.name, s.next) :: c.top) :: (c.rest ++ [g₁.ordinary])) _
        rw [h7]; exact this
      · show statusOf (ty.isFunction d.type) false d ≠ .tentative
        rw [hstat]; simp
    · refine reply_linked (e := fresh ty false false l s.next d) hl0 hfn ?_ (fun hx => by cases hx)
      show g₁.heap[s.next]? = _
      rw [h2, ← h.next]; exact append_get _ _
  | some e =>
    have hreal := h.real _ _ he
    rw [declareLinked_some _ _ _ _ _ hvm hu he]
    by_cases hel : e.linkage = l
    · rw [if_neg (by simpa using hel), hbad, here_cons hs]
      by_cases hef : e.isFunction = ty.isFunction d.type
      · rw [if_neg (by simpa using hef), hreq e he hef]
        simp only [Bool.false_eq_true, if_false]
        by_cases hth : e.thread = d.storage.thread
        · have hth' : ¬ (e.thread ≠ d.storage.thread) := fun hx => hx hth
          rw [if_neg hth', if_neg hth']
          cases hc : ty.compatible e.type d.type with
          | false => rfl
          | true =>
            simp only [Bool.not_true, Bool.false_eq_true, if_false]
            have c2 : ¬ (e.status = .defined ∧ statusOf (ty.isFunction d.type) false d = .defined) := by
              rw [hstat]; exact fun hx => by cases hx.2
            rw [if_neg c2]
            have hstat' : (again ty false false e d).isFunction = true →
                (again ty false false e d).status ≠ .tentative := by
              intro hf
              show e.status.join (statusOf (ty.isFunction d.type) false d) ≠ .tentative
              rw [hstat]
              have := (hreal.2 hf).2
              cases hx : e.status <;> simp_all [Status.join]
            have hrep : ReplyRel false
                (Model.reply (c.global.write e.id (entryOf (again ty false false e d))) e.id)
                (.refers ((again ty false false e d).ref (visibleType ty s d))) :=
              reply_linked (e := again ty false false e d) hreal.1 (fun hf => (hreal.2 hf).1)
                (write_get (h.linked_lt he) _) (fun hx => by cases hx)
            cases hb : lookup sc d.name with
            | none =>
              have hn := ((h.topRel hs).none_iff d.name).mpr hb
              rw [hn]
              dsimp only
              rw [hins e he hef, insertTop_new _ _ _ hn]
              refine ⟨_, _, rfl, rfl, ?_, ?_, hrep⟩
              · rw [bind_cons hs, hs]; rfl
              · rw [bind_cons hs]
                exact h.linkUpdate (g' := c.global.write e.id (entryOf (again ty false false e d)))
                  (m' := (d.name, e.id) :: c.top) (e' := again ty false false e d)
                  (t := visibleType ty s d) hs he hh rfl rfl rfl rfl hstat' (topBound hms rfl)
                  rfl rfl rfl rfl rfl (fun hx => by cases hx)
            | some b =>
              have hn := ((h.topRel hs).some_of hb).1
              obtain ⟨e', he', hun⟩ := h.bound 0 sc _ b h0 hb (hh b hb)
              rw [he] at he'; cases he'
              have hid : b.id = e.id := by rw [untyped_id _ _ hun, Linked.ref_id]
              rw [hid] at hn
              rw [hn]
              dsimp only
              rw [if_neg (by simp), hupd e he hef hc]
              refine ⟨_, _, rfl, rfl, ?_, ?_, hrep⟩
              · rw [bind_cons hs, hs]; rfl
              · rw [bind_cons hs]
                exact h.linkUpdate (g' := c.global.write e.id (entryOf (again ty false false e d)))
                  (m' := c.top) (e' := again ty false false e d)
                  (t := visibleType ty s d) hs he hh rfl rfl rfl rfl hstat' (sameBound hms hn rfl)
                  rfl rfl rfl rfl rfl (fun hx => by cases hx)
        · have hth' : e.thread ≠ d.storage.thread := hth
          rw [if_pos hth', if_pos hth']; rfl
      · rw [if_pos (by simpa using hef), hreqOther e he hef]
        cases hb : lookup sc d.name with
        | none => trivial
        | some b =>
          rw [((h.topRel hs).some_of hb).1]
          exact if_pos (by simp)
    · rw [if_pos (by simpa using hel)]; trivial

theorem sim_blockExternal (h : Inv false c.global (tables c) s) (hs : s.scopes = sc :: rest) (ty : Types T)
    (d : Declaration N T) (hf : ty.isFunction d.type = false) (hi : d.init = none) (hst : d.storage = .extern) :
    SimL false c s (declareLinked ty false false (asExtern (s.visible d.name)) s d)
      (c.declareExternal ty d.name d.type) := by
  have hstat : statusOf (ty.isFunction d.type) false d = .declared := by
    unfold statusOf; rw [hf, hi, hst]; rfl
  have hnone : ∀ e : Linked T, lookup s.linked d.name = some e → e.isFunction ≠ ty.isFunction d.type →
      at? c.global.objects d.name = none := by
    intro e he hef
    have : e.isFunction = true := by
      cases hx : e.isFunction with
      | true => rfl
      | false => exact absurd (hx.trans hf.symm) hef
    have h1 := (h.linkedSome he).1
    rw [this] at h1; exact h1
  have hent : ∀ e : Linked T, e.isFunction = false → entryOf (again ty false false e d) =
      .object (ty.composite e.type d.type) (storageFor e.linkage e.thread) e.linkage
      (e.linkage == .external && e.status == .declared) (e.status == .defined) := by
    intro e hef
    rw [entryOf_object (by exact hef)]
    simp only [again, hstat, hi, complete]
    cases e.status <;> rfl
  refine blockLinked h hs ty _ d (Local.requireObject ty c.global d.name false d.type)
    (fun id => match c.global.heap[id]? with
      | some (.object t₀ st l ext ini) =>
        if !ty.compatible t₀ d.type then none
        else some ({ c with global := c.global.write id (.object (ty.composite t₀ d.type) st l ext ini) }, id)
      | _ => none)
    (fun id => match c.global.heap[id]? with
      | some (.object t₀ st l ext ini) =>
        c.insertTop (c.global.write id (.object (ty.composite t₀ d.type) st l ext ini)) d.name id
      | _ => none)
    (match Model.insert c.global.objects d.name c.global.heap.length with
      | some objects => c.insertTop ({ c.global with
          heap := c.global.heap ++ [.object d.type .extern .external true false], objects } : Global N T)
          d.name c.global.heap.length
      | none => none)
    rfl (by rw [hf]; simp) hstat (by unfold badTentative; rw [hst]; simp [Storage.isStatic]) (asExtern_ne _)
    ?_ ?_ ?_ ?_ ?_ ?_
  · intro he
    unfold Local.requireObject
    rw [(h.linkedNone he).1]
  · intro e he hef
    unfold Local.requireObject
    rw [hnone e he hef]
  · intro e he hef
    rw [hf] at hef
    have hl := h.linkedSome he
    have h1 := hl.1
    have hreal := (h.real _ _ he).1
    rw [hef] at h1
    simp only [Bool.false_eq_true, if_false] at h1
    unfold Local.requireObject
    rw [h1]
    dsimp only
    rw [hl.2.2, entryOf_object hef]
    dsimp only
    simp only [Bool.false_and, Bool.not_false, Bool.true_and, Bool.false_eq_true, if_false, hst, Storage.thread]
    have hc : (!(decide (storageFor e.linkage e.thread = .extern) || decide (storageFor e.linkage e.thread = .static)))
        = true ↔ e.thread ≠ false := by
      cases hx : e.linkage <;> cases e.thread <;> simp_all [storageFor]
    by_cases hth : e.thread ≠ false
    · rw [if_pos (hc.mpr hth), if_pos hth]
    · rw [if_neg (mt hc.mp hth), if_neg hth]
  · intro e he hef hc
    rw [hf] at hef
    rw [(h.linkedSome he).2.2, hent e hef, entryOf_object hef]
    simp [hc]
  · intro e he hef
    rw [hf] at hef
    rw [(h.linkedSome he).2.2, hent e hef, entryOf_object hef]
  · intro he
    rw [insert_new (h.linkedNone he).1, ← h.next]
    refine ⟨_, rfl, ?_, ?_, ?_, rfl, rfl, rfl⟩
    · rw [entryOf_object (by exact hf), asExtern_new' h he]
      simp [fresh, hstat, hi, complete, hst, storageFor, Storage.thread]
    · rw [hf]; rfl
    · rw [hf]; rfl

theorem sim_blockFunction (h : Inv false c.global (tables c) s) (hs : s.scopes = sc :: rest) (ty : Types T)
    (d : Declaration N T) (hf : ty.isFunction d.type = true) (hi : d.init = none)
    (hst : d.storage.thread = false) :
    SimL false c s (declareLinked ty false false (asExtern (s.visible d.name)) s d)
      (c.declareFunction ty d.name d.type) := by
  have hstat : statusOf (ty.isFunction d.type) false d = .declared := by
    unfold statusOf; rw [hf]; rfl
  have hnone : ∀ e : Linked T, lookup s.linked d.name = some e → e.isFunction ≠ ty.isFunction d.type →
      at? c.global.functions d.name = none := by
    intro e he hef
    have : e.isFunction = false := by
      cases hx : e.isFunction with
      | false => rfl
      | true => exact absurd (hx.trans hf.symm) hef
    have h1 := (h.linkedSome he).2.1
    rw [this] at h1; exact h1
  have hent : ∀ e : Linked T, lookup s.linked d.name = some e → e.isFunction = true →
      entryOf (again ty false false e d) =
      .function (ty.composite e.type d.type) (if e.linkage = .internal then .static else .extern)
      (e.linkage == .external && e.status != .defined) (e.status == .defined) := by
    intro e he hef
    have hreal := ((h.real _ _ he).2 hef).2
    rw [entryOf_function (by exact hef)]
    simp only [again, hstat, hi, complete]
    cases hx : e.status <;> first | rfl | exact absurd hx hreal
  refine blockLinked h hs ty _ d (Local.requireFunction ty c.global d.name d.type)
    (fun id => match c.global.heap[id]? with
      | some (.function t₀ st ext de) =>
        if !ty.compatible t₀ d.type then none
        else some ({ c with global := c.global.write id (.function (ty.composite t₀ d.type) st ext de) }, id)
      | _ => none)
    (fun id => match c.global.heap[id]? with
      | some (.function t₀ st ext de) =>
        c.insertTop (c.global.write id (.function (ty.composite t₀ d.type) st ext de)) d.name id
      | _ => none)
    (match Model.insert c.global.functions d.name c.global.heap.length with
      | some functions => c.insertTop ({ c.global with
          heap := c.global.heap ++ [.function d.type .extern true false], functions } : Global N T)
          d.name c.global.heap.length
      | none => none)
    rfl (fun _ => hst) hstat (by unfold badTentative; rw [hf]; rfl) (asExtern_ne _)
    ?_ ?_ ?_ ?_ ?_ ?_
  · intro he
    unfold Local.requireFunction
    rw [(h.linkedNone he).2]
  · intro e he hef
    unfold Local.requireFunction
    rw [hnone e he hef]
  · intro e he hef
    rw [hf] at hef
    have hl := h.linkedSome he
    have h1 := hl.2.1
    have hreal := (h.real _ _ he).2 hef
    rw [hef] at h1
    simp only [if_true] at h1
    unfold Local.requireFunction
    rw [h1]
    dsimp only
    rw [hl.2.2, entryOf_function hef]
    dsimp only
    have hth : ¬ (e.thread ≠ d.storage.thread) := fun hx => hx (by rw [hst, hreal.1])
    rw [if_neg hth]
  · intro e he hef hc
    rw [hf] at hef
    rw [(h.linkedSome he).2.2, hent e he hef, entryOf_function hef]
    simp [hc]
  · intro e he hef
    rw [hf] at hef
    rw [(h.linkedSome he).2.2, hent e he hef, entryOf_function hef]
  · intro he
    rw [insert_new (h.linkedNone he).2, ← h.next]
    refine ⟨_, rfl, ?_, ?_, ?_, rfl, rfl, rfl⟩
    · rw [entryOf_function (by exact hf), asExtern_new' h he]
      simp [fresh, hstat, hi, complete]
    · rw [hf]; rfl
    · rw [hf]; rfl

/-- The conditions of `coveredDecl` that matter in blocks. -/
structure BlockCovered (strict : Bool) (ty : Types T) (s : State N T) (d : Declaration N T) : Prop where
  type : d.storage = .typedef → (ty.isFunction d.type = true ∨ d.init = none) ∧
    ∀ i old, s.here d.name = some (.typedefName i old) →
      ty.compatible old d.type = (ty.same old d.type && !ty.variablyModified d.type)
  linkage : strict = true → linkageOf ty false (s.visible d.name) d = .none
  thread : ty.isFunction d.type = false → d.storage ≠ .externThread
  register : ty.isFunction d.type = false → d.storage = .register → d.aligned = false
  init : d.storage ≠ .typedef → ty.isFunction d.type = false → d.storage.isExtern = false → d.init.isSome = true →
    ty.variablyModified d.type = ty.variableLength d.type
  static : d.storage ≠ .typedef → ty.isFunction d.type = false → d.storage.isStatic = true → d.init = none →
    (ty.variablyModified d.type && !ty.isPointer d.type) = ty.variableLength d.type

theorem blockCovered [DecidableEq T] {strict : Bool} {ty : Types T} {d : Declaration N T}
    (hs : s.fileScope = false) (h : coveredDecl strict ty s d = true) : BlockCovered strict ty s d := by
  unfold coveredDecl at h
  rw [hs] at h
  simp only [Bool.or_false, Bool.and_eq_true] at h
  obtain ⟨h1, h2⟩ := h
  have none_of : d.storage ≠ .typedef → ty.isFunction d.type = false → d.storage.isExtern = false →
      linkageOf ty false (s.visible d.name) d = .none := by
    intro a b e
    rw [linkageOf_eq, if_neg a, b, if_neg (by simp), e]; rfl
  have ext_of : ty.isFunction d.type = false → d.storage.isExtern = true →
      linkageOf ty false (s.visible d.name) d ≠ .none := by
    intro b e
    have a : d.storage ≠ .typedef := by intro a; rw [a] at e; cases e
    rw [linkageOf_eq, if_neg a, b, if_neg (by simp), e, if_pos rfl]; exact asExtern_ne _
  refine ⟨?_, ?_, ?_, ?_, ?_, ?_⟩
  · intro hst
    rw [if_pos hst, Bool.and_eq_true] at h2
    refine ⟨by have := h2.1; simp at this; exact this, ?_⟩
    intro i old ho
    have := h2.2
    rw [ho] at this
    simpa using this
  · intro hstr
    rw [hstr] at h1
    simpa using h1
  · intro hf hst
    have ha : d.storage ≠ .typedef := by rw [hst]; simp
    have he : d.storage.isExtern = true := by rw [hst]; rfl
    rw [if_neg ha, hf, if_neg (by simp), if_neg (ext_of hf he), hst] at h2
    simp at h2
  · intro hf hst
    have ha : d.storage ≠ .typedef := by rw [hst]; simp
    have he : d.storage.isExtern = false := by rw [hst]; rfl
    rw [if_neg ha, hf, if_neg (by simp), if_pos (none_of ha hf he), hst, Bool.and_eq_true] at h2
    simpa using h2.1
  · intro ha hf he hi
    rw [if_neg ha, hf, if_neg (by simp), if_pos (none_of ha hf he), Bool.and_eq_true, if_pos hi] at h2
    simpa using h2.2
  · intro ha hf hst hi
    have he : d.storage.isExtern = false := by cases hx : d.storage <;> simp_all [Storage.isStatic, Storage.isExtern]
    rw [if_neg ha, hf, if_neg (by simp), if_pos (none_of ha hf he), Bool.and_eq_true, hi, hst] at h2
    simpa using h2.2

theorem sim_blockDeclare {strict : Bool} (h : Inv strict c.global (tables c) s) (hs : s.scopes = sc :: rest)
    (ty : Types T) (d : Declaration N T) (hcov : BlockCovered strict ty s d) :
    SimL strict c s (declare ty false s d) (c.defineIdentifier ty d.init.isNone d) := by
  have hfile : s.fileScope = false := by
    unfold State.fileScope
    rw [← h.len]; simp [tables]
  have bad : specifiersOk ty false d = false → c.defineIdentifier ty d.init.isNone d = none →
      SimL strict c s (declare ty false s d) (c.defineIdentifier ty d.init.isNone d) := by
    intro h1 h2
    rw [declare_bad ty false d (by rw [hfile]; exact h1), h2]; rfl
  have lnk : ∀ l, specifiersOk ty false d = true → linkageOf ty false (s.visible d.name) d = l → l ≠ .none →
      declare ty false s d = declareLinked ty false false l s d := by
    intro l h1 h2 h3
    have := declare_linked (s := s) ty false d (l := l) (by rw [hfile]; exact h1) (by rw [hfile]; exact h2) h3
    rw [hfile] at this; exact this
  have unl : specifiersOk ty false d = true → linkageOf ty false (s.visible d.name) d = .none →
      declare ty false s d = declareUnlinked ty false s d := by
    intro h1 h2
    have := declare_unlinked (s := s) ty false d (by rw [hfile]; exact h1) (by rw [hfile]; exact h2)
    rw [hfile] at this; exact this
  have hstr : linkageOf ty false (s.visible d.name) d ≠ .none → strict = false := by
    intro hx
    cases hst : strict with
    | false => rfl
    | true => exact absurd (hcov.linkage hst) hx
  cases hf : ty.isFunction d.type with
  | true =>
    cases ha : d.aligned with
    | true =>
      refine bad ?_ ?_
      · unfold specifiersOk; rw [hf, ha]; rfl
      · unfold Local.defineIdentifier; rw [hf, ha]; rfl
    | false =>
    cases hi : d.init with
    | some f =>
      rw [← hi]
      refine bad ?_ ?_
      · unfold specifiersOk; rw [hf, ha, hi]; rfl
      · unfold Local.defineIdentifier; rw [hf, ha, hi]; rfl
    | none =>
    rw [← hi]
    cases hst : d.storage with
    | typedef =>
      cases hin : (d.inline || d.noreturn) with
      | true =>
        refine bad ?_ ?_
        · unfold specifiersOk; rw [hf, ha, hi, hst, hin]; rfl
        · unfold Local.defineIdentifier; rw [hf, ha, hi, hst, hin]; rfl
      | false =>
        have h1 : specifiersOk ty false d = true := by unfold specifiersOk; rw [hf, ha, hi, hst, hin]; rfl
        have h2 : linkageOf ty false (s.visible d.name) d = .none := by rw [linkageOf_eq, if_pos hst]
        rw [unl h1 h2]
        have h3 : c.defineIdentifier ty d.init.isNone d = c.defineType ty d.name d.type := by
          unfold Local.defineIdentifier; rw [hf, ha, hi, hst, hin]; rfl
        rw [h3]
        refine sim_blockType h hs ty d hst (fun i old ho => (hcov.type hst).2 i old ?_)
        rw [here_cons hs]; exact ho
    | none | extern =>
      have h1 : specifiersOk ty false d = true := by unfold specifiersOk; rw [hf, ha, hi, hst]; rfl
      have h2 : linkageOf ty false (s.visible d.name) d = asExtern (s.visible d.name) := by
        rw [linkageOf_eq, hst, hf]; rfl
      have hsf := hstr (by rw [h2]; exact asExtern_ne _)
      subst hsf
      rw [lnk _ h1 h2 (asExtern_ne _)]
      have h3 : c.defineIdentifier ty d.init.isNone d = c.declareFunction ty d.name d.type := by
        unfold Local.defineIdentifier; rw [hf, ha, hi, hst]; rfl
      rw [h3]
      exact sim_blockFunction h hs ty d hf hi (by rw [hst]; rfl)
    | static | threadLocal | externThread | staticThread | auto | register =>
      refine bad ?_ ?_
      · unfold specifiersOk; rw [hf, ha, hi, hst]; rfl
      · unfold Local.defineIdentifier; rw [hf, ha, hi, hst]; rfl
  | false =>
    have hdi : (!(d.init.isNone || d.init.isSome)) = false := by cases d.init <;> rfl
    cases hin : (d.inline || d.noreturn) with
    | true =>
      refine bad ?_ ?_
      · unfold specifiersOk; rw [hf, hin]; rfl
      · unfold Local.defineIdentifier; rw [hf, hin]; rfl
    | false =>
    cases hst : d.storage with
    | typedef =>
      have hi : d.init = none := by
        rcases (hcov.type hst).1 with hx | hx
        · rw [hf] at hx; cases hx
        · exact hx
      cases ha : d.aligned with
      | true =>
        refine bad ?_ ?_
        · unfold specifiersOk; rw [hf, hin, hst, ha]; rfl
        · unfold Local.defineIdentifier; rw [hf, hin, hst, ha, hdi]; rfl
      | false =>
        have h1 : specifiersOk ty false d = true := by unfold specifiersOk; rw [hf, hin, hi, hst, ha]; rfl
        have h2 : linkageOf ty false (s.visible d.name) d = .none := by rw [linkageOf_eq, if_pos hst]
        rw [unl h1 h2]
        have h3 : c.defineIdentifier ty d.init.isNone d = c.defineType ty d.name d.type := by
          unfold Local.defineIdentifier; rw [hf, hin, hst, ha, hdi]; rfl
        rw [h3]
        refine sim_blockType h hs ty d hst (fun i old ho => (hcov.type hst).2 i old ?_)
        rw [here_cons hs]; exact ho
    | threadLocal =>
      refine bad ?_ ?_
      · unfold specifiersOk; rw [hf, hin, hst]; rfl
      · unfold Local.defineIdentifier; rw [hf, hin, hst, hdi]; rfl
    | externThread => exact absurd hst (hcov.thread hf)
    | extern =>
      cases hi : d.init with
      | some f =>
        rw [← hi]
        refine bad ?_ ?_
        · unfold specifiersOk; rw [hf, hin, hst, hi]; rfl
        · unfold Local.defineIdentifier; rw [hf, hin, hst, hi]; rfl
      | none =>
        rw [← hi]
        have h1 : specifiersOk ty false d = true := by unfold specifiersOk; rw [hf, hin, hst, hi]; rfl
        have h2 : linkageOf ty false (s.visible d.name) d = asExtern (s.visible d.name) := by
          rw [linkageOf_eq, hst, hf]; rfl
        have hsf := hstr (by rw [h2]; exact asExtern_ne _)
        subst hsf
        rw [lnk _ h1 h2 (asExtern_ne _)]
        have h3 : c.defineIdentifier ty d.init.isNone d = c.declareExternal ty d.name d.type := by
          unfold Local.defineIdentifier; rw [hf, hin, hst, hi]; rfl
        rw [h3]
        exact sim_blockExternal h hs ty d hf hi hst
    | static | staticThread =>
      have hnt : d.storage ≠ .typedef := by rw [hst]; simp
      have h1 : specifiersOk ty false d = true := by unfold specifiersOk; rw [hf, hin, hst]; rfl
      have h2 : linkageOf ty false (s.visible d.name) d = .none := by rw [linkageOf_eq, hst, hf]; rfl
      rw [unl h1 h2]
      have h3 : c.defineIdentifier ty d.init.isNone d = c.defineStatic ty d.storage d.name d.type d.init := by
        unfold Local.defineIdentifier; rw [hf, hin, hst, hdi]; rfl
      rw [h3]
      exact sim_blockStatic h hs ty d (by simp [hst]) (hcov.init hnt hf (by rw [hst]; rfl))
        (hcov.static hnt hf (by rw [hst]; rfl))
    | none | auto =>
      have hnt : d.storage ≠ .typedef := by rw [hst]; simp
      have h1 : specifiersOk ty false d = true := by unfold specifiersOk; rw [hf, hin, hst]; rfl
      have h2 : linkageOf ty false (s.visible d.name) d = .none := by rw [linkageOf_eq, hst, hf]; rfl
      rw [unl h1 h2]
      have h3 : c.defineIdentifier ty d.init.isNone d = c.defineAuto ty .auto d.name d.type d.init := by
        unfold Local.defineIdentifier; rw [hf, hin, hst, hdi]; rfl
      rw [h3]
      exact sim_blockObject h hs ty d .auto (by simp [hst]) (hcov.init hnt hf (by rw [hst]; rfl))
    | register =>
      have hnt : d.storage ≠ .typedef := by rw [hst]; simp
      have h1 : specifiersOk ty false d = true := by
        unfold specifiersOk; rw [hf, hin, hst, hcov.register hf hst]; rfl
      have h2 : linkageOf ty false (s.visible d.name) d = .none := by rw [linkageOf_eq, hst, hf]; rfl
      rw [unl h1 h2]
      have h3 : c.defineIdentifier ty d.init.isNone d = c.defineAuto ty .register d.name d.type d.init := by
        unfold Local.defineIdentifier; rw [hf, hin, hst, hdi]; rfl
      rw [h3]
      exact sim_blockObject h hs ty d .register (by simp [hst]) (hcov.init hnt hf (by rw [hst]; rfl))

/-! ### parameters -/

theorem paramDecl_outcome (hs : s.scopes = sc :: rest) (hr : rest ≠ []) (ty : Types T) (p : N × T × Bool)
    (hf : ty.isFunction p.2.1 = false) {s' : State N T} {r : Reply T}
    (h : declare ty false s (paramDecl p) = .next s' r) :
    ∃ b : Ref T, s'.scopes = put sc p.1 b :: rest ∧ b.linkage = .none ∧ (∀ i t, b ≠ .typedefName i t) ∧
      ty.incomplete p.2.1 = false := by
  obtain ⟨n, t, reg⟩ := p
  have hfile : s.fileScope = false := by
    unfold State.fileScope; rw [hs]
    cases rest with
    | nil => exact absurd rfl hr
    | cons a b => simp
  have hf' : ty.isFunction t = false := hf
  have hl : linkageOf ty s.fileScope (s.visible n) (paramDecl (n, t, reg)) = .none := by
    rw [hfile, linkageOf_eq]
    cases reg <;> simp [paramDecl, hf', Storage.isExtern]
  have hok : specifiersOk ty s.fileScope (paramDecl (n, t, reg)) = true := by
    rw [hfile]; unfold specifiersOk
    cases reg <;> simp [paramDecl, hf']
  rw [declare_unlinked ty false _ hok hl] at h
  unfold declareUnlinked at h
  rw [if_neg (by cases reg <;> simp [paramDecl])] at h
  simp only [paramDecl, Option.isSome_none, Bool.or_false, show complete none t = t from rfl] at h
  rw [if_neg (by cases reg <;> simp [Storage.isStatic])] at h
  cases hinc : ty.incomplete t with
  | true => rw [if_pos hinc] at h; cases h
  | false =>
    rw [if_neg (by rw [hinc]; simp)] at h
    split at h
    · cases h
    · cases h
      exact ⟨_, by rw [bind_cons hs], rfl, fun _ _ hx => (by cases hx), rfl⟩

theorem sim_params {strict : Bool} (ty : Types T) : ∀ (ps : List (N × T × Bool)) (c : Local N T) (s : State N T)
    (sc : List (N × Ref T)) (rest : List (List (N × Ref T))),
    Inv strict c.global (tables c) s → s.scopes = sc :: rest →
    (∀ n b, lookup sc n = some b → b.linkage = .none ∧ ∀ i t, b ≠ .typedefName i t) →
    (declareParams ty s ps = none → Model.defineParams ty c ps = none) ∧
    (∀ s', declareParams ty s ps = some s' → ∃ c' sc', Model.defineParams ty c ps = some c' ∧ c'.rest = c.rest ∧
      s'.scopes = sc' :: rest ∧ Inv strict c'.global (tables c') s' ∧
      (∀ n b, lookup sc' n = some b → b.linkage = .none ∧ ∀ i t, b ≠ .typedefName i t))
  | [], c, s, sc, rest, h, hs, hsc => by
    refine ⟨fun hx => by simp [declareParams] at hx, ?_⟩
    intro s' hx
    simp only [declareParams, Option.some.injEq] at hx
    subst hx
    exact ⟨c, sc, rfl, rfl, hs, h, hsc⟩
  | (n, t, reg) :: ps, c, s, sc, rest, h, hs, hsc => by
    have hr : rest ≠ [] := by
      intro hx
      have := h.len
      rw [hs, hx] at this
      simp [tables] at this
    have hdef : ty.isFunction t = false →
        c.defineIdentifier ty true
          ⟨n, t, if reg then .register else .auto, false, false, false, none⟩ =
        c.defineIdentifier ty (paramDecl (n, t, reg)).init.isNone (paramDecl (n, t, reg)) := by
      intro hf
      unfold Local.defineIdentifier
      cases reg <;> simp [paramDecl, hf]
    simp only [declareParams, Model.defineParams]
    cases hf : ty.isFunction t with
    | true =>
      have hm : c.defineIdentifier ty true
          ⟨n, t, if reg then .register else .auto, false, false, false, none⟩ = none := by
        unfold Local.defineIdentifier
        cases reg <;> simp [hf]
      refine ⟨fun _ => ?_, fun s' hx => by simp at hx⟩
      rw [hm]
      split <;> rfl
    | false =>
      rw [if_neg (by simp), hdef hf]
      have hcov : BlockCovered strict ty s (paramDecl (n, t, reg)) := by
        refine ⟨?_, ?_, ?_, ?_, ?_, ?_⟩
        · intro hx; cases reg <;> simp [paramDecl] at hx
        · intro _; rw [linkageOf_eq]
          cases reg <;> simp [paramDecl, hf, Storage.isExtern]
        · intro _ hx; cases reg <;> simp [paramDecl] at hx
        · intro _ _; rfl
        · intro _ _ _ hx; simp [paramDecl] at hx
        · intro _ _ hx; cases reg <;> simp [paramDecl, Storage.isStatic] at hx
      have hsim := sim_blockDeclare h hs ty (paramDecl (n, t, reg)) hcov
      cases ho : declare ty false s (paramDecl (n, t, reg)) with
      | undefined =>
        exfalso
        have hfile : s.fileScope = false := by
          unfold State.fileScope
          rw [← h.len]; simp [tables]
        have hl : linkageOf ty s.fileScope (s.visible n) (paramDecl (n, t, reg)) = .none := by
          rw [hfile, linkageOf_eq]
          cases reg <;> simp [paramDecl, hf, Storage.isExtern]
        unfold declare at ho
        split at ho
        · cases ho
        · rw [show (paramDecl (n, t, reg)).name = n from rfl, hl] at ho
          dsimp only at ho
          unfold declareUnlinked at ho
          rw [if_neg (by cases reg <;> simp [paramDecl])] at ho
          dsimp only at ho
          split at ho
          · cases ho
          · split at ho
            · cases ho
            · split at ho <;> cases ho
      | reject =>
        rw [ho] at hsim
        have hsim' : c.defineIdentifier ty (paramDecl (n, t, reg)).init.isNone (paramDecl (n, t, reg)) = none := hsim
        rw [hsim']
        refine ⟨fun _ => ?_, fun s' hx => by simp at hx⟩
        split <;> rfl
      | next s1 r =>
        rw [ho] at hsim
        obtain ⟨c1, id, hc1, hrest, htail, hinv, _⟩ := hsim
        obtain ⟨b, hsc1, hbl, hbt, hinc⟩ := paramDecl_outcome hs hr ty (n, t, reg) hf ho
        have hinc' : ty.incomplete t = false := hinc
        rw [hc1, hinc']
        simp only [Bool.false_eq_true, if_false]
        have hsc' : ∀ k b', lookup (put sc n b) k = some b' → b'.linkage = .none ∧ ∀ i t, b' ≠ .typedefName i t := by
          intro k b' hk
          rw [lookup_put] at hk
          by_cases hkn : k = n
          · rw [if_pos hkn] at hk; cases hk; exact ⟨hbl, hbt⟩
          · rw [if_neg hkn] at hk; exact hsc k b' hk
        have ih := sim_params ty ps c1 s1 (put sc n b) rest hinv hsc1 hsc'
        refine ⟨ih.1, fun s' hx => ?_⟩
        obtain ⟨c', sc', a1, a2, a3, a4, a5⟩ := ih.2 s' hx
        exact ⟨c', sc', a1, by rw [a2, hrest], a3, a4, a5⟩

end

end Kefir.Decl
