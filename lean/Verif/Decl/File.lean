import Verif.Decl.Inv

/-!
# Declarations at file scope
-/

namespace Kefir.Decl

open Model (Entry Class Global at?)

variable {N T : Type} [DecidableEq N]

/-- Replies agree up to types, and in types too when `strict`. -/
def ReplyRel (strict : Bool) (r' r : Reply T) : Prop := r'.untyped = r.untyped ∧ (strict = true → r' = r)

def SimG (strict : Bool) (g : Global N T) (o : Outcome (State N T) (Reply T)) (mo : Option (Global N T × Nat)) : Prop :=
  match o with
  | .undefined => True
  | .reject => mo = none
  | .next s' r => ∃ g' id sc, mo = some (g', id) ∧ Frame g g' ∧ s'.scopes = [sc] ∧ Inv strict g' [g'.ordinary] s' ∧
      ReplyRel strict (Model.reply g' id) r

section
variable {strict : Bool} {g : Global N T} {s : State N T} {sc : List (N × Ref T)}

theorem here_eq (hs : s.scopes = [sc]) (n : N) : s.here n = lookup sc n := by
  unfold State.here; rw [hs]

theorem visible_eq (hs : s.scopes = [sc]) (n : N) : s.visible n = lookup sc n := by
  unfold State.visible; rw [hs]
  simp only [List.findSome?]
  cases lookup sc n <;> rfl

theorem fileScope_eq (hs : s.scopes = [sc]) : s.fileScope = true := by
  unfold State.fileScope; rw [hs]; rfl

theorem hereUnlinked_false (hs : s.scopes = [sc]) {n : N} (hu : s.hereUnlinked n = false) :
    ∀ b, lookup sc n = some b → b.linkage ≠ .none := by
  intro b hb hl
  unfold State.hereUnlinked at hu
  rw [here_eq hs, hb] at hu
  simp [hl] at hu

theorem hereUnlinked_true (hs : s.scopes = [sc]) {n : N} (hu : s.hereUnlinked n = true) :
    ∃ b, lookup sc n = some b ∧ b.linkage = .none := by
  unfold State.hereUnlinked at hu
  rw [here_eq hs] at hu
  cases hb : lookup sc n with
  | none => rw [hb] at hu; cases hu
  | some b => rw [hb] at hu; exact ⟨b, rfl, by simpa using hu⟩

theorem Inv.ord (h : Inv strict g [g.ordinary] s) (hs : s.scopes = [sc]) : ScopeRel g.heap g.ordinary sc :=
  h.scopes 0 _ _ rfl (by rw [hs]; rfl)

theorem Inv.boundHere (h : Inv strict g [g.ordinary] s) (hs : s.scopes = [sc]) {n : N} {b : Ref T}
    (hb : lookup sc n = some b) (hl : b.linkage ≠ .none) :
    ∃ e, lookup s.linked n = some e ∧ b.untyped = (e.ref e.type).untyped :=
  h.bound 0 sc n b (by rw [hs]; rfl) hb hl

/-! ### `require_ordinary_identifier_type` -/

theorem requireClass_none (h : Inv strict g [g.ordinary] s) (hs : s.scopes = [sc]) {n : N}
    (hb : lookup sc n = none) (k : Class) : g.requireClass n k = true := by
  unfold Global.requireClass
  rw [((h.ord hs).none_iff n).mpr hb]

theorem requireClass_unlinked (h : Inv strict g [g.ordinary] s) (hs : s.scopes = [sc]) {n : N} {b : Ref T}
    (hb : lookup sc n = some b) (hl : b.linkage = .none) :
    g.requireClass n .object = false ∧ g.requireClass n .function = false ∧
    (g.requireClass n .typedefName = true ↔ ∃ i t, b = .typedefName i t) := by
  obtain ⟨h1, hr⟩ := (h.ord hs).some_of hb
  obtain ⟨x, hx, hxr⟩ := hr.2 hl
  unfold Global.requireClass
  rw [h1]; dsimp only; rw [hx]; dsimp only
  clear h1 hr hx
  generalize b.id = j at hxr
  cases x with
  | object t st l ext ini =>
    exfalso
    subst hxr
    simp only [Entry.ref, Ref.linkage] at hl
    subst hl
    exact h.noObj sc (by rw [hs]; rfl) n _ _ _ hb
  | function t st ext de =>
    exfalso
    subst hxr
    simp only [Entry.ref, Ref.linkage] at hl
    split at hl <;> cases hl
  | typedefName t => subst hxr; exact ⟨rfl, rfl, by simp [Entry.klass, Entry.ref]⟩
  | constant v => subst hxr; exact ⟨rfl, rfl, by simp [Entry.klass, Entry.ref]⟩

theorem requireClass_linked (h : Inv strict g [g.ordinary] s) (hs : s.scopes = [sc]) {n : N} {b : Ref T}
    (hb : lookup sc n = some b) (hl : b.linkage ≠ .none) {e : Linked T} (he : lookup s.linked n = some e) :
    g.requireClass n .object = !e.isFunction ∧ g.requireClass n .function = e.isFunction ∧
    g.requireClass n .typedefName = false := by
  obtain ⟨h1, _⟩ := (h.ord hs).some_of hb
  obtain ⟨e', he', hu⟩ := h.boundHere hs hb hl
  rw [he] at he'; cases he'
  have hid : b.id = e.id := by rw [untyped_id _ _ hu, Linked.ref_id]
  unfold Global.requireClass
  rw [h1]; dsimp only
  rw [hid, (h.linkedSome he).2.2]; dsimp only
  unfold entryOf
  cases e.isFunction <;> simp [Entry.klass]

/-! ### `insert_ordinary_identifier` -/

theorem insertOrdinary_bound {g₁ : Global N T} (ho : g₁.ordinary = g.ordinary) {n : N} {id : Nat}
    (hid : ∀ i, at? g.ordinary n = some i → i = id) :
    Bound g (g₁.insertOrdinary n id) g.ordinary (g₁.insertOrdinary n id).ordinary [] n id := by
  refine ⟨fun k => ?_, .inl ⟨rfl, rfl, rfl⟩⟩
  unfold Global.insertOrdinary
  rw [ho]
  cases hn : at? g.ordinary n with
  | none => dsimp only; rw [at?_cons]
  | some i =>
    dsimp only; rw [ho]
    by_cases hk : k = n
    · rw [if_pos hk, hk, hn, hid i hn]
    · rw [if_neg hk]

theorem insertOrdinary_fields (g₁ : Global N T) (n : N) (id : Nat) :
    (g₁.insertOrdinary n id).heap = g₁.heap ∧ (g₁.insertOrdinary n id).objects = g₁.objects ∧
    (g₁.insertOrdinary n id).functions = g₁.functions ∧ (g₁.insertOrdinary n id).types = g₁.types ∧
    (g₁.insertOrdinary n id).constants = g₁.constants := by
  unfold Global.insertOrdinary; split <;> exact ⟨rfl, rfl, rfl, rfl, rfl⟩

/-! ### entities with linkage -/

theorem reply_linked {g' : Global N T} {e : Linked T} (hl : e.linkage ≠ .none)
    (hf : e.isFunction = true → e.thread = false) (hc : g'.heap[e.id]? = some (entryOf e)) {t : T}
    (hst : strict = true → t = e.type) : ReplyRel strict (Model.reply g' e.id) (.refers (e.ref t)) := by
  unfold Model.reply
  rw [hc]; dsimp only; rw [entryOf_ref e hl hf]
  exact ⟨by simp only [Reply.untyped]; rw [Linked.ref_untyped], fun hs => by rw [hst hs]⟩

theorem visibleType_new (hs : s.scopes = [sc]) (ty : Types T) (d : Declaration N T) (hb : lookup sc d.name = none) :
    visibleType ty s d = complete d.init d.type := by
  unfold visibleType; rw [visible_eq hs, hb]

theorem visibleType_old (h : Inv true g [g.ordinary] s) (hs : s.scopes = [sc]) (ty : Types T) (d : Declaration N T)
    {e : Linked T} (he : lookup s.linked d.name = some e) :
    visibleType ty s d = complete d.init (ty.composite e.type d.type) := by
  unfold visibleType
  rw [visible_eq hs, h.strict1 rfl d.name e he sc (by rw [hs]; rfl)]
  dsimp only
  rw [Linked.ref_linkage, if_neg (h.real _ _ he).1, Linked.ref_type?]

/-- The first file-scope declaration of an entity. -/
theorem fileNew (h : Inv strict g [g.ordinary] s) (hs : s.scopes = [sc]) {n : N} {e : Linked T} {t : T}
    {g₁ : Global N T}
    (hn : lookup s.linked n = none) (hhere : lookup sc n = none) (hid : e.id = s.next)
    (hreal : e.linkage ≠ .none ∧ (e.isFunction = true → e.thread = false ∧ e.status ≠ .tentative))
    (hheap : g₁.heap = g.heap ++ [entryOf e])
    (hobj : g₁.objects = if e.isFunction then g.objects else (n, e.id) :: g.objects)
    (hfun : g₁.functions = if e.isFunction then (n, e.id) :: g.functions else g.functions)
    (hty : g₁.types = g.types) (hco : g₁.constants = g.constants) (hor : g₁.ordinary = g.ordinary)
    (hst : strict = true → t = e.type) :
    SimG strict g
      (.next { (s.bind n (e.ref t)) with next := s.next + 1, linked := put s.linked n e } (.refers (e.ref t)))
      (some (g₁.insertOrdinary n e.id, e.id)) := by
  obtain ⟨f1, f2, f3, f4, f5⟩ := insertOrdinary_fields g₁ n e.id
  have hb := insertOrdinary_bound (g := g) (g₁ := g₁) hor (n := n) (id := e.id)
    (fun i hi => by rw [((h.ord hs).none_iff n).mpr hhere] at hi; cases hi)
  have hi := h.linkNew hs hn hhere hid hreal hb (by rw [f1, hheap]) (by rw [f2, hobj]) (by rw [f3, hfun])
    (by rw [f4, hty]) (by rw [f5, hco]) (fun hstr => ⟨rfl, hst hstr⟩) (t := t)
  refine ⟨_, _, put sc n (e.ref t), rfl, ?_, ?_, ?_, ?_⟩
  · intro id x hx _ _
    rw [f1, hheap, List.getElem?_append_left (List.getElem?_eq_some_iff.mp hx).1]; exact hx
  · unfold State.bind; rw [hs]
  · unfold State.bind; rw [hs]; exact hi
  · refine reply_linked hreal.1 (fun hf => (hreal.2 hf).1) ?_ hst
    rw [f1, hheap, hid, ← h.next]; simp

/-- A further file-scope declaration. -/
theorem fileUpdate (h : Inv strict g [g.ordinary] s) (hs : s.scopes = [sc]) {n : N} {e e' : Linked T} {t : T}
    (hn : lookup s.linked n = some e) (hhere : s.hereUnlinked n = false)
    (hid : e'.id = e.id) (hfn : e'.isFunction = e.isFunction) (hli : e'.linkage = e.linkage)
    (hth : e'.thread = e.thread) (hstat : e'.isFunction = true → e'.status ≠ .tentative)
    (hst : strict = true → t = e'.type) :
    SimG strict g
      (.next { (s.bind n (e'.ref t)) with linked := put s.linked n e' } (.refers (e'.ref t)))
      (some ((g.write e.id (entryOf e')).insertOrdinary n e.id, e.id)) := by
  obtain ⟨f1, f2, f3, f4, f5⟩ := insertOrdinary_fields (g.write e.id (entryOf e')) n e.id
  have hh := hereUnlinked_false hs hhere
  have hb := insertOrdinary_bound (g := g) (g₁ := g.write e.id (entryOf e')) rfl (n := n) (id := e.id) (by
    intro i hi
    cases hl : lookup sc n with
    | none => rw [((h.ord hs).none_iff n).mpr hl] at hi; cases hi
    | some b =>
      rw [((h.ord hs).some_of hl).1] at hi; cases hi
      obtain ⟨e0, he0, hu⟩ := h.boundHere hs hl (hh b hl)
      rw [hn] at he0; cases he0
      rw [untyped_id _ _ hu, Linked.ref_id])
  have hi := h.linkUpdate hs hn hh hid hfn hli hth hstat hb f1 f2 f3 f4 f5 (fun hstr => ⟨rfl, hst hstr⟩) (t := t)
  have hreal := h.real n e hn
  have hcell := (h.linkedSome hn).2.2
  refine ⟨_, _, put sc n (e'.ref t), rfl, ?_, ?_, ?_, ?_⟩
  · intro id x hx hl _
    rw [f1]
    show (g.heap.set e.id (entryOf e'))[id]? = some x
    rw [List.getElem?_set_ne]; exact hx
    intro heq
    rw [← heq, hcell] at hx; cases hx
    exact entryOf_linked e hreal.1 _ hl
  · unfold State.bind; rw [hs]
  · unfold State.bind; rw [hs]; exact hi
  · rw [← hid]
    refine reply_linked (by rw [hli]; exact hreal.1)
      (fun hf => by rw [hth]; exact (hreal.2 (by rw [← hfn]; exact hf)).1) ?_ hst
    rw [hid] 
    rw [f1]
    show (g.heap.set e.id (entryOf e'))[e.id]? = _
    simp [h.linked_lt hn]

/-! ### the six functions that declare entities with linkage -/

theorem here_of_linkedNone (h : Inv strict g [g.ordinary] s) (hs : s.scopes = [sc]) {n : N}
    (hn : lookup s.linked n = none) (hu : s.hereUnlinked n = false) : lookup sc n = none := by
  cases hb : lookup sc n with
  | none => rfl
  | some b =>
    obtain ⟨e, he, _⟩ := h.boundHere hs hb (hereUnlinked_false hs hu b hb)
    rw [hn] at he; cases he

/-- The class test, when the identifier has no unlinked declaration here. -/
theorem requireClass_of (h : Inv strict g [g.ordinary] s) (hs : s.scopes = [sc]) {n : N}
    (hu : s.hereUnlinked n = false) {e : Linked T} (he : lookup s.linked n = some e) :
    ((s.here n).isSome = true → g.requireClass n .object = !e.isFunction ∧ g.requireClass n .function = e.isFunction) ∧
    ((s.here n).isSome = false → g.requireClass n .object = true ∧ g.requireClass n .function = true) := by
  rw [here_eq hs]
  cases hb : lookup sc n with
  | none => exact ⟨fun hx => by simp at hx, fun _ => ⟨requireClass_none h hs hb _, requireClass_none h hs hb _⟩⟩
  | some b =>
    have := requireClass_linked h hs hb (hereUnlinked_false hs hu b hb) he
    exact ⟨fun _ => ⟨this.1, this.2.1⟩, fun hx => by simp at hx⟩

theorem storageFor_inj (l l' : Linkage) (a b : Bool) (hl : l ≠ .none) (hl' : l' ≠ .none) :
    storageFor l a = storageFor l' b ↔ l = l' ∧ a = b := by
  cases l <;> cases l' <;> cases a <;> cases b <;> simp_all [storageFor]

theorem insert_new {l : List (N × Nat)} {n : N} (h : at? l n = none) (id : Nat) :
    Model.insert l n id = some ((n, id) :: l) := by
  unfold Model.insert; rw [h]

/-- What a repeated declaration makes of an entity. -/
def again (ty : Types T) (file defines : Bool) (e : Linked T) (d : Declaration N T) : Linked T :=
  { e with status := e.status.join (statusOf (ty.isFunction d.type) defines d),
           inlineOnly := e.inlineOnly && (!file || (d.inline && d.storage ≠ .extern)),
           type := complete d.init (ty.composite e.type d.type) }

/-- The entity that a first declaration introduces. -/
def fresh (ty : Types T) (file defines : Bool) (l : Linkage) (next : Nat) (d : Declaration N T) : Linked T :=
  { id := next, isFunction := ty.isFunction d.type, linkage := l, thread := d.storage.thread,
    status := statusOf (ty.isFunction d.type) defines d,
    inlineOnly := !file || (d.inline && d.storage ≠ .extern), type := complete d.init d.type }

/-- 6.9.2p3: a tentative definition with internal linkage and incomplete type. -/
def badTentative (ty : Types T) (l : Linkage) (d : Declaration N T) : Bool :=
  !ty.isFunction d.type && l == .internal && d.storage.isStatic && d.init.isNone && ty.incomplete d.type

/-- The outcome of the specification for a repeated declaration. -/
theorem declareLinked_some (ty : Types T) (file defines : Bool) (l : Linkage) (d : Declaration N T) {e : Linked T}
    (hvm : ty.variablyModified d.type = false) (hu : s.hereUnlinked d.name = false)
    (he : lookup s.linked d.name = some e) :
    declareLinked ty file defines l s d =
      if e.linkage ≠ l then .undefined
      else if e.isFunction ≠ ty.isFunction d.type then
        (if (s.here d.name).isSome then .reject else .undefined)
      else if badTentative ty l d then .undefined
      else if e.thread ≠ d.storage.thread then .reject
      else if !ty.compatible e.type d.type then .reject
      else if e.status = .defined ∧ statusOf (ty.isFunction d.type) defines d = .defined then .reject
      else
        .next { (s.bind d.name ((again ty file defines e d).ref (visibleType ty s d))) with
            linked := put s.linked d.name (again ty file defines e d) }
          (.refers ((again ty file defines e d).ref (visibleType ty s d))) := by
  unfold declareLinked
  simp only [hvm, hu, he]
  rfl

theorem declareLinked_none (ty : Types T) (file defines : Bool) (l : Linkage) (d : Declaration N T)
    (hvm : ty.variablyModified d.type = false) (hu : s.hereUnlinked d.name = false)
    (he : lookup s.linked d.name = none) :
    declareLinked ty file defines l s d =
      if badTentative ty l d then .undefined
      else
        .next { (s.bind d.name ((fresh ty file defines l s.next d).ref (visibleType ty s d))) with
            next := s.next + 1, linked := put s.linked d.name (fresh ty file defines l s.next d) }
          (.refers ((fresh ty file defines l s.next d).ref (visibleType ty s d))) := by
  unfold declareLinked
  simp only [hvm, hu, he]
  rfl

theorem declareLinked_vm (ty : Types T) (file defines : Bool) (l : Linkage) (d : Declaration N T)
    (hvm : ty.variablyModified d.type = true) : declareLinked ty file defines l s d = .reject := by
  unfold declareLinked; simp only [hvm]; rfl

theorem declareLinked_unlinked (ty : Types T) (file defines : Bool) (l : Linkage) (d : Declaration N T)
    (hvm : ty.variablyModified d.type = false) (hu : s.hereUnlinked d.name = true) :
    declareLinked ty file defines l s d = .reject := by
  unfold declareLinked; simp only [hvm, hu]; rfl

/-- All six functions have this shape: `F` tests the type, then the class of the identifier; `old` handles an entity
in the table and `new` the first declaration.  What remains to be shown are the two handlers. -/
theorem fileLinked (h : Inv strict g [g.ordinary] s) (hs : s.scopes = [sc]) (ty : Types T) (defines : Bool)
    (l : Linkage) (d : Declaration N T) {table : List (N × Nat)}
    (htab : table = if ty.isFunction d.type then g.functions else g.objects)
    (old : Nat → Option (Global N T × Nat)) (new : Option (Global N T × Nat)) {mo : Option (Global N T × Nat)}
    (hmo : mo = if ty.variablyModified d.type then none
      else if !g.requireClass d.name (if ty.isFunction d.type then .function else .object) then none
      else match at? table d.name with
        | some id => old id
        | none => new)
    (hfn : ty.isFunction d.type = true → d.storage.thread = false)
    (hold : ∀ e, lookup s.linked d.name = some e → e.linkage = l → e.isFunction = ty.isFunction d.type →
      badTentative ty l d = false →
      ty.variablyModified d.type = false →
      old e.id = if e.thread ≠ d.storage.thread then none
        else if !ty.compatible e.type d.type then none
        else if e.status = .defined ∧ statusOf (ty.isFunction d.type) defines d = .defined then none
        else some ((g.write e.id (entryOf (again ty true defines e d))).insertOrdinary d.name e.id, e.id))
    (hl0 : l ≠ .none)
    (hnew : lookup s.linked d.name = none → lookup sc d.name = none →
      badTentative ty l d = false →
      at? table d.name = none →
      ∃ g₁ : Global N T, new = some (g₁.insertOrdinary d.name s.next, s.next) ∧
        g₁.heap = g.heap ++ [entryOf (fresh ty true defines l s.next d)] ∧
        g₁.objects = (if ty.isFunction d.type then g.objects else (d.name, s.next) :: g.objects) ∧
        g₁.functions = (if ty.isFunction d.type then (d.name, s.next) :: g.functions else g.functions) ∧
        g₁.types = g.types ∧ g₁.constants = g.constants ∧ g₁.ordinary = g.ordinary) :
    SimG strict g (declareLinked ty true defines l s d) mo := by
  subst hmo
  cases hvm : ty.variablyModified d.type with
  | true => rw [declareLinked_vm _ _ _ _ _ hvm]; rfl
  | false =>
  rw [if_neg (by simp)]
  cases hu : s.hereUnlinked d.name with
  | true =>
    rw [declareLinked_unlinked _ _ _ _ _ hvm hu]
    obtain ⟨b, hb, hbl⟩ := hereUnlinked_true hs hu
    have hr := requireClass_unlinked h hs hb hbl
    have : g.requireClass d.name (if ty.isFunction d.type then .function else .object) = false := by
      split
      · exact hr.2.1
      · exact hr.1
    rw [this]; rfl
  | false =>
  have hstat : ∀ st : Status, ty.isFunction d.type = true → st ≠ .tentative →
      st.join (statusOf (ty.isFunction d.type) defines d) ≠ .tentative := by
    intro st hf hst
    rw [hf]
    unfold statusOf
    cases st <;> cases defines <;> simp_all [Status.join]
  cases he : lookup s.linked d.name with
  | none =>
    have hh := here_of_linkedNone h hs he hu
    rw [declareLinked_none _ _ _ _ _ hvm hu he]
    rw [requireClass_none h hs hh]
    have htn : at? table d.name = none := by
      rw [htab]; split
      · exact (h.linkedNone he).2
      · exact (h.linkedNone he).1
    rw [htn]
    simp only [Bool.not_true, Bool.false_eq_true, if_false]
    split
    · trivial
    · rename_i hbad
      obtain ⟨g₁, h1, h2, h3, h4, h5, h6, h7⟩ := hnew he hh (by simpa using hbad) htn
      rw [h1]
      refine fileNew h hs he hh rfl ⟨hl0, fun hf => ⟨hfn hf, ?_⟩⟩ h2 h3 h4 h5 h6 h7 ?_
      · have hf' : ty.isFunction d.type = true := hf
        show statusOf (ty.isFunction d.type) defines d ≠ .tentative
        rw [hf']; unfold statusOf; cases defines <;> simp
      · intro _; exact visibleType_new hs ty d hh
  | some e =>
    rw [declareLinked_some _ _ _ _ _ hvm hu he]
    by_cases hel : e.linkage = l
    · rw [if_neg (by simpa using hel)]
      have hrc := requireClass_of h hs hu he
      by_cases hef : e.isFunction = ty.isFunction d.type
      · rw [if_neg (by simpa using hef)]
        have hcl : g.requireClass d.name (if ty.isFunction d.type then .function else .object) = true := by
          cases hi : (s.here d.name).isSome with
          | true =>
            have := hrc.1 hi
            cases hf : ty.isFunction d.type
            · simp [this.1, hef, hf]
            · simp [this.2, hef, hf]
          | false =>
            have := hrc.2 hi
            cases hf : ty.isFunction d.type
            · simp [this.1]
            · simp [this.2]
        rw [hcl]
        have htn : at? table d.name = some e.id := by
          rw [htab]
          have := h.linkedSome he
          rw [hef] at this
          cases hf : ty.isFunction d.type
          · rw [hf] at this; exact this.1
          · rw [hf] at this; exact this.2.1
        rw [htn]
        simp only [Bool.not_true, Bool.false_eq_true, if_false]
        split
        · trivial
        · rename_i hbad
          rw [hold e he hel hef (by simpa using hbad) hvm]
          by_cases hth : e.thread = d.storage.thread
          · have hth' : ¬ (e.thread ≠ d.storage.thread) := fun hx => hx hth
            rw [if_neg hth', if_neg hth']
            cases hc : ty.compatible e.type d.type with
            | false => rfl
            | true =>
              simp only [Bool.not_true, Bool.false_eq_true, if_false]
              by_cases hd : e.status = .defined ∧ statusOf (ty.isFunction d.type) defines d = .defined
              · rw [if_pos hd, if_pos hd]; rfl
              · rw [if_neg hd, if_neg hd]
                refine fileUpdate h hs he hu rfl rfl rfl rfl ?_ ?_
                · intro hf
                  exact hstat e.status (by rw [← hef]; exact hf) ((h.real _ _ he).2 hf).2
                · intro hstr
                  subst hstr
                  exact visibleType_old h hs ty d he
          · have hth' : e.thread ≠ d.storage.thread := hth
            rw [if_pos hth', if_pos hth']; rfl
      · rw [if_pos (by simpa using hef)]
        cases hi : (s.here d.name).isSome with
        | false => trivial
        | true =>
          have := hrc.1 hi
          have hcl : g.requireClass d.name (if ty.isFunction d.type then .function else .object) = false := by
            cases hf : ty.isFunction d.type
            · have : e.isFunction = true := by
                rw [hf] at hef; cases hx : e.isFunction
                · exact absurd hx hef
                · rfl
              simp [*]
            · have : e.isFunction = false := by
                rw [hf] at hef; cases hx : e.isFunction
                · rfl
                · exact absurd hx hef
              simp [*]
          rw [hcl]; rfl
    · rw [if_pos (by simpa using hel)]; trivial

end

end Kefir.Decl
