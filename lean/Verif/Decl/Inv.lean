import Verif.Decl.Model

/-!
# The relation between kefir's tables and the state of the specification
-/

namespace Kefir.Decl

open Model (Entry Class Global at?)

variable {N T : Type} [DecidableEq N]

/-! ### association lists -/

theorem lookup_put {α : Type} (l : List (N × α)) (n : N) (a : α) (k : N) :
    lookup (put l n a) k = if k = n then some a else lookup l k := by
  induction l with
  | nil =>
    simp only [put, lookup]
    by_cases h : k = n
    · subst h; simp
    · rw [if_neg (fun e => h e.symm), if_neg h]
  | cons p r ih =>
    obtain ⟨m, b⟩ := p
    simp only [put]
    by_cases hm : m = n
    · subst hm
      simp only [if_true, lookup]
      by_cases h : k = m
      · subst h; simp
      · rw [if_neg (fun e => h e.symm), if_neg h, if_neg (fun e => h e.symm)]
    · rw [if_neg hm]
      simp only [lookup]
      by_cases h : m = k
      · subst h; rw [if_pos rfl, if_neg hm, if_pos rfl]
      · rw [if_neg h, ih, if_neg h]

theorem at?_cons (l : List (N × Nat)) (n : N) (id : Nat) (k : N) :
    at? ((n, id) :: l) k = if k = n then some id else at? l k := by
  simp only [at?]
  by_cases h : k = n
  · subst h; simp
  · rw [if_neg (fun e => h e.symm), if_neg h]

theorem at?_mem {l : List (N × Nat)} {n : N} {id : Nat} (h : at? l n = some id) : (n, id) ∈ l := by
  induction l with
  | nil => simp [at?] at h
  | cons p r ih =>
    obtain ⟨m, b⟩ := p
    simp only [at?] at h
    by_cases hm : m = n
    · subst hm; rw [if_pos rfl] at h; cases h; exact List.mem_cons_self
    · rw [if_neg hm] at h; exact List.mem_cons_of_mem _ (ih h)

theorem at?_none_notMem {l : List (N × Nat)} {n : N} (h : at? l n = none) : n ∉ l.map Prod.fst := by
  induction l with
  | nil => simp
  | cons p r ih =>
    obtain ⟨m, b⟩ := p
    simp only [at?] at h
    by_cases hm : m = n
    · subst hm; rw [if_pos rfl] at h; cases h
    · rw [if_neg hm] at h
      intro hc
      simp only [List.map_cons, List.mem_cons] at hc
      rcases hc with hc | hc
      · exact hm hc.symm
      · exact ih h hc

theorem mem_at? {l : List (N × Nat)} (hd : (l.map Prod.fst).Nodup) {n : N} {id : Nat} (h : (n, id) ∈ l) :
    at? l n = some id := by
  induction l with
  | nil => cases h
  | cons p r ih =>
    obtain ⟨m, b⟩ := p
    simp only [List.map_cons, List.nodup_cons] at hd
    rcases List.mem_cons.mp h with h | h
    · cases h; simp [at?]
    · simp only [at?]
      have : m ≠ n := by
        intro hmn; subst hmn
        exact hd.1 (List.mem_map.mpr ⟨_, h, rfl⟩)
      rw [if_neg this]; exact ih hd.2 h

/-! ### entries -/

/-- The storage class kefir gives to objects with linkage. -/
def storageFor (l : Linkage) (thread : Bool) : Storage :=
  if l = .internal then (if thread then .staticThread else .static)
  else (if thread then .externThread else .extern)

/-- The scoped identifier kefir keeps for an entity with linkage. -/
def entryOf (e : Linked T) : Entry T :=
  if e.isFunction then
    .function e.type (if e.linkage = .internal then .static else .extern)
      (e.linkage == .external && e.status != .defined) (e.status == .defined)
  else
    .object e.type (storageFor e.linkage e.thread) e.linkage
      (e.linkage == .external && e.status == .declared) (e.status == .defined)

theorem entryOf_ref (e : Linked T) (hl : e.linkage ≠ .none) (hf : e.isFunction = true → e.thread = false) :
    (entryOf e).ref e.id = e.ref e.type := by
  obtain ⟨id, fn, l, th, st, io, t⟩ := e
  cases fn <;> cases l <;> cases th <;> simp_all [entryOf, Linked.ref, Entry.ref, storageFor]

theorem Linked.ref_linkage (e : Linked T) (t : T) : (e.ref t).linkage = e.linkage := by
  unfold Linked.ref; split <;> rfl

theorem Linked.ref_id (e : Linked T) (t : T) : (e.ref t).id = e.id := by
  unfold Linked.ref; split <;> rfl

theorem Linked.ref_untyped (e : Linked T) (t t' : T) : (e.ref t).untyped = (e.ref t').untyped := by
  unfold Linked.ref; split <;> rfl

theorem Linked.ref_type? (e : Linked T) (t : T) : (e.ref t).type? = some t := by
  unfold Linked.ref; split <;> rfl

theorem untyped_linkage (r r' : Ref T) (h : r.untyped = r'.untyped) : r.linkage = r'.linkage := by
  cases r <;> cases r' <;> simp_all [Ref.untyped, Ref.linkage]

theorem untyped_id (r r' : Ref T) (h : r.untyped = r'.untyped) : r.id = r'.id := by
  cases r <;> cases r' <;> simp_all [Ref.untyped, Ref.id]

theorem Entry.ref_id (x : Entry T) (i : Nat) : (x.ref i).id = i := by
  cases x <;> rfl

theorem entryOf_linked (e : Linked T) (hl : e.linkage ≠ .none) (i : Nat) : ((entryOf e).ref i).linkage ≠ .none := by
  obtain ⟨id, fn, l, th, st, io, t⟩ := e
  cases fn <;> cases l <;> simp_all [entryOf, Entry.ref, Ref.linkage]

theorem entryOf_not_typedef (e : Linked T) (t : T) : entryOf e ≠ .typedefName t := by
  unfold entryOf; split <;> simp

/-! ### the relation -/

/-- A pointer in kefir's scope and the binding of the specification. -/
def BindRel (heap : List (Entry T)) (id : Nat) (b : Ref T) : Prop :=
  b.id = id ∧ (b.linkage = .none → ∃ x, heap[id]? = some x ∧ x.ref id = b)

def ScopeRel (heap : List (Entry T)) (m : List (N × Nat)) (sc : List (N × Ref T)) : Prop :=
  ∀ n, match at? m n, lookup sc n with
    | none, none => True
    | some id, some b => BindRel heap id b
    | _, _ => False

def LinkRel (g : Global N T) (n : N) : Option (Linked T) → Prop
  | none => at? g.objects n = none ∧ at? g.functions n = none
  | some e =>
    at? g.objects n = (if e.isFunction then none else some e.id) ∧
    at? g.functions n = (if e.isFunction then some e.id else none) ∧
    g.heap[e.id]? = some (entryOf e)

structure Inv (strict : Bool) (g : Global N T) (ms : List (List (N × Nat))) (s : State N T) : Prop where
  next : g.heap.length = s.next
  last : ms.getLast? = some g.ordinary
  len : ms.length = s.scopes.length
  scopes : ∀ (i : Nat) (m : List (N × Nat)) (sc : List (N × Ref T)),
    ms[i]? = some m → s.scopes[i]? = some sc → ScopeRel g.heap m sc
  linked : ∀ n, LinkRel g n (lookup s.linked n)
  inj : ∀ n m e e', lookup s.linked n = some e → lookup s.linked m = some e' → e.id = e'.id → n = m
  real : ∀ n e, lookup s.linked n = some e →
    e.linkage ≠ .none ∧ (e.isFunction = true → e.thread = false ∧ e.status ≠ .tentative)
  bound : ∀ (i : Nat) (sc : List (N × Ref T)) (n : N) (b : Ref T),
    s.scopes[i]? = some sc → lookup sc n = some b → b.linkage ≠ .none →
      ∃ e, lookup s.linked n = some e ∧ b.untyped = (e.ref e.type).untyped
  td : ∀ (i j : Nat) (sc sc' : List (N × Ref T)) (n n' : N) (id : Nat) (t t' : T),
    s.scopes[i]? = some sc → s.scopes[j]? = some sc' →
    lookup sc n = some (.typedefName id t) → lookup sc' n' = some (.typedefName id t') → i = j ∧ n = n'
  types : ∀ n id, at? g.types n = some id ↔
    (at? g.ordinary n = some id ∧ ∃ t, g.heap[id]? = some (.typedefName t))
  consts : ∀ n id, at? g.constants n = some id → at? g.ordinary n = some id
  noObj : ∀ sc, s.scopes.getLast? = some sc → ∀ n i d t, lookup sc n ≠ some (.object i .none d t)
  keysO : (g.objects.map Prod.fst).Nodup
  keysF : (g.functions.map Prod.fst).Nodup
  strict1 : strict = true → ∀ n e, lookup s.linked n = some e →
    ∀ sc, s.scopes.getLast? = some sc → lookup sc n = some (e.ref e.type)
  strict2 : strict = true → ∀ (i : Nat) (sc : List (N × Ref T)) (n : N) (b : Ref T),
    s.scopes[i]? = some sc → i + 1 < s.scopes.length → lookup sc n = some b → b.linkage = .none

theorem BindRel.append {heap : List (Entry T)} {id : Nat} {b : Ref T} (h : BindRel heap id b) (x : Entry T) :
    BindRel (heap ++ [x]) id b := by
  refine ⟨h.1, fun hl => ?_⟩
  obtain ⟨y, hy, hr⟩ := h.2 hl
  exact ⟨y, by rw [List.getElem?_append_left (List.getElem?_eq_some_iff.mp hy).1]; exact hy, hr⟩

theorem BindRel.setLinked {heap : List (Entry T)} {id : Nat} {b : Ref T} (h : BindRel heap id b) {e : Linked T}
    (hl : e.linkage ≠ .none) {j : Nat} (hj : heap[j]? = some (entryOf e)) (x : Entry T) :
    BindRel (heap.set j x) id b := by
  refine ⟨h.1, fun hb => ?_⟩
  obtain ⟨y, hy, hr⟩ := h.2 hb
  have hne : j ≠ id := by
    intro hji; subst hji
    rw [hj] at hy; cases hy
    have := entryOf_linked e hl j
    rw [hr] at this; exact this hb
  exact ⟨y, by rw [List.getElem?_set_ne hne]; exact hy, hr⟩

theorem BindRel.linked {heap heap' : List (Entry T)} {id : Nat} {b : Ref T} (h : BindRel heap id b)
    (hl : b.linkage ≠ .none) : BindRel heap' id b := ⟨h.1, fun hn => absurd hn hl⟩

theorem ScopeRel.mono {heap heap' : List (Entry T)} {m : List (N × Nat)} {sc : List (N × Ref T)}
    (h : ScopeRel heap m sc)
    (hb : ∀ n id b, at? m n = some id → lookup sc n = some b → BindRel heap id b → BindRel heap' id b) :
    ScopeRel heap' m sc := by
  intro n
  have hn := h n
  cases hm : at? m n with
  | none => cases hs : lookup sc n <;> rw [hm, hs] at hn <;> exact hn
  | some id =>
    cases hs : lookup sc n with
    | none => rw [hm, hs] at hn; exact hn
    | some b => rw [hm, hs] at hn; exact hb n id b hm hs hn

theorem ScopeRel.none_iff {heap : List (Entry T)} {m : List (N × Nat)} {sc : List (N × Ref T)}
    (h : ScopeRel heap m sc) (n : N) : at? m n = none ↔ lookup sc n = none := by
  have hn := h n
  cases hm : at? m n <;> cases hs : lookup sc n <;> rw [hm, hs] at hn <;> simp at hn ⊢

theorem ScopeRel.some_of {heap : List (Entry T)} {m : List (N × Nat)} {sc : List (N × Ref T)}
    (h : ScopeRel heap m sc) {n : N} {b : Ref T} (hs : lookup sc n = some b) :
    at? m n = some b.id ∧ BindRel heap b.id b := by
  have hn := h n
  cases hm : at? m n with
  | none => rw [hm, hs] at hn; exact absurd hn (by simp)
  | some id =>
    rw [hm, hs] at hn
    have hn' : BindRel heap id b := hn
    have := hn'.1
    subst this
    exact ⟨rfl, hn'⟩

/-- Adding a binding to related scopes. -/
theorem ScopeRel.put {heap : List (Entry T)} {m m' : List (N × Nat)} {sc : List (N × Ref T)}
    (h : ScopeRel heap m sc) {n : N} {id : Nat} {b : Ref T} (hb : BindRel heap id b)
    (hm : ∀ k, at? m' k = if k = n then some id else at? m k) : ScopeRel heap m' (put sc n b) := by
  intro k
  rw [lookup_put, hm]
  by_cases hk : k = n
  · rw [if_pos hk, if_pos hk]; exact hb
  · rw [if_neg hk, if_neg hk]; exact h k

/-! ### consequences -/

section
variable {strict : Bool} {g : Global N T} {ms : List (List (N × Nat))} {s : State N T}

theorem Inv.linkedSome (h : Inv strict g ms s) {n : N} {e : Linked T} (hl : lookup s.linked n = some e) :
    at? g.objects n = (if e.isFunction then none else some e.id) ∧
    at? g.functions n = (if e.isFunction then some e.id else none) ∧
    g.heap[e.id]? = some (entryOf e) := by
  have := h.linked n; rw [hl] at this; exact this

theorem Inv.linkedNone (h : Inv strict g ms s) {n : N} (hl : lookup s.linked n = none) :
    at? g.objects n = none ∧ at? g.functions n = none := by
  have := h.linked n; rw [hl] at this; exact this

theorem Inv.linked_lt (h : Inv strict g ms s) {n : N} {e : Linked T} (hl : lookup s.linked n = some e) :
    e.id < g.heap.length := (List.getElem?_eq_some_iff.mp (h.linkedSome hl).2.2).1

/-- Every binding points into the heap. -/
theorem Inv.bind_lt (h : Inv strict g ms s) {i : Nat} {sc : List (N × Ref T)} {n : N} {b : Ref T}
    (hs : s.scopes[i]? = some sc) (hb : lookup sc n = some b) : b.id < g.heap.length := by
  have hi : i < ms.length := by rw [h.len]; exact (List.getElem?_eq_some_iff.mp hs).1
  have hm : ms[i]? = some ms[i] := List.getElem?_eq_getElem hi
  obtain ⟨_, hr⟩ := (h.scopes i _ _ hm hs).some_of hb
  by_cases hl : b.linkage = .none
  · obtain ⟨x, hx, _⟩ := hr.2 hl
    exact (List.getElem?_eq_some_iff.mp hx).1
  · obtain ⟨e, he, hu⟩ := h.bound i sc n b hs hb hl
    have : b.id = e.id := by rw [untyped_id _ _ hu, Linked.ref_id]
    rw [this]; exact h.linked_lt he

/-- No linked entity is a typedef, and so on: unlinked bindings and linked entities have different numbers. -/
theorem Inv.bind_ne (h : Inv strict g ms s) {i : Nat} {sc : List (N × Ref T)} {n m : N} {b : Ref T} {e : Linked T}
    (hs : s.scopes[i]? = some sc) (hb : lookup sc n = some b) (hl : b.linkage = .none)
    (he : lookup s.linked m = some e) : b.id ≠ e.id := by
  intro heq
  have hi : i < ms.length := by rw [h.len]; exact (List.getElem?_eq_some_iff.mp hs).1
  have hm : ms[i]? = some ms[i] := List.getElem?_eq_getElem hi
  obtain ⟨_, hr⟩ := (h.scopes i _ _ hm hs).some_of hb
  obtain ⟨x, hx, hxr⟩ := hr.2 hl
  rw [heq, (h.linkedSome he).2.2] at hx
  cases hx
  have := entryOf_linked e (h.real m e he).1 b.id
  rw [hxr] at this; exact this hl
end

/-- Objects without linkage and enumeration constants are left alone. -/
def Frame (g g' : Global N T) : Prop :=
  ∀ (id : Nat) (x : Entry T), g.heap[id]? = some x → (x.ref id).linkage = .none → (∀ t, x ≠ .typedefName t) → g'.heap[id]? = some x

/-! ### changes -/

section
variable {strict : Bool} {g g' : Global N T} {m m' : List (N × Nat)} {ms : List (List (N × Nat))} {s : State N T}
  {sc : List (N × Ref T)} {rest : List (List (N × Ref T))}

/-- How the tables and the scopes change when `n` gets the number `id` in the innermost scope. -/
structure Bound (g g' : Global N T) (m m' : List (N × Nat)) (ms : List (List (N × Nat))) (n : N) (id : Nat) : Prop where
  at_ : ∀ k, at? m' k = if k = n then some id else at? m k
  ord : (ms = [] ∧ g.ordinary = m ∧ g'.ordinary = m') ∨ (ms ≠ [] ∧ g'.ordinary = g.ordinary)

theorem Bound.ordinary {n : N} {id : Nat} (h : Bound g g' m m' ms n id) (k : N) :
    at? g'.ordinary k = at? g.ordinary k ∨ (k = n ∧ ms = [] ∧ g.ordinary = m ∧ at? g'.ordinary k = some id) := by
  rcases h.ord with ⟨h1, h2, h3⟩ | ⟨_, h2⟩
  · by_cases hk : k = n
    · right; refine ⟨hk, h1, h2, ?_⟩
      rw [h3, h.at_, if_pos hk]
    · left; rw [h3, h.at_, if_neg hk, h2]
  · left; rw [h2]

theorem Bound.last {n : N} {id : Nat} (h : Bound g g' m m' ms n id) (hl : (m :: ms).getLast? = some g.ordinary) :
    (m' :: ms).getLast? = some g'.ordinary := by
  rcases h.ord with ⟨h1, _, h3⟩ | ⟨h1, h2⟩
  · subst h1; rw [h3]; rfl
  · rw [h2, ← hl]
    cases ms with
    | nil => exact absurd rfl h1
    | cons a t => rfl

theorem getLast_cons_put {n : N} {b : Ref T} {x : List (N × Ref T)}
    (h : (put sc n b :: rest).getLast? = some x) :
    (rest = [] ∧ x = put sc n b) ∨ (rest ≠ [] ∧ (sc :: rest).getLast? = some x) := by
  cases rest with
  | nil => left; simp at h; exact ⟨rfl, h.symm⟩
  | cons a t => right; exact ⟨by simp, by rw [← h]; rfl⟩

/-- A new entity with linkage. -/
theorem Inv.linkNew (h : Inv strict g (m :: ms) s) (hs : s.scopes = sc :: rest) {n : N} {e : Linked T} {t : T}
    (hn : lookup s.linked n = none) (hhere : lookup sc n = none) (hid : e.id = s.next)
    (hreal : e.linkage ≠ .none ∧ (e.isFunction = true → e.thread = false ∧ e.status ≠ .tentative))
    (hb : Bound g g' m m' ms n e.id)
    (hheap : g'.heap = g.heap ++ [entryOf e])
    (hobj : g'.objects = if e.isFunction then g.objects else (n, e.id) :: g.objects)
    (hfun : g'.functions = if e.isFunction then (n, e.id) :: g.functions else g.functions)
    (hty : g'.types = g.types) (hco : g'.constants = g.constants)
    (hst : strict = true → rest = [] ∧ t = e.type) :
    Inv strict g' (m' :: ms) ⟨s.next + 1, put sc n (e.ref t) :: rest, put s.linked n e⟩ := by
  have hidl : e.id = g.heap.length := by rw [hid, h.next]
  have hget : g'.heap[e.id]? = some (entryOf e) := by rw [hheap, hidl]; simp
  have hold : ∀ i : Nat, i < g.heap.length → g'.heap[i]? = g.heap[i]? := fun i hi => by
    rw [hheap, List.getElem?_append_left hi]
  have hne : ∀ k e', lookup s.linked k = some e' → k ≠ n := by
    intro k e' hk hkn; rw [hkn, hn] at hk; cases hk
  have hon := h.linkedNone hn
  have hT : ∀ (i : Nat) (t : T), g'.heap[i]? = some (.typedefName t) ↔ g.heap[i]? = some (.typedefName t) := by
    intro i t
    by_cases hi : i < g.heap.length
    · rw [hold i hi]
    · rw [List.getElem?_eq_none (Nat.le_of_not_lt hi)]
      constructor
      · intro hx
        by_cases hi' : i = e.id
        · rw [hi', hget] at hx; exact absurd (Option.some.inj hx) (entryOf_not_typedef e t)
        · rw [hheap, List.getElem?_eq_none (by simp; omega)] at hx; cases hx
      · intro hx; cases hx
  have hO : ∀ (k : N) (i : Nat), (∃ t, g.heap[i]? = some (.typedefName t)) →
      (at? g'.ordinary k = some i ↔ at? g.ordinary k = some i) := by
    intro k i ⟨t, ht⟩
    rcases hb.ordinary k with hk | ⟨hk, hms, hgo, hk'⟩
    · rw [hk]
    · rw [hk']
      have h0 : at? g.ordinary k = none := by
        rw [hk, hgo]
        exact ((h.scopes 0 m sc rfl (by rw [hs]; rfl)).none_iff n).mpr hhere
      rw [h0]
      constructor
      · intro hx
        have := Option.some.inj hx
        rw [← this, hidl, List.getElem?_eq_none (Nat.le_refl _)] at ht; cases ht
      · intro hx; cases hx
  refine ⟨?_, ?_, ?_, ?_, ?_, ?_, ?_, ?_, ?_, ?_, ?_, ?_, ?_, ?_, ?_, ?_⟩
  · rw [hheap]; simp [h.next]
  · exact hb.last h.last
  · have := h.len; rw [hs] at this; simpa using this
  · intro i mi sci hmi hsci
    cases i with
    | zero =>
      cases hmi; cases hsci
      refine ScopeRel.put (m := m) ?_ (id := e.id) ?_ hb.at_
      · exact (h.scopes 0 m sc rfl (by rw [hs]; rfl)).mono (fun _ _ _ _ _ hr => by rw [hheap]; exact hr.append _)
      · exact ⟨by rw [Linked.ref_id], fun hl => absurd (by rw [← Linked.ref_linkage e t]; exact hl) hreal.1⟩
    | succ i =>
      exact (h.scopes (i + 1) mi sci hmi (by rw [hs]; exact hsci)).mono
        (fun _ _ _ _ _ hr => by rw [hheap]; exact hr.append _)
  · intro k
    show LinkRel g' k (lookup (put s.linked n e) k)
    rw [lookup_put]
    by_cases hk : k = n
    · subst hk
      rw [if_pos rfl]
      refine ⟨?_, ?_, hget⟩
      · rw [hobj]; cases e.isFunction
        · simp [at?_cons]
        · simp [hon.1]
      · rw [hfun]; cases e.isFunction
        · simp [hon.2]
        · simp [at?_cons]
    · rw [if_neg hk]
      have ho : at? g'.objects k = at? g.objects k := by
        rw [hobj]; cases e.isFunction
        · simp [at?_cons, hk]
        · simp
      have hf : at? g'.functions k = at? g.functions k := by
        rw [hfun]; cases e.isFunction
        · simp
        · simp [at?_cons, hk]
      cases hl : lookup s.linked k with
      | none => exact ⟨by rw [ho]; exact (h.linkedNone hl).1, by rw [hf]; exact (h.linkedNone hl).2⟩
      | some e' =>
        refine ⟨by rw [ho]; exact (h.linkedSome hl).1, by rw [hf]; exact (h.linkedSome hl).2.1, ?_⟩
        rw [hold _ (h.linked_lt hl)]; exact (h.linkedSome hl).2.2
  · intro a b ea eb ha hb' hab
    simp only [lookup_put] at ha hb'
    by_cases h1 : a = n <;> by_cases h2 : b = n
    · rw [h1, h2]
    · rw [if_pos h1] at ha; rw [if_neg h2] at hb'; cases ha
      have := h.linked_lt hb'; omega
    · rw [if_neg h1] at ha; rw [if_pos h2] at hb'; cases hb'
      have := h.linked_lt ha; omega
    · rw [if_neg h1] at ha; rw [if_neg h2] at hb'; exact h.inj a b ea eb ha hb' hab
  · intro k e' hk
    simp only [lookup_put] at hk
    by_cases hkn : k = n
    · rw [if_pos hkn] at hk; cases hk; exact hreal
    · rw [if_neg hkn] at hk; exact h.real k e' hk
  · intro i sci k b hsci hb' hl
    have old : ∀ (j : Nat) scj, s.scopes[j]? = some scj → lookup scj k = some b →
        ∃ e', lookup (put s.linked n e) k = some e' ∧ b.untyped = (e'.ref e'.type).untyped := by
      intro j scj hj hk
      obtain ⟨e', he', hu⟩ := h.bound j scj k b hj hk hl
      exact ⟨e', by rw [lookup_put, if_neg (hne k e' he')]; exact he', hu⟩
    cases i with
    | zero =>
      cases hsci
      rw [lookup_put] at hb'
      by_cases hk : k = n
      · rw [if_pos hk] at hb'; cases hb'
        exact ⟨e, by simp only [lookup_put, if_pos hk], Linked.ref_untyped _ _ _⟩
      · rw [if_neg hk] at hb'; exact old 0 sc (by rw [hs]; rfl) hb'
    | succ i => exact old (i + 1) sci (by rw [hs]; exact hsci) hb'
  · have key : ∀ (i : Nat) (x : List (N × Ref T)) (k : N) (id : Nat) (t' : T),
        (put sc n (e.ref t) :: rest)[i]? = some x → lookup x k = some (.typedefName id t') →
        ∃ y, s.scopes[i]? = some y ∧ lookup y k = some (.typedefName id t') := by
      intro i x k id t' hx hk
      cases i with
      | zero =>
        cases hx
        rw [lookup_put] at hk
        by_cases hkn : k = n
        · rw [if_pos hkn] at hk
          unfold Linked.ref at hk; split at hk <;> cases hk
        · rw [if_neg hkn] at hk; exact ⟨sc, by rw [hs]; rfl, hk⟩
      | succ i => exact ⟨x, by rw [hs]; exact hx, hk⟩
    intro i j x y k k' id t1 t2 hx hy hk hk'
    obtain ⟨x', hx', hkx⟩ := key i x k id t1 hx hk
    obtain ⟨y', hy', hky⟩ := key j y k' id t2 hy hk'
    exact h.td i j x' y' k k' id t1 t2 hx' hy' hkx hky
  · intro k i
    rw [hty, h.types]
    constructor
    · rintro ⟨h1, t', h2⟩
      exact ⟨(hO k i ⟨t', h2⟩).mpr h1, t', (hT i t').mpr h2⟩
    · rintro ⟨h1, t', h2⟩
      have h2' := (hT i t').mp h2
      exact ⟨(hO k i ⟨t', h2'⟩).mp h1, t', h2'⟩
  · intro k i hk
    rw [hco] at hk
    have h0 := h.consts k i hk
    rcases hb.ordinary k with hk' | ⟨hk', hms, hgo, _⟩
    · rw [hk']; exact h0
    · exfalso
      rw [hk', hgo, ((h.scopes 0 m sc rfl (by rw [hs]; rfl)).none_iff n).mpr hhere] at h0; cases h0
  · intro x hx k i d t' hk
    rcases getLast_cons_put hx with ⟨hr, rfl⟩ | ⟨hr, hx'⟩
    · rw [lookup_put] at hk
      by_cases hkn : k = n
      · rw [if_pos hkn] at hk
        have := Linked.ref_linkage e t
        rw [Option.some.inj hk] at this
        exact hreal.1 this.symm
      · rw [if_neg hkn] at hk
        exact h.noObj sc (by rw [hs, hr]; rfl) k i d t' hk
    · exact h.noObj x (by rw [hs]; exact hx') k i d t' hk
  · rw [hobj]
    split
    · exact h.keysO
    · simp only [List.map_cons, List.nodup_cons]; exact ⟨at?_none_notMem hon.1, h.keysO⟩
  · rw [hfun]
    split
    · simp only [List.map_cons, List.nodup_cons]; exact ⟨at?_none_notMem hon.2, h.keysF⟩
    · exact h.keysF
  · intro hstr k e' hk x hx
    obtain ⟨hr, ht⟩ := hst hstr
    subst hr
    simp at hx; subst hx
    rw [lookup_put]
    simp only [lookup_put] at hk
    by_cases hkn : k = n
    · rw [if_pos hkn] at hk ⊢; cases hk; rw [ht]
    · rw [if_neg hkn] at hk ⊢
      exact h.strict1 hstr k e' hk sc (by rw [hs]; rfl)
  · intro hstr i x k b hx hi
    obtain ⟨hr, _⟩ := hst hstr
    subst hr
    simp at hi

/-- A further declaration of an entity with linkage. -/
theorem Inv.linkUpdate (h : Inv strict g (m :: ms) s) (hs : s.scopes = sc :: rest) {n : N} {e e' : Linked T} {t : T}
    (hn : lookup s.linked n = some e) (hhere : ∀ b, lookup sc n = some b → b.linkage ≠ .none)
    (hid : e'.id = e.id) (hfn : e'.isFunction = e.isFunction) (hli : e'.linkage = e.linkage)
    (hth : e'.thread = e.thread) (hstat : e'.isFunction = true → e'.status ≠ .tentative)
    (hb : Bound g g' m m' ms n e.id)
    (hheap : g'.heap = g.heap.set e.id (entryOf e'))
    (hobj : g'.objects = g.objects) (hfun : g'.functions = g.functions)
    (hty : g'.types = g.types) (hco : g'.constants = g.constants)
    (hst : strict = true → rest = [] ∧ t = e'.type) :
    Inv strict g' (m' :: ms) ⟨s.next, put sc n (e'.ref t) :: rest, put s.linked n e'⟩ := by
  have hreal := h.real n e hn
  have hreal' : e'.linkage ≠ .none ∧ (e'.isFunction = true → e'.thread = false ∧ e'.status ≠ .tentative) :=
    ⟨by rw [hli]; exact hreal.1, fun hf => ⟨by rw [hth]; exact (hreal.2 (by rw [← hfn]; exact hf)).1, hstat hf⟩⟩
  have hcell := (h.linkedSome hn).2.2
  have hlt := h.linked_lt hn
  have hget : g'.heap[e.id]? = some (entryOf e') := by rw [hheap]; simp [hlt]
  have hold : ∀ i : Nat, i ≠ e.id → g'.heap[i]? = g.heap[i]? := fun i hi => by
    rw [hheap, List.getElem?_set_ne (Ne.symm hi)]
  have href : ∀ t' : T, (e'.ref t').untyped = (e.ref t').untyped := by
    intro t'; unfold Linked.ref; rw [hfn, hid, hli, hth]
  have hT : ∀ (i : Nat) (t : T), g'.heap[i]? = some (.typedefName t) ↔ g.heap[i]? = some (.typedefName t) := by
    intro i t
    by_cases hi : i = e.id
    · rw [hi, hget, hcell]
      exact ⟨fun hx => absurd (Option.some.inj hx) (entryOf_not_typedef _ _),
        fun hx => absurd (Option.some.inj hx) (entryOf_not_typedef _ _)⟩
    · rw [hold i hi]
  have hsc0 := h.scopes 0 m sc rfl (by rw [hs]; rfl)
  have hm0 : ∀ i, at? m n = some i → i = e.id := by
    intro i hi
    cases hl : lookup sc n with
    | none => rw [(hsc0.none_iff n).mpr hl] at hi; cases hi
    | some b =>
      obtain ⟨h1, _⟩ := hsc0.some_of hl
      rw [h1] at hi; cases hi
      obtain ⟨e0, he0, hu⟩ := h.bound 0 sc n b (by rw [hs]; rfl) hl (hhere b hl)
      rw [hn] at he0; cases he0
      rw [untyped_id _ _ hu, Linked.ref_id]
  have hO : ∀ (k : N) (i : Nat), (∃ t, g.heap[i]? = some (.typedefName t)) →
      (at? g'.ordinary k = some i ↔ at? g.ordinary k = some i) := by
    intro k i ⟨t, ht⟩
    rcases hb.ordinary k with hk | ⟨hk, hms, hgo, hk'⟩
    · rw [hk]
    · have hie : i ≠ e.id := by
        intro hie; rw [hie, hcell] at ht; exact entryOf_not_typedef _ _ (Option.some.inj ht)
      rw [hk', hk, hgo]
      constructor
      · intro hx; exact absurd (Option.some.inj hx).symm hie
      · intro hx; exact absurd (hm0 i hx) hie
  refine ⟨?_, ?_, ?_, ?_, ?_, ?_, ?_, ?_, ?_, ?_, ?_, ?_, ?_, ?_, ?_, ?_⟩
  · rw [hheap]; simp [h.next]
  · exact hb.last h.last
  · have := h.len; rw [hs] at this; simpa using this
  · intro i mi sci hmi hsci
    cases i with
    | zero =>
      cases hmi; cases hsci
      refine ScopeRel.put (m := m) ?_ (id := e.id) ?_ hb.at_
      · exact hsc0.mono (fun _ _ _ _ _ hr => by rw [hheap]; exact hr.setLinked hreal.1 hcell _)
      · exact ⟨by rw [Linked.ref_id, hid], fun hl => absurd (by rw [← Linked.ref_linkage e' t]; exact hl) hreal'.1⟩
    | succ i =>
      exact (h.scopes (i + 1) mi sci hmi (by rw [hs]; exact hsci)).mono
        (fun _ _ _ _ _ hr => by rw [hheap]; exact hr.setLinked hreal.1 hcell _)
  · intro k
    show LinkRel g' k (lookup (put s.linked n e') k)
    rw [lookup_put]
    by_cases hk : k = n
    · subst hk
      rw [if_pos rfl]
      refine ⟨?_, ?_, by rw [hid]; exact hget⟩
      · rw [hobj, hfn, hid]; exact (h.linkedSome hn).1
      · rw [hfun, hfn, hid]; exact (h.linkedSome hn).2.1
    · rw [if_neg hk]
      cases hl : lookup s.linked k with
      | none => exact ⟨by rw [hobj]; exact (h.linkedNone hl).1, by rw [hfun]; exact (h.linkedNone hl).2⟩
      | some e0 =>
        refine ⟨by rw [hobj]; exact (h.linkedSome hl).1, by rw [hfun]; exact (h.linkedSome hl).2.1, ?_⟩
        rw [hold _ (fun hx => hk (h.inj k n e0 e hl hn hx))]; exact (h.linkedSome hl).2.2
  · intro a b ea eb ha hb' hab
    have key : ∀ a ea, lookup (put s.linked n e') a = some ea →
        ∃ ea', lookup s.linked a = some ea' ∧ ea'.id = ea.id := by
      intro a ea ha
      rw [lookup_put] at ha
      by_cases h1 : a = n
      · rw [if_pos h1] at ha; cases ha; exact ⟨e, by rw [h1]; exact hn, hid.symm⟩
      · rw [if_neg h1] at ha; exact ⟨ea, ha, rfl⟩
    obtain ⟨x, hx, hx'⟩ := key a ea ha
    obtain ⟨y, hy, hy'⟩ := key b eb hb'
    exact h.inj a b x y hx hy (by rw [hx', hy', hab])
  · intro k e0 hk
    simp only [lookup_put] at hk
    by_cases hkn : k = n
    · rw [if_pos hkn] at hk; cases hk; exact hreal'
    · rw [if_neg hkn] at hk; exact h.real k e0 hk
  · intro i sci k b hsci hb' hl
    have old : ∀ (j : Nat) scj, s.scopes[j]? = some scj → lookup scj k = some b →
        ∃ e0, lookup (put s.linked n e') k = some e0 ∧ b.untyped = (e0.ref e0.type).untyped := by
      intro j scj hj hk
      obtain ⟨e0, he0, hu⟩ := h.bound j scj k b hj hk hl
      by_cases hkn : k = n
      · rw [hkn, hn] at he0; cases he0
        exact ⟨e', by rw [lookup_put, if_pos hkn], by rw [hu, href, Linked.ref_untyped]⟩
      · exact ⟨e0, by rw [lookup_put, if_neg hkn]; exact he0, hu⟩
    cases i with
    | zero =>
      cases hsci
      rw [lookup_put] at hb'
      by_cases hk : k = n
      · rw [if_pos hk] at hb'; cases hb'
        exact ⟨e', by simp only [lookup_put, if_pos hk], Linked.ref_untyped _ _ _⟩
      · rw [if_neg hk] at hb'; exact old 0 sc (by rw [hs]; rfl) hb'
    | succ i => exact old (i + 1) sci (by rw [hs]; exact hsci) hb'
  · have key : ∀ (i : Nat) (x : List (N × Ref T)) (k : N) (id : Nat) (t' : T),
        (put sc n (e'.ref t) :: rest)[i]? = some x → lookup x k = some (.typedefName id t') →
        ∃ y, s.scopes[i]? = some y ∧ lookup y k = some (.typedefName id t') := by
      intro i x k id t' hx hk
      cases i with
      | zero =>
        cases hx
        rw [lookup_put] at hk
        by_cases hkn : k = n
        · rw [if_pos hkn] at hk
          unfold Linked.ref at hk; split at hk <;> cases hk
        · rw [if_neg hkn] at hk; exact ⟨sc, by rw [hs]; rfl, hk⟩
      | succ i => exact ⟨x, by rw [hs]; exact hx, hk⟩
    intro i j x y k k' id t1 t2 hx hy hk hk'
    obtain ⟨x', hx', hkx⟩ := key i x k id t1 hx hk
    obtain ⟨y', hy', hky⟩ := key j y k' id t2 hy hk'
    exact h.td i j x' y' k k' id t1 t2 hx' hy' hkx hky
  · intro k i
    rw [hty, h.types]
    constructor
    · rintro ⟨h1, t', h2⟩
      exact ⟨(hO k i ⟨t', h2⟩).mpr h1, t', (hT i t').mpr h2⟩
    · rintro ⟨h1, t', h2⟩
      have h2' := (hT i t').mp h2
      exact ⟨(hO k i ⟨t', h2'⟩).mp h1, t', h2'⟩
  · intro k i hk
    rw [hco] at hk
    have h0 := h.consts k i hk
    rcases hb.ordinary k with hk' | ⟨hk', hms, hgo, hk''⟩
    · rw [hk']; exact h0
    · rw [hk', hgo] at h0
      rw [hk'', hm0 i h0]
  · intro x hx k i d t' hk
    rcases getLast_cons_put hx with ⟨hr, rfl⟩ | ⟨hr, hx'⟩
    · rw [lookup_put] at hk
      by_cases hkn : k = n
      · rw [if_pos hkn] at hk
        have := Linked.ref_linkage e' t
        rw [Option.some.inj hk] at this
        exact hreal'.1 this.symm
      · rw [if_neg hkn] at hk
        exact h.noObj sc (by rw [hs, hr]; rfl) k i d t' hk
    · exact h.noObj x (by rw [hs]; exact hx') k i d t' hk
  · rw [hobj]; exact h.keysO
  · rw [hfun]; exact h.keysF
  · intro hstr k e0 hk x hx
    obtain ⟨hr, ht⟩ := hst hstr
    subst hr
    simp at hx; subst hx
    rw [lookup_put]
    simp only [lookup_put] at hk
    by_cases hkn : k = n
    · rw [if_pos hkn] at hk ⊢; cases hk; rw [ht]
    · rw [if_neg hkn] at hk ⊢
      exact h.strict1 hstr k e0 hk sc (by rw [hs]; rfl)
  · intro hstr i x k b hx hi
    obtain ⟨hr, _⟩ := hst hstr
    subst hr
    simp at hi

/-- A new entity without linkage. -/
theorem Inv.unlinkedNew (h : Inv strict g (m :: ms) s) (hs : s.scopes = sc :: rest) {n : N} {x : Entry T}
    (hhere : lookup sc n = none) (hl : (x.ref s.next).linkage = .none)
    (hfile : rest = [] → ∀ i l d t, x.ref s.next ≠ .object i l d t)
    (hb : Bound g g' m m' ms n s.next)
    (hheap : g'.heap = g.heap ++ [x])
    (hobj : g'.objects = g.objects) (hfun : g'.functions = g.functions)
    (hty : ∀ k, ((ms = [] ∧ k = n ∧ (∃ t, x = .typedefName t)) → at? g'.types k = some s.next) ∧
      (¬ (ms = [] ∧ k = n ∧ (∃ t, x = .typedefName t)) → at? g'.types k = at? g.types k))
    (hco : ∀ k i, at? g'.constants k = some i → at? g.constants k = some i ∨ (ms = [] ∧ k = n ∧ i = s.next)) :
    Inv strict g' (m' :: ms) ⟨s.next + 1, put sc n (x.ref s.next) :: rest, s.linked⟩ := by
  have hget : g'.heap[s.next]? = some x := by rw [hheap, ← h.next]; simp
  have hold : ∀ i : Nat, i < g.heap.length → g'.heap[i]? = g.heap[i]? := fun i hi => by
    rw [hheap, List.getElem?_append_left hi]
  have hsc0 := h.scopes 0 m sc rfl (by rw [hs]; rfl)
  have hm0 := (hsc0.none_iff n).mpr hhere
  have hid : (x.ref s.next).id = s.next := Entry.ref_id _ _
  refine ⟨?_, ?_, ?_, ?_, ?_, ?_, ?_, ?_, ?_, ?_, ?_, ?_, ?_, ?_, ?_, ?_⟩
  · rw [hheap]; simp [h.next]
  · exact hb.last h.last
  · have := h.len; rw [hs] at this; simpa using this
  · intro i mi sci hmi hsci
    cases i with
    | zero =>
      cases hmi; cases hsci
      refine ScopeRel.put (m := m) ?_ (id := s.next) ?_ hb.at_
      · exact hsc0.mono (fun _ _ _ _ _ hr => by rw [hheap]; exact hr.append _)
      · exact ⟨hid, fun _ => ⟨x, hget, rfl⟩⟩
    | succ i =>
      exact (h.scopes (i + 1) mi sci hmi (by rw [hs]; exact hsci)).mono
        (fun _ _ _ _ _ hr => by rw [hheap]; exact hr.append _)
  · intro k
    show LinkRel g' k (lookup s.linked k)
    cases hk : lookup s.linked k with
    | none => exact ⟨by rw [hobj]; exact (h.linkedNone hk).1, by rw [hfun]; exact (h.linkedNone hk).2⟩
    | some e0 =>
      refine ⟨by rw [hobj]; exact (h.linkedSome hk).1, by rw [hfun]; exact (h.linkedSome hk).2.1, ?_⟩
      rw [hold _ (h.linked_lt hk)]; exact (h.linkedSome hk).2.2
  · exact h.inj
  · exact h.real
  · intro i sci k b hsci hb' hbl
    cases i with
    | zero =>
      cases hsci
      rw [lookup_put] at hb'
      by_cases hk : k = n
      · rw [if_pos hk] at hb'; cases hb'; exact absurd hl hbl
      · rw [if_neg hk] at hb'; exact h.bound 0 sc k b (by rw [hs]; rfl) hb' hbl
    | succ i => exact h.bound (i + 1) sci k b (by rw [hs]; exact hsci) hb' hbl
  · have key : ∀ (i : Nat) (y : List (N × Ref T)) (k : N) (id : Nat) (t' : T),
        (put sc n (x.ref s.next) :: rest)[i]? = some y → lookup y k = some (.typedefName id t') →
        (i = 0 ∧ k = n ∧ id = s.next) ∨
        (id < s.next ∧ ∃ y, s.scopes[i]? = some y ∧ lookup y k = some (.typedefName id t')) := by
      intro i y k id t' hy hk
      have old : ∀ (j : Nat) scj, s.scopes[j]? = some scj → lookup scj k = some (.typedefName id t') →
          id < s.next := by
        intro j scj hj hk
        have := h.bind_lt hj hk
        rw [h.next] at this; exact this
      cases i with
      | zero =>
        cases hy
        rw [lookup_put] at hk
        by_cases hkn : k = n
        · rw [if_pos hkn] at hk
          left; refine ⟨rfl, hkn, ?_⟩
          have := Option.some.inj hk
          rw [this] at hid; exact hid
        · rw [if_neg hkn] at hk
          have h0 : s.scopes[0]? = some sc := by rw [hs]; rfl
          exact .inr ⟨old 0 sc h0 hk, sc, h0, hk⟩
      | succ i =>
        have h0 : s.scopes[i + 1]? = some y := by rw [hs]; exact hy
        exact .inr ⟨old _ y h0 hk, y, h0, hk⟩
    intro i j y z k k' id t1 t2 hy hz hk hk'
    rcases key i y k id t1 hy hk with ⟨a1, a2, a3⟩ | ⟨a1, y', hy', hky⟩
    · rcases key j z k' id t2 hz hk' with ⟨b1, b2, b3⟩ | ⟨b1, _⟩
      · exact ⟨by rw [a1, b1], by rw [a2, b2]⟩
      · omega
    · rcases key j z k' id t2 hz hk' with ⟨b1, b2, b3⟩ | ⟨b1, z', hz', hkz⟩
      · omega
      · exact h.td i j y' z' k k' id t1 t2 hy' hz' hky hkz
  · intro k i
    by_cases hc : ms = [] ∧ k = n ∧ (∃ t, x = .typedefName t)
    · rw [(hty k).1 hc]
      obtain ⟨hms, hk, t, ht⟩ := hc
      have ho : at? g'.ordinary k = some s.next := by
        rcases hb.ord with ⟨_, _, h3⟩ | ⟨h1, _⟩
        · rw [h3, hb.at_, if_pos hk]
        · exact absurd hms h1
      constructor
      · intro hx; cases hx; exact ⟨ho, t, by rw [hget, ht]⟩
      · intro hx; rw [ho] at hx; exact hx.1
    · rw [(hty k).2 hc, h.types]
      have hlt : ∀ i, at? g.ordinary k = some i → i < g.heap.length := by
        intro i hi
        have hlast := h.last
        have hms : (m :: ms)[ms.length]? = some g.ordinary := by
          rw [List.getLast?_eq_getElem?] at hlast; simpa using hlast
        have hlen : ms.length < s.scopes.length := by rw [← h.len]; simp
        have hsc := List.getElem?_eq_getElem hlen
        have hr := h.scopes _ _ _ hms hsc k
        rw [hi] at hr
        cases hk : lookup s.scopes[ms.length] k with
        | none => rw [hk] at hr; exact absurd hr (by simp)
        | some b =>
          rw [hk] at hr
          have hr' : BindRel g.heap i b := hr
          rw [← hr'.1]; exact h.bind_lt hsc hk
      rcases hb.ordinary k with hk | ⟨hk, hms, hgo, hk'⟩
      · rw [hk]
        constructor
        · rintro ⟨h1, t, h2⟩
          exact ⟨h1, t, by rw [hold i (hlt i h1)]; exact h2⟩
        · rintro ⟨h1, t, h2⟩
          exact ⟨h1, t, by rw [hold i (hlt i h1)] at h2; exact h2⟩
      · rw [hk']
        have h0 : at? g.ordinary k = none := by rw [hk, hgo]; exact hm0
        rw [h0]
        constructor
        · rintro ⟨h1, _⟩; cases h1
        · rintro ⟨h1, t, h2⟩
          exfalso
          cases h1
          rw [hget] at h2
          exact hc ⟨hms, hk, t, Option.some.inj h2⟩
  · intro k i hk
    rcases hco k i hk with h1 | ⟨h1, h2, h3⟩
    · have h0 := h.consts k i h1
      rcases hb.ordinary k with hk' | ⟨hk', hms, hgo, _⟩
      · rw [hk']; exact h0
      · rw [hk', hgo, hm0] at h0; cases h0
    · rcases hb.ord with ⟨_, _, h4⟩ | ⟨h4, _⟩
      · rw [h4, hb.at_, if_pos h2, h3]
      · exact absurd h1 h4
  · intro y hy k i d t' hk
    rcases getLast_cons_put hy with ⟨hr, rfl⟩ | ⟨hr, hx'⟩
    · rw [lookup_put] at hk
      by_cases hkn : k = n
      · rw [if_pos hkn] at hk
        exact hfile hr _ _ _ _ (Option.some.inj hk)
      · rw [if_neg hkn] at hk
        exact h.noObj sc (by rw [hs, hr]; rfl) k i d t' hk
    · exact h.noObj y (by rw [hs]; exact hx') k i d t' hk
  · rw [hobj]; exact h.keysO
  · rw [hfun]; exact h.keysF
  · intro hstr k e0 hk y hy
    rcases getLast_cons_put hy with ⟨hr, rfl⟩ | ⟨hr, hx'⟩
    · have h0 := h.strict1 hstr k e0 hk sc (by rw [hs, hr]; rfl)
      rw [lookup_put]
      by_cases hkn : k = n
      · rw [hkn, hhere] at h0; cases h0
      · rw [if_neg hkn]; exact h0
    · exact h.strict1 hstr k e0 hk y (by rw [hs]; exact hx')
  · intro hstr i y k b hy hi hk
    cases i with
    | zero =>
      cases hy
      rw [lookup_put] at hk
      by_cases hkn : k = n
      · rw [if_pos hkn] at hk; cases hk; exact hl
      · rw [if_neg hkn] at hk
        exact h.strict2 hstr 0 sc k b (by rw [hs]; rfl) (by rw [hs]; exact hi) hk
    | succ i => exact h.strict2 hstr (i + 1) y k b (by rw [hs]; exact hy) (by rw [hs]; exact hi) hk

/-- A typedef name is given another type. -/
theorem Inv.typedefUpdate (h : Inv strict g (m :: ms) s) (hs : s.scopes = sc :: rest) {n : N} {id : Nat} {t t' : T}
    (hhere : lookup sc n = some (.typedefName id t))
    (hheap : g'.heap = g.heap.set id (.typedefName t'))
    (hobj : g'.objects = g.objects) (hfun : g'.functions = g.functions)
    (hty : g'.types = g.types) (hco : g'.constants = g.constants) (hor : g'.ordinary = g.ordinary) :
    Inv strict g' (m :: ms) ⟨s.next, put sc n (.typedefName id t') :: rest, s.linked⟩ := by
  have h0 : s.scopes[0]? = some sc := by rw [hs]; rfl
  have hsc0 := h.scopes 0 m sc rfl h0
  have hlt : id < g.heap.length := h.bind_lt h0 hhere
  have hget : g'.heap[id]? = some (.typedefName t') := by rw [hheap]; simp [hlt]
  have hwas : g.heap[id]? = some (.typedefName t) := by
    obtain ⟨_, _, hr⟩ := hsc0.some_of hhere
    obtain ⟨x, hx, hxr⟩ := hr rfl
    have hx' : g.heap[id]? = some x := hx
    rw [hx']
    cases x <;> simp [Entry.ref, Ref.id] at hxr
    rw [hxr]
  have hold : ∀ i : Nat, i ≠ id → g'.heap[i]? = g.heap[i]? := fun i hi => by
    rw [hheap, List.getElem?_set_ne (Ne.symm hi)]
  have hT : ∀ (i : Nat), (∃ t, g'.heap[i]? = some (.typedefName t)) ↔ (∃ t, g.heap[i]? = some (.typedefName t)) := by
    intro i
    by_cases hi : i = id
    · rw [hi, hget, hwas]; exact ⟨fun _ => ⟨_, rfl⟩, fun _ => ⟨_, rfl⟩⟩
    · rw [hold i hi]
  -- the only binding with this number is the one at hand
  have hmono : ∀ (i : Nat) (mi : List (N × Nat)) (sci : List (N × Ref T)), (m :: ms)[i]? = some mi →
      s.scopes[i]? = some sci → ∀ k j b, at? mi k = some j → lookup sci k = some b → (i = 0 → k ≠ n) →
      BindRel g'.heap j b := by
    intro i mi sci hmi hsci k j b hj hb hk
    obtain ⟨h1, hr⟩ := (h.scopes i mi sci hmi hsci).some_of hb
    rw [h1] at hj; cases hj
    refine ⟨rfl, fun hl => ?_⟩
    obtain ⟨x, hx, hxr⟩ := hr.2 hl
    refine ⟨x, ?_, hxr⟩
    rw [hold _ ?_]; exact hx
    intro hbi
    rw [hbi, hwas] at hx; cases hx
    have hb2 : b = .typedefName id t := by rw [← hxr, hbi]; rfl
    rw [hb2] at hb
    obtain ⟨hi, hkn⟩ := h.td i 0 sci sc k n id t t hsci h0 hb hhere
    exact hk hi hkn
  refine ⟨?_, ?_, ?_, ?_, ?_, ?_, ?_, ?_, ?_, ?_, ?_, ?_, ?_, ?_, ?_, ?_⟩
  · rw [hheap]; simp [h.next]
  · rw [hor]; exact h.last
  · have := h.len; rw [hs] at this; simpa using this
  · intro i mi sci hmi hsci
    cases i with
    | zero =>
      cases hmi; cases hsci
      intro k
      rw [lookup_put]
      by_cases hk : k = n
      · rw [if_pos hk, hk, (hsc0.some_of hhere).1]
        exact ⟨rfl, fun _ => ⟨_, hget, rfl⟩⟩
      · rw [if_neg hk]
        have hr := hsc0 k
        cases hm : at? m k <;> cases hk' : lookup sc k <;> rw [hm, hk'] at hr <;> try exact hr
        exact hmono 0 m sc rfl h0 k _ _ hm hk' (fun _ => hk)
    | succ i =>
      have hsci' : s.scopes[i + 1]? = some sci := by rw [hs]; exact hsci
      exact (h.scopes (i + 1) mi sci hmi hsci').mono
        (fun k j b hj hb _ => hmono (i + 1) mi sci hmi hsci' k j b hj hb (fun hx => absurd hx (by omega)))
  · intro k
    show LinkRel g' k (lookup s.linked k)
    cases hk : lookup s.linked k with
    | none => exact ⟨by rw [hobj]; exact (h.linkedNone hk).1, by rw [hfun]; exact (h.linkedNone hk).2⟩
    | some e0 =>
      refine ⟨by rw [hobj]; exact (h.linkedSome hk).1, by rw [hfun]; exact (h.linkedSome hk).2.1, ?_⟩
      rw [hold _ (fun hx => h.bind_ne h0 hhere rfl hk hx.symm)]; exact (h.linkedSome hk).2.2
  · exact h.inj
  · exact h.real
  · intro i sci k b hsci hb' hbl
    cases i with
    | zero =>
      cases hsci
      rw [lookup_put] at hb'
      by_cases hk : k = n
      · rw [if_pos hk] at hb'; cases hb'; exact absurd rfl hbl
      · rw [if_neg hk] at hb'; exact h.bound 0 sc k b h0 hb' hbl
    | succ i => exact h.bound (i + 1) sci k b (by rw [hs]; exact hsci) hb' hbl
  · have key : ∀ (i : Nat) (y : List (N × Ref T)) (k : N) (j : Nat) (t1 : T),
        (put sc n (.typedefName id t') :: rest)[i]? = some y → lookup y k = some (.typedefName j t1) →
        ∃ y t2, s.scopes[i]? = some y ∧ lookup y k = some (.typedefName j t2) := by
      intro i y k j t1 hy hk
      cases i with
      | zero =>
        cases hy
        rw [lookup_put] at hk
        by_cases hkn : k = n
        · rw [if_pos hkn] at hk; cases hk; exact ⟨sc, t, h0, by rw [hkn]; exact hhere⟩
        · rw [if_neg hkn] at hk; exact ⟨sc, t1, h0, hk⟩
      | succ i => exact ⟨y, t1, by rw [hs]; exact hy, hk⟩
    intro i j y z k k' id t1 t2 hy hz hk hk'
    obtain ⟨y', t1', hy', hky⟩ := key i y k id t1 hy hk
    obtain ⟨z', t2', hz', hkz⟩ := key j z k' id t2 hz hk'
    exact h.td i j y' z' k k' id t1' t2' hy' hz' hky hkz
  · intro k i
    rw [hty, hor, h.types, hT]
  · intro k i hk
    rw [hco] at hk; rw [hor]; exact h.consts k i hk
  · intro y hy k i d t1 hk
    rcases getLast_cons_put hy with ⟨hr, rfl⟩ | ⟨hr, hx'⟩
    · rw [lookup_put] at hk
      by_cases hkn : k = n
      · rw [if_pos hkn] at hk; cases hk
      · rw [if_neg hkn] at hk
        exact h.noObj sc (by rw [hs, hr]; rfl) k i d t1 hk
    · exact h.noObj y (by rw [hs]; exact hx') k i d t1 hk
  · rw [hobj]; exact h.keysO
  · rw [hfun]; exact h.keysF
  · intro hstr k e0 hk y hy
    rcases getLast_cons_put hy with ⟨hr, rfl⟩ | ⟨hr, hx'⟩
    · have h1 := h.strict1 hstr k e0 hk sc (by rw [hs, hr]; rfl)
      rw [lookup_put]
      by_cases hkn : k = n
      · rw [hkn, hhere] at h1
        have := Option.some.inj h1
        unfold Linked.ref at this; split at this <;> cases this
      · rw [if_neg hkn]; exact h1
    · exact h.strict1 hstr k e0 hk y (by rw [hs]; exact hx')
  · intro hstr i y k b hy hi hk
    cases i with
    | zero =>
      cases hy
      rw [lookup_put] at hk
      by_cases hkn : k = n
      · rw [if_pos hkn] at hk; cases hk; rfl
      · rw [if_neg hkn] at hk
        exact h.strict2 hstr 0 sc k b h0 (by rw [hs]; exact hi) hk
    | succ i => exact h.strict2 hstr (i + 1) y k b (by rw [hs]; exact hy) (by rw [hs]; exact hi) hk

end

/-! ### opening and closing scopes -/

section
variable {strict : Bool} {g g' : Global N T} {m : List (N × Nat)} {ms : List (List (N × Nat))} {s : State N T}
  {sc : List (N × Ref T)} {rest : List (List (N × Ref T))}

/-- Put a scope of unlinked objects and constants on top. -/
theorem Inv.push (h : Inv strict g ms s) (hm : ScopeRel g.heap m sc)
    (hsc : ∀ n b, lookup sc n = some b → b.linkage = .none ∧ ∀ i t, b ≠ .typedefName i t) :
    Inv strict g (m :: ms) { s with scopes := sc :: s.scopes } := by
  have hne : s.scopes ≠ [] := by
    intro hx
    have h1 := h.last; have h2 := h.len
    rw [hx] at h2
    cases ms with
    | nil => cases h1
    | cons a t => simp at h2
  have hlast : ∀ x, (sc :: s.scopes).getLast? = some x → s.scopes.getLast? = some x := by
    intro x hx
    cases hs : s.scopes with
    | nil => exact absurd hs hne
    | cons a t => rw [hs] at hx; rw [← hx]; rfl
  refine ⟨h.next, ?_, ?_, ?_, h.linked, h.inj, h.real, ?_, ?_, h.types, h.consts, ?_, h.keysO, h.keysF, ?_, ?_⟩
  · cases ms with
    | nil => cases h.last
    | cons a t => rw [← h.last]; rfl
  · simp [h.len]
  · intro i mi sci hmi hsci
    cases i with
    | zero => cases hmi; cases hsci; exact hm
    | succ i => exact h.scopes i mi sci hmi hsci
  · intro i sci n b hsci hb hl
    cases i with
    | zero => cases hsci; exact absurd (hsc n b hb).1 hl
    | succ i => exact h.bound i sci n b hsci hb hl
  · intro i j x y n n' id t t' hx hy hn hn'
    cases i with
    | zero => cases hx; exact absurd rfl ((hsc n _ hn).2 id t)
    | succ i =>
      cases j with
      | zero => cases hy; exact absurd rfl ((hsc n' _ hn').2 id t')
      | succ j =>
        obtain ⟨h1, h2⟩ := h.td i j x y n n' id t t' hx hy hn hn'
        exact ⟨by rw [h1], h2⟩
  · intro x hx; exact h.noObj x (hlast x hx)
  · intro hstr n e hn x hx; exact h.strict1 hstr n e hn x (hlast x hx)
  · intro hstr i x n b hx hi hn
    cases i with
    | zero => cases hx; exact (hsc n b hn).1
    | succ i => exact h.strict2 hstr i x n b hx (by simpa using hi) hn

/-- Drop the innermost scope. -/
theorem Inv.pop (h : Inv strict g (m :: ms) s) (hs : s.scopes = sc :: rest) (hne : ms ≠ []) :
    Inv strict g ms { s with scopes := rest } := by
  have hlen := h.len
  rw [hs] at hlen
  have hrest : rest ≠ [] := by
    intro hx; rw [hx] at hlen
    cases ms with
    | nil => exact hne rfl
    | cons a t => simp at hlen
  have hlast : ∀ x, rest.getLast? = some x → s.scopes.getLast? = some x := by
    intro x hx
    rw [hs]
    cases rest with
    | nil => exact absurd rfl hrest
    | cons a t => rw [← hx]; rfl
  have hup : ∀ (i : Nat) (x : List (N × Ref T)), rest[i]? = some x → s.scopes[i + 1]? = some x := by
    intro i x hx; rw [hs]; exact hx
  refine ⟨h.next, ?_, ?_, ?_, h.linked, h.inj, h.real, ?_, ?_, h.types, h.consts, ?_, h.keysO, h.keysF, ?_, ?_⟩
  · cases ms with
    | nil => exact absurd rfl hne
    | cons a t => rw [← h.last]; rfl
  · simpa using hlen
  · intro i mi sci hmi hsci; exact h.scopes (i + 1) mi sci hmi (hup i sci hsci)
  · intro i sci n b hsci hb hl; exact h.bound (i + 1) sci n b (hup i sci hsci) hb hl
  · intro i j x y n n' id t t' hx hy hn hn'
    obtain ⟨h1, h2⟩ := h.td (i + 1) (j + 1) x y n n' id t t' (hup i x hx) (hup j y hy) hn hn'
    exact ⟨by omega, h2⟩
  · intro x hx; exact h.noObj x (hlast x hx)
  · intro hstr n e hn x hx; exact h.strict1 hstr n e hn x (hlast x hx)
  · intro hstr i x n b hx hi hn
    exact h.strict2 hstr (i + 1) x n b (hup i x hx) (by rw [hs]; simpa using hi) hn
end

end Kefir.Decl
