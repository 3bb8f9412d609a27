import Verif.Decl.Run

/-!
# Symbols of a translation unit
-/

namespace Kefir.Decl

open Model (Entry Class Global Local Ctx at? Symbols symbols objectSymbols functionSymbols)

variable {N T : Type} [DecidableEq N]

/-- Everything kefir emits as a global symbol. -/
def emitted (s : State N T) (n : N) : Prop :=
  ∃ e, lookup s.linked n = some e ∧ e.linkage = .external ∧
    (if e.isFunction then e.status = .defined else e.status ≠ .declared)

section
variable {strict : Bool} {g : Global N T} {ms : List (List (N × Nat))} {s : State N T}

theorem Inv.of_object (h : Inv strict g ms s) {n : N} {id : Nat} (hm : (n, id) ∈ g.objects) :
    ∃ e, lookup s.linked n = some e ∧ e.isFunction = false ∧ e.id = id ∧ g.heap[id]? = some (entryOf e) := by
  have ha := mem_at? h.keysO hm
  have hl := h.linked n
  cases he : lookup s.linked n with
  | none => rw [he] at hl; rw [hl.1] at ha; cases ha
  | some e =>
    rw [he] at hl
    obtain ⟨h1, _, h3⟩ := hl
    cases hf : e.isFunction with
    | true => rw [hf] at h1; simp at h1; rw [h1] at ha; cases ha
    | false =>
      rw [hf] at h1; simp at h1; rw [h1] at ha; cases ha
      exact ⟨e, rfl, hf, rfl, h3⟩

theorem Inv.of_function (h : Inv strict g ms s) {n : N} {id : Nat} (hm : (n, id) ∈ g.functions) :
    ∃ e, lookup s.linked n = some e ∧ e.isFunction = true ∧ e.id = id ∧ g.heap[id]? = some (entryOf e) := by
  have ha := mem_at? h.keysF hm
  have hl := h.linked n
  cases he : lookup s.linked n with
  | none => rw [he] at hl; rw [hl.2] at ha; cases ha
  | some e =>
    rw [he] at hl
    obtain ⟨_, h2, h3⟩ := hl
    cases hf : e.isFunction with
    | false => rw [hf] at h2; simp at h2; rw [h2] at ha; cases ha
    | true =>
      rw [hf] at h2; simp at h2; rw [h2] at ha; cases ha
      exact ⟨e, rfl, hf, rfl, h3⟩

theorem objectSymbols_eq (n : N) (id : Nat) {e : Linked T} (hf : e.isFunction = false) (hl : e.linkage ≠ .none)
    (hg : g.heap[id]? = some (entryOf e)) :
    objectSymbols g (n, id) =
      if e.linkage = .external then (if e.status = .declared then ⟨[], [n]⟩ else ⟨[n], []⟩) else ⟨[], []⟩ := by
  obtain ⟨i, fn, l, th, st, io, t⟩ := e
  simp only at hf; subst hf
  unfold objectSymbols
  dsimp only
  rw [hg]
  cases l <;> cases th <;> cases st <;> simp_all [entryOf, storageFor]

theorem functionSymbols_eq (n : N) (id : Nat) {e : Linked T} (hf : e.isFunction = true) (hl : e.linkage ≠ .none)
    (hg : g.heap[id]? = some (entryOf e)) :
    functionSymbols g (n, id) =
      if e.linkage = .external then (if e.status = .defined then ⟨[n], []⟩ else ⟨[], [n]⟩) else ⟨[], []⟩ := by
  obtain ⟨i, fn, l, th, st, io, t⟩ := e
  simp only at hf; subst hf
  unfold functionSymbols
  dsimp only
  rw [hg]
  cases l <;> cases st <;> simp_all [entryOf]

/-- Each table contributes the names with a certain property, each at most once. -/
theorem nodup_parts (l : List (N × Nat)) (f : N × Nat → List N) (hk : (l.map Prod.fst).Nodup)
    (hf : ∀ p ∈ l, f p = [] ∨ f p = [p.1]) : ((l.map f).flatten).Nodup := by
  induction l with
  | nil => simp
  | cons p r ih =>
    simp only [List.map_cons, List.nodup_cons] at hk
    have ih' := ih hk.2 (fun q hq => hf q (List.mem_cons_of_mem _ hq))
    simp only [List.map_cons, List.flatten_cons]
    rcases hf p List.mem_cons_self with h | h
    · rw [h]; simpa using ih'
    · rw [h]
      refine List.nodup_cons.mpr ⟨?_, by simpa using ih'⟩
      intro hc
      obtain ⟨x, hx, hmem⟩ := List.mem_flatten.mp hc
      obtain ⟨q, hq, rfl⟩ := List.mem_map.mp hx
      rcases hf q (List.mem_cons_of_mem _ hq) with h' | h'
      · rw [h'] at hmem; cases hmem
      · rw [h'] at hmem
        simp only [List.mem_singleton] at hmem
        exact hk.1 (List.mem_map.mpr ⟨q, hq, hmem.symm⟩)

theorem objectSymbols_form (p : N × Nat) :
    ((objectSymbols g p).globals = [] ∨ (objectSymbols g p).globals = [p.1]) ∧
    ((objectSymbols g p).externals = [] ∨ (objectSymbols g p).externals = [p.1]) := by
  unfold objectSymbols
  split
  · split
    all_goals first | (split <;> simp) | simp
  · simp

theorem functionSymbols_form (p : N × Nat) :
    ((functionSymbols g p).globals = [] ∨ (functionSymbols g p).globals = [p.1]) ∧
    ((functionSymbols g p).externals = [] ∨ (functionSymbols g p).externals = [p.1]) := by
  unfold functionSymbols
  split
  · split
    all_goals first | (split <;> simp) | simp
  · simp

theorem mem_symbols (sel : Symbols N → List N) (n : N)
    (hsel : ∀ p, (n ∈ sel (objectSymbols g p) → n = p.1) ∧ (n ∈ sel (functionSymbols g p) → n = p.1)) :
    n ∈ ((g.objects.map (objectSymbols g) ++ g.functions.map (functionSymbols g)).map sel).flatten ↔
      (∃ id, (n, id) ∈ g.objects ∧ n ∈ sel (objectSymbols g (n, id))) ∨
      (∃ id, (n, id) ∈ g.functions ∧ n ∈ sel (functionSymbols g (n, id))) := by
  simp only [List.mem_flatten, List.mem_map, List.mem_append]
  constructor
  · rintro ⟨x, ⟨y, hy, rfl⟩, hx⟩
    rcases hy with ⟨q, hq, rfl⟩ | ⟨q, hq, rfl⟩
    · obtain ⟨m, id⟩ := q
      have := (hsel (m, id)).1 hx; subst this
      exact .inl ⟨id, hq, hx⟩
    · obtain ⟨m, id⟩ := q
      have := (hsel (m, id)).2 hx; subst this
      exact .inr ⟨id, hq, hx⟩
  · rintro (⟨id, h1, h2⟩ | ⟨id, h1, h2⟩)
    · exact ⟨_, ⟨_, .inl ⟨_, h1, rfl⟩, rfl⟩, h2⟩
    · exact ⟨_, ⟨_, .inr ⟨_, h1, rfl⟩, rfl⟩, h2⟩

theorem Inv.table (h : Inv strict g ms s) {n : N} {e : Linked T} (he : lookup s.linked n = some e) :
    (n, e.id) ∈ (if e.isFunction then g.functions else g.objects) ∧ g.heap[e.id]? = some (entryOf e) ∧
      e.linkage ≠ .none := by
  have hl := h.linked n
  rw [he] at hl
  obtain ⟨h1, h2, h3⟩ := hl
  refine ⟨?_, h3, (h.real n e he).1⟩
  cases hf : e.isFunction with
  | true => rw [hf] at h2; simp at h2; simpa using at?_mem h2
  | false => rw [hf] at h1; simp at h1; simpa using at?_mem h1

theorem Inv.globals (h : Inv strict g ms s) (n : N) : n ∈ (symbols g).globals ↔ emitted s n := by
  have hsel : ∀ p, (n ∈ Symbols.globals (objectSymbols g p) → n = p.1) ∧
      (n ∈ Symbols.globals (functionSymbols g p) → n = p.1) := by
    intro p
    refine ⟨fun hx => ?_, fun hx => ?_⟩
    · rcases (objectSymbols_form (g := g) p).1 with h' | h' <;> rw [h'] at hx <;> simpa using hx
    · rcases (functionSymbols_form (g := g) p).1 with h' | h' <;> rw [h'] at hx <;> simpa using hx
  show n ∈ ((g.objects.map (objectSymbols g) ++ g.functions.map (functionSymbols g)).map Symbols.globals).flatten ↔ _
  rw [mem_symbols Symbols.globals n hsel]
  constructor
  · rintro (⟨id, h1, h2⟩ | ⟨id, h1, h2⟩)
    · obtain ⟨e, he, hf, rfl, hg⟩ := h.of_object h1
      rw [objectSymbols_eq n e.id hf (h.real n e he).1 hg] at h2
      refine ⟨e, he, ?_⟩
      rw [hf]
      by_cases hx : e.linkage = .external
      · rw [if_pos hx] at h2
        by_cases hd : e.status = .declared
        · rw [if_pos hd] at h2; cases h2
        · exact ⟨hx, by simpa using hd⟩
      · rw [if_neg hx] at h2; cases h2
    · obtain ⟨e, he, hf, rfl, hg⟩ := h.of_function h1
      rw [functionSymbols_eq n e.id hf (h.real n e he).1 hg] at h2
      refine ⟨e, he, ?_⟩
      rw [hf]
      by_cases hx : e.linkage = .external
      · rw [if_pos hx] at h2
        by_cases hd : e.status = .defined
        · exact ⟨hx, by simpa using hd⟩
        · rw [if_neg hd] at h2; cases h2
      · rw [if_neg hx] at h2; cases h2
  · rintro ⟨e, he, hx, hd⟩
    obtain ⟨hm, hg, hl⟩ := h.table he
    cases hf : e.isFunction with
    | true =>
      rw [hf] at hm hd
      refine .inr ⟨e.id, by simpa using hm, ?_⟩
      rw [functionSymbols_eq n e.id hf hl hg, if_pos hx, if_pos (by simpa using hd)]; simp
    | false =>
      rw [hf] at hm hd
      refine .inl ⟨e.id, by simpa using hm, ?_⟩
      rw [objectSymbols_eq n e.id hf hl hg, if_pos hx, if_neg (by simpa using hd)]; simp

theorem Inv.externals (h : Inv strict g ms s) (n : N) : n ∈ (symbols g).externals ↔ s.requires n := by
  have hsel : ∀ p, (n ∈ Symbols.externals (objectSymbols g p) → n = p.1) ∧
      (n ∈ Symbols.externals (functionSymbols g p) → n = p.1) := by
    intro p
    refine ⟨fun hx => ?_, fun hx => ?_⟩
    · rcases (objectSymbols_form (g := g) p).2 with h' | h' <;> rw [h'] at hx <;> simpa using hx
    · rcases (functionSymbols_form (g := g) p).2 with h' | h' <;> rw [h'] at hx <;> simpa using hx
  show n ∈ ((g.objects.map (objectSymbols g) ++ g.functions.map (functionSymbols g)).map Symbols.externals).flatten ↔ _
  rw [mem_symbols Symbols.externals n hsel]
  constructor
  · rintro (⟨id, h1, h2⟩ | ⟨id, h1, h2⟩)
    · obtain ⟨e, he, hf, rfl, hg⟩ := h.of_object h1
      rw [objectSymbols_eq n e.id hf (h.real n e he).1 hg] at h2
      refine ⟨e, he, ?_⟩
      by_cases hx : e.linkage = .external
      · rw [if_pos hx] at h2
        by_cases hd : e.status = .declared
        · exact ⟨hx, hd⟩
        · rw [if_neg hd] at h2; cases h2
      · rw [if_neg hx] at h2; cases h2
    · obtain ⟨e, he, hf, rfl, hg⟩ := h.of_function h1
      rw [functionSymbols_eq n e.id hf (h.real n e he).1 hg] at h2
      refine ⟨e, he, ?_⟩
      have hnt := ((h.real n e he).2 hf).2
      by_cases hx : e.linkage = .external
      · rw [if_pos hx] at h2
        by_cases hd : e.status = .defined
        · rw [if_pos hd] at h2; cases h2
        · refine ⟨hx, ?_⟩
          cases hs : e.status <;> simp_all
      · rw [if_neg hx] at h2; cases h2
  · rintro ⟨e, he, hx, hd⟩
    obtain ⟨hm, hg, hl⟩ := h.table he
    cases hf : e.isFunction with
    | true =>
      rw [hf] at hm
      refine .inr ⟨e.id, by simpa using hm, ?_⟩
      rw [functionSymbols_eq n e.id hf hl hg, if_pos hx, if_neg (by rw [hd]; simp)]; simp
    | false =>
      rw [hf] at hm
      refine .inl ⟨e.id, by simpa using hm, ?_⟩
      rw [objectSymbols_eq n e.id hf hl hg, if_pos hx, if_pos hd]; simp

theorem Inv.nodup (h : Inv strict g ms s) : (symbols g).globals.Nodup ∧ (symbols g).externals.Nodup := by
  have disj : ∀ n id id', (n, id) ∈ g.objects → (n, id') ∈ g.functions → False := by
    intro n id id' h1 h2
    obtain ⟨e, he, hf, _⟩ := h.of_object h1
    obtain ⟨e', he', hf', _⟩ := h.of_function h2
    rw [he] at he'; cases he'; rw [hf] at hf'; cases hf'
  have key : ∀ (sel : Symbols N → List N),
      (∀ p, sel (objectSymbols g p) = [] ∨ sel (objectSymbols g p) = [p.1]) →
      (∀ p, sel (functionSymbols g p) = [] ∨ sel (functionSymbols g p) = [p.1]) →
      ((g.objects.map (objectSymbols g) ++ g.functions.map (functionSymbols g)).map sel).flatten.Nodup := by
    intro sel ho hf
    rw [List.map_append, List.flatten_append, List.map_map, List.map_map]
    refine List.nodup_append.mpr ⟨nodup_parts _ _ h.keysO (fun p _ => ho p), nodup_parts _ _ h.keysF (fun p _ => hf p), ?_⟩
    intro a ha b hb hab
    subst hab
    obtain ⟨x, hx, hax⟩ := List.mem_flatten.mp ha
    obtain ⟨p, hp, rfl⟩ := List.mem_map.mp hx
    obtain ⟨y, hy, hay⟩ := List.mem_flatten.mp hb
    obtain ⟨q, hq, rfl⟩ := List.mem_map.mp hy
    have e1 : a = p.1 := by
      rcases ho p with h' | h' <;> simp only [Function.comp, h'] at hax <;> simpa using hax
    have e2 : a = q.1 := by
      rcases hf q with h' | h' <;> simp only [Function.comp, h'] at hay <;> simpa using hay
    obtain ⟨p1, p2⟩ := p
    obtain ⟨q1, q2⟩ := q
    simp only at e1 e2; subst e1; subst e2
    exact disj _ _ _ hp hq
  exact ⟨key Symbols.globals (fun p => (objectSymbols_form p).1) (fun p => (functionSymbols_form p).1),
    key Symbols.externals (fun p => (objectSymbols_form p).2) (fun p => (functionSymbols_form p).2)⟩

end

end Kefir.Decl
