import Verif.Decl.File
import Verif.Decl.Covered

/-!
# Declarations at file scope, function by function
-/

namespace Kefir.Decl

open Model (Entry Class Global at?)

variable {N T : Type} [DecidableEq N]

theorem entryOf_object {e : Linked T} (h : e.isFunction = false) :
    entryOf e = .object e.type (storageFor e.linkage e.thread) e.linkage
      (e.linkage == .external && e.status == .declared) (e.status == .defined) := by
  unfold entryOf; rw [h]; rfl

theorem entryOf_function {e : Linked T} (h : e.isFunction = true) :
    entryOf e = .function e.type (if e.linkage = .internal then .static else .extern)
      (e.linkage == .external && e.status != .defined) (e.status == .defined) := by
  unfold entryOf; rw [h]; rfl

section
variable {strict : Bool} {g : Global N T} {s : State N T} {sc : List (N × Ref T)}

theorem sim_declareExternal (h : Inv strict g [g.ordinary] s) (hs : s.scopes = [sc]) (ty : Types T)
    (l : Linkage) (d : Declaration N T) (hf : ty.isFunction d.type = false) (hi : d.init = none)
    (he : d.storage.isExtern = true) (hl0 : l ≠ .none) (hl : lookup s.linked d.name = none → l = .external) :
    SimG strict g (declareLinked ty true false l s d)
      (g.declareExternal ty (storageFor .external d.storage.thread) (storageFor .internal d.storage.thread)
        d.name d.type) := by
  have hstat : statusOf (ty.isFunction d.type) false d = .declared := by
    unfold statusOf; rw [hf, hi, he]; rfl
  refine fileLinked h hs ty false l d (table := g.objects) (by rw [hf]; rfl) (fun id =>
      match g.heap[id]? with
      | some (.object t₀ st l' ext ini) =>
        if !(st = storageFor .external d.storage.thread || st = storageFor .internal d.storage.thread) then none
        else if !ty.compatible t₀ d.type then none
        else some ((g.write id (.object (ty.composite t₀ d.type) st l' ext ini)).insertOrdinary d.name id, id)
      | _ => none) 
      (match Model.insert g.objects d.name g.heap.length with
      | some objects =>
        some (Global.insertOrdinary { g with
          heap := g.heap ++ [.object d.type (storageFor .external d.storage.thread) .external true false], objects }
            d.name g.heap.length, g.heap.length)
      | none => none) ?_ (by rw [hf]; simp) ?_ hl0 ?_
  · rw [hf]; rfl
  · intro e hle hel hef hbad hvm
    have hreal := (h.real _ _ hle).1
    rw [hf] at hef
    rw [(h.linkedSome hle).2.2, entryOf_object hef]
    dsimp only
    rw [hstat]
    have hst : (!(decide (storageFor e.linkage e.thread = storageFor .external d.storage.thread) ||
        decide (storageFor e.linkage e.thread = storageFor .internal d.storage.thread))) = true ↔
        e.thread ≠ d.storage.thread := by
      cases hx : e.linkage <;> simp [storageFor_inj, hx] at hreal ⊢
    by_cases hth : e.thread = d.storage.thread
    · have c1 : ¬ (e.thread ≠ d.storage.thread) := fun hx => hx hth
      have c2 : ¬ (e.status = .defined ∧ Status.declared = .defined) := fun hx => by cases hx.2
      rw [if_neg (mt hst.mp c1), if_neg c1, if_neg c2]
      cases ty.compatible e.type d.type with
      | false => rfl
      | true =>
        rw [entryOf_object (e := again ty true false e d) (by exact hef)]
        cases hse : e.status <;> simp [again, hstat, hi, complete, Status.join, hse]
    · have c1 : e.thread ≠ d.storage.thread := hth
      rw [if_pos (hst.mpr c1), if_pos c1]
  · intro hn hh hbad ht
    rw [insert_new ht, ← h.next]
    refine ⟨_, rfl, ?_, ?_, ?_, rfl, rfl, rfl⟩
    · rw [entryOf_object (by exact hf)]
      have hl' : l = .external := hl hn
      subst hl'
      simp [fresh, hstat, hi, complete]
    · rw [hf]; rfl
    · rw [hf]; rfl

/-- What `applyInit` makes of an object that was just written. -/
theorem applyInit_eq (g₁ : Global N T) (n : N) (id : Nat) (t t₁ : T) (st : Storage) (l : Linkage) (ext ini : Bool)
    (init : Option (T → T)) (g₂ : Global N T) (hg : g₁.heap[id]? = some (.object t₁ st l ext ini))
    (hg2 : g₂ = g₁.write id
      (.object (match init with | some f => f t | none => t₁) st l ext (init.isSome || ini))) :
    (g₁.insertOrdinary n id).applyInit id t init = some (g₂.insertOrdinary n id, id) := by
  subst hg2
  unfold Global.applyInit
  rw [(insertOrdinary_fields g₁ n id).1, hg]
  have hself : g₁.heap.set id (.object t₁ st l ext ini) = g₁.heap := by
    obtain ⟨hlt, heq⟩ := List.getElem?_eq_some_iff.mp hg
    rw [← heq]; exact List.set_getElem_self hlt
  cases init with
  | none =>
    simp only [Option.isSome_none, Bool.false_or]
    unfold Global.write; rw [hself]
  | some f =>
    simp only [Option.isSome_some, Bool.true_or]
    unfold Global.write Global.insertOrdinary
    dsimp only
    cases at? g₁.ordinary n <;> rfl

theorem write_write (g₁ : Global N T) (id : Nat) (a b : Entry T) : (g₁.write id a).write id b = g₁.write id b := by
  unfold Global.write; simp

theorem write_get {g₁ : Global N T} {id : Nat} (h : id < g₁.heap.length) (x : Entry T) :
    (g₁.write id x).heap[id]? = some x := by
  unfold Global.write; simp [h]

theorem append_get (l : List (Entry T)) (x : Entry T) : (l ++ [x])[l.length]? = some x := by simp

theorem sim_defineExternal (h : Inv strict g [g.ordinary] s) (hs : s.scopes = [sc]) (ty : Types T)
    (l : Linkage) (d : Declaration N T) (hf : ty.isFunction d.type = false)
    (he : d.init = none → d.storage.isExtern = false) (hl0 : l ≠ .none)
    (hl : lookup s.linked d.name = none → l = .external)
    (hl' : ∀ e, lookup s.linked d.name = some e → e.linkage = l → l = .external)
    (hj : ∀ e, lookup s.linked d.name = some e → d.init.isSome = true →
      complete d.init d.type = complete d.init (ty.composite e.type d.type)) :
    SimG strict g (declareLinked ty true false l s d)
      (g.defineExternal ty (storageFor .external d.storage.thread) d.name d.type d.init) := by
  have hstat : statusOf (ty.isFunction d.type) false d = if d.init.isSome then .defined else .tentative := by
    unfold statusOf; rw [hf]
    cases hi : d.init with
    | none => rw [he hi]; rfl
    | some f => rfl
  refine fileLinked h hs ty false l d (table := g.objects) (by rw [hf]; rfl) (fun id =>
      match g.heap[id]? with
      | some (.object t₀ st l' _ ini) =>
        if st ≠ storageFor .external d.storage.thread then none
        else if !ty.compatible t₀ d.type then none
        else if d.init.isSome && ini then none
        else ((g.write id (.object (ty.composite t₀ d.type) st l' false ini)).insertOrdinary d.name id).applyInit
          id d.type d.init
      | _ => none)
      (match Model.insert g.objects d.name g.heap.length with
      | some objects =>
        (Global.insertOrdinary { g with
          heap := g.heap ++ [.object d.type (storageFor .external d.storage.thread) .external false d.init.isSome],
          objects } d.name g.heap.length).applyInit g.heap.length d.type d.init
      | none => none) ?_ (by rw [hf]; simp) ?_ hl0 ?_
  · rw [hf]; rfl
  · intro e hle hel hef hbad hvm
    have hreal := (h.real _ _ hle).1
    have hle' : l = .external := hl' e hle hel
    subst hle'
    rw [hf] at hef
    rw [(h.linkedSome hle).2.2, entryOf_object hef]
    dsimp only
    have hst : storageFor e.linkage e.thread ≠ storageFor .external d.storage.thread ↔
        e.thread ≠ d.storage.thread := by
      rw [hel, Ne, storageFor_inj _ _ _ _ (by simp) (by simp)]; simp
    by_cases hth : e.thread = d.storage.thread
    · have c1 : ¬ (e.thread ≠ d.storage.thread) := fun hx => hx hth
      rw [if_neg (mt hst.mp c1), if_neg c1]
      cases ty.compatible e.type d.type with
      | false => rfl
      | true =>
        simp only [Bool.not_true, Bool.false_eq_true, if_false]
        rw [hstat]
        have hc : (d.init.isSome && e.status == .defined) = true ↔
            (e.status = .defined ∧ (if d.init.isSome = true then Status.defined else .tentative) = .defined) := by
          cases d.init <;> cases e.status <;> simp
        by_cases hd : (d.init.isSome && e.status == .defined) = true
        · rw [if_pos hd, if_pos (hc.mp hd)]
        · rw [if_neg hd, if_neg (mt hc.mpr hd)]
          refine applyInit_eq _ _ _ _ _ _ _ _ _ _ _ (write_get (h.linked_lt hle) _) ?_
          rw [write_write, entryOf_object (e := again ty true false e d) (by exact hef)]
          have hj' := hj e hle
          congr 1
          simp only [again, hstat, hel]
          cases hi : d.init with
          | none => cases e.status <;> simp [complete, Status.join] <;> rfl
          | some f =>
            rw [hi] at hj' 
            have := hj' rfl
            simp only [complete] at this
            cases e.status <;> simp [complete, Status.join, this]
    · have c1 : e.thread ≠ d.storage.thread := hth
      rw [if_pos (hst.mpr c1), if_pos c1]
  · intro hn hh hbad ht
    have hl1 : l = .external := hl hn
    subst hl1
    rw [insert_new ht, ← h.next]
    refine ⟨_, applyInit_eq _ _ _ _ _ _ _ _ _ _ _ (append_get _ _) rfl, ?_, ?_, ?_, rfl, rfl, rfl⟩
    · rw [entryOf_object (by exact hf)]
      simp only [fresh, hstat, Global.write, h.next]
      cases hi : d.init <;> simp [complete, ← h.next]
    · rw [hf]; rfl
    · rw [hf]; rfl

theorem sim_defineStatic (h : Inv strict g [g.ordinary] s) (hs : s.scopes = [sc]) (ty : Types T)
    (d : Declaration N T) (hf : ty.isFunction d.type = false) (he : d.storage.isStatic = true)
    (hj : ∀ e, lookup s.linked d.name = some e → d.init.isSome = true →
      complete d.init d.type = complete d.init (ty.composite e.type d.type)) :
    SimG strict g (declareLinked ty true false .internal s d)
      (g.defineStatic ty (storageFor .internal d.storage.thread) d.name d.type d.init) := by
  have hstat : statusOf (ty.isFunction d.type) false d = if d.init.isSome then .defined else .tentative := by
    unfold statusOf; rw [hf]
    cases hi : d.init with
    | none => cases hst : d.storage <;> rw [hst] at he <;> first | rfl | exact absurd he (by decide)
    | some f => rfl
  have hbad' : badTentative ty .internal d = (d.init.isNone && ty.incomplete d.type) := by
    unfold badTentative; rw [hf, he]; simp
  refine fileLinked h hs ty false .internal d (table := g.objects) (by rw [hf]; rfl) (fun id =>
      match g.heap[id]? with
      | some (.object t₀ st l' ext ini) =>
        if st ≠ storageFor .internal d.storage.thread then none
        else if !ty.compatible t₀ d.type then none
        else if ext then none
        else if d.init.isSome && ini then none
        else ((g.write id (.object (ty.composite t₀ d.type) st l' ext ini)).insertOrdinary d.name id).applyInit
          id d.type d.init
      | _ => none)
      (if d.init.isNone && ty.incomplete d.type then none
       else match Model.insert g.objects d.name g.heap.length with
      | some objects =>
        (Global.insertOrdinary { g with
          heap := g.heap ++ [.object d.type (storageFor .internal d.storage.thread) .internal false d.init.isSome],
          objects } d.name g.heap.length).applyInit g.heap.length d.type d.init
      | none => none) ?_ (by rw [hf]; simp) ?_ (by simp) ?_
  · rw [hf]; rfl
  · intro e hle hel hef hbad hvm
    have hreal := (h.real _ _ hle).1
    rw [hf] at hef
    rw [(h.linkedSome hle).2.2, entryOf_object hef]
    dsimp only
    have hst : storageFor e.linkage e.thread ≠ storageFor .internal d.storage.thread ↔
        e.thread ≠ d.storage.thread := by
      rw [hel, Ne, storageFor_inj _ _ _ _ (by simp) (by simp)]; simp
    have hext : (e.linkage == .external && e.status == .declared) = false := by rw [hel]; rfl
    by_cases hth : e.thread = d.storage.thread
    · have c1 : ¬ (e.thread ≠ d.storage.thread) := fun hx => hx hth
      rw [if_neg (mt hst.mp c1), if_neg c1, hext]
      cases ty.compatible e.type d.type with
      | false => rfl
      | true =>
        simp only [Bool.not_true, Bool.false_eq_true, if_false]
        rw [hstat]
        have hc : (d.init.isSome && e.status == .defined) = true ↔
            (e.status = .defined ∧ (if d.init.isSome = true then Status.defined else .tentative) = .defined) := by
          cases d.init <;> cases e.status <;> simp
        by_cases hd : (d.init.isSome && e.status == .defined) = true
        · rw [if_pos hd, if_pos (hc.mp hd)]
        · rw [if_neg hd, if_neg (mt hc.mpr hd)]
          refine applyInit_eq _ _ _ _ _ _ _ _ _ _ _ (write_get (h.linked_lt hle) _) ?_
          rw [write_write, entryOf_object (e := again ty true false e d) (by exact hef)]
          have hj' := hj e hle
          congr 1
          simp only [again, hstat, hel]
          cases hi : d.init with
          | none => cases e.status <;> simp [complete, Status.join] <;> rfl
          | some f =>
            rw [hi] at hj' 
            have := hj' rfl
            simp only [complete] at this
            cases e.status <;> simp [complete, Status.join, this]
    · have c1 : e.thread ≠ d.storage.thread := hth
      rw [if_pos (hst.mpr c1), if_pos c1]
  · intro hn hh hbad ht
    rw [hbad'] at hbad
    rw [if_neg (by rw [hbad]; simp), insert_new ht, ← h.next]
    refine ⟨_, applyInit_eq _ _ _ _ _ _ _ _ _ _ _ (append_get _ _) rfl, ?_, ?_, ?_, rfl, rfl, rfl⟩
    · rw [entryOf_object (by exact hf)]
      simp only [fresh, hstat, Global.write, h.next]
      cases hi : d.init <;> simp [complete, ← h.next]
    · rw [hf]; rfl
    · rw [hf]; rfl

theorem sim_declareFunction (h : Inv strict g [g.ordinary] s) (hs : s.scopes = [sc]) (ty : Types T)
    (l : Linkage) (d : Declaration N T) (hf : ty.isFunction d.type = true) (hi : d.init = none)
    (ht : d.storage.thread = false) (hl0 : l ≠ .none) (hl : lookup s.linked d.name = none → l = .external) :
    SimG strict g (declareLinked ty true false l s d) (g.declareFunction ty d.name d.type) := by
  have hstat : statusOf (ty.isFunction d.type) false d = .declared := by unfold statusOf; rw [hf]; rfl
  refine fileLinked h hs ty false l d (table := g.functions) (by rw [hf]; rfl) (fun id =>
      match g.heap[id]? with
      | some (.function t₀ st ext de) =>
        if !(st = .extern || st = .static) then none
        else if !ty.compatible t₀ d.type then none
        else some ((g.write id (.function (ty.composite t₀ d.type) st ext de)).insertOrdinary d.name id, id)
      | _ => none)
      (match Model.insert g.functions d.name g.heap.length with
      | some functions =>
        some (Global.insertOrdinary { g with
          heap := g.heap ++ [.function d.type .extern true false], functions } d.name g.heap.length, g.heap.length)
      | none => none) ?_ (fun _ => ht) ?_ hl0 ?_
  · rw [hf]; rfl
  · intro e hle hel hef hbad hvm
    have hreal := h.real _ _ hle
    rw [hf] at hef
    rw [(h.linkedSome hle).2.2, entryOf_function hef]
    dsimp only
    have c1 : ¬ (e.thread ≠ d.storage.thread) := fun hx => hx (by rw [ht, (hreal.2 hef).1])
    have c2 : ¬ (e.status = .defined ∧ statusOf (ty.isFunction d.type) false d = .defined) := by
      rw [hstat]; exact fun hx => by cases hx.2
    have c3 : ¬ ((!(decide ((if e.linkage = .internal then Storage.static else .extern) = .extern) ||
        decide ((if e.linkage = .internal then Storage.static else .extern) = .static))) = true) := by
      split <;> simp
    rw [if_neg c3, if_neg c1, if_neg c2]
    cases ty.compatible e.type d.type with
    | false => rfl
    | true =>
      rw [entryOf_function (e := again ty true false e d) (by exact hef)]
      cases hse : e.status <;> simp [again, hstat, hi, complete, Status.join, hse]
  · intro hn hh hbad ht'
    have hl1 : l = .external := hl hn
    subst hl1
    rw [insert_new ht', ← h.next]
    refine ⟨_, rfl, ?_, ?_, ?_, rfl, rfl, rfl⟩
    · rw [entryOf_function (by exact hf)]
      simp [fresh, hstat, hi, complete]
    · rw [hf]; rfl
    · rw [hf]; rfl

theorem sim_defineFunction (h : Inv strict g [g.ordinary] s) (hs : s.scopes = [sc]) (ty : Types T)
    (l : Linkage) (d : Declaration N T) (hf : ty.isFunction d.type = true) (hi : d.init = none)
    (ht : d.storage.thread = false) (hl0 : l ≠ .none) (hl : lookup s.linked d.name = none → l = .external) :
    SimG strict g (declareLinked ty true true l s d) (g.defineFunction ty d.name d.type) := by
  have hstat : statusOf (ty.isFunction d.type) true d = .defined := by unfold statusOf; rw [hf]; rfl
  refine fileLinked h hs ty true l d (table := g.functions) (by rw [hf]; rfl) (fun id =>
      match g.heap[id]? with
      | some (.function t₀ st _ de) =>
        if !(st = .extern || st = .static) then none
        else if !ty.compatible t₀ d.type then none
        else if de then none
        else some ((g.write id (.function (ty.composite t₀ d.type) st false true)).insertOrdinary d.name id, id)
      | _ => none)
      (match Model.insert g.functions d.name g.heap.length with
      | some functions =>
        some (Global.insertOrdinary { g with
          heap := g.heap ++ [.function d.type .extern false true], functions } d.name g.heap.length, g.heap.length)
      | none => none) ?_ (fun _ => ht) ?_ hl0 ?_
  · rw [hf]; rfl
  · intro e hle hel hef hbad hvm
    have hreal := h.real _ _ hle
    rw [hf] at hef
    rw [(h.linkedSome hle).2.2, entryOf_function hef]
    dsimp only
    have c1 : ¬ (e.thread ≠ d.storage.thread) := fun hx => hx (by rw [ht, (hreal.2 hef).1])
    have c3 : ¬ ((!(decide ((if e.linkage = .internal then Storage.static else .extern) = .extern) ||
        decide ((if e.linkage = .internal then Storage.static else .extern) = .static))) = true) := by
      split <;> simp
    rw [if_neg c3, if_neg c1]
    cases ty.compatible e.type d.type with
    | false => rfl
    | true =>
      simp only [Bool.not_true, Bool.false_eq_true, if_false]
      rw [entryOf_function (e := again ty true true e d) (by exact hef)]
      cases hse : e.status <;> simp [again, hstat, hi, complete, Status.join, hse]
  · intro hn hh hbad ht'
    have hl1 : l = .external := hl hn
    subst hl1
    rw [insert_new ht', ← h.next]
    refine ⟨_, rfl, ?_, ?_, ?_, rfl, rfl, rfl⟩
    · rw [entryOf_function (by exact hf)]
      simp [fresh, hstat, hi, complete]
    · rw [hf]; rfl
    · rw [hf]; rfl

theorem sim_defineStaticFunction (h : Inv strict g [g.ordinary] s) (hs : s.scopes = [sc]) (ty : Types T)
    (defines : Bool) (d : Declaration N T) (hf : ty.isFunction d.type = true) (hi : d.init = none)
    (ht : d.storage.thread = false) :
    SimG strict g (declareLinked ty true defines .internal s d)
      (g.defineStaticFunction ty (!defines) d.name d.type) := by
  have hstat : statusOf (ty.isFunction d.type) defines d = if defines then .defined else .declared := by
    unfold statusOf; rw [hf]; rfl
  refine fileLinked h hs ty defines .internal d (table := g.functions) (by rw [hf]; rfl) (fun id =>
      match g.heap[id]? with
      | some (.function t₀ st ext de) =>
        if st ≠ .static then none
        else if !ty.compatible t₀ d.type then none
        else if ext then none
        else if !(!de || !defines) then none
        else some ((g.write id (.function (ty.composite t₀ d.type) st ext (de || !!defines))).insertOrdinary
          d.name id, id)
      | _ => none)
      (match Model.insert g.functions d.name g.heap.length with
      | some functions =>
        some (Global.insertOrdinary { g with
          heap := g.heap ++ [.function d.type .static false (!!defines)], functions } d.name g.heap.length,
          g.heap.length)
      | none => none) ?_ (fun _ => ht) ?_ (by simp) ?_
  · rw [hf]; rfl
  · intro e hle hel hef hbad hvm
    have hreal := h.real _ _ hle
    rw [hf] at hef
    rw [(h.linkedSome hle).2.2, entryOf_function hef]
    dsimp only
    have c1 : ¬ (e.thread ≠ d.storage.thread) := fun hx => hx (by rw [ht, (hreal.2 hef).1])
    rw [if_neg c1, hel]
    cases ty.compatible e.type d.type with
    | false => rfl
    | true =>
      rw [entryOf_function (e := again ty true defines e d) (by exact hef)]
      cases hse : e.status <;> cases defines <;> simp [again, hstat, hi, complete, Status.join, hse, hel]
      all_goals first | rfl | exact absurd hse (hreal.2 hef).2
  · intro hn hh hbad ht'
    rw [insert_new ht', ← h.next]
    refine ⟨_, rfl, ?_, ?_, ?_, rfl, rfl, rfl⟩
    · rw [entryOf_function (by exact hf)]
      cases defines <;> simp [fresh, hstat, hi, complete]
    · rw [hf]; rfl
    · rw [hf]; rfl

/-! ### typedef names and enumeration constants -/

theorem bind_one (hs : s.scopes = [sc]) (n : N) (r : Ref T) :
    s.bind n r = ⟨s.next, [put sc n r], s.linked⟩ := by
  unfold State.bind; rw [hs]

theorem types_none (h : Inv strict g [g.ordinary] s) {n : N} (ho : at? g.ordinary n = none) :
    at? g.types n = none := by
  cases ht : at? g.types n with
  | none => rfl
  | some i => rw [((h.types n i).mp ht).1] at ho; cases ho

theorem constants_none (h : Inv strict g [g.ordinary] s) {n : N} (ho : at? g.ordinary n = none) :
    at? g.constants n = none := by
  cases ht : at? g.constants n with
  | none => rfl
  | some i => rw [h.consts n i ht] at ho; cases ho

theorem reply_unlinked {g' : Global N T} {x : Entry T} {id : Nat} (hx : g'.heap[id]? = some x) :
    ReplyRel strict (Model.reply g' id) (.refers (x.ref id)) := by
  unfold Model.reply; rw [hx]; exact ⟨rfl, fun _ => rfl⟩

theorem sim_defineConstant (h : Inv strict g [g.ordinary] s) (hs : s.scopes = [sc]) (n : N) (v : Int) :
    SimG strict g (declareConstant s n v) (g.defineConstant n v) := by
  unfold declareConstant Global.defineConstant
  rw [here_eq hs]
  cases hb : lookup sc n with
  | some b => rw [((h.ord hs).some_of hb).1]; rfl
  | none =>
    have ho := ((h.ord hs).none_iff n).mpr hb
    have hc := constants_none h ho
    rw [ho]
    simp only [Global.alloc]
    rw [insert_new hc, insert_new ho]
    refine ⟨_, _, put sc n (.constant s.next v), rfl, ?_, ?_, ?_, ?_⟩
    · intro id x hx _ _
      show (g.heap ++ [_])[id]? = some x
      rw [List.getElem?_append_left (List.getElem?_eq_some_iff.mp hx).1]; exact hx
    · rw [bind_one hs]
    · rw [bind_one hs]
      refine h.unlinkedNew (x := .constant v) hs hb rfl (fun _ _ _ _ _ hx => by cases hx) ⟨fun k => ?_, .inl ⟨rfl, rfl, rfl⟩⟩ rfl rfl rfl ?_ ?_
      · rw [at?_cons, h.next]
      · exact fun k => ⟨fun hx => (by obtain ⟨_, _, t, ht⟩ := hx; cases ht), fun _ => rfl⟩
      · intro k i hk
        have hk' : at? ((n, g.heap.length) :: g.constants) k = some i := hk
        rw [at?_cons] at hk'
        by_cases hkn : k = n
        · rw [if_pos hkn] at hk'; cases hk'; exact .inr ⟨rfl, hkn, h.next⟩
        · rw [if_neg hkn] at hk'; exact .inl hk'
    · rw [h.next]
      refine reply_unlinked (x := .constant v) ?_
      rw [← h.next]; exact append_get _ _

theorem sim_defineType (h : Inv strict g [g.ordinary] s) (hs : s.scopes = [sc]) (ty : Types T)
    (d : Declaration N T) (hst : d.storage = .typedef)
    (hcov : ∀ i old, lookup sc d.name = some (.typedefName i old) →
      ty.compatible old d.type = (ty.same old d.type && !ty.variablyModified d.type)) :
    SimG strict g (declareUnlinked ty true s d) (g.defineType ty d.name d.type) := by
  unfold declareUnlinked Global.defineType
  rw [if_pos hst]
  cases hvm : ty.variablyModified d.type with
  | true => rfl
  | false =>
  simp only [Bool.and_false, Bool.false_eq_true, if_false]
  rw [here_eq hs]
  cases hb : lookup sc d.name with
  | none =>
    have ho := ((h.ord hs).none_iff d.name).mpr hb
    have hc := types_none h ho
    rw [requireClass_none h hs hb, hc]
    simp only [Global.alloc, Bool.not_true, Bool.false_eq_true, if_false]
    rw [insert_new hc]
    obtain ⟨f1, f2, f3, f4, f5⟩ := insertOrdinary_fields
      ({ g with heap := g.heap ++ [.typedefName d.type], types := (d.name, g.heap.length) :: g.types } : Global N T)
      d.name g.heap.length
    have hbd := insertOrdinary_bound (g := g)
      (g₁ := { g with heap := g.heap ++ [.typedefName d.type], types := (d.name, g.heap.length) :: g.types }) rfl
      (n := d.name) (id := g.heap.length) (fun i hi => by rw [ho] at hi; cases hi)
    refine ⟨_, _, put sc d.name (.typedefName s.next d.type), rfl, ?_, ?_, ?_, ?_⟩
    · intro id x hx _ _
      rw [f1]
      show (g.heap ++ [_])[id]? = some x
      rw [List.getElem?_append_left (List.getElem?_eq_some_iff.mp hx).1]; exact hx
    · rw [bind_one hs]
    · rw [bind_one hs]
      rw [← h.next] 
      have := h.unlinkedNew (x := .typedefName d.type) hs hb rfl (fun _ _ _ _ _ hx => by cases hx)
        (by rw [← h.next]; exact hbd) f1 f2 f3 ?_ ?_
      · rw [← h.next] at this; exact this
      · intro k
        rw [f4]
        refine ⟨fun hx => ?_, fun hx => ?_⟩
        · show at? ((d.name, g.heap.length) :: g.types) k = _
          rw [at?_cons, if_pos hx.2.1, h.next]
        · show at? ((d.name, g.heap.length) :: g.types) k = _
          rw [at?_cons, if_neg]
          exact fun hk => hx ⟨rfl, hk, _, rfl⟩
      · intro k i hk
        rw [f5] at hk; exact .inl hk
    · rw [h.next]
      refine reply_unlinked (x := .typedefName d.type) ?_
      rw [← h.next, f1]; exact append_get _ _
  | some b =>
    by_cases hl : b.linkage = .none
    · have hr := (requireClass_unlinked h hs hb hl).2.2
      cases b with
      | typedefName i old =>
        rw [hr.mpr ⟨_, _, rfl⟩]
        obtain ⟨h1, _, hr'⟩ := (h.ord hs).some_of hb
        obtain ⟨x, hx, hxr⟩ := hr' rfl
        have hx' : g.heap[i]? = some x := hx
        have hx0 : x = .typedefName old := by
          have hxr' : Entry.ref i x = .typedefName i old := hxr
          cases x <;> simp [Entry.ref] at hxr'
          rw [hxr']
        subst hx0
        rw [(h.types d.name i).mpr ⟨h1, _, hx'⟩]
        have hcv := hcov i old hb
        rw [hvm] at hcv
        simp only [Bool.not_true, Bool.false_eq_true, if_false, Bool.not_false, Bool.and_true] at hcv ⊢
        rw [hx']
        dsimp only
        rw [hcv]
        cases hsame : ty.same old d.type with
        | false => rfl
        | true =>
          simp only [Bool.not_true, Bool.false_eq_true, if_false, if_true]
          have hlt : i < g.heap.length := (List.getElem?_eq_some_iff.mp hx').1
          have hframe : ∀ t', Frame g (g.write i (.typedefName t')) := by
            intro t' id x hx _ hnt
            show (g.heap.set i _)[id]? = some x
            rw [List.getElem?_set_ne]; exact hx
            intro heq; rw [← heq, hx'] at hx; cases hx; exact hnt _ rfl
          cases hinc : (ty.incomplete old && !ty.incomplete d.type) with
          | true =>
            simp only [if_true]
            refine ⟨_, _, put sc d.name (.typedefName i d.type), rfl, hframe _, ?_, ?_, ?_⟩
            · rw [bind_one hs]
            · rw [bind_one hs]
              exact h.typedefUpdate hs hb rfl rfl rfl rfl rfl rfl
            · exact reply_unlinked (x := .typedefName d.type) (write_get hlt _)
          | false =>
            simp only [Bool.false_eq_true, if_false]
            refine ⟨_, _, put sc d.name (.typedefName i old), rfl, fun _ _ hx _ _ => hx, ?_, ?_, ?_⟩
            · rw [bind_one hs]
            · rw [bind_one hs]
              refine h.typedefUpdate hs hb (t' := old) ?_ rfl rfl rfl rfl rfl
              obtain ⟨_, heq⟩ := List.getElem?_eq_some_iff.mp hx'
              rw [← heq]; exact (List.set_getElem_self hlt).symm
            · exact reply_unlinked (x := .typedefName old) hx'
      | object i l dd t =>
        have : g.requireClass d.name .typedefName = false := by
          cases hc : g.requireClass d.name .typedefName with
          | false => rfl
          | true => obtain ⟨_, _, hx⟩ := hr.mp hc; cases hx
        rw [this]; rfl
      | function i l t =>
        have : g.requireClass d.name .typedefName = false := by
          cases hc : g.requireClass d.name .typedefName with
          | false => rfl
          | true => obtain ⟨_, _, hx⟩ := hr.mp hc; cases hx
        rw [this]; rfl
      | constant i v =>
        have : g.requireClass d.name .typedefName = false := by
          cases hc : g.requireClass d.name .typedefName with
          | false => rfl
          | true => obtain ⟨_, _, hx⟩ := hr.mp hc; cases hx
        rw [this]; rfl
    · obtain ⟨e, he, _⟩ := h.boundHere hs hb hl
      rw [(requireClass_linked h hs hb hl he).2.2]
      cases b with
      | typedefName i old => exact absurd rfl hl
      | constant i v => exact absurd rfl hl
      | object i l dd t => rfl
      | function i l t => rfl

end

end Kefir.Decl
