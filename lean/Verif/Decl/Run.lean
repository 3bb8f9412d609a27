import Verif.Decl.BlockStep

/-!
# Whole histories
-/

namespace Kefir.Decl

open Model (Entry Class Global Local Ctx at?)

variable {N T : Type} [DecidableEq N]

/-- A context of kefir and a state of the specification that belong together. -/
def CtxRel (strict : Bool) (c : Ctx N T) (s : State N T) : Prop :=
  match c.blocks with
  | none => (∃ sc, s.scopes = [sc]) ∧ Inv strict c.global [c.global.ordinary] s
  | some bs => bs ≠ [] ∧ Inv strict c.global (bs ++ [c.global.ordinary]) s

def Sim (strict : Bool) (o : Outcome (State N T) (Reply T)) (mo : Option (Ctx N T × Reply T)) : Prop :=
  match o with
  | .undefined => True
  | .reject => mo = none
  | .next s' r => ∃ c' r', mo = some (c', r') ∧ CtxRel strict c' s' ∧ ReplyRel strict r' r

section
variable {strict : Bool} {c : Ctx N T} {s : State N T}

theorem CtxRel.file (h : CtxRel strict c s) (hb : c.blocks = none) :
    (∃ sc, s.scopes = [sc]) ∧ Inv strict c.global [c.global.ordinary] s := by
  unfold CtxRel at h; rw [hb] at h; exact h

theorem CtxRel.block (h : CtxRel strict c s) {bs : List (List (N × Nat))} (hb : c.blocks = some bs) :
    bs ≠ [] ∧ Inv strict c.global (bs ++ [c.global.ordinary]) s := by
  unfold CtxRel at h; rw [hb] at h; exact h

theorem CtxRel.len (h : CtxRel strict c s) : s.scopes.length = (c.blocks.getD []).length + 1 := by
  cases hb : c.blocks with
  | none => obtain ⟨⟨sc, hs⟩, _⟩ := h.file hb; rw [hs]; rfl
  | some bs => obtain ⟨_, hi⟩ := h.block hb; rw [← hi.len]; simp

theorem SimG.lift {g : Global N T} {o : Outcome (State N T) (Reply T)} {mo : Option (Global N T × Nat)}
    (h : SimG strict g o mo) :
    Sim strict o (mo.map (fun p => ((⟨p.1, none⟩ : Ctx N T), Model.reply p.1 p.2))) := by
  cases o with
  | undefined => trivial
  | reject => have h' : mo = none := h; rw [h']; rfl
  | next s' r =>
    obtain ⟨g', id, sc, hm, _, hs, hi, hr⟩ := h
    rw [hm]
    exact ⟨_, _, rfl, ⟨⟨sc, hs⟩, hi⟩, hr⟩

theorem SimL.lift {l : Local N T} {o : Outcome (State N T) (Reply T)} {mo : Option (Local N T × Nat)}
    (h : SimL strict l s o mo) :
    Sim strict o (mo.map (fun p => (p.1.toCtx, Model.reply p.1.global p.2))) := by
  cases o with
  | undefined => trivial
  | reject => have h' : mo = none := h; rw [h']; rfl
  | next s' r =>
    obtain ⟨c', id, hm, _, _, hi, hr⟩ := h
    rw [hm]
    exact ⟨_, _, rfl, ⟨by simp, hi⟩, hr⟩

theorem sim_constant (h : CtxRel strict c s) (n : N) (v : Int) :
    Sim strict (declareConstant s n v) (Model.declareConstant c n v) := by
  obtain ⟨g, blocks⟩ := c
  cases blocks with
  | none =>
    obtain ⟨⟨sc, hs⟩, hi⟩ := h.file rfl
    exact (sim_defineConstant hi hs n v).lift
  | some bs =>
    obtain ⟨hne, hi⟩ := h.block rfl
    cases bs with
    | nil => exact absurd rfl hne
    | cons top rest =>
      cases hs : s.scopes with
      | nil => have := hi.len; rw [hs] at this; simp at this
      | cons sc srest => exact (sim_blockConstant (c := ⟨g, top, rest⟩) hi hs n v).lift

theorem sim_declare [DecidableEq T] (h : CtxRel strict c s) (ty : Types T) (d : Declaration N T)
    (hcov : coveredDecl strict ty s d = true) :
    Sim strict (declare ty false s d) (Model.declare ty c d) := by
  obtain ⟨g, blocks⟩ := c
  cases blocks with
  | none =>
    obtain ⟨⟨sc, hs⟩, hi⟩ := h.file rfl
    have := sim_fileDeclare hi hs ty false d (fun hx => by cases hx) (fileCovered (fileScope_eq hs) hcov)
    simp only [Bool.not_false, Bool.and_true] at this
    exact this.lift
  | some bs =>
    obtain ⟨hne, hi⟩ := h.block rfl
    cases bs with
    | nil => exact absurd rfl hne
    | cons top rest =>
      cases hs : s.scopes with
      | nil => have := hi.len; rw [hs] at this; simp at this
      | cons sc srest =>
        have hfile : s.fileScope = false := by
          unfold State.fileScope
          rw [← hi.len]; simp
        exact (sim_blockDeclare (c := ⟨g, top, rest⟩) hi hs ty d (blockCovered hfile hcov)).lift

theorem sim_define (h : CtxRel strict c s) (ty : Types T) (f : Definition N T) :
    Sim strict (step ty s (.define f)) (Model.define ty c f) := by
  obtain ⟨g, blocks⟩ := c
  cases blocks with
  | some bs =>
    have hfile : s.fileScope = false := by
      unfold State.fileScope
      have := h.len
      have hne := (h.block rfl).1
      cases bs with
      | nil => exact absurd rfl hne
      | cons a b => rw [this]; simp
    simp only [step, hfile]
    rfl
  | none =>
    obtain ⟨⟨sc, hs⟩, hi⟩ := h.file rfl
    have hi0 : Inv strict g [g.ordinary] s := hi
    have hpush := hi0.push (m := []) (sc := []) (fun n => by simp [at?, lookup]) (fun n b hx => by simp [lookup] at hx)
    have hpar := sim_params ty f.params (⟨g, [], []⟩ : Local N T) { s with scopes := [] :: s.scopes } [] s.scopes
      hpush rfl (fun n b hx => by simp [lookup] at hx)
    simp only [step, fileScope_eq hs, Bool.not_true, Bool.false_eq_true, if_false]
    unfold Model.define
    dsimp only
    cases hf : ty.isFunction f.type with
    | false =>
      simp only [Bool.not_false, if_true]
      show (match Model.defineParams ty ⟨g, [], []⟩ f.params with
        | none => none
        | some l => none) = none
      split <;> rfl
    | true =>
    simp only [Bool.not_true, Bool.false_eq_true, if_false]
    by_cases hst : f.storage = .none ∨ f.storage = .extern ∨ f.storage = .static
    case neg =>
      rw [if_pos (by simp at hst; simp [hst])]
      show (match Model.defineParams ty ⟨g, [], []⟩ f.params with
        | none => none
        | some l => _) = none
      split
      · rfl
      · cases hx : f.storage <;> simp_all
    case pos =>
    rw [if_neg (by rcases hst with hx | hx | hx <;> rw [hx] <;> simp)]
    cases hp : declareParams ty { s with scopes := [] :: s.scopes } f.params with
    | none => rw [hpar.1 hp]; rfl
    | some sp =>
      obtain ⟨l, sc', hl, hlr, hsp, hinv, hsc'⟩ := hpar.2 sp hp
      rw [hl]
      dsimp only
      have hlr' : l.rest = [] := hlr
      have hinv' : Inv strict l.global (l.top :: [l.global.ordinary]) sp := by
        have := hinv
        unfold tables at this
        rw [hlr'] at this; exact this
      have hpop := hinv'.pop hsp (by simp)
      have hfc : FileCovered ty ({ sp with scopes := s.scopes } : State N T) f.toDecl := by
        refine ⟨fun hx => ?_, fun _ hx => ?_⟩
        · exfalso
          have hx' : f.storage = .typedef := hx
          rw [hx'] at hst; simp at hst
        · have hx' : ty.isFunction f.type = false := hx
          rw [hf] at hx'; cases hx'
      have hsim := sim_fileDeclare hpop hs ty true f.toDecl
        (fun _ => ⟨hf, rfl, fun hx => by
          have hx' : f.storage = .typedef := hx
          rw [hx'] at hst; simp at hst⟩) hfc
      have hmod : (match f.storage with
          | .typedef | .threadLocal | .externThread | .staticThread | .auto | .register => none
          | .extern | .static | .none =>
            match l.global.defineIdentifier ty false f.toDecl with
            | some (g, id) => some ((⟨g, some (l.top :: l.rest)⟩ : Ctx N T), Model.reply g id)
            | none => none) =
          (match l.global.defineIdentifier ty false f.toDecl with
            | some (g, id) => some ((⟨g, some (l.top :: l.rest)⟩ : Ctx N T), Model.reply g id)
            | none => none) := by
        rcases hst with hx | hx | hx <;> rw [hx]
      have hgoal : Sim strict
          (match declare ty true { sp with scopes := s.scopes } f.toDecl with
            | .next s' r => .next { s' with scopes := sp.scopes.take 1 ++ s'.scopes } r
            | .reject => .reject
            | .undefined => .undefined)
          (match l.global.defineIdentifier ty false f.toDecl with
            | some (g, id) => some ((⟨g, some (l.top :: l.rest)⟩ : Ctx N T), Model.reply g id)
            | none => none) := by
        cases ho : declare ty true { sp with scopes := s.scopes } f.toDecl with
        | undefined => trivial
        | reject =>
          rw [ho] at hsim
          have hs' : l.global.defineIdentifier ty false f.toDecl = none := hsim
          rw [hs']; rfl
        | next s' r =>
          rw [ho] at hsim
          obtain ⟨g', id, sc1, hm, hframe, hs1, hi1, hr1⟩ := hsim
          have hm' : l.global.defineIdentifier ty false f.toDecl = some (g', id) := hm
          rw [hm']
          refine ⟨_, _, rfl, ⟨by simp, ?_⟩, hr1⟩
          rw [hlr', hsp]
          show Inv strict g' (l.top :: [g'.ordinary]) { s' with scopes := sc' :: s'.scopes }
          refine hi1.push ?_ hsc'
          have hrel := hinv'.scopes 0 l.top sc' rfl (by rw [hsp]; rfl)
          refine hrel.mono (fun n i b _ hb hbr => ⟨hbr.1, fun hlk => ?_⟩)
          obtain ⟨x, hx, hxr⟩ := hbr.2 hlk
          refine ⟨x, hframe i x hx (by rw [hxr]; exact hlk) (fun t ht => ?_), hxr⟩
          rw [ht] at hxr
          exact (hsc' n b hb).2 _ _ hxr.symm
      rw [← hmod] at hgoal
      exact hgoal

/-! ### uses -/

theorem findSome_rel {heap : List (Entry T)} : ∀ (ms : List (List (N × Nat))) (scs : List (List (N × Ref T))) (n : N),
    ms.length = scs.length →
    (∀ (i : Nat) m sc, ms[i]? = some m → scs[i]? = some sc → ScopeRel heap m sc) →
    (scs.findSome? (fun sc => lookup sc n) = none ∧ ms.findSome? (fun m => at? m n) = none) ∨
    (∃ (i : Nat) (sc : List (N × Ref T)) (b : Ref T), scs[i]? = some sc ∧ lookup sc n = some b ∧
      scs.findSome? (fun sc => lookup sc n) = some b ∧ ms.findSome? (fun m => at? m n) = some b.id ∧
      BindRel heap b.id b)
  | [], [], n, _, _ => .inl ⟨rfl, rfl⟩
  | [], sc :: scs, n, hl, _ => by simp at hl
  | m :: ms, [], n, hl, _ => by simp at hl
  | m :: ms, sc :: scs, n, hl, h => by
    have h0 := h 0 m sc rfl rfl
    simp only [List.findSome?_cons]
    cases hb : lookup sc n with
    | some b =>
      obtain ⟨h1, h2⟩ := h0.some_of hb
      rw [h1]
      exact .inr ⟨0, sc, b, rfl, hb, rfl, rfl, h2⟩
    | none =>
      rw [(h0.none_iff n).mpr hb]
      have ih := findSome_rel ms scs n (by simpa using hl) (fun i m' sc' hm hs => h (i + 1) m' sc' hm hs)
      rcases ih with ih | ⟨i, sc', b, h1, h2, h3, h4, h5⟩
      · exact .inl ih
      · exact .inr ⟨i + 1, sc', b, h1, h2, h3, h4, h5⟩

theorem resolve_eq (c : Ctx N T) (n : N) :
    Model.resolve c n = ((c.blocks.getD []) ++ [c.global.ordinary]).findSome? (fun m => at? m n) := by
  unfold Model.resolve
  rw [List.findSome?_append]
  cases (c.blocks.getD []).findSome? (fun m => at? m n) with
  | some i => rfl
  | none =>
    simp only [List.findSome?_cons, List.findSome?_nil, Option.none_or]
    cases at? c.global.ordinary n <;> rfl

theorem CtxRel.inv (h : CtxRel strict c s) :
    Inv strict c.global ((c.blocks.getD []) ++ [c.global.ordinary]) s := by
  cases hb : c.blocks with
  | none => exact (h.file hb).2
  | some bs => exact (h.block hb).2

theorem sim_use (h : CtxRel strict c s) (ty : Types T) (n : N) :
    Sim strict (step ty s (.use n)) (Model.step ty c (.use n)) := by
  have hi := h.inv
  simp only [step, Model.step]
  rw [resolve_eq]
  unfold State.visible
  rcases findSome_rel (heap := c.global.heap) _ _ n hi.len hi.scopes with ⟨h1, h2⟩ | ⟨i, sc, b, h1, h2, h3, h4, h5⟩
  · rw [h1, h2]; rfl
  · rw [h3, h4]
    refine ⟨_, _, rfl, h, ?_⟩
    by_cases hl : b.linkage = .none
    · obtain ⟨x, hx, hxr⟩ := h5.2 hl
      have := reply_unlinked (strict := strict) hx
      rw [hxr] at this; exact this
    · obtain ⟨e, he, hu⟩ := hi.bound i sc n b h1 h2 hl
      have hid : b.id = e.id := by rw [untyped_id _ _ hu, Linked.ref_id]
      have hreal := hi.real n e he
      have hrep := reply_linked (strict := strict) (g' := c.global) (e := e) (t := e.type) hreal.1
        (fun hf => (hreal.2 hf).1) (hi.linkedSome he).2.2 (fun _ => rfl)
      rw [hid]
      refine ⟨?_, fun hstr => ?_⟩
      · rw [hrep.1]; simp only [Reply.untyped]; rw [hu]
      · rw [hrep.2 hstr]
        congr 1
        have hlt := (List.getElem?_eq_some_iff.mp h1).1
        by_cases hlast : i + 1 < s.scopes.length
        · exact absurd (hi.strict2 hstr i sc n b h1 hlast h2) hl
        · have : s.scopes.getLast? = some sc := by
            rw [List.getLast?_eq_getElem?, ← h1]
            congr 1; omega
          have h6 := hi.strict1 hstr n e he sc this
          rw [h2] at h6; exact (Option.some.inj h6).symm

theorem sim_step [DecidableEq T] (h : CtxRel strict c s) (ty : Types T) (i : Item N T)
    (hcov : coveredItem strict ty s i = true) : Sim strict (step ty s i) (Model.step ty c i) := by
  cases i with
  | declare d => exact sim_declare h ty d hcov
  | constant n v => exact sim_constant h n v
  | define f => exact sim_define h ty f
  | use n => exact sim_use h ty n
  | endDefinition =>
    have hlen := h.len
    simp only [step, Model.step]
    obtain ⟨g, blocks⟩ := c
    match blocks with
    | none => simp at hlen; rw [if_neg (by omega)]; rfl
    | some [] => simp at hlen; rw [if_neg (by omega)]; rfl
    | some [b] =>
      simp at hlen; rw [if_pos hlen]
      have hi := (h.block rfl).2
      cases hs : s.scopes with
      | nil => rw [hs] at hlen; simp at hlen
      | cons sc rest =>
        refine ⟨_, _, rfl, ⟨?_, ?_⟩, ⟨rfl, fun _ => rfl⟩⟩
        · rw [hs] at hlen
          match rest, hlen with
          | [x], _ => exact ⟨x, rfl⟩
        · have hi' : Inv strict g (b :: [g.ordinary]) s := hi
          exact hi'.pop hs (by simp)
    | some (b :: b' :: bs) => simp at hlen; rw [if_neg (by omega)]; rfl
  | openBlock =>
    have hlen := h.len
    simp only [step, Model.step]
    obtain ⟨g, blocks⟩ := c
    cases blocks with
    | none =>
      have : s.fileScope = true := by unfold State.fileScope; rw [hlen]; rfl
      rw [this]; rfl
    | some bs =>
      obtain ⟨hne, hi⟩ := h.block rfl
      have : s.fileScope = false := by
        unfold State.fileScope; rw [hlen]
        cases bs with
        | nil => exact absurd rfl hne
        | cons a b => simp
      rw [this]
      refine ⟨_, _, rfl, ⟨by simp, ?_⟩, ⟨rfl, fun _ => rfl⟩⟩
      have hi0 : Inv strict g (bs ++ [g.ordinary]) s := hi
      exact hi0.push (m := []) (sc := []) (fun n => by simp [at?, lookup]) (fun n b hx => by simp [lookup] at hx)
  | closeBlock =>
    have hlen := h.len
    simp only [step, Model.step]
    obtain ⟨g, blocks⟩ := c
    match blocks with
    | none => simp at hlen; rw [if_pos (by omega)]; rfl
    | some [] => simp at hlen; rw [if_pos (by omega)]; rfl
    | some [b] => simp at hlen; rw [if_pos (by omega)]; rfl
    | some (b :: b' :: bs) =>
      simp at hlen
      rw [if_neg (by omega)]
      have hi := (h.block rfl).2
      cases hs : s.scopes with
      | nil => rw [hs] at hlen; simp at hlen
      | cons sc rest =>
        refine ⟨_, _, rfl, ⟨by simp, ?_⟩, ⟨rfl, fun _ => rfl⟩⟩
        have hi' : Inv strict g (b :: (b' :: bs ++ [g.ordinary])) s := hi
        exact hi'.pop hs (by simp)

end

theorem sim_initial (strict : Bool) : CtxRel (N := N) (T := T) strict Model.initial State.initial := by
  refine ⟨⟨[], rfl⟩, ?_⟩
  refine ⟨rfl, rfl, rfl, ?_, ?_, ?_, ?_, ?_, ?_, ?_, ?_, ?_, ?_, ?_, ?_, ?_⟩
  · intro i m sc hm hs
    cases i with
    | zero => cases hm; cases hs; intro n; simp [Model.initial, at?, lookup]
    | succ i => simp [State.initial] at hs
  · intro n; simp [State.initial, lookup, LinkRel, Model.initial, at?]
  · intro n m e e' hn; simp [State.initial, lookup] at hn
  · intro n e hn; simp [State.initial, lookup] at hn
  · intro i sc n b hs hb
    cases i with
    | zero => cases hs; simp [lookup] at hb
    | succ i => simp [State.initial] at hs
  · intro i j sc sc' n n' id t t' hs hs' hb
    cases i with
    | zero => cases hs; simp [lookup] at hb
    | succ i => simp [State.initial] at hs
  · intro n id; simp [Model.initial, at?]
  · intro n id h; simp [Model.initial, at?] at h
  · intro sc hs n i d t h
    simp [State.initial] at hs; subst hs; simp [lookup] at h
  · simp [Model.initial]
  · simp [Model.initial]
  · intro _ n e hn; simp [State.initial, lookup] at hn
  · intro _ i sc n b hs hlt; simp [State.initial] at hlt

theorem sim_run [DecidableEq T] (strict : Bool) (ty : Types T) : ∀ (items : List (Item N T)) (c : Ctx N T) (s : State N T),
    CtxRel strict c s → covered strict ty s items = true →
    ∀ rs o, run ty s items = some (rs, o) →
      (Model.run ty c items).1.map Reply.untyped = rs.map Reply.untyped ∧
      (strict = true → (Model.run ty c items).1 = rs) ∧
      (o = none → (Model.run ty c items).2 = none) ∧
      (∀ s', o = some s' → ∃ c', (Model.run ty c items).2 = some c' ∧ CtxRel strict c' s')
  | [], c, s, h, _, rs, o, hr => by
    simp only [run, Option.some.injEq, Prod.mk.injEq] at hr
    obtain ⟨rfl, rfl⟩ := hr
    exact ⟨rfl, fun _ => rfl, fun hx => (by cases hx), fun s' hx => (by cases hx; exact ⟨c, rfl, h⟩)⟩
  | i :: is, c, s, h, hcov, rs, o, hr => by
    simp only [covered, Bool.and_eq_true] at hcov
    have hsim := sim_step h ty i hcov.1
    simp only [run] at hr
    cases hst : step ty s i with
    | undefined => rw [hst] at hr; cases hr
    | reject =>
      rw [hst] at hr hsim
      have hm : Model.step ty c i = none := hsim
      cases hr
      have hrun : Model.run ty c (i :: is) = ([.rejected], none) := by simp only [Model.run, hm]
      rw [hrun]
      exact ⟨rfl, fun _ => rfl, fun _ => rfl, fun s' hx => (by cases hx)⟩
    | next s' r =>
      rw [hst] at hr hsim
      obtain ⟨c', r', hm, hrel, hrr⟩ := hsim
      have hcov2 := hcov.2
      rw [hst] at hcov2
      dsimp only at hr hcov2
      cases hrun : run ty s' is with
      | none => rw [hrun] at hr; cases hr
      | some p =>
        obtain ⟨rs', o'⟩ := p
        rw [hrun] at hr
        simp only [Option.map_some, Option.some.injEq, Prod.mk.injEq] at hr
        obtain ⟨rfl, rfl⟩ := hr
        obtain ⟨a1, a2, a3, a4⟩ := sim_run strict ty is c' s' hrel hcov2 rs' o' hrun
        simp only [Model.run, hm]
        exact ⟨by simp [a1, hrr.1], fun hstr => by rw [a2 hstr, hrr.2 hstr], a3, a4⟩

end Kefir.Decl
