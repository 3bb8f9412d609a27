import Verif.Stmt.Annot
import Verif.Stmt.Pieces
import Verif.Stmt.Constraints

/-! When the analyzer and the translator succeed. -/
namespace Kefir.Stmt
open Kefir.Types (Basic)
open Kefir.C17
open Kefir.Expr Kefir.CSpec
open Kefir.IR

/-! ### The translator: all it needs is that every point is resolved once -/

/-- Whatever waits is a jump. -/
def Waits (σ : Tr) : Prop :=
  ∀ p ds i, σ.pts p = .unres ds → i ∈ ds → ∃ ins, σ.blk[i]? = some ins ∧ ∀ v, ∃ ins', retarget ins v = some ins'

/-- `p` is resolved. -/
def IsRes (σ : Tr) (p : Nat) : Prop := ∃ v, σ.pts p = .res v

/-- A successful piece of the translation that resolves `d`. -/
def Good (σ σ' : Tr) (d : List Nat) : Prop := Waits σ' ∧ ∀ p, IsRes σ' p → IsRes σ p ∨ p ∈ d

theorem waits_emit {σ : Tr} (h : Waits σ) (is : List Instr) : Waits (σ.emit is) := by
  intro p ds i hp hi
  obtain ⟨ins, h1, h2⟩ := h p ds i hp hi
  refine ⟨ins, ?_, h2⟩
  show (σ.blk ++ is)[i]? = _
  rw [List.getElem?_append_left (List.getElem?_eq_some_iff.mp h1).1, h1]

theorem waits_code {σ : Tr} (h : Waits σ) (c : SC) : Waits (σ.code c) := by
  have : σ.code c = σ.emit (c.flat σ.blk.length) := by simp [Tr.code, Tr.emit, SC.build_eq]
  rw [this]
  exact waits_emit h _

theorem jump_total {mk : Nat → Instr} (hm : IsJump mk) (p : Nat) {σ : Tr} (h : Waits σ) :
    ∃ σ', Tr.jump mk p σ = some σ' ∧ Good σ σ' [] := by
  have he := waits_emit h [mk 0]
  simp only [Tr.jump, Tr.reference]
  cases hp : (σ.emit [mk 0]).pts p with
  | res v =>
    have e : patch (σ.emit [mk 0]).blk σ.blk.length v = some (σ.blk ++ [mk v]) := by
      simp [patch, Tr.emit, hm 0 v]
    simp only [e, Option.map_some, Option.some.injEq, exists_eq_left']
    refine ⟨?_, fun q hq => .inl hq⟩
    exact waits_emit h [mk v]
  | unres ds =>
    simp only [Option.some.injEq, exists_eq_left']
    refine ⟨?_, ?_⟩
    · intro q es i hq hi
      by_cases hqp : q = p
      · subst hqp
        simp only [setPt, if_true, Pt.unres.injEq] at hq
        subst hq
        rcases List.mem_append.mp hi with hi | hi
        · exact he q ds i hp hi
        · simp only [List.mem_singleton] at hi
          subst hi
          exact ⟨mk 0, by simp [Tr.emit], fun v => ⟨_, hm 0 v⟩⟩
      · simp only [setPt, if_neg hqp] at hq
        exact he q es i hq hi
    · rintro q ⟨v, hq⟩
      by_cases hqp : q = p
      · simp [setPt, hqp] at hq
      · simp only [setPt, if_neg hqp] at hq
        exact .inl ⟨v, hq⟩

theorem patchAll_total {v : Nat} : ∀ (ds : List Nat) (blk : List Instr),
    (∀ i ∈ ds, ∃ ins, blk[i]? = some ins ∧ ∀ v, ∃ ins', retarget ins v = some ins') → ∃ blk', patchAll v ds blk = some blk' := by
  intro ds
  induction ds with
  | nil => intro blk _; exact ⟨blk, rfl⟩
  | cons d ds ih =>
    intro blk h
    obtain ⟨ins, h1, h2⟩ := h d (by simp)
    obtain ⟨ins', h2'⟩ := h2 v
    simp only [patchAll, patch, h1, Option.bind_some, h2', Option.map_some]
    refine ih _ ?_
    intro i hi
    by_cases hid : i = d
    · subst hid
      refine ⟨ins', List.getElem?_set_self (List.getElem?_eq_some_iff.mp h1).1, fun w => ?_⟩
      rw [retarget_retarget h2']
      exact h2 w
    · obtain ⟨j, e1, e2⟩ := h i (List.mem_cons_of_mem _ hi)
      exact ⟨j, by rw [List.getElem?_set_ne (by omega), e1], e2⟩

theorem resolve_total (p : Nat) {σ : Tr} (h : Waits σ) (hp : ¬ IsRes σ p) :
    ∃ σ', Tr.resolve p σ = some σ' ∧ Good σ σ' [p] := by
  simp only [Tr.resolve]
  cases hq : σ.pts p with
  | res v => exact (hp ⟨v, hq⟩).elim
  | unres ds =>
    obtain ⟨blk, hb⟩ := patchAll_total (v := σ.blk.length) ds σ.blk (fun i hi => h p ds i hq hi)
    obtain ⟨-, hs⟩ := patchAll_spec _ _ _ hb
    simp only [hb, Option.map_some, Option.some.injEq, exists_eq_left']
    refine ⟨?_, ?_⟩
    · intro q es i hq' hi
      by_cases hqp : q = p
      · simp [setPt, hqp] at hq'
      · simp only [setPt, if_neg hqp] at hq'
        obtain ⟨ins, h1, h2⟩ := h q es i hq' hi
        by_cases hm : i ∈ ds
        · obtain ⟨j, j', e1, e2, e3⟩ := (hs i).2 hm
          rw [h1] at e1
          cases e1
          exact ⟨j', e3, fun v => by rw [retarget_retarget e2]; exact h2 v⟩
        · exact ⟨ins, by show blk[i]? = _; rw [(hs i).1 hm, h1], h2⟩
    · rintro q ⟨v, hq'⟩
      by_cases hqp : q = p
      · right; simp [hqp]
      · simp only [setPt, if_neg hqp] at hq'
        exact .inl ⟨v, hq'⟩

theorem cases_total : ∀ (cs : List (Word × Nat)) {σ : Tr}, Waits σ → ∃ σ', trCases cs σ = some σ' ∧ Good σ σ' [] := by
  intro cs
  induction cs with
  | nil => intro σ h; exact ⟨σ, rfl, h, fun _ h => .inl h⟩
  | cons c cs ih =>
    obtain ⟨w, p⟩ := c
    intro σ h
    obtain ⟨σ₁, h1, g1, g1'⟩ := jump_total isJump_jmp p
      (waits_emit h [.pick 0, .push w, .bin .eq, .un .bnot, .branch (σ.blk.length + 4 + 3), .pop])
    obtain ⟨σ₂, h2, g2, g2'⟩ := ih g1
    refine ⟨σ₂, by simp only [trCases, h1, Option.bind_some, h2], g2, fun q hq => ?_⟩
    rcases g2' q hq with h | h
    · rcases g1' q h with h | h
      · exact .inl h
      · cases h
    · cases h

theorem trS_total (rt : Ty) (lab : Nat → Bool) : ∀ (a : A) (σ : Tr), Waits σ → (defs a).Nodup →
    (∀ p ∈ defs a, ¬ IsRes σ p) → (∀ l ∈ gotos a, lab l = true) → ∃ σ', trS rt lab a σ = some σ' ∧ Good σ σ' (defs a) := by
  intro a
  induction a with
  | skip => intro σ h _ _ _; exact ⟨σ, rfl, h, fun _ h => .inl h⟩
  | expr e => intro σ h _ _ _; exact ⟨_, rfl, waits_code h _, fun _ h => .inl h⟩
  | decl ds => intro σ h _ _ _; exact ⟨_, rfl, waits_code h _, fun _ h => .inl h⟩
  | ret e q => intro σ h _ _ _; exact ⟨_, rfl, waits_emit (waits_code h _) _, fun _ h => .inl h⟩
  | brk p => intro σ h _ _ _; exact jump_total isJump_jmp p h
  | cont p => intro σ h _ _ _; exact jump_total isJump_jmp p h
  | goto p l =>
    intro σ h _ _ hg
    simp only [trS, hg l (by simp [gotos]), if_true]
    exact jump_total isJump_jmp p h
  | seq x y ihx ihy =>
    intro σ h nd hr hg
    simp only [defs, List.nodup_append] at nd
    simp only [defs, gotos, List.mem_append] at hr hg
    obtain ⟨σ₁, h1, w1, g1⟩ := ihx σ h nd.1 (fun p hp => hr p (.inl hp)) (fun l hl => hg l (.inl hl))
    obtain ⟨σ₂, h2, w2, g2⟩ := ihy σ₁ w1 nd.2.1 (fun p hp hq => (g1 p hq).elim (hr p (.inr hp)) (fun h => nd.2.2 p h p hp rfl))
      (fun l hl => hg l (.inr hl))
    refine ⟨σ₂, by simp only [trS, h1, Option.bind_some, h2], w2, fun p hp => ?_⟩
    simp only [defs, List.mem_append]
    rcases g2 p hp with h | h
    · exact (g1 p h).imp_right .inl
    · exact .inr (.inr h)
  | cond p c x ih =>
    intro σ h nd hr hg
    simp only [defs, List.nodup_append] at nd
    simp only [defs, gotos, List.mem_append, List.mem_singleton] at hr hg
    obtain ⟨σ₁, h1, w1, g1⟩ := jump_total isJump_branch p (waits_code h (condCode c))
    have g1' : ∀ q, IsRes σ₁ q → IsRes σ q := fun q hq => (g1 q hq).elim id (fun h => by cases h)
    obtain ⟨σ₂, h2, w2, g2⟩ := ih σ₁ w1 nd.1 (fun q hq hs => hr q (.inl hq) (g1' q hs)) hg
    obtain ⟨σ₃, h3, w3, g3⟩ := resolve_total p w2 (fun hs => (g2 p hs).elim (fun h => hr p (.inr rfl) (g1' p h))
      (fun h => nd.2.2 p h p (by simp) rfl))
    refine ⟨σ₃, by simp only [trS, h1, Option.bind_some, h2, h3], w3, fun q hq => ?_⟩
    simp only [defs, List.mem_append]
    rcases g3 q hq with h | h
    · exact (g2 q h).imp (g1' q) .inl
    · exact .inr (.inr h)
  | condElse p q c x y ihx ihy =>
    intro σ h nd hr hg
    simp only [defs, List.nodup_append, List.nodup_cons, List.mem_append, List.mem_cons, List.not_mem_nil, or_false,
      not_or] at nd
    simp only [defs, gotos, List.mem_append, List.mem_cons, List.not_mem_nil, or_false] at hr hg
    obtain ⟨nx, ⟨⟨npy, npq⟩, ny, -, nyq⟩, nxy⟩ := nd
    obtain ⟨σ₁, h1, w1, g1⟩ := jump_total isJump_branch p (waits_code h (condCode c))
    have g1' : ∀ q, IsRes σ₁ q → IsRes σ q := fun q hq => (g1 q hq).elim id (fun h => by cases h)
    obtain ⟨σ₂, h2, w2, g2⟩ := ihx σ₁ w1 nx (fun q hq hs => hr q (.inl hq) (g1' q hs)) (fun l hl => hg l (.inl hl))
    obtain ⟨σ₃, h3, w3, g3⟩ := jump_total isJump_jmp q w2
    have g3' : ∀ r, IsRes σ₃ r → IsRes σ r ∨ r ∈ defs x := fun r hr => by
      rcases g3 r hr with h | h
      · exact (g2 r h).imp_left (g1' r)
      · cases h
    obtain ⟨σ₄, h4, w4, g4⟩ := resolve_total p w3 (fun hs => (g3' p hs).elim (hr p (.inr (.inl rfl)))
      (fun h => nxy p h p (.inl rfl) rfl))
    obtain ⟨σ₅, h5, w5, g5⟩ := ihy σ₄ w4 ny (fun r hry hs => by
      rcases g4 r hs with h | h
      · rcases g3' r h with h | h
        · exact hr r (.inr (.inr (.inl hry))) h
        · exact nxy r h r (.inr (.inl hry)) rfl
      · simp only [List.mem_singleton] at h
        subst h
        exact npy hry) (fun l hl => hg l (.inr hl))
    obtain ⟨σ₆, h6, w6, g6⟩ := resolve_total q w5 (fun hs => by
      rcases g5 q hs with h | h
      · rcases g4 q h with h | h
        · rcases g3' q h with h | h
          · exact hr q (.inr (.inr (.inr rfl))) h
          · exact nxy q h q (.inr (.inr rfl)) rfl
        · simp only [List.mem_singleton] at h
          exact npq h.symm
      · exact nyq q h q rfl rfl)
    refine ⟨σ₆, by simp only [trS, h1, Option.bind_some, h2, h3, h4, h5, h6], w6, fun r hs => ?_⟩
    simp only [defs, List.mem_append, List.mem_cons, List.not_mem_nil, or_false]
    rcases g6 r hs with h | h
    · rcases g5 r h with h | h
      · rcases g4 r h with h | h
        · exact (g3' r h).imp_right .inl
        · simp only [List.mem_singleton] at h; exact .inr (.inr (.inl h))
      · exact .inr (.inr (.inr (.inl h)))
    · simp only [List.mem_singleton] at h; exact .inr (.inr (.inr (.inr h)))
  | loop p q c x ih =>
    intro σ h nd hr hg
    simp only [defs, List.nodup_append, List.nodup_cons, List.mem_append, List.mem_cons, List.not_mem_nil, or_false,
      not_or] at nd
    simp only [defs, gotos, List.mem_append, List.mem_cons, List.not_mem_nil, or_false] at hr hg
    obtain ⟨⟨npx, npq⟩, nx, -, nxq⟩ := nd
    obtain ⟨σ₀, h0, w0, g0⟩ := resolve_total p h (hr p (.inl rfl))
    obtain ⟨σ₁, h1, w1, g1⟩ := jump_total isJump_branch q (waits_code w0 (condCode c))
    have g1' : ∀ r, IsRes σ₁ r → IsRes σ r ∨ r = p := fun r hr => by
      rcases g1 r hr with h | h
      · exact (g0 r h).imp_right (by simp)
      · cases h
    obtain ⟨σ₂, h2, w2, g2⟩ := ih σ₁ w1 nx (fun r hx hs => by
      rcases g1' r hs with h | rfl
      · exact hr r (.inr (.inl hx)) h
      · exact npx hx) hg
    obtain ⟨σ₃, h3, w3, g3⟩ := jump_total isJump_jmp p w2
    have g3' : ∀ r, IsRes σ₃ r → IsRes σ r ∨ r = p ∨ r ∈ defs x := fun r hr => by
      rcases g3 r hr with h | h
      · rcases g2 r h with h | h
        · exact (g1' r h).imp_right .inl
        · exact .inr (.inr h)
      · cases h
    obtain ⟨σ₄, h4, w4, g4⟩ := resolve_total q w3 (fun hs => by
      rcases g3' q hs with h | h | h
      · exact hr q (.inr (.inr rfl)) h
      · exact npq h.symm
      · exact nxq q h q rfl rfl)
    refine ⟨σ₄, by simp only [trS, h0, h1, Option.bind_some, h2, h3, h4], w4, fun r hs => ?_⟩
    simp only [defs, List.mem_append, List.mem_cons, List.not_mem_nil, or_false]
    rcases g4 r hs with h | h
    · rcases g3' r h with h | h | h
      · exact .inl h
      · exact .inr (.inl h)
      · exact .inr (.inr (.inl h))
    · simp only [List.mem_singleton] at h; exact .inr (.inr (.inr h))
  | doWhile p q x c ih =>
    intro σ h nd hr hg
    simp only [defs, List.nodup_append, List.nodup_cons, List.mem_cons, List.not_mem_nil, or_false] at nd
    simp only [defs, gotos, List.mem_append, List.mem_cons, List.not_mem_nil, or_false] at hr hg
    obtain ⟨nx, ⟨npq, -⟩, nxx⟩ := nd
    obtain ⟨σ₁, h1, w1, g1⟩ := ih σ h nx (fun r hx => hr r (.inl hx)) hg
    obtain ⟨σ₂, h2, w2, g2⟩ := resolve_total p w1 (fun hs => (g1 p hs).elim (hr p (.inr (.inl rfl)))
      (fun h => nxx p h p (.inl rfl) rfl))
    obtain ⟨σ₃, h3, w3, g3⟩ := resolve_total q (waits_emit (waits_code w2 (doCode c)) [.branch σ.blk.length]) (fun hs => by
      rcases g2 q hs with h | h
      · rcases g1 q h with h | h
        · exact hr q (.inr (.inr rfl)) h
        · exact nxx q h q (.inr rfl) rfl
      · simp only [List.mem_singleton] at h
        exact npq h.symm)
    refine ⟨σ₃, by simp only [trS, h1, Option.bind_some, h2, h3], w3, fun r hs => ?_⟩
    simp only [defs, List.mem_append, List.mem_cons, List.not_mem_nil, or_false]
    rcases g3 r hs with h | h
    · rcases g2 r h with h | h
      · exact (g1 r h).imp_right .inl
      · simp only [List.mem_singleton] at h; exact .inr (.inr (.inl h))
    · simp only [List.mem_singleton] at h; exact .inr (.inr (.inr h))
  | for_ p q init c t x ih =>
    intro σ h nd hr hg
    simp only [defs, List.nodup_append, List.nodup_cons, List.mem_cons, List.not_mem_nil, or_false] at nd
    simp only [defs, gotos, List.mem_append, List.mem_cons, List.not_mem_nil, or_false] at hr hg
    obtain ⟨nx, ⟨npq, -⟩, nxx⟩ := nd
    have : ∃ σ₁, (match (generalizing := false) c with
      | some c => Tr.jump .branch q ((σ.code (initCode init)).code (condCode c))
      | none => some (σ.code (initCode init))) = some σ₁ ∧ Waits σ₁ ∧ ∀ r, IsRes σ₁ r → IsRes σ r := by
      cases c with
      | none => exact ⟨_, rfl, waits_code h _, fun _ h => h⟩
      | some c =>
        obtain ⟨σ₁, h1, w1, g1⟩ := jump_total isJump_branch q (waits_code (waits_code h (initCode init)) (condCode c))
        exact ⟨σ₁, h1, w1, fun r hs => (g1 r hs).elim id (fun h => by cases h)⟩
    obtain ⟨σ₀, h0, w0, g0⟩ := this
    obtain ⟨σ₁, h1, w1, g1⟩ := ih σ₀ w0 nx (fun r hx hs => hr r (.inl hx) (g0 r hs)) hg
    obtain ⟨σ₂, h2, w2, g2⟩ := resolve_total p w1 (fun hs => (g1 p hs).elim (fun h => hr p (.inr (.inl rfl)) (g0 p h))
      (fun h => nxx p h p (.inl rfl) rfl))
    obtain ⟨σ₃, h3, w3, g3⟩ := resolve_total q (waits_emit (waits_code w2 (tailCode t))
        [.jmp (σ.code (initCode init)).blk.length]) (fun hs => by
      rcases g2 q hs with h | h
      · rcases g1 q h with h | h
        · exact hr q (.inr (.inr rfl)) (g0 q h)
        · exact nxx q h q (.inr rfl) rfl
      · simp only [List.mem_singleton] at h
        exact npq h.symm)
    have e : trS rt lab (.for_ p q init c t x) σ = some σ₃ := by
      cases c with
      | none => cases h0; simp only [trS, Option.bind_some, h1, h2, h3]
      | some c => simp only at h0; simp only [trS, h0, Option.bind_some, h1, h2, h3]
    refine ⟨σ₃, e, w3, fun r hs => ?_⟩
    simp only [defs, List.mem_append, List.mem_cons, List.not_mem_nil, or_false]
    rcases g3 r hs with h | h
    · rcases g2 r h with h | h
      · exact (g1 r h).imp (g0 r) .inl
      · simp only [List.mem_singleton] at h; exact .inr (.inr (.inl h))
    · simp only [List.mem_singleton] at h; exact .inr (.inr (.inr h))
  | switch q cs d e x ih =>
    intro σ h nd hr hg
    simp only [defs, List.nodup_append, List.mem_singleton] at nd
    simp only [defs, gotos, List.mem_append, List.mem_singleton] at hr hg
    obtain ⟨σ₀, h0, w0, g0⟩ := cases_total cs (waits_code h (tr e))
    obtain ⟨σ₁, h1, w1, g1⟩ := jump_total isJump_jmp (d.getD q) w0
    have g1' : ∀ r, IsRes σ₁ r → IsRes σ r := fun r hs => by
      rcases g1 r hs with h | h
      · exact (g0 r h).elim id (fun h => by cases h)
      · cases h
    obtain ⟨σ₂, h2, w2, g2⟩ := ih σ₁ w1 nd.1 (fun r hx hs => hr r (.inl hx) (g1' r hs)) hg
    obtain ⟨σ₃, h3, w3, g3⟩ := resolve_total q w2 (fun hs => (g2 q hs).elim (fun h => hr q (.inr rfl) (g1' q h))
      (fun h => nd.2.2 q h q rfl rfl))
    refine ⟨σ₃, by simp only [trS, h0, h1, Option.bind_some, h2, h3], w3, fun r hs => ?_⟩
    simp only [defs, List.mem_append]
    rcases g3 r hs with h | h
    · exact (g2 r h).imp (g1' r) .inl
    · exact .inr (.inr h)
  | case p v x ih | dflt p x ih | label p l x ih =>
    intro σ h nd hr hg
    simp only [defs, List.nodup_cons] at nd
    simp only [defs, gotos, List.mem_cons] at hr hg
    obtain ⟨σ₁, h1, w1, g1⟩ := resolve_total p h (hr p (.inl rfl))
    obtain ⟨σ₂, h2, w2, g2⟩ := ih σ₁ w1 nd.2 (fun r hx hs => by
      rcases g1 r hs with h | h
      · exact hr r (.inr hx) h
      · simp only [List.mem_singleton] at h
        subst h
        exact nd.1 hx) hg
    refine ⟨σ₂, by simp only [trS, h1, Option.bind_some, h2], w2, fun r hs => ?_⟩
    simp only [defs, List.mem_cons]
    rcases g2 r hs with h | h
    · exact (g1 r h).imp_right (fun h => .inl (by simpa using h))
    · exact .inr (.inr h)

/-! ### The analyzer: no point is used twice -/

/-- Labels have points of their own. -/
structure Own (st : Ana) : Prop where
  lt : ∀ l p b, st.labels l = some (p, b) → p < st.fresh
  inj : ∀ l l' p b b', st.labels l = some (p, b) → st.labels l' = some (p, b') → l = l'

/-- How analysis changes the labels. -/
structure Grow (st st' : Ana) : Prop where
  le : st.fresh ≤ st'.fresh
  keep : ∀ l p b, st.labels l = some (p, b) → ∃ b', st'.labels l = some (p, b') ∧ (b = true → b' = true)
  new : ∀ l p b, st'.labels l = some (p, b) → (∃ b', st.labels l = some (p, b')) ∨ st.fresh ≤ p

theorem Grow.of {st st' : Ana} (h : st.fresh ≤ st'.fresh) (hl : st'.labels = st.labels) : Grow st st' where
  le := h
  keep := fun l p b hb => ⟨b, by rw [hl]; exact hb, id⟩
  new := fun l p b hb => .inl ⟨b, by rw [← hl]; exact hb⟩

theorem Grow.trans {a b c : Ana} (h1 : Grow a b) (h2 : Grow b c) : Grow a c where
  le := Nat.le_trans h1.le h2.le
  keep := fun l p x hx => by
    obtain ⟨y, hy, i1⟩ := h1.keep l p x hx
    obtain ⟨z, hz, i2⟩ := h2.keep l p y hy
    exact ⟨z, hz, fun h => i2 (i1 h)⟩
  new := fun l p x hx => by
    rcases h2.new l p x hx with ⟨y, hy⟩ | h
    · exact h1.new l p y hy
    · exact .inr (Nat.le_trans h1.le h)

theorem refLabel_own {l : Nat} {st : Ana} (h : Own st) : Own (refLabel l st).2 ∧ Grow st (refLabel l st).2 := by
  unfold refLabel
  cases hl : st.labels l with
  | some x => exact ⟨h, .of (Nat.le_refl _) rfl⟩
  | none =>
    refine ⟨⟨?_, ?_⟩, ⟨Nat.le_succ _, ?_, ?_⟩⟩
    · intro k p b hk
      by_cases hkl : k = l
      · simp [hkl] at hk; show p < st.fresh + 1; omega
      · simp [hkl] at hk; exact Nat.lt_succ_of_lt (h.lt k p b hk)
    · intro k k' p b b' hk hk'
      by_cases hkl : k = l <;> by_cases hkl' : k' = l
      · rw [hkl, hkl']
      · simp [hkl] at hk; simp [hkl'] at hk'
        have := h.lt _ _ _ hk'; omega
      · simp [hkl] at hk; simp [hkl'] at hk'
        have := h.lt _ _ _ hk; omega
      · simp [hkl] at hk; simp [hkl'] at hk'
        exact h.inj _ _ _ _ _ hk hk'
    · intro k p b hk
      have : k ≠ l := by rintro rfl; rw [hl] at hk; cases hk
      exact ⟨b, by simp [this, hk], id⟩
    · intro k p b hk
      by_cases hkl : k = l
      · simp [hkl] at hk; exact .inr (by omega)
      · simp [hkl] at hk; exact .inl ⟨b, hk⟩

theorem defLabel_own {l p : Nat} {st st' : Ana} (h : Own st) (hd : defLabel l st = some (p, st')) :
    Own st' ∧ Grow st st' ∧ p < st'.fresh ∧ (∀ q, st.labels l ≠ some (q, true)) ∧ st'.labels l = some (p, true) := by
  unfold defLabel at hd
  split at hd
  · rename_i hl
    simp only [Option.some.injEq, Prod.mk.injEq] at hd
    obtain ⟨rfl, rfl⟩ := hd
    refine ⟨⟨?_, ?_⟩, ⟨Nat.le_succ _, ?_, ?_⟩, Nat.lt_succ_self _, by simp [hl], by simp⟩
    · intro k p b hk
      by_cases hkl : k = l
      · simp [hkl] at hk; show p < st.fresh + 1; omega
      · simp [hkl] at hk; exact Nat.lt_succ_of_lt (h.lt k p b hk)
    · intro k k' p b b' hk hk'
      by_cases hkl : k = l <;> by_cases hkl' : k' = l
      · rw [hkl, hkl']
      · simp [hkl] at hk; simp [hkl'] at hk'
        have := h.lt _ _ _ hk'; omega
      · simp [hkl] at hk; simp [hkl'] at hk'
        have := h.lt _ _ _ hk; omega
      · simp [hkl] at hk; simp [hkl'] at hk'
        exact h.inj _ _ _ _ _ hk hk'
    · intro k p b hk
      have : k ≠ l := by rintro rfl; rw [hl] at hk; cases hk
      exact ⟨b, by simp [this, hk], id⟩
    · intro k p b hk
      by_cases hkl : k = l
      · simp [hkl] at hk; exact .inr (by omega)
      · simp [hkl] at hk; exact .inl ⟨b, hk⟩
  · rename_i q hq
    simp only [Option.some.injEq, Prod.mk.injEq] at hd
    obtain ⟨rfl, rfl⟩ := hd
    have back : ∀ k p b, (if k = l then some (q, true) else st.labels k) = some (p, b) → ∃ b', st.labels k = some (p, b') := by
      intro k p b hk
      by_cases hkl : k = l
      · simp [hkl] at hk; exact ⟨false, by rw [hkl, ← hk.1]; exact hq⟩
      · simp [hkl] at hk; exact ⟨b, hk⟩
    refine ⟨⟨?_, ?_⟩, ⟨Nat.le_refl _, ?_, ?_⟩, h.lt _ _ _ hq, by simp [hq], by simp⟩
    · intro k p b hk
      obtain ⟨b', hb⟩ := back k p b hk
      exact h.lt k p b' hb
    · intro k k' p b b' hk hk'
      obtain ⟨x, hx⟩ := back k p b hk
      obtain ⟨y, hy⟩ := back k' p b' hk'
      exact h.inj _ _ _ _ _ hx hy
    · intro k p b hk
      by_cases hkl : k = l
      · subst hkl
        rw [hq] at hk
        cases hk
        exact ⟨true, by simp, fun h => by cases h⟩
      · exact ⟨b, by simp [hkl, hk], id⟩
    · intro k p b hk
      exact .inl (back k p b hk)
  · cases hd

/-- A point resolved by a statement: allocated for it and not a label's, or that of a label that it binds. -/
def Mine (st st' : Ana) (p : Nat) : Prop :=
  p < st'.fresh ∧ ((st.fresh ≤ p ∧ ∀ l b, st'.labels l ≠ some (p, b)) ∨
    ∃ l, (∀ q, st.labels l ≠ some (q, true)) ∧ st'.labels l = some (p, true))

theorem Mine.left {st s1 st' : Ana} {p : Nat} (h : Mine st s1 p) (g : Grow s1 st') : Mine st st' p := by
  refine ⟨Nat.lt_of_lt_of_le h.1 g.le, ?_⟩
  rcases h.2 with ⟨h1, h2⟩ | ⟨l, h1, h2⟩
  · refine .inl ⟨h1, fun l b hl => ?_⟩
    rcases g.new l p b hl with ⟨b', hb⟩ | hb
    · exact h2 l b' hb
    · have := h.1; omega
  · obtain ⟨b', hb, hi⟩ := g.keep l p true h2
    exact .inr ⟨l, h1, by rw [hb, hi rfl]⟩

theorem Mine.right {st s1 st' : Ana} {p : Nat} (h : Mine s1 st' p) (g : Grow st s1) : Mine st st' p := by
  refine ⟨h.1, ?_⟩
  rcases h.2 with ⟨h1, h2⟩ | ⟨l, h1, h2⟩
  · exact .inl ⟨Nat.le_trans g.le h1, h2⟩
  · refine .inr ⟨l, fun q hq => ?_, h2⟩
    obtain ⟨b', hb, hi⟩ := g.keep l q true hq
    rw [hi rfl] at hb
    exact h1 q hb

theorem Mine.disjoint {st s1 st' : Ana} {p : Nat} (o : Own st') (g : Grow s1 st') (h1 : Mine st s1 p) (h2 : Mine s1 st' p) : False := by
  rcases h2.2 with ⟨h, -⟩ | ⟨l, h, hl⟩
  · have := h1.1; omega
  · rcases h1.2 with ⟨-, h'⟩ | ⟨l', -, h'⟩
    · rcases g.new l p true hl with ⟨b, hb⟩ | hb
      · exact h' l b hb
      · have := h1.1; omega
    · obtain ⟨b, hb, -⟩ := g.keep l' p true h'
      have := o.inj _ _ _ _ _ hb hl
      subst this
      exact h p h'

/-- A point allocated before the parts of a statement are analysed. -/
theorem mine_fresh {st st1 st' : Ana} {p : Nat} (o : Own st) (g : Grow st1 st') (h1 : st.fresh ≤ p) (h2 : p < st1.fresh)
    (hl : st1.labels = st.labels) : Mine st st' p := by
  refine ⟨Nat.lt_of_lt_of_le h2 g.le, .inl ⟨h1, fun l b hb => ?_⟩⟩
  rcases g.new l p b hb with ⟨b', hb'⟩ | hb'
  · rw [hl] at hb'
    have := o.lt l p b' hb'
    omega
  · omega

theorem mine_ne {st1 st' : Ana} {p q : Nat} (o : Own st') (g : Grow st1 st') (h2 : Mine st1 st' q) (h : p < st1.fresh)
    (hn : ∀ l b, st1.labels l ≠ some (p, b)) : q ≠ p := by
  rintro rfl
  rcases h2.2 with ⟨h', -⟩ | ⟨l, h', hl⟩
  · omega
  · rcases g.new l q true hl with ⟨b, hb⟩ | hb
    · exact hn l b hb
    · omega

theorem Own.bump {st st1 : Ana} (o : Own st) (h : st.fresh ≤ st1.fresh) (hl : st1.labels = st.labels) : Own st1 where
  lt := fun l p b hb => Nat.lt_of_lt_of_le (o.lt l p b (by rw [← hl]; exact hb)) h
  inj := fun l l' p b b' h1 h2 => o.inj l l' p b b' (by rw [← hl]; exact h1) (by rw [← hl]; exact h2)

theorem Mine.cast {st st1 st' : Ana} {p : Nat} (h : Mine st1 st' p) (hf : st.fresh ≤ st1.fresh) (hl : st1.labels = st.labels) : Mine st st' p :=
  h.right (.of hf hl)

theorem fresh_not_label {st st1 : Ana} {p : Nat} (o : Own st) (h : st.fresh ≤ p) (hl : st1.labels = st.labels) :
    ∀ l b, st1.labels l ≠ some (p, b) := by
  intro l b hb
  rw [hl] at hb
  have := o.lt l p b hb
  omega

theorem analyze_points : ∀ (s : Stmt) (brk cont : Option Nat) (st st' : Ana) (a : A),
    analyze brk cont s st = some (a, st') → Own st → Own st' ∧ Grow st st' ∧ (defs a).Nodup ∧ ∀ p ∈ defs a, Mine st st' p := by
  intro s
  induction s with
  | seq x y ihx ihy =>
    intro brk cont st st' a h o
    simp only [analyze, Option.bind_eq_some_iff, Option.map_eq_some_iff, Prod.mk.injEq, Prod.exists] at h
    obtain ⟨a1, s1, h1, a2, s2, h2, rfl, rfl⟩ := h
    obtain ⟨o1, g1, n1, m1⟩ := ihx _ _ _ _ _ h1 o
    obtain ⟨o2, g2, n2, m2⟩ := ihy _ _ _ _ _ h2 o1
    refine ⟨o2, g1.trans g2, ?_, ?_⟩
    · simp only [defs, List.nodup_append]
      refine ⟨n1, n2, ?_⟩
      rintro p hp _ hq rfl
      exact (m1 p hp).disjoint o2 g2 (m2 p hq)
    · intro p hp
      simp only [defs, List.mem_append] at hp
      rcases hp with hp | hp
      · exact (m1 p hp).left g2
      · exact (m2 p hp).right g1
  | condElse c x y ihx ihy =>
    intro brk cont st st' a h o
    simp only [analyze, Option.bind_eq_some_iff, Option.map_eq_some_iff, Prod.mk.injEq, Prod.exists] at h
    obtain ⟨a1, s1, h1, a2, s2, h2, rfl, rfl⟩ := h
    have o0 : Own { st with fresh := st.fresh + 2 } := o.bump (by simp) rfl
    obtain ⟨o1, g1, n1, m1⟩ := ihx _ _ _ _ _ h1 o0
    obtain ⟨o2, g2, n2, m2⟩ := ihy _ _ _ _ _ h2 o1
    have g0 : Grow st { st with fresh := st.fresh + 2 } := .of (by simp) rfl
    have n : ∀ r, r ∈ defs a1 ∨ r ∈ defs a2 → r ≠ st.fresh ∧ r ≠ st.fresh + 1 := by
      intro r hr
      have hm : Mine { st with fresh := st.fresh + 2 } s2 r := by
        rcases hr with hr | hr
        · exact (m1 r hr).left g2
        · exact (m2 r hr).right g1
      exact ⟨mine_ne o2 (g1.trans g2) hm (by simp) (fresh_not_label o (by simp) rfl),
        mine_ne o2 (g1.trans g2) hm (by simp) (fresh_not_label o (by simp) rfl)⟩
    refine ⟨o2, (g0.trans g1).trans g2, ?_, ?_⟩
    · simp only [defs, List.nodup_append, List.nodup_cons, List.mem_append, List.mem_cons, List.not_mem_nil, or_false, not_or]
      refine ⟨n1, ⟨⟨fun h => (n _ (.inr h)).1 rfl, by omega⟩, n2, ⟨by simp, by simp⟩, ?_⟩, ?_⟩
      · rintro r hr _ rfl
        exact (n r (.inr hr)).2
      · rintro r hr _ (rfl | h | rfl)
        · exact (n r (.inl hr)).1
        · rintro rfl
          exact (m1 r hr).disjoint o2 g2 (m2 r h)
        · exact (n r (.inl hr)).2
    · intro p hp
      simp only [defs, List.mem_append, List.mem_cons, List.not_mem_nil, or_false] at hp
      rcases hp with hp | rfl | hp | rfl
      · exact ((m1 p hp).left g2).right g0
      · exact mine_fresh o (g1.trans g2) (by simp) (by simp) rfl
      · exact ((m2 p hp).right g1).right g0
      · exact mine_fresh o (g1.trans g2) (by simp) (by simp) rfl
  | cond c x ih =>
    intro brk cont st st' a h o
    simp only [analyze, Option.map_eq_some_iff, Prod.mk.injEq, Prod.exists] at h
    obtain ⟨a1, s1, h1, rfl, rfl⟩ := h
    obtain ⟨o1, g1, n1, m1⟩ := ih _ _ _ _ _ h1 (o.bump (by simp) rfl)
    have g0 : Grow st { st with fresh := st.fresh + 1 } := .of (by simp) rfl
    refine ⟨o1, g0.trans g1, ?_, ?_⟩
    · simp only [defs, List.nodup_append, List.mem_singleton]
      refine ⟨n1, by simp, ?_⟩
      rintro r hr _ rfl
      exact mine_ne o1 g1 (m1 r hr) (by simp) (fresh_not_label o (by simp) rfl)
    · intro p hp
      simp only [defs, List.mem_append, List.mem_singleton] at hp
      rcases hp with hp | rfl
      · exact (m1 p hp).right g0
      · exact mine_fresh o g1 (by simp) (by simp) rfl
  | loop c x ih =>
    intro brk cont st st' a h o
    simp only [analyze, Option.map_eq_some_iff, Prod.mk.injEq, Prod.exists] at h
    obtain ⟨a1, s1, h1, rfl, rfl⟩ := h
    obtain ⟨o1, g1, n1, m1⟩ := ih _ _ _ _ _ h1 (o.bump (by simp) rfl)
    have g0 : Grow st { st with fresh := st.fresh + 2 } := .of (by simp) rfl
    have n : ∀ r, r ∈ defs a1 → r ≠ st.fresh ∧ r ≠ st.fresh + 1 := fun r hr =>
      ⟨mine_ne o1 g1 (m1 r hr) (by simp) (fresh_not_label o (by simp) rfl),
        mine_ne o1 g1 (m1 r hr) (by simp) (fresh_not_label o (by simp) rfl)⟩
    refine ⟨o1, g0.trans g1, ?_, ?_⟩
    · simp only [defs, List.nodup_append, List.nodup_cons, List.mem_append, List.mem_cons, List.not_mem_nil, or_false, not_or]
      refine ⟨⟨fun h => (n _ h).1 rfl, by omega⟩, n1, ⟨by simp, by simp⟩, ?_⟩
      rintro r hr _ rfl
      exact (n r hr).2
    · intro p hp
      simp only [defs, List.mem_append, List.mem_cons, List.not_mem_nil, or_false] at hp
      rcases hp with rfl | hp | rfl
      · exact mine_fresh o g1 (by simp) (by simp) rfl
      · exact (m1 p hp).right g0
      · exact mine_fresh o g1 (by simp) (by simp) rfl
  | doWhile x c ih =>
    intro brk cont st st' a h o
    simp only [analyze, Option.map_eq_some_iff, Prod.mk.injEq, Prod.exists] at h
    obtain ⟨a1, s1, h1, rfl, rfl⟩ := h
    obtain ⟨o1, g1, n1, m1⟩ := ih _ _ _ _ _ h1 (o.bump (by simp) rfl)
    have g0 : Grow st { st with fresh := st.fresh + 2 } := .of (by simp) rfl
    have n : ∀ r, r ∈ defs a1 → r ≠ st.fresh ∧ r ≠ st.fresh + 1 := fun r hr =>
      ⟨mine_ne o1 g1 (m1 r hr) (by simp) (fresh_not_label o (by simp) rfl),
        mine_ne o1 g1 (m1 r hr) (by simp) (fresh_not_label o (by simp) rfl)⟩
    refine ⟨o1, g0.trans g1, ?_, ?_⟩
    · simp only [defs, List.nodup_append, List.nodup_cons, List.mem_cons, List.not_mem_nil, or_false]
      refine ⟨n1, ⟨by omega, by simp, by simp⟩, ?_⟩
      rintro r hr _ (rfl | rfl)
      · exact (n r hr).1
      · exact (n r hr).2
    · intro p hp
      simp only [defs, List.mem_append, List.mem_cons, List.not_mem_nil, or_false] at hp
      rcases hp with hp | rfl | rfl
      · exact (m1 p hp).right g0
      · exact mine_fresh o g1 (by simp) (by simp) rfl
      · exact mine_fresh o g1 (by simp) (by simp) rfl
  | for_ i c t x ih =>
    intro brk cont st st' a h o
    simp only [analyze, Option.map_eq_some_iff, Prod.mk.injEq, Prod.exists] at h
    obtain ⟨a1, s1, h1, rfl, rfl⟩ := h
    obtain ⟨o1, g1, n1, m1⟩ := ih _ _ _ _ _ h1 (o.bump (by simp) rfl)
    have g0 : Grow st { st with fresh := st.fresh + 2 } := .of (by simp) rfl
    have n : ∀ r, r ∈ defs a1 → r ≠ st.fresh ∧ r ≠ st.fresh + 1 := fun r hr =>
      ⟨mine_ne o1 g1 (m1 r hr) (by simp) (fresh_not_label o (by simp) rfl),
        mine_ne o1 g1 (m1 r hr) (by simp) (fresh_not_label o (by simp) rfl)⟩
    refine ⟨o1, g0.trans g1, ?_, ?_⟩
    · simp only [defs, List.nodup_append, List.nodup_cons, List.mem_cons, List.not_mem_nil, or_false]
      refine ⟨n1, ⟨by omega, by simp, by simp⟩, ?_⟩
      rintro r hr _ (rfl | rfl)
      · exact (n r hr).1
      · exact (n r hr).2
    · intro p hp
      simp only [defs, List.mem_append, List.mem_cons, List.not_mem_nil, or_false] at hp
      rcases hp with hp | rfl | rfl
      · exact (m1 p hp).right g0
      · exact mine_fresh o g1 (by simp) (by simp) rfl
      · exact mine_fresh o g1 (by simp) (by simp) rfl
  | switch e x ih =>
    intro brk cont st st' a h o
    simp only [analyze, Option.bind_eq_some_iff, Prod.exists] at h
    obtain ⟨a1, s1, h1, h2⟩ := h
    split at h2
    · simp only [Option.some.injEq, Prod.mk.injEq] at h2
      obtain ⟨rfl, rfl⟩ := h2
      obtain ⟨o1, g1, n1, m1⟩ := ih _ _ _ _ _ h1 (o.bump (by simp) rfl)
      have g0 : Grow st { st with fresh := st.fresh + 1, sw := some ⟨[], none⟩ } := .of (by simp) rfl
      have g2 : Grow s1 { s1 with sw := st.sw } := .of (by simp) rfl
      have o2 : Own { s1 with sw := st.sw } := o1.bump (by simp) rfl
      refine ⟨o2, (g0.trans g1).trans g2, ?_, ?_⟩
      · simp only [defs, List.nodup_append, List.mem_singleton]
        refine ⟨n1, by simp, ?_⟩
        rintro r hr _ rfl
        exact mine_ne o1 g1 (m1 r hr) (by simp) (fresh_not_label o (by simp) rfl)
      · intro p hp
        simp only [defs, List.mem_append, List.mem_singleton] at hp
        rcases hp with hp | rfl
        · exact ((m1 p hp).right g0).left g2
        · exact (mine_fresh o g1 (by simp) (by simp) rfl).left g2
    · cases h2
  | case v x ih =>
    intro brk cont st st' a h o
    simp only [analyze] at h
    split at h
    · cases h
    · rename_i t ht
      simp only [Option.bind_eq_some_iff, Option.map_eq_some_iff, Prod.mk.injEq, Prod.exists] at h
      obtain ⟨cs, _, a1, s1, h1, rfl, rfl⟩ := h
      obtain ⟨o1, g1, n1, m1⟩ := ih _ _ _ _ _ h1 (o.bump (by simp) rfl)
      have g0 : Grow st { st with fresh := st.fresh + 1, sw := some { t with cases := cs } } := .of (by simp) rfl
      refine ⟨o1, g0.trans g1, ?_, ?_⟩
      · simp only [defs, List.nodup_cons]
        exact ⟨fun h => mine_ne o1 g1 (m1 _ h) (by simp) (fresh_not_label o (by simp) rfl) rfl, n1⟩
      · intro p hp
        simp only [defs, List.mem_cons] at hp
        rcases hp with rfl | hp
        · exact mine_fresh o g1 (by simp) (by simp) rfl
        · exact (m1 p hp).right g0
  | dflt x ih =>
    intro brk cont st st' a h o
    simp only [analyze] at h
    split at h
    · cases h
    · rename_i t ht
      split at h
      · cases h
      · simp only [Option.map_eq_some_iff, Prod.mk.injEq, Prod.exists] at h
        obtain ⟨a1, s1, h1, rfl, rfl⟩ := h
        obtain ⟨o1, g1, n1, m1⟩ := ih _ _ _ _ _ h1 (o.bump (by simp) rfl)
        have g0 : Grow st { st with fresh := st.fresh + 1, sw := some { t with dflt := some st.fresh } } := .of (by simp) rfl
        refine ⟨o1, g0.trans g1, ?_, ?_⟩
        · simp only [defs, List.nodup_cons]
          exact ⟨fun h => mine_ne o1 g1 (m1 _ h) (by simp) (fresh_not_label o (by simp) rfl) rfl, n1⟩
        · intro p hp
          simp only [defs, List.mem_cons] at hp
          rcases hp with rfl | hp
          · exact mine_fresh o g1 (by simp) (by simp) rfl
          · exact (m1 p hp).right g0
  | label l x ih =>
    intro brk cont st st' a h o
    simp only [analyze, Option.bind_eq_some_iff, Option.map_eq_some_iff, Prod.mk.injEq, Prod.exists] at h
    obtain ⟨a1, s1, h1, p, s2, h2, rfl, rfl⟩ := h
    obtain ⟨o1, g1, n1, m1⟩ := ih _ _ _ _ _ h1 o
    obtain ⟨o2, g2, hlt, hnb, hb⟩ := defLabel_own o1 h2
    have hmine : Mine s1 s2 p := ⟨hlt, .inr ⟨l, hnb, hb⟩⟩
    refine ⟨o2, g1.trans g2, ?_, ?_⟩
    · simp only [defs, List.nodup_cons]
      exact ⟨fun h => (m1 p h).disjoint o2 g2 hmine, n1⟩
    · intro q hq
      simp only [defs, List.mem_cons] at hq
      rcases hq with rfl | hq
      · exact hmine.right g1
      · exact (m1 q hq).left g2
  | goto l =>
    intro brk cont st st' a h o
    simp only [analyze, Option.some.injEq, Prod.mk.injEq] at h
    obtain ⟨rfl, rfl⟩ := h
    obtain ⟨o1, g1⟩ := refLabel_own (l := l) o
    exact ⟨o1, g1, by simp [defs], by simp [defs]⟩
  | brk | cont =>
    intro brk cont st st' a h o
    simp only [analyze, Option.map_eq_some_iff, Prod.mk.injEq] at h
    obtain ⟨p, _, rfl, rfl⟩ := h
    exact ⟨o, .of (Nat.le_refl _) rfl, by simp [defs], by simp [defs]⟩
  | _ =>
    intro brk cont st st' a h o
    simp only [analyze, Option.some.injEq, Prod.mk.injEq] at h
    obtain ⟨rfl, rfl⟩ := h
    exact ⟨o, .of (Nat.le_refl _) rfl, by simp [defs], by simp [defs]⟩

/-! ### The analyzer: what it rejects -/

/-- The keys of the `case` labels of a statement. -/
def keysOf (s : Stmt) : List Word := (casesOf s).map (BitVec.ofInt 64 ·)

/-- What the analyzer demands of the parts of a statement; `brk`: there is an enclosing loop or `switch`, `cont`: an
enclosing loop, `sw`: an enclosing `switch`. -/
def Fits (brk cont sw : Bool) : Stmt → Prop
  | .seq a b => Fits brk cont sw a ∧ Fits brk cont sw b
  | .cond _ a => Fits brk cont sw a
  | .condElse _ a b => Fits brk cont sw a ∧ Fits brk cont sw b
  | .loop _ b => Fits true true sw b
  | .doWhile b _ => Fits true true sw b
  | .for_ _ _ _ b => Fits true true sw b
  | .switch _ b => Fits true cont true b ∧ dfltsOf b ≤ 1 ∧ (keysOf b).Nodup
  | .case _ s => sw = true ∧ Fits brk cont sw s
  | .dflt s => sw = true ∧ Fits brk cont sw s
  | .label _ s => Fits brk cont sw s
  | .brk => brk = true
  | .cont => cont = true
  | _ => True

/-- The state has room for labels `L` and, in the table of the enclosing `switch`, for keys `K` and `D` `default`s. -/
structure Room (st : Ana) (L : List Nat) (K : List Word) (D : Nat) : Prop where
  nodup : L.Nodup
  free : ∀ l ∈ L, st.bound l = false
  keys : ∀ x, st.sw = some x → K.Nodup ∧ (∀ w ∈ K, w ∉ x.cases.map (·.1)) ∧ (x.dflt.isSome = true → D = 0) ∧ D ≤ 1

/-- The state after those have been entered. -/
structure Fill (st st' : Ana) (L : List Nat) (K : List Word) (D : Nat) : Prop where
  labels : ∀ l, st'.bound l = true ↔ st.bound l = true ∨ l ∈ L
  sw : st'.sw.isSome = st.sw.isSome
  keys : ∀ x y, st.sw = some x → st'.sw = some y →
    (∀ w, w ∈ y.cases.map (·.1) ↔ w ∈ x.cases.map (·.1) ∨ w ∈ K) ∧ (y.dflt.isSome = true ↔ x.dflt.isSome = true ∨ D ≠ 0)

theorem Fill.trans {a b c : Ana} {L L' K K' D D'} (h1 : Fill a b L K D) (h2 : Fill b c L' K' D') : Fill a c (L ++ L') (K ++ K') (D + D') where
  labels := fun l => by rw [h2.labels, h1.labels, List.mem_append, or_assoc]
  sw := by rw [h2.sw, h1.sw]
  keys := fun x z hx hz => by
    cases hy : b.sw with
    | none => have := h1.sw; rw [hx, hy] at this; cases this
    | some y =>
      obtain ⟨k1, d1⟩ := h1.keys x y hx hy
      obtain ⟨k2, d2⟩ := h2.keys y z hy hz
      refine ⟨fun w => by rw [k2, k1, List.mem_append, or_assoc], ?_⟩
      rw [d2, d1]
      constructor
      · rintro ((h | h) | h)
        · exact .inl h
        · exact .inr (by omega)
        · exact .inr (by omega)
      · rintro (h | h)
        · exact .inl (.inl h)
        · by_cases hd : D = 0
          · exact .inr (by omega)
          · exact .inl (.inr hd)

theorem Fill.of {st st' : Ana} (h : ∀ l, st'.bound l = st.bound l) (hs : st'.sw = st.sw) : Fill st st' [] [] 0 where
  labels := fun l => by simp [h]
  sw := by rw [hs]
  keys := fun x y hx hy => by
    rw [hs, hx] at hy
    cases hy
    simp

theorem Room.left {st : Ana} {L L' K K' D D'} (h : Room st (L ++ L') (K ++ K') (D + D')) : Room st L K D where
  nodup := (List.nodup_append.mp h.nodup).1
  free := fun l hl => h.free l (List.mem_append_left _ hl)
  keys := fun x hx => by
    obtain ⟨k1, k2, k3, k4⟩ := h.keys x hx
    exact ⟨(List.nodup_append.mp k1).1, fun w hw => k2 w (List.mem_append_left _ hw), fun hd => by have := k3 hd; omega, by omega⟩

theorem Room.right {st st1 : Ana} {L L' K K' D D'} (h : Room st (L ++ L') (K ++ K') (D + D')) (f : Fill st st1 L K D) : Room st1 L' K' D' where
  nodup := (List.nodup_append.mp h.nodup).2.1
  free := fun l hl => by
    cases hb : st1.bound l with
    | false => rfl
    | true =>
      rcases (f.labels l).mp hb with h' | h'
      · rw [h.free l (List.mem_append_right _ hl)] at h'; cases h'
      · exact ((List.nodup_append.mp h.nodup).2.2 l h' l hl rfl).elim
  keys := fun y hy => by
    cases hx : st.sw with
    | none => have := f.sw; rw [hx, hy] at this; cases this
    | some x =>
      obtain ⟨k1, k2, k3, k4⟩ := h.keys x hx
      obtain ⟨e1, e2⟩ := f.keys x y hx hy
      refine ⟨(List.nodup_append.mp k1).2.1, fun w hw hm => ?_, fun hd => ?_, by omega⟩
      · rcases (e1 w).mp hm with h' | h'
        · exact k2 w (List.mem_append_right _ hw) h'
        · exact (List.nodup_append.mp k1).2.2 w h' w hw rfl
      · rcases e2.mp hd with h' | h'
        · have := k3 h'; omega
        · omega

theorem Room.append {st st1 : Ana} {L L' K K' D D'} (h : Room st L K D) (f : Fill st st1 L K D) (h' : Room st1 L' K' D') :
    Room st (L ++ L') (K ++ K') (D + D') where
  nodup := List.nodup_append.mpr ⟨h.nodup, h'.nodup, by
    rintro l hl _ hl' rfl
    have := h'.free l hl'
    rw [(f.labels l).mpr (.inr hl)] at this
    cases this⟩
  free := fun l hl => by
    rcases List.mem_append.mp hl with hl | hl
    · exact h.free l hl
    · cases hb : st.bound l with
      | false => rfl
      | true =>
        have := h'.free l hl
        rw [(f.labels l).mpr (.inl hb)] at this
        cases this
  keys := fun x hx => by
    cases hy : st1.sw with
    | none => have := f.sw; rw [hx, hy] at this; cases this
    | some y =>
      obtain ⟨k1, k2, k3, k4⟩ := h.keys x hx
      obtain ⟨j1, j2, j3, j4⟩ := h'.keys y hy
      obtain ⟨e1, e2⟩ := f.keys x y hx hy
      refine ⟨List.nodup_append.mpr ⟨k1, j1, ?_⟩, ?_, ?_, ?_⟩
      · rintro w hw _ hw' rfl
        exact j2 w hw' ((e1 w).mpr (.inr hw))
      · intro w hw hm
        rcases List.mem_append.mp hw with hw | hw
        · exact k2 w hw hm
        · exact j2 w hw ((e1 w).mpr (.inl hm))
      · intro hd
        have := k3 hd
        have := j3 (e2.mpr (.inl hd))
        omega
      · by_cases hd : D = 0
        · omega
        · have := j3 (e2.mpr (.inr hd)); omega

theorem Room.nil (st : Ana) : Room st [] [] 0 := ⟨by simp, by simp, by simp⟩

theorem bound_def {st st' : Ana} {l p : Nat} (h : defLabel l st = some (p, st')) :
    st.bound l = false ∧ ∀ k, st'.bound k = true ↔ st.bound k = true ∨ k = l := by
  unfold defLabel at h
  split at h
  · rename_i hl
    simp only [Option.some.injEq, Prod.mk.injEq] at h
    obtain ⟨rfl, rfl⟩ := h
    refine ⟨by simp [Ana.bound, hl], fun k => ?_⟩
    by_cases hk : k = l <;> simp [Ana.bound, hk]
  · rename_i q hl
    simp only [Option.some.injEq, Prod.mk.injEq] at h
    obtain ⟨rfl, rfl⟩ := h
    refine ⟨by simp [Ana.bound, hl], fun k => ?_⟩
    by_cases hk : k = l <;> simp [Ana.bound, hk]
  · cases h

theorem defLabel_total {st : Ana} {l : Nat} (h : st.bound l = false) : ∃ p st', defLabel l st = some (p, st') := by
  unfold Ana.bound at h
  unfold defLabel
  cases hl : st.labels l with
  | none => exact ⟨_, _, rfl⟩
  | some x =>
    obtain ⟨p, b⟩ := x
    rw [hl] at h
    cases (show b = false from h)
    exact ⟨_, _, rfl⟩

theorem bound_ref (st : Ana) (l k : Nat) : (refLabel l st).2.bound k = st.bound k := by
  unfold refLabel
  cases hl : st.labels l with
  | some x => rfl
  | none =>
    by_cases hk : k = l <;> simp [Ana.bound, hk, hl]

theorem insertCase_total {w : Word} {p : Nat} : ∀ {cs : List (Word × Nat)}, Sorted cs → w ∉ cs.map (·.1) → ∃ cs', insertCase w p cs = some cs' := by
  intro cs
  induction cs with
  | nil => intro _ _; exact ⟨_, rfl⟩
  | cons c cs ih =>
    obtain ⟨w', p'⟩ := c
    intro hs h
    simp only [List.map_cons, List.mem_cons, not_or] at h
    obtain ⟨cs', h'⟩ := ih hs.2 h.2
    simp only [insertCase, if_neg h.1]
    split
    · exact ⟨_, rfl⟩
    · exact ⟨_, by rw [h']; rfl⟩

theorem insertCase_new {w : Word} {p : Nat} : ∀ {cs cs' : List (Word × Nat)}, Sorted cs → insertCase w p cs = some cs' → w ∉ cs.map (·.1) := by
  intro cs
  induction cs with
  | nil => intro cs' _ _; simp
  | cons c cs ih =>
    obtain ⟨w', p'⟩ := c
    intro cs' hs h
    simp only [insertCase] at h
    split at h
    · cases h
    · rename_i hne
      simp only [List.map_cons, List.mem_cons, not_or]
      refine ⟨hne, ?_⟩
      split at h
      · rename_i hlt
        intro hm
        obtain ⟨x, hx, he⟩ := List.mem_map.mp hm
        have := hs.1 x hx
        simp only at this
        rw [he] at this
        omega
      · simp only [Option.map_eq_some_iff] at h
        obtain ⟨cs1, h1, -⟩ := h
        exact ih hs.2 h1

/-- The table, if any, is sorted. -/
def Tidy (t : Option Table) : Prop := ∀ x, t = some x → Sorted x.cases

theorem analyze_tidy {s : Stmt} {brk cont : Option Nat} {st st' : Ana} {a : A} (h : analyze brk cont s st = some (a, st'))
    (ht : Tidy st.sw) : Tidy st'.sw := by
  obtain ⟨-, te⟩ := analyze_ext _ _ _ _ _ _ h
  intro y hy
  cases hx : st.sw with
  | none => rw [te.none hx] at hy; cases hy
  | some x =>
    obtain ⟨y', hy', -, -, so⟩ := te.some x hx
    rw [hy] at hy'
    cases hy'
    exact so (ht x hx)

/-- Whatever is analysed has room, and fills it. -/
theorem analyze_post : ∀ (s : Stmt) (brk cont : Option Nat) (st st' : Ana) (a : A), analyze brk cont s st = some (a, st') →
    Tidy st.sw → Fits brk.isSome cont.isSome st.sw.isSome s ∧ Room st (labelsOf s) (keysOf s) (dfltsOf s) ∧
      Fill st st' (labelsOf s) (keysOf s) (dfltsOf s) := by
  intro s
  induction s with
  | seq x y ihx ihy =>
    intro brk cont st st' a h ht
    simp only [analyze, Option.bind_eq_some_iff, Option.map_eq_some_iff, Prod.mk.injEq, Prod.exists] at h
    obtain ⟨a1, s1, h1, a2, s2, h2, rfl, rfl⟩ := h
    obtain ⟨p1, r1, f1⟩ := ihx _ _ _ _ _ h1 ht
    obtain ⟨p2, r2, f2⟩ := ihy _ _ _ _ _ h2 (analyze_tidy h1 ht)
    rw [f1.sw] at p2
    have e : keysOf (.seq x y) = keysOf x ++ keysOf y := by simp [keysOf, casesOf]
    rw [e]
    exact ⟨⟨p1, p2⟩, r1.append f1 r2, f1.trans f2⟩
  | condElse c x y ihx ihy =>
    intro brk cont st st' a h ht
    simp only [analyze, Option.bind_eq_some_iff, Option.map_eq_some_iff, Prod.mk.injEq, Prod.exists] at h
    obtain ⟨a1, s1, h1, a2, s2, h2, rfl, rfl⟩ := h
    obtain ⟨p1, r1, f1⟩ := ihx _ _ _ _ _ h1 ht
    obtain ⟨p2, r2, f2⟩ := ihy _ _ _ _ _ h2 (analyze_tidy h1 ht)
    rw [f1.sw] at p2
    have e : keysOf (.condElse c x y) = keysOf x ++ keysOf y := by simp [keysOf, casesOf]
    rw [e]
    have f1' : Fill st s1 (labelsOf x) (keysOf x) (dfltsOf x) := ⟨f1.labels, f1.sw, f1.keys⟩
    have r1' : Room st (labelsOf x) (keysOf x) (dfltsOf x) := ⟨r1.nodup, r1.free, r1.keys⟩
    exact ⟨⟨p1, p2⟩, r1'.append f1' r2, f1'.trans f2⟩
  | cond c x ih | loop c x ih | doWhile x c ih | for_ i c t x ih =>
    intro brk cont st st' a h ht
    simp only [analyze, Option.map_eq_some_iff, Prod.mk.injEq, Prod.exists] at h
    obtain ⟨a1, s1, h1, rfl, rfl⟩ := h
    obtain ⟨p1, r1, f1⟩ := ih _ _ _ _ _ h1 ht
    exact ⟨p1, ⟨r1.nodup, r1.free, r1.keys⟩, ⟨f1.labels, f1.sw, f1.keys⟩⟩
  | switch e x ih =>
    intro brk cont st st' a h ht
    simp only [analyze, Option.bind_eq_some_iff, Prod.exists] at h
    obtain ⟨a1, s1, h1, h2⟩ := h
    split at h2
    · rename_i t hs1
      simp only [Option.some.injEq, Prod.mk.injEq] at h2
      obtain ⟨rfl, rfl⟩ := h2
      obtain ⟨p1, r1, f1⟩ := ih _ _ _ _ _ h1 (by intro x hx; cases hx; trivial)
      obtain ⟨k1, -, -, k4⟩ := r1.keys _ rfl
      refine ⟨⟨p1, k4, k1⟩, ⟨r1.nodup, r1.free, by simp [keysOf, casesOf, dfltsOf]⟩, ⟨f1.labels, rfl, ?_⟩⟩
      intro x y hx hy
      have : st.sw = some y := hy
      rw [hx] at this
      cases this
      simp [keysOf, casesOf, dfltsOf]
    · cases h2
  | case v x ih =>
    intro brk cont st st' a h ht
    simp only [analyze] at h
    split at h
    · cases h
    · rename_i t hsw
      simp only [Option.bind_eq_some_iff, Option.map_eq_some_iff, Prod.mk.injEq, Prod.exists] at h
      obtain ⟨cs, hcs, a1, s1, h1, rfl, rfl⟩ := h
      obtain ⟨p1, r1, f1⟩ := ih _ _ _ _ _ h1 (by intro x hx; cases hx; exact insertCase_sorted hcs (ht t hsw))
      have f0 : Fill st { st with fresh := st.fresh + 1, sw := some { t with cases := cs } } [] [BitVec.ofInt 64 v] 0 := by
        refine ⟨by simp [Ana.bound], by simp [hsw], ?_⟩
        intro x y hx hy
        rw [hsw] at hx
        cases hx
        cases hy
        refine ⟨fun w => ?_, by simp⟩
        simp only [List.mem_map, insertCase_spec hcs, List.mem_singleton]
        constructor
        · rintro ⟨y, rfl | h, rfl⟩
          · exact .inr rfl
          · exact .inl ⟨y, h, rfl⟩
        · rintro (⟨y, h, rfl⟩ | rfl)
          · exact ⟨y, .inr h, rfl⟩
          · exact ⟨_, .inl rfl, rfl⟩
      have r0 : Room st [] [BitVec.ofInt 64 v] 0 := by
        refine ⟨by simp, by simp, ?_⟩
        intro x hx
        rw [hsw] at hx
        cases hx
        refine ⟨by simp, ?_, by simp, by simp⟩
        intro w hw
        simp only [List.mem_singleton] at hw
        subst hw
        exact insertCase_new (ht _ hsw) hcs
      have e : dfltsOf (.case v x) = 0 + dfltsOf x := by simp [dfltsOf]
      rw [e]
      refine ⟨⟨by simp [hsw], ?_⟩, r0.append f0 r1, f0.trans f1⟩
      rw [hsw]
      exact p1
  | dflt x ih =>
    intro brk cont st st' a h ht
    simp only [analyze] at h
    split at h
    · cases h
    · rename_i t hsw
      split at h
      · cases h
      · rename_i hd
        simp only [Option.map_eq_some_iff, Prod.mk.injEq, Prod.exists] at h
        obtain ⟨a1, s1, h1, rfl, rfl⟩ := h
        obtain ⟨p1, r1, f1⟩ := ih _ _ _ _ _ h1 (by intro x hx; cases hx; exact ht t hsw)
        have f0 : Fill st { st with fresh := st.fresh + 1, sw := some { t with dflt := some st.fresh } } [] [] 1 := by
          refine ⟨by simp [Ana.bound], by simp [hsw], ?_⟩
          intro x y hx hy
          rw [hsw] at hx
          cases hx
          cases hy
          simp
        have r0 : Room st [] [] 1 := by
          refine ⟨by simp, by simp, ?_⟩
          intro x hx
          rw [hsw] at hx
          cases hx
          simp [hd]
        refine ⟨⟨by simp [hsw], ?_⟩, r0.append f0 r1, f0.trans f1⟩
        rw [hsw]
        exact p1
  | label l x ih =>
    intro brk cont st st' a h ht
    simp only [analyze, Option.bind_eq_some_iff, Option.map_eq_some_iff, Prod.mk.injEq, Prod.exists] at h
    obtain ⟨a1, s1, h1, p, s2, h2, rfl, rfl⟩ := h
    obtain ⟨p1, r1, f1⟩ := ih _ _ _ _ _ h1 ht
    obtain ⟨b1, b2⟩ := bound_def h2
    have hnot : l ∉ labelsOf x := fun hm => by
      rw [(f1.labels l).mpr (.inr hm)] at b1; cases b1
    refine ⟨p1, ⟨?_, ?_, r1.keys⟩, ⟨?_, ?_, ?_⟩⟩
    · simp only [labelsOf, List.nodup_cons]
      exact ⟨hnot, r1.nodup⟩
    · intro k hk
      simp only [labelsOf, List.mem_cons] at hk
      rcases hk with rfl | hk
      · cases hb : st.bound k with
        | false => rfl
        | true => rw [(f1.labels k).mpr (.inl hb)] at b1; cases b1
      · exact r1.free k hk
    · intro k
      rw [b2, f1.labels]
      simp only [labelsOf, List.mem_cons]
      constructor
      · rintro ((h | h) | h)
        · exact .inl h
        · exact .inr (.inr h)
        · exact .inr (.inl h)
      · rintro (h | h | h)
        · exact .inl (.inl h)
        · exact .inr h
        · exact .inl (.inr h)
    · rw [defLabel_sw h2]; exact f1.sw
    · rw [defLabel_sw h2]; exact f1.keys
  | goto l =>
    intro brk cont st st' a h ht
    simp only [analyze, Option.some.injEq, Prod.mk.injEq] at h
    obtain ⟨rfl, rfl⟩ := h
    exact ⟨trivial, .nil _, .of (bound_ref st l) (refLabel_sw l st)⟩
  | brk | cont =>
    intro brk cont st st' a h ht
    simp only [analyze, Option.map_eq_some_iff, Prod.mk.injEq] at h
    obtain ⟨p, hp, rfl, rfl⟩ := h
    exact ⟨by simp [Fits, hp], .nil _, .of (fun _ => rfl) rfl⟩
  | _ =>
    intro brk cont st st' a h ht
    simp only [analyze, Option.some.injEq, Prod.mk.injEq] at h
    obtain ⟨rfl, rfl⟩ := h
    exact ⟨trivial, .nil _, .of (fun _ => rfl) rfl⟩

/-- Whatever has room is analysed. -/
theorem analyze_total : ∀ (s : Stmt) (brk cont : Option Nat) (st : Ana), Tidy st.sw →
    Fits brk.isSome cont.isSome st.sw.isSome s → Room st (labelsOf s) (keysOf s) (dfltsOf s) →
    ∃ a st', analyze brk cont s st = some (a, st') := by
  intro s
  induction s with
  | seq x y ihx ihy =>
    intro brk cont st ht hf hr
    have e : keysOf (.seq x y) = keysOf x ++ keysOf y := by simp [keysOf, casesOf]
    rw [e] at hr
    obtain ⟨a1, s1, h1⟩ := ihx brk cont st ht hf.1 hr.left
    obtain ⟨-, -, f1⟩ := analyze_post _ _ _ _ _ _ h1 ht
    obtain ⟨a2, s2, h2⟩ := ihy brk cont s1 (analyze_tidy h1 ht) (by rw [f1.sw]; exact hf.2) (hr.right f1)
    (simp only [analyze, h1, Option.bind_some, h2, Option.map_some]; exact ⟨_, _, rfl⟩)
  | condElse c x y ihx ihy =>
    intro brk cont st ht hf hr
    have e : keysOf (.condElse c x y) = keysOf x ++ keysOf y := by simp [keysOf, casesOf]
    rw [e] at hr
    have hr' : Room { st with fresh := st.fresh + 2 } (labelsOf x ++ labelsOf y) (keysOf x ++ keysOf y) (dfltsOf x + dfltsOf y) :=
      ⟨hr.nodup, hr.free, hr.keys⟩
    obtain ⟨a1, s1, h1⟩ := ihx brk cont { st with fresh := st.fresh + 2 } ht hf.1 hr'.left
    obtain ⟨-, -, f1⟩ := analyze_post _ _ _ _ _ _ h1 ht
    obtain ⟨a2, s2, h2⟩ := ihy brk cont s1 (analyze_tidy h1 ht) (by rw [f1.sw]; exact hf.2) (hr'.right f1)
    (simp only [analyze, h1, Option.bind_some, h2, Option.map_some]; exact ⟨_, _, rfl⟩)
  | cond c x ih =>
    intro brk cont st ht hf hr
    obtain ⟨a1, s1, h1⟩ := ih brk cont { st with fresh := st.fresh + 1 } ht hf ⟨hr.nodup, hr.free, hr.keys⟩
    (simp only [analyze, h1, Option.map_some]; exact ⟨_, _, rfl⟩)
  | loop c x ih | doWhile x c ih | for_ i c t x ih =>
    intro brk cont st ht hf hr
    obtain ⟨a1, s1, h1⟩ := ih (some (st.fresh + 1)) (some st.fresh) { st with fresh := st.fresh + 2 } ht hf
      ⟨hr.nodup, hr.free, hr.keys⟩
    (simp only [analyze, h1, Option.map_some]; exact ⟨_, _, rfl⟩)
  | switch e x ih =>
    intro brk cont st ht hf hr
    obtain ⟨a1, s1, h1⟩ := ih (some st.fresh) cont { st with fresh := st.fresh + 1, sw := some ⟨[], none⟩ }
      (by intro x hx; cases hx; trivial) hf.1
      ⟨hr.nodup, hr.free, by intro x hx; cases hx; exact ⟨hf.2.2, by simp, by simp, hf.2.1⟩⟩
    obtain ⟨-, -, f1⟩ := analyze_post _ _ _ _ _ _ h1 (by intro x hx; cases hx; trivial)
    cases hs : s1.sw with
    | none => have := f1.sw; rw [hs] at this; cases this
    | some t => (simp only [analyze, h1, Option.bind_some, hs]; exact ⟨_, _, rfl⟩)
  | case v x ih =>
    intro brk cont st ht hf hr
    have e : keysOf (.case v x) = BitVec.ofInt 64 v :: keysOf x := by simp [keysOf, casesOf]
    rw [e] at hr
    cases hsw : st.sw with
    | none => have := hf.1; rw [hsw] at this; cases this
    | some t =>
      obtain ⟨k1, k2, k3, k4⟩ := hr.keys t hsw
      obtain ⟨cs, hcs⟩ := insertCase_total (p := st.fresh) (ht t hsw) (k2 (BitVec.ofInt 64 v) (by simp))
      obtain ⟨a1, s1, h1⟩ := ih brk cont { st with fresh := st.fresh + 1, sw := some { t with cases := cs } }
        (by intro x hx; cases hx; exact insertCase_sorted hcs (ht t hsw)) (by have := hf.2; rw [hsw] at this; exact this)
        ⟨hr.nodup, hr.free, by
          intro y hy
          cases hy
          refine ⟨(List.nodup_cons.mp k1).2, ?_, k3, k4⟩
          intro w hw hm
          simp only [List.mem_map, insertCase_spec hcs] at hm
          obtain ⟨y, rfl | h, rfl⟩ := hm
          · exact (List.nodup_cons.mp k1).1 hw
          · exact k2 _ (List.mem_cons_of_mem _ hw) (List.mem_map.mpr ⟨y, h, rfl⟩)⟩
      (simp only [analyze, hsw, hcs, Option.bind_some, h1, Option.map_some]; exact ⟨_, _, rfl⟩)
  | dflt x ih =>
    intro brk cont st ht hf hr
    cases hsw : st.sw with
    | none => have := hf.1; rw [hsw] at this; cases this
    | some t =>
      obtain ⟨k1, k2, k3, k4⟩ := hr.keys t hsw
      simp only [dfltsOf] at k3 k4
      cases hd : t.dflt with
      | some d => have := k3 (by simp [hd]); omega
      | none =>
        obtain ⟨a1, s1, h1⟩ := ih brk cont { st with fresh := st.fresh + 1, sw := some { t with dflt := some st.fresh } }
          (by intro x hx; cases hx; exact ht t hsw) (by have := hf.2; rw [hsw] at this; exact this)
          ⟨hr.nodup, hr.free, by
            intro y hy
            cases hy
            exact ⟨k1, k2, fun _ => by omega, by omega⟩⟩
        (simp only [analyze, hsw, hd, h1, Option.map_some]; exact ⟨_, _, rfl⟩)
  | label l x ih =>
    intro brk cont st ht hf hr
    have hn := hr.nodup
    simp only [labelsOf, List.nodup_cons] at hn
    have hfr := hr.free
    simp only [labelsOf, List.mem_cons] at hfr
    obtain ⟨a1, s1, h1⟩ := ih brk cont st ht hf ⟨hn.2, fun k hk => hfr k (.inr hk), hr.keys⟩
    obtain ⟨-, -, f1⟩ := analyze_post _ _ _ _ _ _ h1 ht
    obtain ⟨p, s2, h2⟩ := defLabel_total (st := s1) (l := l) (by
      cases hb : s1.bound l with
      | false => rfl
      | true =>
        rcases (f1.labels l).mp hb with h | h
        · rw [hfr l (.inl rfl)] at h; cases h
        · exact (hn.1 h).elim)
    (simp only [analyze, h1, Option.bind_some, h2, Option.map_some]; exact ⟨_, _, rfl⟩)
  | brk =>
    intro brk cont st ht hf hr
    obtain ⟨p, rfl⟩ := Option.isSome_iff_exists.mp hf
    exact ⟨_, _, rfl⟩
  | cont =>
    intro brk cont st ht hf hr
    obtain ⟨p, rfl⟩ := Option.isSome_iff_exists.mp hf
    exact ⟨_, _, rfl⟩
  | _ => intro brk cont st ht hf hr; exact ⟨_, _, rfl⟩

theorem gotos_erase (a : A) : gotos a = gotosOf (erase a) := by
  induction a <;> simp_all [gotos, gotosOf, erase]

/-- The analyzer and the translator succeed exactly if the analyzer's demands are met. -/
theorem compile_iff (rt : Ty) (pre : List Instr) (body : Stmt) : (compile rt pre body).isSome = true ↔
    Fits false false false body ∧ (labelsOf body).Nodup ∧ ∀ l ∈ gotosOf body, l ∈ labelsOf body := by
  have tidy0 : Tidy (⟨0, fun _ => none, none⟩ : Ana).sw := by intro x hx; cases hx
  constructor
  · intro h
    obtain ⟨P, hP⟩ := Option.isSome_iff_exists.mp h
    simp only [compile, Option.bind_eq_some_iff, Option.map_eq_some_iff, Prod.exists] at hP
    obtain ⟨a, st', h1, σ, h2, -⟩ := hP
    obtain ⟨p1, r1, f1⟩ := analyze_post _ _ _ _ _ _ h1 tidy0
    refine ⟨p1, r1.nodup, fun l hl => ?_⟩
    have := trS_gotos _ _ _ _ _ h2 l (by rw [gotos_erase, analyze_erase _ _ _ _ _ _ h1]; exact hl)
    rcases (f1.labels l).mp this with h | h
    · simp [Ana.bound] at h
    · exact h
  · rintro ⟨h1, h2, h3⟩
    obtain ⟨a, st', ha⟩ := analyze_total body none none ⟨0, fun _ => none, none⟩ tidy0 h1
      ⟨h2, by simp [Ana.bound], by simp⟩
    obtain ⟨-, -, f1⟩ := analyze_post _ _ _ _ _ _ ha tidy0
    obtain ⟨-, -, nd, -⟩ := analyze_points _ _ _ _ _ _ ha ⟨by simp, by simp⟩
    obtain ⟨σ, hσ, -⟩ := trS_total rt st'.bound a ⟨pre, fun _ => .unres []⟩
      (by intro p ds i hp hi; simp only [Pt.unres.injEq] at hp; subst hp; cases hi) nd
      (by rintro p - ⟨v, hv⟩; cases hv)
      (fun l hl => (f1.labels l).mpr (.inr (h3 l (by
        rw [gotos_erase, analyze_erase _ _ _ _ _ _ ha] at hl; exact hl))))
    simp [compile, ha, hσ]

/-! ### The demands of the analyzer and the constraints of C -/

theorem keys_inj {b : Basic} {e : Expr} (hs : switchTy e = some b) {v v' : Int} (h : wrap b v = v) (h' : wrap b v' = v')
    (he : BitVec.ofInt 64 v = BitVec.ofInt 64 v') : v = v' := by
  unfold switchTy at hs
  split at hs
  · rename_i b0 hc
    split at hs
    · rename_i hi
      cases hs
      simp only [isInt] at hi
      have hm := promoteW_mem hi (valid_left hc)
      have r1 := wrap_inRange _ (promoted_facts hm).1 v
      have r2 := wrap_inRange _ (promoted_facts hm).1 v'
      rw [h] at r1
      rw [h'] at r2
      have he' := congrArg BitVec.toNat he
      simp only [BitVec.toNat_ofInt] at he'
      by_cases hsg : signed (promoteW b0 e.bfw) = true
      · have r1 := signed_range hm (.inl hsg) r1
        have r2 := signed_range hm (.inl hsg) r2
        omega
      · have r1 := unsigned_range hm (by simpa using hsg) r1
        have r2 := unsigned_range hm (by simpa using hsg) r2
        omega
    · cases hs
  · cases hs

theorem nodup_keys {b : Basic} {e : Expr} (hs : switchTy e = some b) : ∀ {vs : List Int}, (∀ v ∈ vs, wrap b v = v) →
    ((vs.map (BitVec.ofInt 64 ·)).Nodup ↔ (vs.map (wrap b)).Nodup) := by
  intro vs
  induction vs with
  | nil => intro _; simp
  | cons v vs ih =>
    intro h
    have hv := h v (by simp)
    have h' : ∀ v ∈ vs, wrap b v = v := fun w hw => h w (by simp [hw])
    simp only [List.map_cons, List.nodup_cons, ih h', List.mem_map, not_exists, not_and]
    refine and_congr_left fun _ => ⟨fun hn w hw he => ?_, fun hn w hw he => ?_⟩
    · rw [h' w hw, hv] at he
      exact hn w hw (by rw [he])
    · exact hn w hw (by rw [h' w hw, hv]; exact keys_inj hs (h' w hw) hv he)

theorem fits_placed : ∀ (s : Stmt) (loop sw : Bool), CasesFit s → (Fits (loop || sw) loop sw s ↔ Placed loop sw s) := by
  intro s
  induction s with
  | seq x y ihx ihy | condElse c x y ihx ihy =>
    intro loop sw h
    exact and_congr (ihx _ _ h.1) (ihy _ _ h.2)
  | loop c x ih | doWhile x c ih | for_ i c t x ih =>
    intro loop sw h
    have := ih true sw h
    exact this
  | switch e x ih =>
    intro loop sw h
    obtain ⟨hx, b, hb, hv⟩ := h
    have hi := ih loop true hx
    simp only [Bool.or_true] at hi
    simp only [Fits, Placed, keysOf, nodup_keys hb hv, hi]
    refine and_congr_right fun _ => and_congr_right fun _ => ⟨fun h => ⟨b, hb, h⟩, ?_⟩
    rintro ⟨p, hp, h⟩
    rw [hb] at hp
    cases hp
    exact h
  | case v x ih | dflt x ih =>
    intro loop sw h
    exact and_congr_right fun _ => ih _ _ h
  | cond c x ih | label l x ih =>
    intro loop sw h
    exact ih _ _ h
  | brk => intro loop sw h; simp [Fits, Placed]
  | cont => intro loop sw h; exact Iff.rfl
  | _ => intro loop sw h; exact Iff.rfl

end Kefir.Stmt
