import Verif.Stmt.Model

/-! Back-patching: the block that the translator builds is the one that places each statement's code with every jump
aimed at the address of its point. -/
namespace Kefir.Stmt
open Kefir.Types (Basic)
open Kefir.Expr
open Kefir.IR

/-! ### The code with all addresses known -/

def caseInstrs (a : Nat → Nat) (k : Nat) (w : Word) (p : Nat) : List Instr :=
  [.pick 0, .push w, .bin .eq, .un .bnot, .branch (k + 4 + 3), .pop, .jmp (a p)]

def caseCode (a : Nat → Nat) : List (Word × Nat) → Nat → List Instr
  | [], _ => []
  | (w, p) :: cs, k => caseInstrs a k w p ++ caseCode a cs (k + 7)

/-- Second clause of `for` and the branch behind it. -/
def forTest (a : Nat → Nat) (q : Nat) : Option Expr → Nat → List Instr
  | none, _ => []
  | some c, k => (condCode c).flat k ++ [.branch (a q)]

def forTestLen : Option Expr → Nat
  | none => 0
  | some c => (condCode c).len + 1

/-- Number of instructions of a statement. -/
def len (rt : Ty) : A → Nat
  | .skip => 0
  | .expr e => (exprCode e).len
  | .decl ds => (declCode ds).len
  | .seq a b => len rt a + len rt b
  | .cond _ c a => (condCode c).len + 1 + len rt a
  | .condElse _ _ c a b => (condCode c).len + 1 + len rt a + 1 + len rt b
  | .loop _ _ c b => (condCode c).len + 1 + len rt b + 1
  | .doWhile _ _ b c => len rt b + (doCode c).len + 1
  | .for_ _ _ init c t b => (initCode init).len + forTestLen c + len rt b + (tailCode t).len + 1
  | .switch _ cs _ e b => (tr e).len + 7 * cs.length + 1 + len rt b
  | .case _ _ s => len rt s
  | .dflt _ s => len rt s
  | .label _ _ s => len rt s
  | .goto _ _ => 1
  | .brk _ => 1
  | .cont _ => 1
  | .ret e q => (retCode rt e q).len + 1

/-- The code of a statement placed at index `k`, with `a p` the address of point `p`. -/
def code (rt : Ty) (a : Nat → Nat) : A → Nat → List Instr
  | .skip, _ => []
  | .expr e, k => (exprCode e).flat k
  | .decl ds, k => (declCode ds).flat k
  | .seq x y, k => code rt a x k ++ code rt a y (k + len rt x)
  | .cond p c x, k => (condCode c).flat k ++ [.branch (a p)] ++ code rt a x (k + (condCode c).len + 1)
  | .condElse p q c x y, k =>
    (condCode c).flat k ++ [.branch (a p)] ++ code rt a x (k + (condCode c).len + 1) ++ [.jmp (a q)] ++
      code rt a y (k + (condCode c).len + 1 + len rt x + 1)
  | .loop p q c x, k =>
    (condCode c).flat k ++ [.branch (a q)] ++ code rt a x (k + (condCode c).len + 1) ++ [.jmp (a p)]
  | .doWhile _ _ x c, k => code rt a x k ++ (doCode c).flat (k + len rt x) ++ [.branch k]
  | .for_ _ q init c t x, k =>
    (initCode init).flat k ++ forTest a q c (k + (initCode init).len) ++
      code rt a x (k + (initCode init).len + forTestLen c) ++
      (tailCode t).flat (k + (initCode init).len + forTestLen c + len rt x) ++ [.jmp (k + (initCode init).len)]
  | .switch q cs d e x, k =>
    (tr e).flat k ++ caseCode a cs (k + (tr e).len) ++ [.jmp (a (d.getD q))] ++
      code rt a x (k + (tr e).len + 7 * cs.length + 1)
  | .case _ _ s, k => code rt a s k
  | .dflt _ s, k => code rt a s k
  | .label _ _ s, k => code rt a s k
  | .goto p _, _ => [.jmp (a p)]
  | .brk p, _ => [.jmp (a p)]
  | .cont p, _ => [.jmp (a p)]
  | .ret e q, k => (retCode rt e q).flat k ++ [.ret]

/-- The points of a statement placed at `k` have the addresses that their meaning demands. -/
def At (rt : Ty) (a : Nat → Nat) : A → Nat → Prop
  | .seq x y, k => At rt a x k ∧ At rt a y (k + len rt x)
  | .cond p c x, k => At rt a x (k + (condCode c).len + 1) ∧ a p = k + (condCode c).len + 1 + len rt x
  | .condElse p q c x y, k =>
    At rt a x (k + (condCode c).len + 1) ∧ a p = k + (condCode c).len + 1 + len rt x + 1 ∧
      At rt a y (k + (condCode c).len + 1 + len rt x + 1) ∧
      a q = k + (condCode c).len + 1 + len rt x + 1 + len rt y
  | .loop p q c x, k =>
    a p = k ∧ At rt a x (k + (condCode c).len + 1) ∧ a q = k + (condCode c).len + 1 + len rt x + 1
  | .doWhile p q x c, k => At rt a x k ∧ a p = k + len rt x ∧ a q = k + len rt x + (doCode c).len + 1
  | .for_ p q init c t x, k =>
    At rt a x (k + (initCode init).len + forTestLen c) ∧
      a p = k + (initCode init).len + forTestLen c + len rt x ∧
      a q = k + (initCode init).len + forTestLen c + len rt x + (tailCode t).len + 1
  | .switch q cs _ e x, k =>
    At rt a x (k + (tr e).len + 7 * cs.length + 1) ∧ a q = k + (tr e).len + 7 * cs.length + 1 + len rt x
  | .case p _ s, k => a p = k ∧ At rt a s k
  | .dflt p s, k => a p = k ∧ At rt a s k
  | .label p _ s, k => a p = k ∧ At rt a s k
  | _, _ => True

theorem caseCode_length (a : Nat → Nat) (cs : List (Word × Nat)) (k : Nat) : (caseCode a cs k).length = 7 * cs.length := by
  induction cs generalizing k with
  | nil => rfl
  | cons c cs ih => obtain ⟨w, p⟩ := c; simp [caseCode, caseInstrs, ih]; omega

theorem forTest_length (a : Nat → Nat) (q : Nat) (c : Option Expr) (k : Nat) : (forTest a q c k).length = forTestLen c := by
  cases c <;> simp [forTest, forTestLen, SC.flat_length]

theorem code_length (rt : Ty) (a : Nat → Nat) (x : A) (k : Nat) : (code rt a x k).length = len rt x := by
  induction x generalizing k with
  | cond p c x ih => simp [code, len, SC.flat_length, ih]; omega
  | condElse p q c x y ihx ihy => simp [code, len, SC.flat_length, ihx, ihy]; omega
  | loop p q c x ih => simp [code, len, SC.flat_length, ih]; omega
  | doWhile p q x c ih => simp [code, len, SC.flat_length, ih]; omega
  | for_ p q init c t x ih => simp [code, len, SC.flat_length, forTest_length, ih]; omega
  | switch q cs d e x ih => simp [code, len, SC.flat_length, caseCode_length, ih]; omega
  | _ => simp_all [code, len, SC.flat_length]

/-- Points whose address the code of a statement uses. -/
def refs : A → List Nat
  | .seq x y => refs x ++ refs y
  | .cond p _ x => p :: refs x
  | .condElse p q _ x y => p :: (refs x ++ q :: refs y)
  | .loop p q _ x => q :: (refs x ++ [p])
  | .doWhile _ _ x _ => refs x
  | .for_ _ q _ _ _ x => q :: refs x
  | .switch q cs d _ x => cs.map (·.2) ++ d.getD q :: refs x
  | .case _ _ s => refs s
  | .dflt _ s => refs s
  | .label _ _ s => refs s
  | .goto p _ => [p]
  | .brk p => [p]
  | .cont p => [p]
  | _ => []

/-- Points that the translation of a statement resolves. -/
def defs : A → List Nat
  | .seq x y => defs x ++ defs y
  | .cond p _ x => defs x ++ [p]
  | .condElse p q _ x y => defs x ++ p :: (defs y ++ [q])
  | .loop p q _ x => p :: (defs x ++ [q])
  | .doWhile p q x _ => defs x ++ [p, q]
  | .for_ p q _ _ _ x => defs x ++ [p, q]
  | .switch q _ _ _ x => defs x ++ [q]
  | .case p _ s => p :: defs s
  | .dflt p s => p :: defs s
  | .label p _ s => p :: defs s
  | _ => []

/-! ### Steps of the translator -/

/-- `a` gives every resolved point its address. -/
def Fin (a : Nat → Nat) (σ : Tr) : Prop := ∀ p v, σ.pts p = .res v → a p = v

/-- The block is `B` except that some instructions still wait for the address of an unresolved point. -/
structure Real (a : Nat → Nat) (σ : Tr) (B : List Instr) : Prop where
  length : σ.blk.length = B.length
  eq : ∀ i, σ.blk[i]? = B[i]? ∨ ∃ p ds, σ.pts p = .unres ds ∧ i ∈ ds
  wait : ∀ p ds i, σ.pts p = .unres ds → i ∈ ds → ∃ ins, σ.blk[i]? = some ins ∧ ∃ ins', retarget ins (a p) = some ins' ∧ B[i]? = some ins'

/-- Something waits for `p`. -/
def Pend (σ : Tr) (p : Nat) : Prop := ∃ ds i, σ.pts p = .unres ds ∧ i ∈ ds

/-- A piece of the translation from `σ` to `σ'`: it appends code, referencing and resolving points. -/
structure Op (σ σ' : Tr) (r d : List Nat) (cd : (Nat → Nat) → List Instr) (at_ : (Nat → Nat) → Prop) : Prop where
  le : ∀ p v, σ.pts p = .res v → σ'.pts p = .res v
  pend : ∀ p, Pend σ' p → Pend σ p ∨ p ∈ r
  defs : ∀ p ∈ d, ∃ v, σ'.pts p = .res v
  len : ∀ a, σ'.blk.length = σ.blk.length + (cd a).length
  real : ∀ a B, Fin a σ' → Real a σ B → Real a σ' (B ++ cd a) ∧ at_ a

theorem Op.fin {σ σ' r d cd at_} (h : Op σ σ' r d cd at_) {a} (hf : Fin a σ') : Fin a σ :=
  fun p v hp => hf p v (h.le p v hp)

theorem Op.seq {σ σ₁ σ₂ r₁ d₁ c₁ t₁ r₂ d₂ c₂ t₂} (h₁ : Op σ σ₁ r₁ d₁ c₁ t₁) (h₂ : Op σ₁ σ₂ r₂ d₂ c₂ t₂) :
    Op σ σ₂ (r₁ ++ r₂) (d₁ ++ d₂) (fun a => c₁ a ++ c₂ a) (fun a => t₁ a ∧ t₂ a) where
  le := fun p v h => h₂.le p v (h₁.le p v h)
  pend := by
    intro p h
    rcases h₂.pend p h with h | h
    · rcases h₁.pend p h with h | h
      · exact .inl h
      · exact .inr (List.mem_append_left _ h)
    · exact .inr (List.mem_append_right _ h)
  defs := by
    intro p h
    rcases List.mem_append.mp h with h | h
    · obtain ⟨v, hv⟩ := h₁.defs p h
      exact ⟨v, h₂.le p v hv⟩
    · exact h₂.defs p h
  len := by intro a; rw [h₂.len a, h₁.len a, List.length_append]; omega
  real := by
    intro a B hf hr
    obtain ⟨x, y⟩ := h₁.real a B (h₂.fin hf) hr
    obtain ⟨z, w⟩ := h₂.real a _ hf x
    exact ⟨by rw [← List.append_assoc]; exact z, y, w⟩

theorem Op.cast {σ σ' r d cd at_ r' d' cd' at'} (h : Op σ σ' r d cd at_) (hr : ∀ p, p ∈ r → p ∈ r') (hd : ∀ p, p ∈ d' → p ∈ d)
    (hc : ∀ a, cd a = cd' a) (ht : ∀ a, at_ a → at' a) : Op σ σ' r' d' cd' at' where
  le := h.le
  pend := fun p hp => (h.pend p hp).imp_right (hr p)
  defs := fun p hp => h.defs p (hd p hp)
  len := fun a => by rw [h.len a, hc a]
  real := fun a B hf hR => by rw [← hc a]; exact ⟨(h.real a B hf hR).1, ht a (h.real a B hf hR).2⟩

theorem Op.refl (σ : Tr) : Op σ σ [] [] (fun _ => []) (fun _ => True) where
  le := fun _ _ h => h
  pend := fun _ h => .inl h
  defs := by simp
  len := by simp
  real := by intro a B _ h; simpa using h

theorem real_append {a : Nat → Nat} {σ : Tr} {B is : List Instr} (h : Real a σ B) :
    Real a ⟨σ.blk ++ is, σ.pts⟩ (B ++ is) where
  length := by simp [h.length]
  eq := by
    intro i
    by_cases hi : i < B.length
    · rw [List.getElem?_append_left (by rw [h.length]; exact hi), List.getElem?_append_left hi]
      exact h.eq i
    · left
      show (σ.blk ++ is)[i]? = _
      rw [List.getElem?_append_right (by rw [h.length]; omega), List.getElem?_append_right (by omega), h.length]
  wait := by
    intro p ds i hp hi
    obtain ⟨ins, h1, ins', h2, h3⟩ := h.wait p ds i hp hi
    have l1 := (List.getElem?_eq_some_iff.mp h1).1
    have l3 := (List.getElem?_eq_some_iff.mp h3).1
    exact ⟨ins, by show (σ.blk ++ is)[i]? = _; rw [List.getElem?_append_left l1, h1], ins', h2,
      by rw [List.getElem?_append_left l3, h3]⟩

theorem Op.emit (is : List Instr) (σ : Tr) : Op σ (σ.emit is) [] [] (fun _ => is) (fun _ => True) where
  le := fun _ _ h => h
  pend := fun _ h => .inl h
  defs := by simp
  len := by intro; simp [Tr.emit]
  real := by intro a B _ h; exact ⟨real_append h, trivial⟩

theorem Op.code (c : SC) (σ : Tr) : Op σ (σ.code c) [] [] (fun _ => c.flat σ.blk.length) (fun _ => True) := by
  have : σ.code c = σ.emit (c.flat σ.blk.length) := by simp [Tr.code, Tr.emit, SC.build_eq]
  rw [this]
  exact Op.emit _ σ

/-- `jmp` or `branch`. -/
def IsJump (mk : Nat → Instr) : Prop := ∀ x y, retarget (mk x) y = some (mk y)

theorem isJump_jmp : IsJump .jmp := fun _ _ => rfl
theorem isJump_branch : IsJump .branch := fun _ _ => rfl

theorem Op.jump {mk : Nat → Instr} (hm : IsJump mk) {p : Nat} {σ σ' : Tr} (h : Tr.jump mk p σ = some σ') :
    Op σ σ' [p] [] (fun a => [mk (a p)]) (fun _ => True) := by
  simp only [Tr.jump, Tr.reference, Tr.emit] at h
  cases hp : σ.pts p with
  | res v =>
    rw [hp] at h
    simp only [patch, List.getElem?_concat_length, Option.bind_some, hm 0 v, Option.map_some, Option.some.injEq,
      List.set_append_right _ _ (Nat.le_refl _), Nat.sub_self, List.set_cons_zero] at h
    subst h
    refine ⟨fun _ _ h => h, fun _ h => .inl h, by simp, by simp, ?_⟩
    intro a B hf hr
    have : a p = v := hf p v hp
    rw [this]
    exact ⟨real_append hr, trivial⟩
  | unres ds =>
    rw [hp] at h
    simp only [Option.some.injEq] at h
    subst h
    refine ⟨?_, ?_, by simp, by simp, ?_⟩
    · intro q v hq
      by_cases hqp : q = p
      · subst hqp; rw [hp] at hq; cases hq
      · simp only [setPt, if_neg hqp]; exact hq
    · intro q ⟨es, i, hq, hi⟩
      by_cases hqp : q = p
      · right; simp [hqp]
      · left
        simp only [setPt, if_neg hqp] at hq
        exact ⟨es, i, hq, hi⟩
    · intro a B hf hr
      refine ⟨⟨by simp [hr.length], ?_, ?_⟩, trivial⟩
      · intro i
        by_cases hi : i = σ.blk.length
        · exact .inr ⟨p, ds ++ [σ.blk.length], by simp [setPt], by simp [hi]⟩
        · by_cases hl : i < σ.blk.length
          · rcases hr.eq i with h | ⟨q, es, h1, h2⟩
            · left
              show (σ.blk ++ [mk 0])[i]? = _
              rw [List.getElem?_append_left hl, List.getElem?_append_left (by rw [← hr.length]; exact hl), h]
            · right
              by_cases hqp : q = p
              · subst hqp
                rw [hp] at h1
                cases h1
                exact ⟨q, ds ++ [σ.blk.length], by simp [setPt], by simp [h2]⟩
              · exact ⟨q, es, by simp [setPt, hqp, h1], h2⟩
          · left
            show (σ.blk ++ [mk 0])[i]? = _
            rw [List.getElem?_eq_none (by simp; omega), List.getElem?_eq_none (by simp [← hr.length]; omega)]
      · intro q es i hq hi
        by_cases hqp : q = p
        · subst hqp
          simp only [setPt, if_true, Pt.unres.injEq] at hq
          subst hq
          rcases List.mem_append.mp hi with hi | hi
          · obtain ⟨ins, h1, ins', h2, h3⟩ := hr.wait q ds i hp hi
            exact ⟨ins, by
              show (σ.blk ++ [mk 0])[i]? = _
              rw [List.getElem?_append_left (List.getElem?_eq_some_iff.mp h1).1, h1], ins', h2, by
              rw [List.getElem?_append_left (List.getElem?_eq_some_iff.mp h3).1, h3]⟩
          · simp only [List.mem_singleton] at hi
            subst hi
            exact ⟨mk 0, by simp, mk (a q), hm _ _, by rw [hr.length]; simp⟩
        · simp only [setPt, if_neg hqp] at hq
          obtain ⟨ins, h1, ins', h2, h3⟩ := hr.wait q es i hq hi
          exact ⟨ins, by
            show (σ.blk ++ [mk 0])[i]? = _
            rw [List.getElem?_append_left (List.getElem?_eq_some_iff.mp h1).1, h1], ins', h2, by
            rw [List.getElem?_append_left (List.getElem?_eq_some_iff.mp h3).1, h3]⟩

theorem retarget_retarget {i j : Instr} {x y : Nat} (h : retarget i x = some j) : retarget j y = retarget i y := by
  cases i <;> simp only [retarget, reduceCtorEq, Option.some.injEq] at h <;> subst h <;> rfl

theorem patchAll_spec {v : Nat} : ∀ (ds : List Nat) (blk blk' : List Instr), patchAll v ds blk = some blk' →
    blk'.length = blk.length ∧ ∀ i, (i ∉ ds → blk'[i]? = blk[i]?) ∧
      (i ∈ ds → ∃ ins ins', blk[i]? = some ins ∧ retarget ins v = some ins' ∧ blk'[i]? = some ins') := by
  intro ds
  induction ds with
  | nil => intro blk blk' h; cases h; exact ⟨rfl, fun i => ⟨fun _ => rfl, fun h => by cases h⟩⟩
  | cons d ds ih =>
    intro blk blk' h
    simp only [patchAll, patch, Option.bind_eq_some_iff, Option.map_eq_some_iff] at h
    obtain ⟨b1, ⟨ins, h1, ins', h2, rfl⟩, h3⟩ := h
    obtain ⟨l, hi⟩ := ih _ _ h3
    rw [List.length_set] at l
    refine ⟨l, fun i => ⟨?_, ?_⟩⟩
    · intro hn
      simp only [List.mem_cons, not_or] at hn
      rw [(hi i).1 hn.2, List.getElem?_set_ne (by omega)]
    · intro hm
      by_cases hd : i = d
      · subst hd
        refine ⟨ins, ins', h1, h2, ?_⟩
        have e : (blk.set i ins')[i]? = some ins' := by
          rw [List.getElem?_set_self (List.getElem?_eq_some_iff.mp h1).1]
        by_cases hmem : i ∈ ds
        · obtain ⟨j, j', e1, e2, e3⟩ := (hi i).2 hmem
          rw [e] at e1
          cases e1
          rw [retarget_retarget h2, h2] at e2
          cases e2
          exact e3
        · rw [(hi i).1 hmem, e]
      · have hmem : i ∈ ds := by simpa [hd] using hm
        obtain ⟨j, j', e1, e2, e3⟩ := (hi i).2 hmem
        rw [List.getElem?_set_ne (by omega)] at e1
        exact ⟨j, j', e1, e2, e3⟩

theorem Op.resolve {p : Nat} {σ σ' : Tr} (h : Tr.resolve p σ = some σ') :
    Op σ σ' [] [p] (fun _ => []) (fun a => a p = σ.blk.length) := by
  simp only [Tr.resolve] at h
  cases hp : σ.pts p with
  | res v => rw [hp] at h; cases h
  | unres ds =>
    rw [hp] at h
    simp only [Option.map_eq_some_iff] at h
    obtain ⟨blk, hb, rfl⟩ := h
    obtain ⟨hl, hs⟩ := patchAll_spec _ _ _ hb
    refine ⟨?_, ?_, ?_, by simp [hl], ?_⟩
    · intro q v hq
      by_cases hqp : q = p
      · subst hqp; rw [hp] at hq; cases hq
      · simp only [setPt, if_neg hqp]; exact hq
    · intro q ⟨es, i, hq, hi⟩
      left
      by_cases hqp : q = p
      · simp [setPt, hqp] at hq
      · simp only [setPt, if_neg hqp] at hq
        exact ⟨es, i, hq, hi⟩
    · intro q hq
      simp only [List.mem_singleton] at hq
      subst hq
      exact ⟨σ.blk.length, by simp [setPt]⟩
    · intro a B hf hr
      have ha : a p = σ.blk.length := hf p _ (by simp [setPt])
      refine ⟨?_, ha⟩
      rw [List.append_nil]
      refine ⟨by rw [← hr.length]; exact hl, ?_, ?_⟩
      · intro i
        by_cases hi : i ∈ ds
        · left
          obtain ⟨ins, ins', e1, e2, e3⟩ := (hs i).2 hi
          obtain ⟨j, f1, j', f2, f3⟩ := hr.wait p ds i hp hi
          rw [e1] at f1
          cases f1
          rw [ha, e2] at f2
          cases f2
          show blk[i]? = _
          rw [e3, f3]
        · rcases hr.eq i with h | ⟨q, es, h1, h2⟩
          · left
            show blk[i]? = _
            rw [(hs i).1 hi, h]
          · right
            have hqp : q ≠ p := by rintro rfl; rw [hp] at h1; cases h1; exact hi h2
            exact ⟨q, es, by simp [setPt, hqp, h1], h2⟩
      · intro q es i hq hi
        have hqp : q ≠ p := by rintro rfl; simp [setPt] at hq
        simp only [setPt, if_neg hqp] at hq
        obtain ⟨j, f1, j', f2, f3⟩ := hr.wait q es i hq hi
        by_cases hm : i ∈ ds
        · obtain ⟨ins, ins', e1, e2, e3⟩ := (hs i).2 hm
          rw [e1] at f1
          cases f1
          exact ⟨ins', e3, j', by rw [retarget_retarget e2]; exact f2, f3⟩
        · exact ⟨j, by show blk[i]? = _; rw [(hs i).1 hm, f1], j', f2, f3⟩

theorem Op.cases : ∀ (cs : List (Word × Nat)) {σ σ' : Tr}, trCases cs σ = some σ' →
    Op σ σ' (cs.map (·.2)) [] (fun a => caseCode a cs σ.blk.length) (fun _ => True) := by
  intro cs
  induction cs with
  | nil => intro σ σ' h; cases h; exact Op.refl σ
  | cons c cs ih =>
    intro σ σ' h
    obtain ⟨w, p⟩ := c
    simp only [trCases, Option.bind_eq_some_iff] at h
    obtain ⟨σ₁, h1, h2⟩ := h
    have o1 := (Op.emit _ σ).seq (Op.jump isJump_jmp h1)
    have l := o1.len (fun _ => 0)
    have o := o1.seq (ih h2)
    refine o.cast (by simp) (by simp) ?_ (fun _ _ => trivial)
    intro a
    have : σ₁.blk.length = σ.blk.length + 7 := l
    simp [caseCode, caseInstrs, this]

/-- The translation of a statement appends its code, resolves its points at their addresses and uses only the points in
`refs`. -/
theorem trS_op (rt : Ty) (lab : Nat → Bool) : ∀ (x : A) {σ σ' : Tr}, trS rt lab x σ = some σ' →
    Op σ σ' (refs x) (defs x) (fun a => code rt a x σ.blk.length) (fun a => At rt a x σ.blk.length) := by
  intro x
  induction x with
  | skip => intro σ σ' h; cases h; exact Op.refl σ
  | expr e => intro σ σ' h; cases h; exact Op.code _ σ
  | decl ds => intro σ σ' h; cases h; exact Op.code _ σ
  | seq x y ihx ihy =>
    intro σ σ' h
    simp only [trS, Option.bind_eq_some_iff] at h
    obtain ⟨σ₁, h1, h2⟩ := h
    have o1 := ihx h1
    have l1 := o1.len (fun _ => 0)
    rw [code_length] at l1
    refine (o1.seq (ihy h2)).cast (fun _ h => h) (fun _ h => h) ?_ ?_
    · intro a; simp only [l1, code]
    · intro a ⟨h1, h2⟩; rw [l1] at h2; exact ⟨h1, h2⟩
  | cond p c x ih =>
    intro σ σ' h
    simp only [trS, Option.bind_eq_some_iff] at h
    obtain ⟨σ₁, h1, σ₂, h2, h3⟩ := h
    have o1 := (Op.code _ σ).seq (Op.jump isJump_branch h1)
    have l1 := o1.len (fun _ => 0)
    simp only [List.length_append, SC.flat_length, List.length_singleton] at l1
    have o2 := ih h2
    have l2 := o2.len (fun _ => 0)
    rw [code_length] at l2
    refine (o1.seq (o2.seq (Op.resolve h3))).cast (by simp [refs]) (by simp [defs]) ?_ ?_
    · intro a; simp [l1, code, ← Nat.add_assoc]
    · rintro a ⟨-, h2, h3⟩
      rw [l1, ← Nat.add_assoc] at h2
      exact ⟨h2, by rw [h3, l2, l1]; omega⟩
  | condElse p q c x y ihx ihy =>
    intro σ σ' h
    simp only [trS, Option.bind_eq_some_iff] at h
    obtain ⟨σ₁, h1, σ₂, h2, σ₃, h3, σ₄, h4, σ₅, h5, h6⟩ := h
    have o1 := (Op.code _ σ).seq (Op.jump isJump_branch h1)
    have l1 := o1.len (fun _ => 0)
    simp only [List.length_append, SC.flat_length, List.length_singleton] at l1
    have o2 := ihx h2
    have l2 := o2.len (fun _ => 0)
    rw [code_length] at l2
    have o3 := Op.jump isJump_jmp h3
    have l3 := o3.len (fun _ => 0)
    have o4 := Op.resolve h4
    have l4 := o4.len (fun _ => 0)
    have o5 := ihy h5
    have l5 := o5.len (fun _ => 0)
    rw [code_length] at l5
    simp only [List.length_singleton, List.length_nil] at l3 l4
    have e4 : σ₄.blk.length = σ.blk.length + (condCode c).len + 1 + len rt x + 1 := by omega
    have e3 : σ₃.blk.length = σ.blk.length + (condCode c).len + 1 + len rt x + 1 := by omega
    have e5 : σ₅.blk.length = σ.blk.length + (condCode c).len + 1 + len rt x + 1 + len rt y := by omega
    have e1 : σ₁.blk.length = σ.blk.length + (condCode c).len + 1 := by omega
    refine (o1.seq (o2.seq (o3.seq (o4.seq (o5.seq (Op.resolve h6)))))).cast (by simp [refs]) (by simp [defs]) ?_ ?_
    · intro a; simp [e1, e4, code]
    · rintro a ⟨-, h2, -, h4, h5, h6⟩
      rw [e1] at h2
      rw [e3] at h4
      rw [e4] at h5
      rw [e5] at h6
      exact ⟨h2, h4, h5, h6⟩
  | loop p q c x ih =>
    intro σ σ' h
    simp only [trS, Option.bind_eq_some_iff] at h
    obtain ⟨σ₀, h0, σ₁, h1, σ₂, h2, σ₃, h3, h4⟩ := h
    have o0 := Op.resolve h0
    have l0 := o0.len (fun _ => 0)
    have o1 := (Op.code _ σ₀).seq (Op.jump isJump_branch h1)
    have l1 := o1.len (fun _ => 0)
    simp only [List.length_append, SC.flat_length, List.length_singleton, List.length_nil] at l0 l1
    have o2 := ih h2
    have l2 := o2.len (fun _ => 0)
    rw [code_length] at l2
    have o3 := Op.jump isJump_jmp h3
    have l3 := o3.len (fun _ => 0)
    simp only [List.length_singleton] at l3
    have e0 : σ₀.blk.length = σ.blk.length := by omega
    have e1 : σ₁.blk.length = σ.blk.length + (condCode c).len + 1 := by omega
    have e3 : σ₃.blk.length = σ.blk.length + (condCode c).len + 1 + len rt x + 1 := by omega
    refine (o0.seq (o1.seq (o2.seq (o3.seq (Op.resolve h4))))).cast (by simp [refs]) (by simp [defs]) ?_ ?_
    · intro a; simp [e0, e1, code]
    · rintro a ⟨h0, -, h2, -, h4⟩
      rw [e1] at h2
      rw [e3] at h4
      exact ⟨h0, h2, h4⟩
  | doWhile p q x c ih =>
    intro σ σ' h
    simp only [trS, Option.bind_eq_some_iff] at h
    obtain ⟨σ₁, h1, σ₂, h2, h3⟩ := h
    have o1 := ih h1
    have l1 := o1.len (fun _ => 0)
    rw [code_length] at l1
    have o2 := Op.resolve h2
    have l2 := o2.len (fun _ => 0)
    have o3 := (Op.code (doCode c) σ₂).seq (Op.emit [.branch σ.blk.length] (σ₂.code (doCode c)))
    have l3 := o3.len (fun _ => 0)
    simp only [List.length_append, SC.flat_length, List.length_singleton, List.length_nil] at l2 l3
    have e2 : σ₂.blk.length = σ.blk.length + len rt x := by omega
    have e3 : ((σ₂.code (doCode c)).emit [.branch σ.blk.length]).blk.length = σ.blk.length + len rt x + (doCode c).len + 1 := by omega
    refine (o1.seq (o2.seq (o3.seq (Op.resolve h3)))).cast (by simp [refs]) (by simp [defs]) ?_ ?_
    · intro a; simp [e2, code]
    · rintro a ⟨h1, h2, -, h4⟩
      rw [l1] at h2
      rw [e3] at h4
      exact ⟨h1, h2, h4⟩
  | for_ p q init c t x ih =>
    intro σ σ' h
    simp only [trS, Option.bind_eq_some_iff] at h
    obtain ⟨σ₁, h1, σ₂, h2, σ₃, h3, h4⟩ := h
    have o0 := Op.code (initCode init) σ
    have l0 := o0.len (fun _ => 0)
    rw [SC.flat_length] at l0
    have o1 : Op (σ.code (initCode init)) σ₁ [q] [] (fun a => forTest a q c (σ.blk.length + (initCode init).len))
        (fun _ => True) := by
      cases c with
      | none => cases h1; exact (Op.refl _).cast (by simp) (by simp) (fun _ => rfl) (fun _ h => h)
      | some c =>
        have o := (Op.code (condCode c) (σ.code (initCode init))).seq (Op.jump isJump_branch h1)
        refine o.cast (by simp) (by simp) ?_ (fun _ _ => trivial)
        intro a
        rw [l0]
        rfl
    have l1 := o1.len (fun _ => 0)
    rw [forTest_length] at l1
    have o2 := ih h2
    have l2 := o2.len (fun _ => 0)
    rw [code_length] at l2
    have o3 := Op.resolve h3
    have l3 := o3.len (fun _ => 0)
    have o4 := (Op.code (tailCode t) σ₃).seq (Op.emit [.jmp (σ.code (initCode init)).blk.length] (σ₃.code (tailCode t)))
    have l4 := o4.len (fun _ => 0)
    simp only [List.length_append, SC.flat_length, List.length_singleton, List.length_nil] at l3 l4
    have e1 : σ₁.blk.length = σ.blk.length + (initCode init).len + forTestLen c := by omega
    have e2 : σ₂.blk.length = σ.blk.length + (initCode init).len + forTestLen c + len rt x := by omega
    have e3 : σ₃.blk.length = σ.blk.length + (initCode init).len + forTestLen c + len rt x := by omega
    have e4 : ((σ₃.code (tailCode t)).emit [.jmp (σ.code (initCode init)).blk.length]).blk.length =
        σ.blk.length + (initCode init).len + forTestLen c + len rt x + (tailCode t).len + 1 := by omega
    refine (o0.seq (o1.seq (o2.seq (o3.seq (o4.seq (Op.resolve h4)))))).cast (by simp [refs]) (by simp [defs]) ?_ ?_
    · intro a; simp [e1, e3, l0, code]
    · rintro a ⟨-, -, h2, h3, -, h5⟩
      rw [e1] at h2
      rw [e2] at h3
      rw [e4] at h5
      exact ⟨h2, h3, h5⟩
  | switch q cs d e x ih =>
    intro σ σ' h
    simp only [trS, Option.bind_eq_some_iff] at h
    obtain ⟨σ₁, h1, σ₂, h2, σ₃, h3, h4⟩ := h
    have o0 := Op.code (tr e) σ
    have l0 := o0.len (fun _ => 0)
    have o1 := Op.cases cs h1
    have l1 := o1.len (fun _ => 0)
    have o2 := Op.jump isJump_jmp h2
    have l2 := o2.len (fun _ => 0)
    have o3 := ih h3
    have l3 := o3.len (fun _ => 0)
    simp only [SC.flat_length, List.length_singleton, caseCode_length, code_length] at l0 l1 l2 l3
    have e2 : σ₂.blk.length = σ.blk.length + (tr e).len + 7 * cs.length + 1 := by omega
    have e3 : σ₃.blk.length = σ.blk.length + (tr e).len + 7 * cs.length + 1 + len rt x := by omega
    refine (o0.seq (o1.seq (o2.seq (o3.seq (Op.resolve h4))))).cast (by simp [refs]) (by simp [defs]) ?_ ?_
    · intro a; simp [e2, l0, code]
    · rintro a ⟨-, -, -, h3, h4⟩
      rw [e2] at h3
      rw [e3] at h4
      exact ⟨h3, h4⟩
  | case p v x ih =>
    intro σ σ' h
    simp only [trS, Option.bind_eq_some_iff] at h
    obtain ⟨σ₁, h1, h2⟩ := h
    have o1 := Op.resolve h1
    have l1 : σ₁.blk.length = σ.blk.length := o1.len (fun _ => 0)
    refine (o1.seq (ih h2)).cast (by simp [refs]) (by simp [defs]) ?_ ?_
    · intro a; simp [l1, code]
    · rintro a ⟨h1, h2⟩; rw [l1] at h2; exact ⟨h1, h2⟩
  | dflt p x ih =>
    intro σ σ' h
    simp only [trS, Option.bind_eq_some_iff] at h
    obtain ⟨σ₁, h1, h2⟩ := h
    have o1 := Op.resolve h1
    have l1 : σ₁.blk.length = σ.blk.length := o1.len (fun _ => 0)
    refine (o1.seq (ih h2)).cast (by simp [refs]) (by simp [defs]) ?_ ?_
    · intro a; simp [l1, code]
    · rintro a ⟨h1, h2⟩; rw [l1] at h2; exact ⟨h1, h2⟩
  | label p l x ih =>
    intro σ σ' h
    simp only [trS, Option.bind_eq_some_iff] at h
    obtain ⟨σ₁, h1, h2⟩ := h
    have o1 := Op.resolve h1
    have l1 : σ₁.blk.length = σ.blk.length := o1.len (fun _ => 0)
    refine (o1.seq (ih h2)).cast (by simp [refs]) (by simp [defs]) ?_ ?_
    · intro a; simp [l1, code]
    · rintro a ⟨h1, h2⟩; rw [l1] at h2; exact ⟨h1, h2⟩
  | goto p l =>
    intro σ σ' h
    simp only [trS] at h
    split at h
    · exact Op.jump isJump_jmp h
    · cases h
  | brk p => intro σ σ' h; exact Op.jump isJump_jmp h
  | cont p => intro σ σ' h; exact Op.jump isJump_jmp h
  | ret e q =>
    intro σ σ' h
    cases h
    exact ((Op.code _ σ).seq (Op.emit [.ret] _)).cast (by simp) (by simp [defs]) (fun _ => rfl) (fun _ _ => trivial)

/-- The address of a point after translation. -/
def addrOf (σ : Tr) (p : Nat) : Nat :=
  match σ.pts p with
  | .res a => a
  | .unres _ => 0

/-- Translating a whole body whose points all get resolved: the block is the code of the body, all jumps patched. -/
theorem trS_block (rt : Ty) (lab : Nat → Bool) (x : A) (pre : List Instr) {σ : Tr}
    (h : trS rt lab x ⟨pre, fun _ => .unres []⟩ = some σ) (hr : ∀ p ∈ refs x, p ∈ defs x) :
    σ.blk = pre ++ code rt (addrOf σ) x pre.length ∧ At rt (addrOf σ) x pre.length := by
  have o := trS_op rt lab x h
  have hf : Fin (addrOf σ) σ := by intro p v hp; simp [addrOf, hp]
  obtain ⟨R, hat⟩ := o.real (addrOf σ) pre hf ⟨rfl, fun i => .inl rfl, by intro p ds i hp hi; cases hp; cases hi⟩
  refine ⟨?_, hat⟩
  apply List.ext_getElem?
  intro i
  rcases R.eq i with h | ⟨p, ds, h1, h2⟩
  · exact h
  · exfalso
    rcases o.pend p ⟨ds, i, h1, h2⟩ with ⟨es, j, hp, hj⟩ | hp
    · cases hp; cases hj
    · obtain ⟨v, hv⟩ := o.defs p (hr p hp)
      rw [h1] at hv; cases hv

end Kefir.Stmt
