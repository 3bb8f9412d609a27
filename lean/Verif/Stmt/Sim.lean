import Verif.Stmt.Annot
import Verif.Stmt.Pieces

/-! The machine running the compiled function follows the abstract machine of `Spec.lean`, step by step. -/
namespace Kefir.Stmt
open Kefir.Types (Basic)
open Kefir.Expr Kefir.CSpec
open Kefir.IR

/-- `is` stands at index `k` of the program. -/
def Has (P : List Instr) (k : Nat) (is : List Instr) : Prop := ∃ pre post, P = pre ++ is ++ post ∧ pre.length = k

theorem Has.left {P k a b} (h : Has P k (a ++ b)) : Has P k a := by
  obtain ⟨pre, post, rfl, rfl⟩ := h
  exact ⟨pre, b ++ post, by simp, rfl⟩

theorem Has.right {P k a b} (h : Has P k (a ++ b)) : Has P (k + a.length) b := by
  obtain ⟨pre, post, rfl, rfl⟩ := h
  exact ⟨pre ++ a, post, by simp, by simp⟩

theorem Has.one {P k i} (h : Has P k [i]) : P[k]? = some i := by
  obtain ⟨pre, post, rfl, rfl⟩ := h
  simp

theorem Has.run {P k} {E : Env} {c : SC} (h : Has P k (c.flat k)) (hok : c.Ok) {s s' : List Word} {m m' : Mem}
    (hr : c.run E s m = some (s', m')) : Steps E P ⟨k, s, m⟩ ⟨k + c.len, s', m'⟩ := by
  obtain ⟨pre, post, rfl, rfl⟩ := h
  exact (SC.steps_run E c hok pre post s m s' m' hr).steps

/-- A compiled function, the stack it was entered with, and how its points are placed. -/
structure Cx where
  E : Env
  rt : Ty
  tidy : Bool
  P : List Instr
  ad : Nat → Nat
  T : Nat → Option Nat
  s0 : List Word

/-- The statement's code stands at `k`. -/
structure Pl (cx : Cx) (brk cont : Option Nat) (a : A) (k : Nat) : Prop where
  has : Has cx.P k (code cx.rt cx.ad a k)
  at_ : At cx.rt cx.ad a k
  wf : Wf cx.T brk cont a
  ok : ∃ sw, okS cx.rt cx.tidy sw (erase a) = true

/-- What remains to be executed is the code from index `pc` on; `brk` and `cont` are the points that `break` and `continue`
lead to. -/
inductive MK (cx : Cx) : Option Nat → Option Nat → Kont → Nat → Prop
  | stop {pc} : cx.P[pc]? = some .ret → MK cx none none .stop pc
  | seq {b c a k pc} : Pl cx b c a pc → MK cx b c k (pc + len cx.rt a) → MK cx b c (.seq (erase a) k) pc
  | loop {b c p q e a k} : Pl cx b c (.loop p q e a) (cx.ad p) → MK cx b c k (cx.ad q) →
    MK cx (some q) (some p) (.loop e (erase a) k) (cx.ad p)
  | doWhile {b c p q e a k k0} : Pl cx b c (.doWhile p q a e) k0 → MK cx b c k (cx.ad q) →
    MK cx (some q) (some p) (.doWhile (erase a) e k) (cx.ad p)
  | for_ {b c p q e t a k k0} : Pl cx b c (.for_ p q .none e t a) k0 → MK cx b c k (cx.ad q) →
    MK cx (some q) (some p) (.for_ e t (erase a) k) (cx.ad p)
  | switch {b c q k} : MK cx b c k (cx.ad q) → MK cx (some q) c (.switch k) (cx.ad q)
  | jmp {b c k pc t} : cx.P[pc]? = some (.jmp t) → MK cx b c k t → MK cx b c k pc

theorem MK.breakK {cx b c k pc} (h : MK cx b c k pc) : ∀ k', breakK k = some k' → ∃ q b' c', b = some q ∧ MK cx b' c' k' (cx.ad q) := by
  induction h with
  | stop => intro k' h; cases h
  | seq _ _ ih => intro k' h; exact ih k' h
  | loop _ h => intro k' hk; cases hk; exact ⟨_, _, _, rfl, h⟩
  | doWhile _ h => intro k' hk; cases hk; exact ⟨_, _, _, rfl, h⟩
  | for_ _ h => intro k' hk; cases hk; exact ⟨_, _, _, rfl, h⟩
  | switch h => intro k' hk; cases hk; exact ⟨_, _, _, rfl, h⟩
  | jmp _ _ ih => exact ih

theorem MK.contK {cx b c k pc} (h : MK cx b c k pc) : ∀ k', contK k = some k' → ∃ p b' c', c = some p ∧ MK cx b' c' k' (cx.ad p) := by
  induction h with
  | stop => intro k' h; cases h
  | seq _ _ ih => intro k' h; exact ih k' h
  | loop h1 h2 => intro k' hk; cases hk; exact ⟨_, _, _, rfl, .loop h1 h2⟩
  | doWhile h1 h2 => intro k' hk; cases hk; exact ⟨_, _, _, rfl, .doWhile h1 h2⟩
  | for_ h1 h2 => intro k' hk; cases hk; exact ⟨_, _, _, rfl, .for_ h1 h2⟩
  | switch _ ih => intro k' hk; exact ih k' hk
  | jmp _ _ ih => exact ih

/-! ### Parts of a placed statement -/

variable {cx : Cx} {brk cont : Option Nat}

theorem Pl.seq {x y : A} {k : Nat} (h : Pl cx brk cont (.seq x y) k) :
    Pl cx brk cont x k ∧ Pl cx brk cont y (k + len cx.rt x) := by
  obtain ⟨hh, ha, hw, sw, ho⟩ := h
  simp only [erase, okS, Bool.and_eq_true] at ho
  simp only [code] at hh
  have h2 := hh.right
  rw [code_length] at h2
  exact ⟨⟨hh.left, ha.1, hw.1, sw, ho.1⟩, ⟨h2, ha.2, hw.2, sw, ho.2⟩⟩

theorem Pl.cond {p : Nat} {e : Expr} {x : A} {k : Nat} (h : Pl cx brk cont (.cond p e x) k) :
    Has cx.P k ((condCode e).flat k) ∧ cx.P[k + (condCode e).len]? = some (.branch (cx.ad p)) ∧ okC e = true ∧
      Pl cx brk cont x (k + (condCode e).len + 1) ∧ cx.ad p = k + (condCode e).len + 1 + len cx.rt x := by
  obtain ⟨hh, ha, hw, sw, ho⟩ := h
  simp only [erase, okS, Bool.and_eq_true] at ho
  simp only [code] at hh
  have h1 := hh.left.left
  have h2 := hh.left.right
  have h3 := hh.right
  rw [SC.flat_length] at h2
  rw [List.length_append, SC.flat_length, List.length_singleton, ← Nat.add_assoc] at h3
  exact ⟨h1, h2.one, ho.1, ⟨h3, ha.1, hw, sw, ho.2⟩, ha.2⟩

theorem Pl.condElse {p q : Nat} {e : Expr} {x y : A} {k : Nat} (h : Pl cx brk cont (.condElse p q e x y) k) :
    Has cx.P k ((condCode e).flat k) ∧ cx.P[k + (condCode e).len]? = some (.branch (cx.ad p)) ∧ okC e = true ∧
      Pl cx brk cont x (k + (condCode e).len + 1) ∧
      cx.P[k + (condCode e).len + 1 + len cx.rt x]? = some (.jmp (cx.ad q)) ∧
      cx.ad p = k + (condCode e).len + 1 + len cx.rt x + 1 ∧
      Pl cx brk cont y (k + (condCode e).len + 1 + len cx.rt x + 1) ∧
      cx.ad q = k + (condCode e).len + 1 + len cx.rt x + 1 + len cx.rt y := by
  obtain ⟨hh, ha, hw, sw, ho⟩ := h
  simp only [erase, okS, Bool.and_eq_true] at ho
  simp only [code] at hh
  have h1 := hh.left.left.left.left
  have h2 := hh.left.left.left.right
  have h3 := hh.left.left.right
  have h4 := hh.left.right
  have h5 := hh.right
  simp only [List.length_append, SC.flat_length, List.length_singleton, code_length, ← Nat.add_assoc] at h2 h3 h4 h5
  exact ⟨h1, h2.one, ho.1.1, ⟨h3, ha.1, hw.1, sw, ho.1.2⟩, h4.one, ha.2.1, ⟨h5, ha.2.2.1, hw.2, sw, ho.2⟩, ha.2.2.2⟩

theorem Pl.loop {p q : Nat} {e : Expr} {x : A} {k : Nat} (h : Pl cx brk cont (.loop p q e x) k) :
    cx.ad p = k ∧ Has cx.P k ((condCode e).flat k) ∧ cx.P[k + (condCode e).len]? = some (.branch (cx.ad q)) ∧ okC e = true ∧
      Pl cx (some q) (some p) x (k + (condCode e).len + 1) ∧
      cx.P[k + (condCode e).len + 1 + len cx.rt x]? = some (.jmp (cx.ad p)) ∧
      cx.ad q = k + (condCode e).len + 1 + len cx.rt x + 1 := by
  obtain ⟨hh, ha, hw, sw, ho⟩ := h
  simp only [erase, okS, Bool.and_eq_true] at ho
  simp only [code] at hh
  have h1 := hh.left.left.left
  have h2 := hh.left.left.right
  have h3 := hh.left.right
  have h4 := hh.right
  simp only [List.length_append, SC.flat_length, List.length_singleton, code_length, ← Nat.add_assoc] at h2 h3 h4
  exact ⟨ha.1, h1, h2.one, ho.1, ⟨h3, ha.2.1, hw, sw, ho.2⟩, h4.one, ha.2.2⟩

theorem Pl.doWhile {p q : Nat} {e : Expr} {x : A} {k : Nat} (h : Pl cx brk cont (.doWhile p q x e) k) :
    Pl cx (some q) (some p) x k ∧ cx.ad p = k + len cx.rt x ∧ Has cx.P (cx.ad p) ((doCode e).flat (cx.ad p)) ∧ okC e = true ∧
      cx.P[cx.ad p + (doCode e).len]? = some (.branch k) ∧ cx.ad q = cx.ad p + (doCode e).len + 1 := by
  obtain ⟨hh, ha, hw, sw, ho⟩ := h
  simp only [erase, okS, Bool.and_eq_true] at ho
  simp only [code] at hh
  obtain ⟨ha1, ha2, ha3⟩ := ha
  have h1 := hh.left.left
  have h2 := hh.left.right
  have h3 := hh.right
  simp only [List.length_append, SC.flat_length, code_length, ← Nat.add_assoc] at h2 h3
  rw [← ha2] at h2 h3 ha3
  exact ⟨⟨h1, ha1, hw, sw, ho.2⟩, ha2, h2, ho.1, h3.one, ha3⟩

theorem Pl.for_ {p q : Nat} {i : Init} {e t : Option Expr} {x : A} {k : Nat} (h : Pl cx brk cont (.for_ p q i e t x) k) :
    Has cx.P k ((initCode i).flat k) ∧ okInit i = true ∧ Pl cx brk cont (.for_ p q .none e t x) (k + (initCode i).len) := by
  obtain ⟨hh, ha, hw, sw, ho⟩ := h
  simp only [erase, okS, Bool.and_eq_true] at ho
  simp only [code] at hh
  refine ⟨hh.left.left.left.left, ho.1.1.1, ?_, ?_, hw, sw, ?_⟩
  · have e0 : (initCode .none).len = 0 := rfl
    have e1 : ∀ k, (initCode .none).flat k = [] := fun _ => rfl
    simp only [code, e0, e1, Nat.add_zero, List.nil_append]
    obtain ⟨pre, post, hp, hk⟩ := hh
    exact ⟨pre ++ (initCode i).flat k, post, by rw [hp]; simp only [List.append_assoc], by simp [SC.flat_length, hk]⟩
  · have e0 : (initCode .none).len = 0 := rfl
    simpa only [At, e0, Nat.add_zero] using ha
  · simp only [erase, okS, Bool.and_eq_true]
    exact ⟨⟨⟨rfl, ho.1.1.2⟩, ho.1.2⟩, ho.2⟩

theorem Pl.for_none {p q : Nat} {e t : Option Expr} {x : A} {k : Nat} (h : Pl cx brk cont (.for_ p q .none e t x) k) :
    Has cx.P k (forTest cx.ad q e k) ∧ (∀ c, e = some c → okC c = true) ∧ Pl cx (some q) (some p) x (k + forTestLen e) ∧
      cx.ad p = k + forTestLen e + len cx.rt x ∧ Has cx.P (cx.ad p) ((tailCode t).flat (cx.ad p)) ∧ okTail cx.tidy t = true ∧
      cx.P[cx.ad p + (tailCode t).len]? = some (.jmp k) ∧ cx.ad q = cx.ad p + (tailCode t).len + 1 := by
  obtain ⟨hh, ha, hw, sw, ho⟩ := h
  simp only [erase, okS, Bool.and_eq_true] at ho
  simp only [code, At, initCode, SC.len, SC.flat, List.length_nil, Nat.add_zero, List.nil_append] at hh ha
  obtain ⟨ha1, ha2, ha3⟩ := ha
  have h1 := hh.left.left.left
  have h2 := hh.left.left.right
  have h3 := hh.left.right
  have h4 := hh.right
  simp only [List.length_append, SC.flat_length, code_length, forTest_length, ← Nat.add_assoc] at h2 h3 h4
  rw [← ha2] at h3 h4 ha3
  refine ⟨h1, ?_, ⟨h2, ha1, hw, sw, ho.2⟩, ha2, h3, ho.1.2, h4.one, ha3⟩
  rintro c rfl
  exact ho.1.1.2

theorem Pl.switch {q : Nat} {cs : List (Word × Nat)} {d : Option Nat} {e : Expr} {x : A} {k : Nat}
    (h : Pl cx brk cont (.switch q cs d e x) k) :
    Has cx.P k ((tr e).flat k) ∧ good e = true ∧ cx.tidy = false ∧ Has cx.P (k + (tr e).len) (caseCode cx.ad cs (k + (tr e).len)) ∧
      cx.P[k + (tr e).len + 7 * cs.length]? = some (.jmp (cx.ad (d.getD q))) ∧
      Pl cx (some q) cont x (k + (tr e).len + 7 * cs.length + 1) ∧
      cx.ad q = k + (tr e).len + 7 * cs.length + 1 + len cx.rt x ∧ Exact cs d (marks false x) ∧
      okS cx.rt cx.tidy (switchTy e) (erase x) = true := by
  obtain ⟨hh, ha, hw, sw, ho⟩ := h
  simp only [erase, okS, Bool.and_eq_true, Bool.not_eq_true'] at ho
  simp only [code] at hh
  have h1 := hh.left.left.left
  have h2 := hh.left.left.right
  have h3 := hh.left.right
  have h4 := hh.right
  simp only [List.length_append, SC.flat_length, caseCode_length, List.length_singleton, ← Nat.add_assoc] at h2 h3 h4
  exact ⟨h1, ho.1.1.2, ho.1.1.1, h2, h3.one, ⟨h4, ha.1, hw.1, _, ho.2⟩, ha.2, hw.2, ho.2⟩

/-! ### Finding the target of a jump -/

/-- What `find` finds is placed at the address of its mark. -/
theorem find_placed (f : Mark → Bool) (into : Bool) : ∀ (a : A) (brk cont : Option Nat) (pc : Nat) (k : Kont) (r : Stmt × Kont),
    find f into (erase a) k = some r → Pl cx brk cont a pc → MK cx brk cont k (pc + len cx.rt a) →
    ∃ mk p b' c' a', (mk, p) ∈ marks into a ∧ f mk = true ∧ erase a' = r.1 ∧ Pl cx b' c' a' (cx.ad p) ∧
      MK cx b' c' r.2 (cx.ad p + len cx.rt a') := by
  intro a
  induction a with
  | seq x y ihx ihy =>
    intro brk cont pc k r h hp hk
    obtain ⟨px, py⟩ := hp.seq
    simp only [erase, find] at h
    simp only [len, ← Nat.add_assoc] at hk
    rcases Option.or_eq_some_iff.mp h with h | ⟨-, h⟩
    · obtain ⟨mk, p, b', c', a', h1, h2⟩ := ihx _ _ _ _ _ h px (.seq py hk)
      exact ⟨mk, p, b', c', a', by simp [marks, h1], h2⟩
    · obtain ⟨mk, p, b', c', a', h1, h2⟩ := ihy _ _ _ _ _ h py hk
      exact ⟨mk, p, b', c', a', by simp [marks, h1], h2⟩
  | cond p e x ih =>
    intro brk cont pc k r h hp hk
    obtain ⟨-, -, -, px, -⟩ := hp.cond
    simp only [len, ← Nat.add_assoc] at hk
    exact ih _ _ _ _ _ h px hk
  | condElse p q e x y ihx ihy =>
    intro brk cont pc k r h hp hk
    obtain ⟨-, -, -, px, hj, -, py, hq⟩ := hp.condElse
    simp only [erase, find] at h
    simp only [len, ← Nat.add_assoc] at hk
    rcases Option.or_eq_some_iff.mp h with h | ⟨-, h⟩
    · obtain ⟨mk, p, b', c', a', h1, h2⟩ := ihx _ _ _ _ _ h px (.jmp hj (by rw [hq]; exact hk))
      exact ⟨mk, p, b', c', a', by simp [marks, h1], h2⟩
    · obtain ⟨mk, p, b', c', a', h1, h2⟩ := ihy _ _ _ _ _ h py hk
      exact ⟨mk, p, b', c', a', by simp [marks, h1], h2⟩
  | loop p q e x ih =>
    intro brk cont pc k r h hp hk
    obtain ⟨h0, -, -, -, px, hj, hq⟩ := hp.loop
    simp only [len, ← Nat.add_assoc] at hk
    rw [← hq] at hk
    have hm := MK.loop (by rw [h0]; exact hp) hk
    exact ih _ _ _ _ _ h px (.jmp hj hm)
  | doWhile p q x e ih =>
    intro brk cont pc k r h hp hk
    obtain ⟨px, h0, -, -, -, hq⟩ := hp.doWhile
    simp only [len, ← Nat.add_assoc] at hk
    rw [← h0, ← hq] at hk
    have hm := MK.doWhile hp hk
    exact ih _ _ _ _ _ h px (by rw [← h0]; exact hm)
  | for_ p q i e t x ih =>
    intro brk cont pc k r h hp hk
    obtain ⟨-, -, hp'⟩ := hp.for_
    obtain ⟨-, -, px, h0, -, -, -, hq⟩ := hp'.for_none
    simp only [len, ← Nat.add_assoc] at hk
    rw [← h0, ← hq] at hk
    have hm := MK.for_ hp' hk
    exact ih _ _ _ _ _ h px (by rw [← h0]; exact hm)
  | switch q cs d e x ih =>
    intro brk cont pc k r h hp hk
    obtain ⟨-, -, -, -, -, px, hq, -⟩ := hp.switch
    simp only [erase, find] at h
    split at h
    · rename_i hi
      simp only [len, ← Nat.add_assoc] at hk
      rw [← hq] at hk
      obtain ⟨mk, p, b', c', a', h1, h2⟩ := ih _ _ _ _ _ h px (by rw [← hq]; exact .switch hk)
      exact ⟨mk, p, b', c', a', by simp only [marks, hi, if_true]; rw [← hi]; exact h1, h2⟩
    · cases h
  | case p v s ih =>
    intro brk cont pc k r h hp hk
    obtain ⟨hh, ha, hw, sw, ho⟩ := hp
    simp only [erase, okS, Bool.and_eq_true] at ho
    have ps : Pl cx brk cont s pc := ⟨hh, ha.2, hw, sw, ho.2⟩
    simp only [erase, find] at h
    split at h
    · rename_i hf
      cases h
      exact ⟨.case v, p, brk, cont, s, by simp [marks], hf, rfl, by rw [ha.1]; exact ps, by rw [ha.1]; exact hk⟩
    · obtain ⟨mk, p, b', c', a', h1, h2⟩ := ih _ _ _ _ _ h ps hk
      exact ⟨mk, p, b', c', a', by simp [marks, h1], h2⟩
  | dflt p s ih =>
    intro brk cont pc k r h hp hk
    obtain ⟨hh, ha, hw, sw, ho⟩ := hp
    have ps : Pl cx brk cont s pc := ⟨hh, ha.2, hw, sw, ho⟩
    simp only [erase, find] at h
    split at h
    · rename_i hf
      cases h
      exact ⟨.dflt, p, brk, cont, s, by simp [marks], hf, rfl, by rw [ha.1]; exact ps, by rw [ha.1]; exact hk⟩
    · obtain ⟨mk, p, b', c', a', h1, h2⟩ := ih _ _ _ _ _ h ps hk
      exact ⟨mk, p, b', c', a', by simp [marks, h1], h2⟩
  | label p l s ih =>
    intro brk cont pc k r h hp hk
    obtain ⟨hh, ha, hw, sw, ho⟩ := hp
    have ps : Pl cx brk cont s pc := ⟨hh, ha.2, hw.2, sw, ho⟩
    simp only [erase, find] at h
    split at h
    · rename_i hf
      cases h
      exact ⟨.label l, p, brk, cont, s, by simp [marks], hf, rfl, by rw [ha.1]; exact ps, by rw [ha.1]; exact hk⟩
    · obtain ⟨mk, p, b', c', a', h1, h2⟩ := ih _ _ _ _ _ h ps hk
      exact ⟨mk, p, b', c', a', by simp [marks, h1], h2⟩
  | _ => intro brk cont pc k r h; simp [erase, find] at h

/-- A statement with a mark that satisfies `f` is not searched in vain. -/
theorem find_some (f : Mark → Bool) (into : Bool) : ∀ (a : A) (k : Kont) (x : Mark × Nat), x ∈ marks into a → f x.1 = true →
    (find f into (erase a) k).isSome = true := by
  intro a
  induction a with
  | seq a b iha ihb | condElse p q e a b iha ihb =>
    intro k x hx hf
    simp only [marks, List.mem_append] at hx
    simp only [erase, find, Option.isSome_or, Bool.or_eq_true]
    exact hx.imp (fun h => iha _ x h hf) (fun h => ihb _ x h hf)
  | switch q cs d e b ih =>
    intro k x hx hf
    simp only [marks] at hx
    split at hx
    · rename_i hi
      simp only [erase, find, hi, if_true]
      rw [hi] at hx ih
      exact ih _ x hx hf
    · cases hx
  | case p v s ih | dflt p s ih | label p l s ih =>
    intro k x hx hf
    simp only [marks, List.mem_cons] at hx
    simp only [erase, find]
    split
    · rfl
    · rename_i hn
      rcases hx with rfl | hx
      · exact (hn hf).elim
      · exact ih _ x hx hf
  | cond p e a ih | loop p q e a ih | doWhile p q a e ih | for_ p q i e t a ih =>
    intro k x hx hf
    simp only [marks] at hx
    simp only [erase, find]
    exact ih _ x hx hf
  | _ => intro k x hx; simp [marks] at hx

/-- `case` constants of a supported `switch` are values of the promoted type. -/
theorem marks_range {rt : Ty} {tidy : Bool} {b : Basic} : ∀ (a : A), okS rt tidy (some b) (erase a) = true →
    ∀ v p, (.case v, p) ∈ marks false a → wrap b v = v := by
  intro a
  induction a with
  | seq x y ihx ihy =>
    intro h v p hm
    simp only [erase, okS, Bool.and_eq_true] at h
    simp only [marks, List.mem_append] at hm
    exact hm.elim (ihx h.1 v p) (ihy h.2 v p)
  | condElse _ _ e x y ihx ihy =>
    intro h v p hm
    simp only [erase, okS, Bool.and_eq_true] at h
    simp only [marks, List.mem_append] at hm
    exact hm.elim (ihx h.1.2 v p) (ihy h.2 v p)
  | case p0 v0 s ih =>
    intro h v p hm
    simp only [erase, okS, Bool.and_eq_true, beq_iff_eq] at h
    simp only [marks, List.mem_cons, Prod.mk.injEq, Mark.case.injEq] at hm
    rcases hm with ⟨rfl, rfl⟩ | hm
    · exact h.1
    · exact ih h.2 v p hm
  | dflt p0 s ih | label p0 l s ih =>
    intro h v p hm
    simp only [erase, okS] at h
    simp only [marks, List.mem_cons, Prod.mk.injEq, reduceCtorEq, false_and, false_or] at hm
    exact ih h v p hm
  | cond _ e x ih | loop _ _ e x ih | doWhile _ _ x e ih | for_ _ _ i e t x ih =>
    intro h v p hm
    simp only [erase, okS, Bool.and_eq_true] at h
    simp only [marks] at hm
    exact ih h.2 v p hm
  | switch => intro h v p hm; simp [marks] at hm
  | _ => intro h v p hm; simp [marks] at hm

theorem marks_labels {T : Nat → Option Nat} : ∀ (a : A) (brk cont : Option Nat), Wf T brk cont a →
    ∀ l p, (.label l, p) ∈ marks true a → T l = some p := by
  intro a
  induction a with
  | seq x y ihx ihy | condElse _ _ e x y ihx ihy =>
    intro b c h l p hm
    simp only [marks, List.mem_append] at hm
    exact hm.elim (ihx _ _ h.1 l p) (ihy _ _ h.2 l p)
  | case p0 v0 s ih | dflt p0 s ih =>
    intro b c h l p hm
    simp only [marks, List.mem_cons, Prod.mk.injEq, reduceCtorEq, false_and, false_or] at hm
    exact ih _ _ h l p hm
  | label p0 l0 s ih =>
    intro b c h l p hm
    simp only [marks, List.mem_cons, Prod.mk.injEq, Mark.label.injEq] at hm
    rcases hm with ⟨rfl, rfl⟩ | hm
    · exact h.1
    · exact ih _ _ h.2 l p hm
  | cond _ e x ih | loop _ _ e x ih | doWhile _ _ x e ih | for_ _ _ i e t x ih =>
    intro b c h l p hm
    simp only [marks] at hm
    exact ih _ _ h l p hm
  | switch q cs d e x ih =>
    intro b c h l p hm
    simp only [marks, if_true] at hm
    exact ih _ _ h.1 l p hm
  | _ => intro b c h l p hm; simp [marks] at hm

/-! ### Machine steps -/

/-- At least one step. -/
def Plus (E : Env) (P : List Instr) (a c : Config) : Prop := ∃ b, step E P a = some b ∧ Steps E P b c

theorem Plus.of {E P a b c} (h : step E P a = some b) (h' : Steps E P b c) : Plus E P a c := ⟨b, h, h'⟩

theorem Plus.pre {E P a b c} (h : Steps E P a b) (h' : Plus E P b c) : Plus E P a c := by
  induction h with
  | refl => exact h'
  | head h _ ih =>
    obtain ⟨d, h1, h2⟩ := ih h'
    exact ⟨_, h, .head h1 h2⟩

theorem Plus.steps {E P a c} (h : Plus E P a c) : Steps E P a c := by
  obtain ⟨b, h1, h2⟩ := h
  exact .head h1 h2

theorem step_jmp {E : Env} {P : List Instr} {pc t : Nat} (h : P[pc]? = some (.jmp t)) (s : List Word) (m : Mem) :
    step E P ⟨pc, s, m⟩ = some ⟨t, s, m⟩ := by simp [step, h]

theorem step_branch {E : Env} {P : List Instr} {pc t : Nat} (h : P[pc]? = some (.branch t)) (w : Word) (s : List Word) (m : Mem) :
    step E P ⟨pc, w :: s, m⟩ = some ⟨if w != 0 then t else pc + 1, s, m⟩ := by simp [step, h]

/-- Branch on the negated controlling expression. -/
theorem branch_not {E : Env} {P : List Instr} {pc t : Nat} (h : P[pc]? = some (.branch t)) (x : Bool) (s : List Word) (m : Mem) :
    step E P ⟨pc, ofBool (!x) :: s, m⟩ = some ⟨if x then pc + 1 else t, s, m⟩ := by
  rw [step_branch h]
  cases x <;> rfl

/-- The dispatch code of `switch`: to the point of the key that equals the value, the value dropped; else behind the
dispatch code, the value kept. -/
theorem dispatch {E : Env} {P : List Instr} (ad : Nat → Nat) (w : Word) (s : List Word) (m : Mem) : ∀ (cs : List (Word × Nat)) (k : Nat),
    Has P k (caseCode ad cs k) →
      (∃ p, (w, p) ∈ cs ∧ Plus E P ⟨k, w :: s, m⟩ ⟨ad p, s, m⟩) ∨
      ((∀ p, (w, p) ∉ cs) ∧ Steps E P ⟨k, w :: s, m⟩ ⟨k + 7 * cs.length, w :: s, m⟩) := by
  intro cs
  induction cs with
  | nil => intro k _; exact .inr ⟨by simp, .refl _⟩
  | cons c cs ih =>
    obtain ⟨v, p⟩ := c
    intro k hh
    simp only [caseCode] at hh
    have h1 := hh.left
    have h2 := hh.right
    have hl : (caseInstrs ad k v p).length = 7 := rfl
    rw [hl] at h2
    have ha : ∀ i ins, (caseInstrs ad k v p)[i]? = some ins → P[k + i]? = some ins := by
      obtain ⟨pre, post, rfl, rfl⟩ := h1
      intro i ins hi
      have := (List.getElem?_eq_some_iff.mp hi).1
      rw [List.append_assoc, List.getElem?_append_right (by omega), Nat.add_sub_cancel_left, List.getElem?_append_left this, hi]
    have a0 : P[k]? = some (.pick 0) := ha 0 _ rfl
    have a1 : P[k + 1]? = some (.push v) := ha 1 _ rfl
    have a2 : P[k + 2]? = some (.bin .eq) := ha 2 _ rfl
    have a3 : P[k + 3]? = some (.un .bnot) := ha 3 _ rfl
    have a4 : P[k + 4]? = some (.branch (k + 4 + 3)) := ha 4 _ rfl
    have a5 : P[k + 5]? = some .pop := ha 5 _ rfl
    have a6 : P[k + 6]? = some (.jmp (ad p)) := ha 6 _ rfl
    have s0 : step E P ⟨k, w :: s, m⟩ = some ⟨k + 1, w :: w :: s, m⟩ := by
      simp only [step, a0]; rfl
    have s1 : step E P ⟨k + 1, w :: w :: s, m⟩ = some ⟨k + 2, v :: w :: w :: s, m⟩ := by
      simp only [step, a1]; rfl
    have s2 : step E P ⟨k + 2, v :: w :: w :: s, m⟩ = some ⟨k + 3, ofBool (w == v) :: w :: s, m⟩ := by
      simp only [step, a2]; rfl
    have s3 : step E P ⟨k + 3, ofBool (w == v) :: w :: s, m⟩ = some ⟨k + 4, ofBool (!(w == v)) :: w :: s, m⟩ := by
      simp only [step, a3]
      cases (w == v) <;> rfl
    have s4 : step E P ⟨k + 4, ofBool (!(w == v)) :: w :: s, m⟩ = some ⟨if w == v then k + 5 else k + 7, w :: s, m⟩ := by
      rw [branch_not a4]
    by_cases hwv : w = v
    · subst hwv
      left
      refine ⟨p, by simp, ⟨_, s0, ?_⟩⟩
      refine .head s1 (.head s2 (.head s3 (.head s4 ?_)))
      simp only [beq_self_eq_true, if_true]
      have s5 : step E P ⟨k + 5, w :: s, m⟩ = some ⟨k + 6, s, m⟩ := by simp only [step, a5]; rfl
      have s6 : step E P ⟨k + 6, s, m⟩ = some ⟨ad p, s, m⟩ := step_jmp a6 _ _
      exact .head s5 (.one s6)
    · have hpre : Steps E P ⟨k, w :: s, m⟩ ⟨k + 7, w :: s, m⟩ := by
        refine .head s0 (.head s1 (.head s2 (.head s3 (.head s4 ?_))))
        rw [if_neg (by simpa using hwv)]
        exact .refl _
      rcases ih (k + 7) h2 with ⟨q, hq, hp⟩ | ⟨hn, hs⟩
      · exact .inl ⟨q, by simp [hq], hp.pre hpre⟩
      · refine .inr ⟨?_, hpre.trans ?_⟩
        · intro q hq
          rcases List.mem_cons.mp hq with h | h
          · simp only [Prod.mk.injEq] at h; exact hwv h.1
          · exact hn q h
        · have : k + 7 * ((v, p) :: cs).length = k + 7 + 7 * cs.length := by simp; omega
          rw [this]
          exact hs

/-! ### Simulation -/

/-- A state of the abstract machine and a state of the machine that runs the code. -/
inductive M (cx : Cx) : State → Config → Prop
  | run {b c a k m pc j} : Pl cx b c a pc → MK cx b c k (pc + len cx.rt a) → (cx.tidy = true → j = []) →
    M cx (.run (erase a) k m) ⟨pc, j ++ cx.s0, m⟩
  | done {v m pc ws j} : cx.P[pc]? = some .ret → (∀ x, v = some x → Rep x ws) → (v = none → ws = []) →
    (cx.tidy = true → j = []) → M cx (.done v m) ⟨pc, ws ++ j ++ cx.s0, m⟩

theorem Pl.null {k : Nat} (hk : k ≤ cx.P.length) : Pl cx brk cont .skip k :=
  ⟨⟨cx.P.take k, cx.P.drop k, by simp [code], by simp; omega⟩, trivial, trivial, none, rfl⟩

theorem MK.le {b c k pc} (h : MK cx b c k pc) : pc ≤ cx.P.length := by
  have at_ : ∀ {i : Nat} {x : Instr}, cx.P[i]? = some x → i ≤ cx.P.length := by
    intro i x h
    have := (List.getElem?_eq_some_iff.mp h).1
    omega
  induction h with
  | stop h => exact at_ h
  | seq h _ ih => omega
  | loop h _ ih => have := at_ h.loop.2.2.1; omega
  | doWhile h _ ih => have := at_ h.doWhile.2.2.2.2.1; omega
  | for_ h _ ih => have := at_ h.for_none.2.2.2.2.2.2.1; omega
  | switch _ ih => exact ih
  | jmp h _ ih => exact at_ h

/-- The statement has been executed. -/
theorem M.skip {b c k m pc j} (h : MK cx b c k pc) (hj : cx.tidy = true → j = []) :
    M cx (.run .skip k m) ⟨pc, j ++ cx.s0, m⟩ :=
  .run (a := .skip) (Pl.null h.le) (by simpa [len] using h) hj

/-- Steps of the abstract machine to which no machine step may correspond make this smaller. -/
def size : Stmt → Nat
  | .skip => 0
  | .expr _ => 1
  | .decl _ => 1
  | .seq a b => size a + size b + 2
  | .cond _ _ => 1
  | .condElse _ _ _ => 1
  | .loop _ _ => 1
  | .doWhile b _ => size b + 2
  | .for_ .none _ _ b => size b + 2
  | .for_ _ _ _ b => size b + 3
  | .switch _ _ => 1
  | .case _ s => size s + 1
  | .dflt s => size s + 1
  | .label _ s => size s + 1
  | .goto _ => 1
  | .brk => 1
  | .cont => 1
  | .ret _ _ => 1

def ksize : Kont → Nat
  | .stop => 1
  | .seq s k => size s + 1 + ksize k
  | .loop _ _ k => 2 + ksize k
  | .doWhile _ _ k => 1 + ksize k
  | .for_ _ _ _ k => 1 + ksize k
  | .switch k => 1 + ksize k

def ssize : State → Nat
  | .run s k _ => size s + ksize k
  | .done _ _ => 0

theorem ksize_pos (k : Kont) : 1 ≤ ksize k := by cases k <;> simp [ksize] <;> omega

/-- One step of the abstract machine. -/
def Follows (cx : Cx) (st : State) (c : Config) (st' : State) : Prop :=
  ∃ c', (Plus cx.E cx.P c c' ∨ Steps cx.E cx.P c c' ∧ ssize st' < ssize st) ∧ M cx st' c'

section
variable (L : Lawful cx.E.fp)
include L

theorem skip_follows {body : Stmt} {b c k pc} (h : MK cx b c k pc) : ∀ (m : Mem) (j : List Word) (st' : State),
    (cx.tidy = true → j = []) → next (ctxOf cx.E) cx.rt body (.run .skip k m) = some st' →
    Follows cx (.run .skip k m) ⟨pc, j ++ cx.s0, m⟩ st' := by
  induction h with
  | stop h =>
    intro m j st' hj hn
    cases hn
    exact ⟨_, .inr ⟨.refl _, by simp [ssize, ksize, size]⟩, .done (ws := []) h (by simp) (by simp) hj⟩
  | seq h1 h2 _ =>
    intro m j st' hj hn
    cases hn
    exact ⟨_, .inr ⟨.refl _, by simp [ssize, ksize, size]⟩, .run h1 h2 hj⟩
  | loop h1 h2 _ =>
    intro m j st' hj hn
    cases hn
    have h2' := h2
    rw [h1.loop.2.2.2.2.2.2] at h2'
    exact ⟨_, .inr ⟨.refl _, by simp [ssize, ksize, size]⟩, .run (a := .loop _ _ _ _) h1 (by simpa [len, ← Nat.add_assoc] using h2') hj⟩
  | @doWhile b c p q e a k k0 h1 h2 _ =>
    intro m j st' hj hn
    simp only [next, Option.map_eq_some_iff, Prod.exists] at hn
    obtain ⟨x, m1, ht, rfl⟩ := hn
    obtain ⟨px, ha, hd, ho, hb, hq⟩ := h1.doWhile
    obtain ⟨w, hr, hw⟩ := do_run L ho ht (j ++ cx.s0)
    have s1 := hd.run (doCode_ok e) hr
    have s2 := step_branch (E := cx.E) hb w (j ++ cx.s0) m1
    rw [hw] at s2
    refine ⟨_, .inl (Plus.pre s1 ⟨_, s2, .refl _⟩), ?_⟩
    cases x with
    | true =>
      refine .run (a := .doWhile p q a e) h1 ?_ hj
      rw [hq, ha] at h2
      simpa [len, ← Nat.add_assoc] using h2
    | false => exact M.skip (by rw [← hq]; exact h2) hj
  | @for_ b c p q e t a k k0 h1 h2 _ =>
    intro m j st' hj hn
    simp only [next, Option.map_eq_some_iff] at hn
    obtain ⟨m1, ht, rfl⟩ := hn
    obtain ⟨-, -, px, ha, hd, ho, hb, hq⟩ := h1.for_none
    obtain ⟨j1, hr, hj1⟩ := tail_run L ho ht (j ++ cx.s0)
    have s1 := hd.run (tailCode_ok t) hr
    have s2 := step_jmp (E := cx.E) hb (j1 ++ (j ++ cx.s0)) m1
    refine ⟨_, .inl (Plus.pre s1 ⟨_, s2, .refl _⟩), ?_⟩
    rw [← List.append_assoc]
    refine .run (a := .for_ p q .none e t a) h1 ?_ (by intro h; simp [hj h, hj1 h])
    rw [hq, ha] at h2
    simpa [len, initCode, SC.len, ← Nat.add_assoc] using h2
  | switch h _ =>
    intro m j st' hj hn
    cases hn
    exact ⟨_, .inr ⟨.refl _, by simp [ssize, ksize, size]⟩, M.skip h hj⟩
  | jmp h1 _ ih =>
    intro m j st' hj hn
    obtain ⟨c', hs, hm⟩ := ih m j st' hj hn
    refine ⟨c', .inl ⟨_, step_jmp h1 _ _, ?_⟩, hm⟩
    rcases hs with hs | ⟨hs, -⟩
    · exact hs.steps
    · exact hs

theorem follows {root : A} {k0 : Nat} (hroot : Pl cx none none root k0) (hret : cx.P[k0 + len cx.rt root]? = some .ret)
    {st st' : State} {cf : Config} (hm : M cx st cf) (hn : next (ctxOf cx.E) cx.rt (erase root) st = some st') :
    Follows cx st cf st' := by
  cases hm with
  | done => cases hn
  | @run b c a k m pc j hp hk hj =>
    cases a with
    | skip => exact skip_follows L (by simpa [len] using hk) m j st' hj hn
    | expr e =>
      simp only [erase, next, effect, Option.map_eq_some_iff, Prod.exists] at hn
      obtain ⟨m1, ⟨v, _, he, rfl⟩, rfl⟩ := hn
      obtain ⟨hh, -, -, sw, ho⟩ := hp
      exact ⟨_, .inr ⟨hh.run (exprCode_ok e) (expr_run L ho he _), by simp [ssize, size, erase]⟩, M.skip hk hj⟩
    | decl ds =>
      simp only [erase, next, Option.map_eq_some_iff] at hn
      obtain ⟨m1, he, rfl⟩ := hn
      obtain ⟨hh, -, -, sw, ho⟩ := hp
      exact ⟨_, .inr ⟨hh.run (declCode_ok ds) (decl_run L ds ho he _), by simp [ssize, size, erase]⟩, M.skip hk hj⟩
    | seq x y =>
      cases hn
      obtain ⟨px, py⟩ := hp.seq
      simp only [len, ← Nat.add_assoc] at hk
      exact ⟨_, .inr ⟨.refl _, by simp [ssize, size, erase, ksize]; omega⟩, .run px (.seq py hk) hj⟩
    | cond p e x =>
      simp only [erase, next, Option.map_eq_some_iff, Prod.exists] at hn
      obtain ⟨t, m1, ht, rfl⟩ := hn
      obtain ⟨hh, hb, ho, px, hpa⟩ := hp.cond
      simp only [len, ← Nat.add_assoc] at hk
      have s1 := hh.run (condCode_ok e) (cond_run L ho ht (j ++ cx.s0))
      have s2 := branch_not (E := cx.E) hb t (j ++ cx.s0) m1
      refine ⟨_, .inl (Plus.pre s1 ⟨_, s2, .refl _⟩), ?_⟩
      cases t with
      | true => exact .run px hk hj
      | false => exact M.skip (by rw [← hpa] at hk; exact hk) hj
    | condElse p q e x y =>
      simp only [erase, next, Option.map_eq_some_iff, Prod.exists] at hn
      obtain ⟨t, m1, ht, rfl⟩ := hn
      obtain ⟨hh, hb, ho, px, hjm, hpa, py, hqa⟩ := hp.condElse
      simp only [len, ← Nat.add_assoc] at hk
      have s1 := hh.run (condCode_ok e) (cond_run L ho ht (j ++ cx.s0))
      have s2 := branch_not (E := cx.E) hb t (j ++ cx.s0) m1
      refine ⟨_, .inl (Plus.pre s1 ⟨_, s2, .refl _⟩), ?_⟩
      cases t with
      | true => exact .run px (.jmp hjm (by rw [hqa]; exact hk)) hj
      | false =>
        simp only [Bool.false_eq_true, if_false]
        rw [hpa]
        exact .run py hk hj
    | loop p q e x =>
      simp only [erase, next, Option.map_eq_some_iff, Prod.exists] at hn
      obtain ⟨t, m1, ht, rfl⟩ := hn
      obtain ⟨hpa, hh, hb, ho, px, hjm, hqa⟩ := hp.loop
      simp only [len, ← Nat.add_assoc] at hk
      rw [← hqa] at hk
      have s1 := hh.run (condCode_ok e) (cond_run L ho ht (j ++ cx.s0))
      have s2 := branch_not (E := cx.E) hb t (j ++ cx.s0) m1
      refine ⟨_, .inl (Plus.pre s1 ⟨_, s2, .refl _⟩), ?_⟩
      cases t with
      | true => exact .run px (.jmp hjm (.loop (by rw [hpa]; exact hp) hk)) hj
      | false => exact M.skip hk hj
    | doWhile p q x e =>
      cases hn
      obtain ⟨px, hpa, -, -, -, hqa⟩ := hp.doWhile
      simp only [len, ← Nat.add_assoc] at hk
      rw [← hpa, ← hqa] at hk
      exact ⟨_, .inr ⟨.refl _, by simp [ssize, size, erase, ksize]; omega⟩, .run px (by rw [← hpa]; exact .doWhile hp hk) hj⟩
    | for_ p q i e t x =>
      cases i with
      | none =>
        obtain ⟨hh, hoc, px, hpa, -, -, -, hqa⟩ := hp.for_none
        simp only [len, initCode, SC.len, List.length_nil, Nat.zero_add, ← Nat.add_assoc] at hk
        rw [← hpa, ← hqa] at hk
        have hm : MK cx (some q) (some p) (.for_ e t (erase x) k) (pc + forTestLen e + len cx.rt x) := by
          rw [← hpa]; exact .for_ hp hk
        cases e with
        | none =>
          cases hn
          exact ⟨_, .inr ⟨.refl _, by simp [ssize, size, erase, ksize]; omega⟩, .run px hm hj⟩
        | some e =>
          simp only [erase, next, Option.map_eq_some_iff, Prod.exists] at hn
          obtain ⟨v, m1, ht, rfl⟩ := hn
          simp only [forTest] at hh
          have hb := hh.right.one
          rw [SC.flat_length] at hb
          have s1 := hh.left.run (condCode_ok e) (cond_run L (hoc e rfl) ht (j ++ cx.s0))
          have s2 := branch_not (E := cx.E) hb v (j ++ cx.s0) m1
          refine ⟨_, .inl (Plus.pre s1 ⟨_, s2, .refl _⟩), ?_⟩
          cases v with
          | true => exact .run px hm hj
          | false => exact M.skip hk hj
      | expr e0 =>
        simp only [erase, next, Option.map_eq_some_iff] at hn
        obtain ⟨m1, hs, rfl⟩ := hn
        obtain ⟨hh, ho, hp'⟩ := hp.for_
        refine ⟨_, .inr ⟨hh.run (initCode_ok _) (init_run L ho hs _), by simp [ssize, size, erase]⟩,
          .run (a := .for_ p q .none e t x) hp' ?_ hj⟩
        simpa [len, initCode, SC.len, ← Nat.add_assoc] using hk
      | decl ds =>
        simp only [erase, next, Option.map_eq_some_iff] at hn
        obtain ⟨m1, hs, rfl⟩ := hn
        obtain ⟨hh, ho, hp'⟩ := hp.for_
        refine ⟨_, .inr ⟨hh.run (initCode_ok _) (init_run L ho hs _), by simp [ssize, size, erase]⟩,
          .run (a := .for_ p q .none e t x) hp' ?_ hj⟩
        simpa [len, initCode, SC.len, ← Nat.add_assoc] using hk
    | switch q cs d e x =>
      simp only [erase, next, Option.bind_eq_some_iff, Prod.exists] at hn
      obtain ⟨ty, hty, v, m1, he, hn⟩ := hn
      split at hn
      · rename_i n
        simp only [Option.some.injEq] at hn
        obtain ⟨hh, hg, htd, hcs, hjm, px, hqa, hex, hox⟩ := hp.switch
        obtain ⟨hrun, hinj⟩ := switch_run L hg hty he
        have hs1 := hh.run (tr_ok e) (hrun (j ++ cx.s0))
        simp only [len, ← Nat.add_assoc] at hk
        rw [← hqa] at hk
        have hbody : MK cx (some q) c (.switch k) (pc + (tr e).len + 7 * cs.length + 1 + len cx.rt x) := by
          rw [← hqa]; exact .switch hk
        rw [hty] at hox
        have hrange := marks_range x hox
        rcases dispatch (E := cx.E) cx.ad (BitVec.ofInt 64 n) (j ++ cx.s0) m1 cs _ hcs with ⟨p, hpm, hst⟩ | ⟨hno, hst⟩
        · -- a key matches
          obtain ⟨v', hm', hv'⟩ := (hex.cases _ p).mp hpm
          have : v' = n := hinj v' (hrange v' p hm') hv'.symm
          subst this
          have hfs := find_some (matchesCase ty v') false x (.switch k) _ hm' (by simp [matchesCase, hrange v' p hm'])
          obtain ⟨r, hr⟩ := Option.isSome_iff_exists.mp hfs
          obtain ⟨mk, p', b', c', a', h1, h2, h3, h4, h5⟩ := find_placed _ _ _ _ _ _ _ _ hr px hbody
          have hp' : p' = p := by
            cases mk with
            | case v2 =>
              have hv2 : v2 = v' := by
                simp only [matchesCase, beq_iff_eq] at h2
                rw [← h2, hrange v2 p' h1]
              subst hv2
              have := (hex.cases _ p').mpr ⟨v2, h1, rfl⟩
              -- keys are unique
              have nd := hex.nodup
              clear hcs hjm hst hex hbody px hk hqa hp hr
              induction cs with
              | nil => cases this
              | cons c0 cs ih =>
                simp only [List.map_cons, List.nodup_cons, List.mem_map, not_exists, not_and] at nd
                rcases List.mem_cons.mp this with h | h
                · rcases List.mem_cons.mp hpm with h' | h'
                  · rw [← h] at h'
                    simp only [Prod.mk.injEq] at h'
                    exact h'.2.symm
                  · exact (nd.1 _ h' (by rw [← h])).elim
                · rcases List.mem_cons.mp hpm with h' | h'
                  · exact (nd.1 _ h (by rw [← h'])).elim
                  · exact ih h' h nd.2
            | _ => simp [matchesCase] at h2
          subst hp'
          have hsel : select ty v' (erase x) k = r := by simp [select, hr]
          rw [hsel, ← h3] at hn
          subst hn
          exact ⟨_, .inl (Plus.pre hs1 hst), .run h4 h5 hj⟩
        · have hjmp := step_jmp (E := cx.E) hjm (BitVec.ofInt 64 n :: (j ++ cx.s0)) m1
          have hall := Plus.pre hs1 (Plus.pre hst ⟨_, hjmp, .refl _⟩)
          have hnone : find (matchesCase ty n) false (erase x) (.switch k) = none := by
            cases hr : find (matchesCase ty n) false (erase x) (.switch k) with
            | none => rfl
            | some r =>
              exfalso
              obtain ⟨mk, p', b', c', a', h1, h2, -⟩ := find_placed _ _ _ _ _ _ _ _ hr px hbody
              cases mk with
              | case v2 =>
                simp only [matchesCase, beq_iff_eq] at h2
                rw [hrange v2 p' h1] at h2
                subst h2
                exact hno p' ((hex.cases _ p').mpr ⟨v2, h1, rfl⟩)
              | _ => simp [matchesCase] at h2
          cases hd : find (· == Mark.dflt) false (erase x) (.switch k) with
          | some r =>
            obtain ⟨mk, p', b', c', a', h1, h2, h3, h4, h5⟩ := find_placed _ _ _ _ _ _ _ _ hd px hbody
            simp only [beq_iff_eq] at h2
            subst h2
            have hdp := (hex.dflt p').mpr h1
            have hsel : select ty n (erase x) k = r := by simp [select, hnone, hd]
            rw [hsel, ← h3] at hn
            subst hn
            rw [hdp] at hall
            refine ⟨_, .inl hall, ?_⟩
            exact M.run (j := BitVec.ofInt 64 n :: j) h4 h5 (by rw [htd]; simp)
          | none =>
            have hdn : d = none := by
              cases d with
              | none => rfl
              | some p' =>
                have := find_some (· == Mark.dflt) false x (.switch k) _ ((hex.dflt p').mp rfl) (by simp)
                rw [hd] at this
                cases this
            have hsel : select ty n (erase x) k = (.skip, k) := by simp [select, hnone, hd]
            rw [hsel] at hn
            subst hn
            rw [hdn] at hall
            refine ⟨_, .inl hall, ?_⟩
            exact M.skip (j := BitVec.ofInt 64 n :: j) hk (by rw [htd]; simp)
      · cases hn
    | case p v s =>
      cases hn
      obtain ⟨hh, ha, hw, sw, ho⟩ := hp
      simp only [erase, okS, Bool.and_eq_true] at ho
      exact ⟨_, .inr ⟨.refl _, by simp [ssize, size, erase]⟩, .run ⟨hh, ha.2, hw, sw, ho.2⟩ hk hj⟩
    | dflt p s =>
      cases hn
      obtain ⟨hh, ha, hw, sw, ho⟩ := hp
      exact ⟨_, .inr ⟨.refl _, by simp [ssize, size, erase]⟩, .run ⟨hh, ha.2, hw, sw, ho⟩ hk hj⟩
    | label p l s =>
      cases hn
      obtain ⟨hh, ha, hw, sw, ho⟩ := hp
      exact ⟨_, .inr ⟨.refl _, by simp [ssize, size, erase]⟩, .run ⟨hh, ha.2, hw.2, sw, ho⟩ hk hj⟩
    | goto p l =>
      simp only [erase, next, Option.map_eq_some_iff] at hn
      obtain ⟨r, hr, rfl⟩ := hn
      obtain ⟨mk, p', b', c', a', h1, h2, h3, h4, h5⟩ := find_placed _ _ _ _ _ _ _ _ hr hroot (.stop hret)
      simp only [beq_iff_eq] at h2
      subst h2
      have hT := marks_labels _ _ _ hroot.wf l p' h1
      have hw : cx.T l = some p := hp.wf
      rw [hT] at hw
      cases hw
      have hj1 := hp.has
      simp only [code] at hj1
      rw [← h3]
      exact ⟨_, .inl ⟨_, step_jmp hj1.one _ _, .refl _⟩, .run h4 h5 hj⟩
    | brk p =>
      simp only [erase, next, Option.map_eq_some_iff] at hn
      obtain ⟨k', hk', rfl⟩ := hn
      obtain ⟨q, b', c', hb, hmk⟩ := hk.breakK k' hk'
      have hw : b = some p := hp.wf
      rw [hb] at hw
      cases hw
      have hj1 := hp.has
      simp only [code] at hj1
      exact ⟨_, .inl ⟨_, step_jmp hj1.one _ _, .refl _⟩, M.skip hmk hj⟩
    | cont p =>
      simp only [erase, next, Option.map_eq_some_iff] at hn
      obtain ⟨k', hk', rfl⟩ := hn
      obtain ⟨q, b', c', hb, hmk⟩ := hk.contK k' hk'
      have hw : c = some p := hp.wf
      rw [hb] at hw
      cases hw
      have hj1 := hp.has
      simp only [code] at hj1
      exact ⟨_, .inl ⟨_, step_jmp hj1.one _ _, .refl _⟩, M.skip hmk hj⟩
    | ret e q =>
      obtain ⟨hh, -, -, sw, ho⟩ := hp
      simp only [code] at hh
      have hr := hh.right.one
      rw [SC.flat_length] at hr
      simp only [erase, okS] at ho
      cases e with
      | none =>
        cases hn
        refine ⟨_, .inr ⟨.refl _, by simp [ssize, size, erase]; omega⟩, .done (ws := []) ?_ (by simp) (by simp) hj⟩
        simpa [retCode, SC.len] using hr
      | some e =>
        simp only [erase, next, Option.bind_eq_some_iff, Option.map_eq_some_iff, Prod.exists] at hn
        obtain ⟨v, m1, he, v', hv, rfl⟩ := hn
        obtain ⟨ws, hrep, hrun⟩ := ret_run L ho he hv
        refine ⟨_, .inr ⟨hh.left.run (retCode_ok _ _ _) (hrun (j ++ cx.s0)), by simp [ssize, size, erase]; omega⟩, ?_⟩
        rw [← List.append_assoc]
        exact .done hr (by rintro x hx; cases hx; exact hrep) (by simp) hj

end

end Kefir.Stmt
