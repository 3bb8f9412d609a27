import Verif.Expr.Props
import Verif.Stmt.Sim
import Verif.Stmt.Accept

/-! C36: the code of a function body does what the statements of the body say.  C63: the constraints on labels and
jumps are enforced. -/
namespace Kefir.Stmt
open Kefir.Types (Basic)
open Kefir.C17
open Kefir.Expr Kefir.CSpec
open Kefir.IR

/-- `n` machine steps. -/
def stepN (E : Env) (P : List Instr) : Nat → Config → Option Config
  | 0, c => some c
  | n + 1, c => (step E P c).bind (stepN E P n)

theorem stepN_steps {E P} : ∀ {n : Nat} {c c' : Config}, stepN E P n c = some c' → Steps E P c c' := by
  intro n
  induction n with
  | zero => intro c c' h; cases h; exact .refl _
  | succ n ih =>
    intro c c' h
    simp only [stepN, Option.bind_eq_some_iff] at h
    obtain ⟨d, h1, h2⟩ := h
    exact .head h1 (ih h2)

theorem stepN_pred {E P} {n : Nat} {c : Config} (h : (stepN E P (n + 1) c).isSome = true) : (stepN E P n c).isSome = true := by
  induction n generalizing c with
  | zero => rfl
  | succ n ih =>
    simp only [stepN] at h ⊢
    cases hs : step E P c with
    | none => rw [hs] at h; cases h
    | some d =>
      rw [hs] at h
      exact ih h

theorem stepN_pre {E P} {a b : Config} (h : Steps E P a b) {n : Nat} (hn : (stepN E P n b).isSome = true) :
    (stepN E P n a).isSome = true := by
  induction h with
  | refl => exact hn
  | head h _ ih => exact stepN_pred (by simp only [stepN, h, Option.bind_some]; exact ih hn)

theorem ret_stuck {E : Env} {P : List Instr} {c : Config} (h : P[c.pc]? = some .ret) : step E P c = none := by
  simp only [step, h]; rfl

/-- The machine is deterministic: it stops in one state only. -/
theorem stop_unique {E P} {a b c : Config} (h1 : Steps E P a b) (hb : step E P b = none) (h2 : Steps E P a c)
    (hc : step E P c = none) : b = c := by
  induction h1 with
  | refl =>
    cases h2 with
    | refl => rfl
    | head h _ => rw [hb] at h; cases h
  | head h _ ih =>
    cases h2 with
    | refl => rw [hc] at h; cases h
    | head h' h2' =>
      rw [h] at h'
      cases h'
      exact ih hb h2'

/-- Everything about a compiled function that the simulation needs. -/
theorem start_match {E : Env} {rt : Ty} {tidy : Bool} {pre P : List Instr} {body : Stmt} (hc : compile rt pre body = some P)
    (hok : okS rt tidy none body = true) (s0 : List Word) :
    ∃ (cx : Cx) (root : A), cx.E = E ∧ cx.rt = rt ∧ cx.tidy = tidy ∧ cx.P = P ∧ cx.s0 = s0 ∧ erase root = body ∧
      Pl cx none none root pre.length ∧ cx.P[pre.length + len cx.rt root]? = some .ret ∧
      ∀ m, M cx (.run body .stop m) ⟨pre.length, s0, m⟩ := by
  obtain ⟨a, T, ad, he, hw, hP, hat⟩ := compile_spec hc
  have hpl : Pl ⟨E, rt, tidy, P, ad, T, s0⟩ none none a pre.length :=
    ⟨⟨pre, [.ret], hP, rfl⟩, hat, hw, none, by rw [he]; exact hok⟩
  have hr : P[pre.length + len rt a]? = some .ret := by
    rw [hP, List.getElem?_append_right (by simp [code_length])]
    simp [code_length]
  refine ⟨⟨E, rt, tidy, P, ad, T, s0⟩, a, rfl, rfl, rfl, rfl, rfl, he, hpl, hr, fun m => ?_⟩
  have := M.run (cx := ⟨E, rt, tidy, P, ad, T, s0⟩) (j := []) (m := m) hpl (.stop hr) (fun _ => rfl)
  rw [he] at this
  exact this

theorem exec_follows {cx : Cx} {root : A} {k0 : Nat} (L : Lawful cx.E.fp) (hroot : Pl cx none none root k0)
    (hret : cx.P[k0 + len cx.rt root]? = some .ret) {st st' : State} (h : Exec (ctxOf cx.E) cx.rt (erase root) st st') :
    ∀ cf, M cx st cf → ∃ cf', Steps cx.E cx.P cf cf' ∧ M cx st' cf' := by
  induction h with
  | refl => intro cf hm; exact ⟨cf, .refl _, hm⟩
  | head hn _ ih =>
    intro cf hm
    obtain ⟨c1, hs, hm1⟩ := follows L hroot hret hm hn
    obtain ⟨c2, hs2, hm2⟩ := ih c1 hm1
    rcases hs with hs | ⟨hs, -⟩
    · exact ⟨c2, hs.steps.trans hs2, hm2⟩
    · exact ⟨c2, hs.trans hs2, hm2⟩

theorem run_forever {cx : Cx} {root : A} {k0 : Nat} (L : Lawful cx.E.fp) (hroot : Pl cx none none root k0)
    (hret : cx.P[k0 + len cx.rt root]? = some .ret) : ∀ (n k : Nat) (st : State) (cf : Config), ssize st = k → M cx st cf →
    (∀ i, (iter (ctxOf cx.E) cx.rt (erase root) i st).isSome = true) → (stepN cx.E cx.P n cf).isSome = true := by
  intro n
  induction n with
  | zero => intros; rfl
  | succ n ihn =>
    intro k
    induction k using Nat.strongRecOn with
    | ind k ihk =>
      intro st cf hk hm hd
      have h1 := hd 1
      simp only [iter] at h1
      cases hn : next (ctxOf cx.E) cx.rt (erase root) st with
      | none => rw [hn] at h1; cases h1
      | some st' =>
        have hd' : ∀ i, (iter (ctxOf cx.E) cx.rt (erase root) i st').isSome = true := by
          intro i
          have := hd (i + 1)
          simp only [iter, hn, Option.bind_some] at this
          exact this
        obtain ⟨c1, hs, hm1⟩ := follows L hroot hret hm hn
        rcases hs with ⟨b, hb, hs⟩ | ⟨hs, hlt⟩
        · simp only [stepN, hb, Option.bind_some]
          exact stepN_pre hs (ihn _ st' c1 rfl hm1 hd')
        · exact stepN_pre hs (ihk _ (by omega) st' c1 rfl hm1 hd')

/-- C36, functions that return: if the body, executed as C17 6.8 prescribes, returns with value `v` (or without one) and
memory `m'`, then the code, entered with any stack, reaches a `ret` cell with memory `m'` and, on top of the stack, the
representation of `v`; below it the stack may have grown.
Missing from the full property: the constructs that `okS` excludes (see the refutations below), variable-length arrays,
aggregates, statement expressions. -/
theorem C36_returns_partial (E : Env) (L : Lawful E.fp) (rt : Ty) (pre P : List Instr) (body : Stmt)
    (hc : compile rt pre body = some P) (hok : okS rt false none body = true) (m m' : Mem) (v : Option Val)
    (h : Returns (ctxOf E) rt body m v m') (s0 : List Word) :
    ∃ pc ws junk, Steps E P ⟨pre.length, s0, m⟩ ⟨pc, ws ++ junk ++ s0, m'⟩ ∧ P[pc]? = some .ret ∧
      (∀ x, v = some x → Rep x ws) ∧ (v = none → ws = []) := by
  obtain ⟨cx, root, rfl, rfl, htd, rfl, rfl, rfl, hp, hr, hm⟩ := start_match hc hok s0 (E := E)
  obtain ⟨cf, hs, hm'⟩ := exec_follows L hp hr h _ (hm m)
  cases hm' with
  | done h1 h2 h3 h4 => exact ⟨_, _, _, hs, h1, h2, h3⟩

/-- C36, the stack: a function body without `switch` and without a `long double` third clause of `for` leaves the operand
stack as it found it, with the returned value on top. -/
theorem C36_stack_restored_partial (E : Env) (L : Lawful E.fp) (rt : Ty) (pre P : List Instr) (body : Stmt)
    (hc : compile rt pre body = some P) (hok : okS rt true none body = true) (m m' : Mem) (v : Option Val)
    (h : Returns (ctxOf E) rt body m v m') (s0 : List Word) :
    ∃ pc ws, Steps E P ⟨pre.length, s0, m⟩ ⟨pc, ws ++ s0, m'⟩ ∧ P[pc]? = some .ret ∧
      (∀ x, v = some x → Rep x ws) ∧ (v = none → ws = []) := by
  obtain ⟨cx, root, rfl, rfl, htd, rfl, rfl, rfl, hp, hr, hm⟩ := start_match hc hok s0 (E := E)
  obtain ⟨cf, hs, hm'⟩ := exec_follows L hp hr h _ (hm m)
  cases hm' with
  | done h1 h2 h3 h4 =>
    rw [h4 htd, List.append_nil] at hs
    exact ⟨_, _, hs, h1, h2, h3⟩

/-- C36, functions that do not return: if execution of the body goes on forever, so does that of the code. -/
theorem C36_diverges_partial (E : Env) (L : Lawful E.fp) (rt : Ty) (pre P : List Instr) (body : Stmt)
    (hc : compile rt pre body = some P) (hok : okS rt false none body = true) (m : Mem)
    (h : Diverges (ctxOf E) rt body m) (s0 : List Word) (n : Nat) :
    (stepN E P n ⟨pre.length, s0, m⟩).isSome = true := by
  obtain ⟨cx, root, rfl, rfl, htd, rfl, rfl, rfl, hp, hr, hm⟩ := start_match hc hok s0 (E := E)
  exact run_forever L hp hr n _ _ _ rfl (hm m) h

/-- Execution never meets undefined behaviour: every state reached is final or has a successor. -/
def Safe (C : Ctx) (rt : Ty) (body : Stmt) (m : Mem) : Prop :=
  ∀ st, Exec C rt body (.run body .stop m) st → (∃ v m', st = .done v m') ∨ ∃ st', next C rt body st = some st'

theorem exec_snoc {C : Ctx} {rt : Ty} {body : Stmt} {a b c : State} (h : Exec C rt body a b)
    (hs : next C rt body b = some c) : Exec C rt body a c := by
  induction h with
  | refl => exact .head hs (.refl _)
  | head h _ ih => exact .head h (ih hs)

theorem safe_cases {C : Ctx} {rt : Ty} {body : Stmt} {m : Mem} (h : Safe C rt body m) :
    (∃ v m', Returns C rt body m v m') ∨ Diverges C rt body m := by
  by_cases hd : Diverges C rt body m
  · exact .inr hd
  · left
    simp only [Diverges, Classical.not_forall] at hd
    obtain ⟨n, hn⟩ := hd
    have key : ∀ n st, Exec C rt body (.run body .stop m) st → ¬ (iter C rt body n st).isSome = true →
        ∃ v m', Returns C rt body m v m' := by
      intro n
      induction n with
      | zero => intro st _ h; exact (h rfl).elim
      | succ n ih =>
        intro st he hi
        rcases h st he with ⟨v, m', rfl⟩ | ⟨st', hs⟩
        · exact ⟨v, m', he⟩
        · exact ih st' (exec_snoc he hs) (by simpa only [iter, hs, Option.bind_some] using hi)
    exact key n _ (.refl _) hn

/-- C36, nothing else happens: if the body has no undefined behaviour and the code stops, in whatever way, then it stopped
at a `ret` cell, the body returns, and memory and the top of the stack are those of C. -/
theorem C36_halts_partial (E : Env) (L : Lawful E.fp) (rt : Ty) (pre P : List Instr) (body : Stmt)
    (hc : compile rt pre body = some P) (hok : okS rt false none body = true) (m : Mem)
    (hsafe : Safe (ctxOf E) rt body m) (s0 : List Word) (c : Config)
    (hs : Steps E P ⟨pre.length, s0, m⟩ c) (hstop : step E P c = none) :
    P[c.pc]? = some .ret ∧ ∃ v ws junk, Returns (ctxOf E) rt body m v c.mem ∧ c.stk = ws ++ junk ++ s0 ∧
      (∀ x, v = some x → Rep x ws) ∧ (v = none → ws = []) := by
  rcases safe_cases hsafe with ⟨v, m', hr⟩ | hd
  · obtain ⟨pc, ws, junk, h1, h2, h3, h4⟩ := C36_returns_partial E L rt pre P body hc hok m m' v hr s0
    have := stop_unique hs hstop h1 (ret_stuck h2)
    subst this
    exact ⟨h2, v, ws, junk, hr, rfl, h3, h4⟩
  · exfalso
    have key : ∀ {a b : Config}, Steps E P a b → step E P b = none → ∃ n, ¬ (stepN E P n a).isSome = true := by
      intro a b h hb
      induction h with
      | refl => exact ⟨1, by simp [stepN, hb]⟩
      | head h _ ih =>
        obtain ⟨n, hn⟩ := ih hb
        exact ⟨n + 1, by simp only [stepN, h, Option.bind_some]; exact hn⟩
    obtain ⟨n, hn⟩ := key hs hstop
    exact hn (C36_diverges_partial E L rt pre P body hc hok m hd s0 n)

/-! ### Examples: the hypotheses can be met -/

/-- The integer that a state has returned. -/
def returned : State → Option Int
  | .done (some (.int i)) _ => some i
  | _ => none

/-- Runs until the body has returned, for at most `n` steps, and gives the integer returned. -/
def value (C : Ctx) (rt : Ty) (body : Stmt) : Nat → State → Option Int
  | 0, st => returned st
  | n + 1, st => (returned st).or ((next C rt body st).bind (value C rt body n))

theorem returned_eq {st : State} {i : Int} (h : returned st = some i) : ∃ m, st = .done (some (.int i)) m := by
  unfold returned at h
  split at h
  · cases h; exact ⟨_, rfl⟩
  · cases h

theorem value_exec {C : Ctx} {rt : Ty} {body : Stmt} {i : Int} : ∀ {n : Nat} {st : State}, value C rt body n st = some i →
    ∃ m', Exec C rt body st (.done (some (.int i)) m') := by
  intro n
  induction n with
  | zero =>
    intro st h
    obtain ⟨m, rfl⟩ := returned_eq h
    exact ⟨m, .refl _⟩
  | succ n ih =>
    intro st h
    simp only [value, Option.or_eq_some_iff, Option.bind_eq_some_iff] at h
    rcases h with h | ⟨-, c, h1, h2⟩
    · obtain ⟨m, rfl⟩ := returned_eq h
      exact ⟨m, .refl _⟩
    · obtain ⟨m', h3⟩ := ih h2
      exact ⟨m', .head h1 h3⟩

theorem returns_of {C : Ctx} {rt : Ty} {body : Stmt} {m : Mem} (n : Nat) {i : Int}
    (h : value C rt body n (.run body .stop m) = some i) : ∃ m', Returns C rt body m (some (.int i)) m' :=
  value_exec h

def int : Ty := .arith .int
def num (n : Int) : Expr := .const .int n
/-- The local variable at offset `4 * i`. -/
def var (i : Nat) : LV := .auto [4 * i] int

/-- `int s = 0; for (int i = 0; i < 10; i = i + 1) { if (i == 3) continue; if (i == 5) break; s = s + i; }
do { s = s + 1; } while (s < 10); return s;` -/
def demo : Stmt :=
  .seq (.decl [⟨[0], int, some (num 0)⟩])
  (.seq (.for_ (.decl [⟨[4], int, some (num 0)⟩]) (some (.bin .lt (.lval (var 1)) (num 10)))
      (some (.assign (var 1) (.bin .add (.lval (var 1)) (num 1))))
      (.seq (.cond (.bin .eq (.lval (var 1)) (num 3)) .cont)
      (.seq (.cond (.bin .eq (.lval (var 1)) (num 5)) .brk)
      (.seq (.expr (.assign (var 0) (.bin .add (.lval (var 0)) (.lval (var 1))))) .skip))))
  (.seq (.doWhile (.seq (.expr (.assign (var 0) (.bin .add (.lval (var 0)) (num 1)))) .skip)
      (.bin .lt (.lval (var 0)) (num 10)))
  (.seq (.ret (some (.lval (var 0))) false) .skip)))

example : okS int true none demo = true := by decide +kernel
example : (compile int [] demo).isSome = true := by decide +kernel
example : ∃ m', Returns (ctxOf toyEnv) int demo (fun _ => 0) (some (.int 10)) m' :=
  returns_of 200 (by decide +kernel)

/-- `int i = 0; again: i = i + 1; switch (i) { case 1: goto again; case 2: i = 7; default: break; case 8: goto again; }
if (i == 7) goto again; else while (1) { if (i > 20) return i; i = i * 2; }` -/
def demoSwitch : Stmt :=
  .seq (.decl [⟨[0], int, some (num 0)⟩])
  (.seq (.label 3 (.expr (.assign (var 0) (.bin .add (.lval (var 0)) (num 1)))))
  (.seq (.switch (.lval (var 0)) (.seq (.case 1 (.goto 3)) (.seq (.case 2 (.expr (.assign (var 0) (num 7))))
    (.seq (.dflt .brk) (.seq (.case 8 (.goto 3)) .skip)))))
  (.seq (.condElse (.bin .eq (.lval (var 0)) (num 7)) (.goto 3)
    (.loop (num 1) (.seq (.cond (.bin .gt (.lval (var 0)) (num 20)) (.ret (some (.lval (var 0))) false))
      (.seq (.expr (.assign (var 0) (.bin .mul (.lval (var 0)) (num 2)))) .skip)))) .skip)))

example : okS int false none demoSwitch = true := by decide +kernel
example : (compile int [] demoSwitch).isSome = true := by decide +kernel
example : ∃ m', Returns (ctxOf toyEnv) int demoSwitch (fun _ => 0) (some (.int 36)) m' :=
  returns_of 200 (by decide +kernel)

/-- `for (;;) ;` diverges. -/
def spin : Stmt := .for_ .none none none .skip

theorem spin_diverges (C : Ctx) (rt : Ty) (m : Mem) : Diverges C rt spin m := by
  intro n
  have key : ∀ n, (iter C rt spin n (.run spin .stop m)).isSome = true ∧
      (iter C rt spin n (.run .skip (.for_ none none .skip .stop) m)).isSome = true := by
    intro n
    induction n with
    | zero => exact ⟨rfl, rfl⟩
    | succ n ih => exact ⟨ih.2, ih.1⟩
  exact (key n).1

example : okS int false none spin = true ∧ (compile int [] spin).isSome = true := by decide +kernel

/-! ### What kefir gets wrong -/

theorem stepN_add {E P} : ∀ (n k : Nat) (c : Config), stepN E P (n + k) c = (stepN E P n c).bind (stepN E P k) := by
  intro n
  induction n with
  | zero => intro k c; rw [Nat.zero_add]; rfl
  | succ n ih =>
    intro k c
    rw [Nat.add_right_comm]
    simp only [stepN]
    cases step E P c with
    | none => rfl
    | some d => exact ih k d

theorem grow {E P} {pc : Nat} {m : Mem} {w : Word} {k : Nat}
    (h : ∀ s, stepN E P k ⟨pc, s, m⟩ = some ⟨pc, w :: s, m⟩) (n : Nat) :
    ∀ s, ∃ c, Steps E P ⟨pc, s, m⟩ c ∧ n ≤ c.stk.length := by
  induction n with
  | zero => intro s; exact ⟨_, .refl _, Nat.zero_le _⟩
  | succ n ih =>
    intro s
    have : ∀ n s, stepN E P (k * n) ⟨pc, s, m⟩ = some ⟨pc, List.replicate n w ++ s, m⟩ := by
      intro n
      induction n with
      | zero => intro s; rfl
      | succ n ih =>
        intro s
        rw [Nat.mul_succ, Nat.add_comm, stepN_add, h]
        simp only [Option.bind_some]
        rw [ih, List.replicate_succ', List.append_assoc]
        rfl
    exact ⟨_, stepN_steps (this (n + 1) s), by simp⟩

/-- `for (;;) switch (0) ;` -/
def spinSwitch : Stmt := .for_ .none none none (.switch (num 0) .skip)

/-- C36, the stack, false with `switch`: when no `case` matches the value stays on the stack, so that a loop around a
`switch` uses more and more stack: no bound is enough for `for (;;) switch (0) ;`. -/
theorem C36_switch_stack_false : ∃ P, compile .void [] spinSwitch = some P ∧ okS .void false none spinSwitch = true ∧
    ∀ (E : Env) (m : Mem) (n : Nat), ∃ c, Steps E P ⟨0, [], m⟩ c ∧ n ≤ c.stk.length := by
  refine ⟨_, rfl, by decide +kernel, fun E m n => ?_⟩
  exact grow (k := 3) (w := 0) (fun s => rfl) n []

/-- `for (;; 0.0L) ;` -/
def spinTail : Stmt := .for_ .none none (some (.fconst .f80 0)) .skip

/-- C36, the stack, false with a third clause of type `long double`: one of the two words of its value is popped. -/
theorem C36_for_tail_stack_false : ∃ P, compile .void [] spinTail = some P ∧ okS .void false none spinTail = true ∧
    ∀ (E : Env) (m : Mem) (n : Nat), ∃ c, Steps E P ⟨0, [], m⟩ c ∧ n ≤ c.stk.length := by
  refine ⟨_, rfl, by decide +kernel, fun E m n => ?_⟩
  exact grow (k := 4) (fun s => rfl) n []

/-- Runs to a `ret` cell, for at most `n` steps, and gives the word on top of the stack there. -/
def top (E : Env) (P : List Instr) : Nat → Config → Option Word
  | 0, _ => none
  | n + 1, c =>
    match P[c.pc]? with
    | some .ret => c.stk.head?
    | _ => (step E P c).bind (top E P n)

theorem top_steps {E P} {w : Word} : ∀ {n : Nat} {c : Config}, top E P n c = some w →
    ∃ c', Steps E P c c' ∧ P[c'.pc]? = some .ret ∧ c'.stk.head? = some w := by
  intro n
  induction n with
  | zero => intro c h; cases h
  | succ n ih =>
    intro c h
    unfold top at h
    split at h
    · next hr => exact ⟨c, .refl _, hr, h⟩
    · simp only [Option.bind_eq_some_iff] at h
      obtain ⟨d, h1, h2⟩ := h
      obtain ⟨c', h3, h4⟩ := ih h2
      exact ⟨c', .head h1 h3, h4⟩

/-- `switch (4294967295U) { case -1: return 1; } return 0;` -/
def caseMinus : Stmt :=
  .seq (.switch (.const .uint 4294967295) (.seq (.case (-1) (.ret (some (num 1)) false)) .skip))
  (.seq (.ret (some (num 0)) false) .skip)

/-- C36, `case` constants, false: 6.8.4.2p5 converts the constant to the promoted type of the controlling expression,
kefir compares it as it is. -/
theorem C36_case_conversion_false : ∃ P m', compile int [] caseMinus = some P ∧
    Returns (ctxOf toyEnv) int caseMinus (fun _ => 0) (some (.int 1)) m' ∧
    ∃ c, Steps toyEnv P ⟨0, [], fun _ => 0⟩ c ∧ P[c.pc]? = some .ret ∧ c.stk.head? = some 0 := by
  obtain ⟨m', hr⟩ := returns_of (C := ctxOf toyEnv) (rt := int) (body := caseMinus) (m := fun _ => 0) 20 (i := 1)
    (by decide +kernel)
  exact ⟨_, m', rfl, hr, top_steps (n := 30) (by decide +kernel)⟩

/-- `const int x = 300; return x;` in a function returning `unsigned char`. -/
def retQualified : Stmt :=
  .seq (.decl [⟨[0], int, some (num 300)⟩]) (.seq (.ret (some (.lval (var 0))) true) .skip)

/-- C36, `return`, false for expressions that are lvalues of a qualified type: the value is not converted to the type of
the function, `unsigned char f(void) { const int x = 300; return x; }` returns 300. -/
theorem C36_return_conversion_false : ∃ P m', compile (.arith .uchar) [] retQualified = some P ∧
    Returns (ctxOf toyEnv) (.arith .uchar) retQualified (fun _ => 0) (some (.int 44)) m' ∧
    ∃ c, Steps toyEnv P ⟨0, [], fun _ => 0⟩ c ∧ P[c.pc]? = some .ret ∧ c.stk.head? = some 300 := by
  obtain ⟨m', hr⟩ := returns_of (C := ctxOf toyEnv) (rt := .arith .uchar) (body := retQualified) (m := fun _ => 0) 20
    (i := 44) (by decide +kernel)
  exact ⟨_, m', rfl, hr, top_steps (n := 30) (by decide +kernel)⟩

/-! ### C63: constraints -/

/-- C63: a function body whose `case` constants need no conversion gets code if and only if it meets the constraints of
C17 on labels and jumps.
Missing from the full property: `case` constants that need conversion (`C63_duplicate_case_false`), constraints on the
types of expressions, jumps into the scope of a variable-length array. -/
theorem C63_accepted_exactly_partial (rt : Ty) (pre : List Instr) (body : Stmt) (h : CasesFit body) :
    (compile rt pre body).isSome = true ↔ Constraints body := by
  rw [compile_iff, Constraints, ← fits_placed body false false h]
  rfl

example : CasesFit demoSwitch := by
  refine ⟨trivial, trivial, ⟨⟨trivial, trivial, trivial, trivial, trivial⟩, .int, by decide, ?_⟩, ⟨trivial, trivial, trivial, trivial⟩, trivial⟩
  decide

/-- `switch (1) { case 1: case 1: ; }`, `break` outside a loop, `continue` in a `switch`, a label twice, a `goto` to no
label, two `default`s and a `case` outside a `switch` are rejected. -/
example : [Stmt.switch (num 1) (.case 1 (.case 1 .skip)), .brk, .switch (num 1) .cont,
    .seq (.label 0 .skip) (.label 0 .skip), .goto 0, .switch (num 1) (.dflt (.dflt .skip)), .loop (num 1) (.case 1 .skip)].all
      (fun s => (compile .void [] s).isNone) = true := by decide +kernel

/-- `switch (0U) { case -1: case 4294967295: ; }` -/
def duplicate : Stmt := .switch (.const .uint 0) (.case (-1) (.case 4294967295 .skip))

/-- C63 false when constants need conversion: 6.8.4.2p3 forbids two constants with the same value after conversion; kefir
compares them before. -/
theorem C63_duplicate_case_false : (compile .void [] duplicate).isSome = true ∧ ¬ Constraints duplicate := by
  refine ⟨by decide +kernel, ?_⟩
  rintro ⟨⟨-, -, p, hp, hn⟩, -⟩
  have : p = .uint := by
    have h : switchTy (.const .uint 0) = some .uint := by decide
    rw [h] at hp
    exact (Option.some.inj hp).symm
  subst this
  revert hn
  decide

end Kefir.Stmt
