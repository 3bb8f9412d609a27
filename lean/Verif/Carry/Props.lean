import Verif.Carry.Lemmas

/-!
# C105: intermediate values and objects survive taking and giving back storage

Specification: `Verif.Carry.Spec`.
-/

namespace Kefir.Carry

/-- The machine at the beginning of a function (`amd64_sysv.s:1169-1176`). -/
def start (m : Mem) (top : Nat) : Machine := ⟨m, top, top, 0⟩

theorem start_rel (m : Mem) (top : Nat) (h0 : 0 < top) (h1 : top < 2 ^ 64) : Rel (start m top) (Vla.initial top) [] :=
  ⟨rfl, rfl, rfl, h1, Nat.pow_pos (by decide), by simp, h0⟩

/-- C105: the values on the machine's stack are those that they should be, and the addresses and released storage are those
of `Verif.Vla`, after every sequence of instructions: wherever the stack has been moved to, and however the old and the new
place of it overlap. -/
theorem C105_values (m : Mem) (top : Nat) (h0 : 0 < top) (h1 : top < 2 ^ 64) (ops : List Op) (st : Vla.State) (ws : List Nat)
    (s : Machine) (he : effects (Vla.initial top) [] ops = some (st, ws)) (hx : execs (start m top) ops = some s) :
    Holds s.mem s.rsp s.base ws ∧ s.base = st.base ∧ s.scope = st.scope :=
  have h := execs_ok ops _ s _ st _ ws (start_rel m top h0 h1) he hx
  ⟨h.holds, h.base, h.scope⟩

/-- C105: no instruction changes a byte above the storage in use, before and after it, for example of an array that is
alive (`C104_storage_partial`: these are above the base). -/
theorem C105_objects (m : Mem) (top : Nat) (h0 : 0 < top) (h1 : top < 2 ^ 64) (ops : List Op) (st : Vla.State) (ws : List Nat)
    (s : Machine) (he : effects (Vla.initial top) [] ops = some (st, ws)) (hx : execs (start m top) ops = some s)
    (op : Op) (st' : Vla.State) (ws' : List Nat) (s' : Machine) (he' : effect st ws op = some (st', ws'))
    (hx' : exec s op = some s') (x : Nat) (hb : st.base ≤ x) (hb' : st'.base ≤ x) : s'.mem x = s.mem x := by
  have h := execs_ok ops _ s _ st _ ws (start_rel m top h0 h1) he hx
  obtain ⟨h2, h3⟩ := exec_ok s s' st st' ws ws' op h he' hx'
  exact h3 x (by rw [h.base]; exact hb) (by rw [h2.base]; exact hb')

theorem holds_length (m : Mem) (ws : List Nat) (a b : Nat) (h : Holds m a b ws) : b = a + 8 * ws.length := by
  induction ws generalizing a with
  | nil =>
    have h : a = b := h
    rw [List.length_nil]
    omega
  | cons w ws ih =>
    have := ih _ h.2
    rw [List.length_cons]
    omega

/-- C105: an instruction fails only if there is no room for the values below the storage in use. -/
theorem C105_room (m : Mem) (top : Nat) (h0 : 0 < top) (h1 : top < 2 ^ 64) (ops : List Op) (st : Vla.State) (ws : List Nat)
    (s : Machine) (he : effects (Vla.initial top) [] ops = some (st, ws)) (hx : execs (start m top) ops = some s)
    (op : Op) (st' : Vla.State) (ws' : List Nat) (he' : effect st ws op = some (st', ws'))
    (hroom : 8 * ws'.length < st'.base) : ∃ s', exec s op = some s' := by
  have hr := execs_ok ops _ s _ st _ ws (start_rel m top h0 h1) he hx
  have hl := holds_length _ _ _ _ hr.holds
  have hbase := hr.base
  cases op with
  | push w =>
    simp only [effect] at he'
    split at he'
    · cases he'
      rw [List.length_cons] at hroom
      exact ⟨_, by rw [exec, push, if_pos (by omega)]⟩
    · cases he'
  | pop => exact ⟨_, rfl⟩
  | popscope => exact ⟨_, rfl⟩
  | pushscope =>
    cases he'
    rw [List.length_cons] at hroom
    dsimp only at hroom
    exact ⟨_, by rw [exec, pushscope, push, if_pos (by omega), Option.map_some]⟩
  | alloca reset =>
    match ws, he', hr, hl with
    | [], he', _, _ => cases he'
    | [_], he', _, _ => cases he'
    | al :: sz :: ws, he', hr, hl =>
      simp only [effect, Option.map_eq_some_iff, Prod.mk.injEq] at he'
      obtain ⟨⟨st1, p⟩, h2, rfl, rfl⟩ := he'
      obtain ⟨q1, q2, q3, q4⟩ := Vla.alloca_eq _ _ _ _ _ h2
      have hb0 : (if reset = true then { st with scope := 0 } else st).base = st.base := by split <;> rfl
      rw [hb0] at q2
      have hp : p = Vla.place s.base sz al := by
        rw [hr.base]
        unfold Vla.alloca at h2
        rw [hb0] at h2
        split at h2
        · simp only [Option.some.injEq, Prod.mk.injEq] at h2
          exact h2.2.symm
        · cases h2
      have hst : st1.base = p := by rw [q1]
      rw [hst, List.length_cons] at hroom
      simp only [List.length_cons] at hl
      generalize hs0 : (if reset = true then { s with scope := 0 } else s : Machine) = s0 at *
      have m0 : s0.mem = s.mem := by rw [← hs0]; split <;> rfl
      have r0 : s0.rsp = s.rsp := by rw [← hs0]; split <;> rfl
      have b0 : s0.base = s.base := by rw [← hs0]; split <;> rfl
      simp only [exec, alloca, hs0]
      rw [m0, r0, b0, hr.holds.1, hr.holds.2.1, ← hp, if_pos (by omega), push, if_pos (by dsimp only; omega)]
      exact ⟨_, rfl⟩

/-- C105: what `effect` asks for at the end of a scope is the case whenever a block is left that has declared an array, or
that contains none: the cell of the scope is 0 or not below the base. -/
theorem C105_scope (top : Nat) (es : List Vla.Event) (hp : Vla.proper [] es = true) (s : Vla.State)
    (objs : List (List Vla.Object)) (hr : Vla.run (Vla.initial top) [] es = some (s, objs)) :
    s.scope = 0 ∨ s.base ≤ s.scope :=
  (ord_run top es (Vla.initial top) s [] objs []
    ⟨Nat.le_refl _, by simp, trivial, rfl, rfl, by intro b hb; cases hb⟩ hp hr ⟨Or.inl rfl, trivial⟩).1

/-- Three values are on the stack while 5 bytes are taken and given back: the moves are by 8, the stack has 24 bytes, so the
old and the new place overlap. -/
example : effects (Vla.initial 1000) [] [.push 77, .push 88, .pushscope, .push 5, .push 0, .alloca false, .pop, .popscope] =
      some (⟨976 + 24, 0, []⟩, [88, 77]) ∧
    effects (Vla.initial 1000) [] [.push 77, .push 88, .pushscope, .push 5, .push 0, .alloca false] =
      some (⟨992, 1000, []⟩, [992, 0, 88, 77]) ∧
    ((execs (start (fun _ => 0) 1000) [.push 77, .push 88, .pushscope, .push 5, .push 0, .alloca false, .pop, .popscope]).map
      fun s => (s.rsp, word s.mem s.rsp, word s.mem (s.rsp + 8))) = some (984, 88, 77) := by
  decide +kernel

end Kefir.Carry
