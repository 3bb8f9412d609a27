import Verif.Expr.Main

/-! Stack shape of the emitted code: how many words a fragment needs and leaves, checked instruction by instruction, and
the proof that fragments passing the check neither read nor change anything below. -/
namespace Kefir.IR

def Fmt.slots : Fmt → Nat
  | .f80 => 2
  | _ => 1

/-- `n` words available before, the result available after (none: too few words, or not straight-line code). -/
def eff1 : Instr → Nat → Option Nat
  | .nop, n => some n
  | .jmp _, _ => none
  | .branch _, _ => none
  | .ret, _ => none
  | .push _, n | .getlocals, n | .getglobal _, n => some (n + 1)
  | .pop, n => if 1 ≤ n then some (n - 1) else none
  | .pick i, n => if i < n then some (n + 1) else none
  | .put _, _ => none
  | .xchg i, n => if i < n then some n else none
  | .drop i, n => if i < n then some (n - 1) else none
  | .bin _, n => if 2 ≤ n then some (n - 1) else none
  | .un _, n | .iadd1 _, n | .offsetptr _, n | .load _ _, n | .extubits _ _, n | .extsbits _ _, n =>
    if 1 ≤ n then some n else none
  | .elementptr _, n | .insertbits _ _, n => if 2 ≤ n then some (n - 1) else none
  | .loadld, n => if 1 ≤ n then some (n + 1) else none
  | .store _, n => if 2 ≤ n then some (n - 2) else none
  | .storeld, n => if 3 ≤ n then some (n - 3) else none
  | .bzero _, n => if 1 ≤ n then some (n - 1) else none
  | .bcopy _, n => if 2 ≤ n then some (n - 2) else none
  | .fbin _ f, n => if 2 * f.slots ≤ n then some (n - f.slots) else none
  | .fneg f, n => if f.slots ≤ n then some n else none
  | .feq f, n | .fgt f, n | .flt f, n => if 2 * f.slots ≤ n then some (n - 2 * f.slots + 1) else none
  | .ldtrunc1, n => if 2 ≤ n then some (n - 1) else none
  | .fcint f, n => if f.slots ≤ n then some (n - f.slots + 1) else none
  | .intcf f, n | .uintcf f, n => if 1 ≤ n then some (n - 1 + f.slots) else none
  | .fcf f g, n => if f = g then none else if f.slots ≤ n then some (n - f.slots + g.slots) else none

def effs : List Instr → Nat → Option Nat
  | [], n => some n
  | i :: is, n => (eff1 i n).bind (effs is)

/-- `f`, started on `n` words on top of any stack, behaves the same whatever lies below, and leaves the rest as it is
with `k` words on top — unless it faults, which does not depend on the rest either. -/
def Local (f : List Word → Mem → Option (List Word × Mem)) (n k : Nat) : Prop :=
  ∀ ws m, ws.length = n → ∃ r : Option (List Word × Mem), (∀ p, r = some p → p.1.length = k) ∧
    ∀ s, f (ws ++ s) m = r.map fun p => (p.1 ++ s, p.2)

theorem exec_pick' (E : Env) (i : Nat) (s : List Word) (m : Mem) : exec E (.pick i) s m =
    match s[i]? with
    | some w => some (w :: s, m)
    | none => none := by unfold exec; rfl
theorem exec_xchg' (E : Env) (i : Nat) (s : List Word) (m : Mem) : exec E (.xchg i) s m =
    match s[i]?, s[0]? with
    | some w, some t => some ((s.set 0 w).set i t, m)
    | _, _ => none := by unfold exec; rfl
theorem exec_drop' (E : Env) (i : Nat) (s : List Word) (m : Mem) : exec E (.drop i) s m =
    if i < s.length then some (s.eraseIdx i, m) else none := by unfold exec; rfl
theorem exec_bin' (E : Env) (op : Bin) (a b : Word) (s : List Word) (m : Mem) :
    exec E (.bin op) (b :: a :: s) m = (op.exec a b).map (fun r => (r :: s, m)) := rfl

local macro "len" : tactic =>
  `(tactic| (intro p hp; cases hp; simp only [List.length_cons, List.length_nil] at *; omega))

theorem local_one {E : Env} {i : Instr} {n k : Nat} (h : eff1 i n = some k) : Local (exec E i) n k := by
  intro ws m hl
  cases i with
  | nop => cases h; exact ⟨some (ws, m), by simp [hl], fun s => rfl⟩
  | jmp => cases h
  | branch => cases h
  | ret => cases h
  | push w => cases h; exact ⟨some (w :: ws, m), by simp [hl], fun s => rfl⟩
  | getlocals => cases h; exact ⟨some (E.locals :: ws, m), by simp [hl], fun s => rfl⟩
  | getglobal i => cases h; exact ⟨some (E.globals i :: ws, m), by simp [hl], fun s => rfl⟩
  | pop =>
    simp only [eff1] at h
    split at h <;> cases h
    match ws, hl with
    | a :: ws, hl => exact ⟨some (ws, m), by len, fun s => rfl⟩
    | [], hl => simp at hl; omega
  | pick i =>
    simp only [eff1] at h
    split at h <;> cases h
    rename_i hi
    have hg : ws[i]? = some (ws[i]'(by omega)) := List.getElem?_eq_getElem _
    refine ⟨some (ws[i]'(by omega) :: ws, m), by simp [hl], fun s => ?_⟩
    rw [exec_pick', List.getElem?_append_left (by omega), hg]
    rfl
  | put => cases h
  | xchg i =>
    simp only [eff1] at h
    split at h <;> cases h
    rename_i hi
    have hg : ∀ s, (ws ++ s)[i]? = some (ws[i]'(by omega)) := fun s => by
      rw [List.getElem?_append_left (by omega)]; exact List.getElem?_eq_getElem _
    have h0 : ∀ s, (ws ++ s)[0]? = some (ws[0]'(by omega)) := fun s => by
      rw [List.getElem?_append_left (by omega)]; exact List.getElem?_eq_getElem _
    refine ⟨some ((ws.set 0 (ws[i]'(by omega))).set i (ws[0]'(by omega)), m), by simp [hl], fun s => ?_⟩
    simp only [exec_xchg', hg, h0, Option.map_some]
    rw [List.set_append_left _ _ (by omega), List.set_append_left _ _ (by simp; omega)]
  | drop i =>
    simp only [eff1] at h
    split at h <;> cases h
    rename_i hi
    refine ⟨some (ws.eraseIdx i, m), ?_, fun s => ?_⟩
    · intro p hp; cases hp; simp [List.length_eraseIdx, hl, hi]
    · simp only [exec_drop', Option.map_some]
      rw [if_pos (by simp; omega), List.eraseIdx_append_of_lt_length (by omega)]
  | bin op =>
    simp only [eff1] at h
    split at h <;> cases h
    match ws, hl with
    | b :: a :: ws, hl =>
      refine ⟨(op.exec a b).map fun r => (r :: ws, m), ?_, fun s => ?_⟩
      · intro p hp
        simp only [Option.map_eq_some_iff] at hp
        obtain ⟨r, _, rfl⟩ := hp
        simp only [List.length_cons] at *; omega
      · simp only [List.cons_append, exec_bin', Option.map_map]; rfl
    | [], hl => simp at hl; omega
    | [_], hl => simp at hl; omega
  | un op =>
    simp only [eff1] at h
    split at h <;> cases h
    match ws, hl with
    | a :: ws, hl => exact ⟨some (_ :: ws, m), by len, fun s => rfl⟩
    | [], hl => simp at hl; omega
  | iadd1 op =>
    simp only [eff1] at h
    split at h <;> cases h
    match ws, hl with
    | a :: ws, hl => exact ⟨some (_ :: ws, m), by len, fun s => rfl⟩
    | [], hl => simp at hl; omega
  | offsetptr op =>
    simp only [eff1] at h
    split at h <;> cases h
    match ws, hl with
    | a :: ws, hl => exact ⟨some (_ :: ws, m), by len, fun s => rfl⟩
    | [], hl => simp at hl; omega
  | load k sx =>
    simp only [eff1] at h
    split at h <;> cases h
    match ws, hl with
    | a :: ws, hl => exact ⟨some (_ :: ws, m), by len, fun s => rfl⟩
    | [], hl => simp at hl; omega
  | extubits k sx =>
    simp only [eff1] at h
    split at h <;> cases h
    match ws, hl with
    | a :: ws, hl => exact ⟨some (_ :: ws, m), by len, fun s => rfl⟩
    | [], hl => simp at hl; omega
  | extsbits k sx =>
    simp only [eff1] at h
    split at h <;> cases h
    match ws, hl with
    | a :: ws, hl => exact ⟨some (_ :: ws, m), by len, fun s => rfl⟩
    | [], hl => simp at hl; omega
  | elementptr k =>
    simp only [eff1] at h
    split at h <;> cases h
    match ws, hl with
    | b :: a :: ws, hl => exact ⟨some (_ :: ws, m), by len, fun s => rfl⟩
    | [], hl => simp at hl; omega
    | [_], hl => simp at hl; omega
  | insertbits k j =>
    simp only [eff1] at h
    split at h <;> cases h
    match ws, hl with
    | b :: a :: ws, hl => exact ⟨some (_ :: ws, m), by len, fun s => rfl⟩
    | [], hl => simp at hl; omega
    | [_], hl => simp at hl; omega
  | loadld =>
    simp only [eff1] at h
    split at h <;> cases h
    match ws, hl with
    | a :: ws, hl => exact ⟨some (_ :: _ :: ws, m), by len, fun s => rfl⟩
    | [], hl => simp at hl; omega
  | store k =>
    simp only [eff1] at h
    split at h <;> cases h
    match ws, hl with
    | b :: a :: ws, hl => exact ⟨some (ws, _), by len, fun s => rfl⟩
    | [], hl => simp at hl; omega
    | [_], hl => simp at hl; omega
  | storeld =>
    simp only [eff1] at h
    split at h <;> cases h
    match ws, hl with
    | c :: b :: a :: ws, hl => exact ⟨some (ws, _), by len, fun s => rfl⟩
    | [], hl => simp at hl; omega
    | [_], hl => simp at hl; omega
    | [_, _], hl => simp at hl; omega
  | bzero k =>
    simp only [eff1] at h
    split at h <;> cases h
    match ws, hl with
    | a :: ws, hl => exact ⟨some (ws, _), by len, fun s => rfl⟩
    | [], hl => simp at hl; omega
  | bcopy k =>
    simp only [eff1] at h
    split at h <;> cases h
    match ws, hl with
    | b :: a :: ws, hl => exact ⟨some (ws, _), by len, fun s => rfl⟩
    | [], hl => simp at hl; omega
    | [_], hl => simp at hl; omega
  | fbin op f =>
    simp only [eff1] at h
    split at h <;> cases h
    cases f <;> simp only [Fmt.slots] at *
    · match ws, hl with
      | b :: a :: ws, hl => exact ⟨some (_ :: ws, m), by len, fun s => rfl⟩
      | [], hl => simp at hl; omega
      | [_], hl => simp at hl; omega
    · match ws, hl with
      | b :: a :: ws, hl => exact ⟨some (_ :: ws, m), by len, fun s => rfl⟩
      | [], hl => simp at hl; omega
      | [_], hl => simp at hl; omega
    · match ws, hl with
      | d :: c :: b :: a :: ws, hl => exact ⟨some (_ :: _ :: ws, m), by len, fun s => rfl⟩
      | [], hl => simp at hl; omega
      | [_], hl => simp at hl; omega
      | [_, _], hl => simp at hl; omega
      | [_, _, _], hl => simp at hl; omega
  | fneg f =>
    simp only [eff1] at h
    split at h <;> cases h
    cases f <;> simp only [Fmt.slots] at *
    · match ws, hl with
      | a :: ws, hl => exact ⟨some (_ :: ws, m), by len, fun s => rfl⟩
      | [], hl => simp at hl; omega
    · match ws, hl with
      | a :: ws, hl => exact ⟨some (_ :: ws, m), by len, fun s => rfl⟩
      | [], hl => simp at hl; omega
    · match ws, hl with
      | b :: a :: ws, hl => exact ⟨some (_ :: _ :: ws, m), by len, fun s => rfl⟩
      | [], hl => simp at hl; omega
      | [_], hl => simp at hl; omega
  | feq f =>
    simp only [eff1] at h
    split at h <;> cases h
    cases f <;> simp only [Fmt.slots] at *
    · match ws, hl with
      | b :: a :: ws, hl => exact ⟨some (_ :: ws, m), by len, fun s => rfl⟩
      | [], hl => simp at hl; omega
      | [_], hl => simp at hl; omega
    · match ws, hl with
      | b :: a :: ws, hl => exact ⟨some (_ :: ws, m), by len, fun s => rfl⟩
      | [], hl => simp at hl; omega
      | [_], hl => simp at hl; omega
    · match ws, hl with
      | d :: c :: b :: a :: ws, hl => exact ⟨some (_ :: ws, m), by len, fun s => rfl⟩
      | [], hl => simp at hl; omega
      | [_], hl => simp at hl; omega
      | [_, _], hl => simp at hl; omega
      | [_, _, _], hl => simp at hl; omega
  | fgt f =>
    simp only [eff1] at h
    split at h <;> cases h
    cases f <;> simp only [Fmt.slots] at *
    · match ws, hl with
      | b :: a :: ws, hl => exact ⟨some (_ :: ws, m), by len, fun s => rfl⟩
      | [], hl => simp at hl; omega
      | [_], hl => simp at hl; omega
    · match ws, hl with
      | b :: a :: ws, hl => exact ⟨some (_ :: ws, m), by len, fun s => rfl⟩
      | [], hl => simp at hl; omega
      | [_], hl => simp at hl; omega
    · match ws, hl with
      | d :: c :: b :: a :: ws, hl => exact ⟨some (_ :: ws, m), by len, fun s => rfl⟩
      | [], hl => simp at hl; omega
      | [_], hl => simp at hl; omega
      | [_, _], hl => simp at hl; omega
      | [_, _, _], hl => simp at hl; omega
  | flt f =>
    simp only [eff1] at h
    split at h <;> cases h
    cases f <;> simp only [Fmt.slots] at *
    · match ws, hl with
      | b :: a :: ws, hl => exact ⟨some (_ :: ws, m), by len, fun s => rfl⟩
      | [], hl => simp at hl; omega
      | [_], hl => simp at hl; omega
    · match ws, hl with
      | b :: a :: ws, hl => exact ⟨some (_ :: ws, m), by len, fun s => rfl⟩
      | [], hl => simp at hl; omega
      | [_], hl => simp at hl; omega
    · match ws, hl with
      | d :: c :: b :: a :: ws, hl => exact ⟨some (_ :: ws, m), by len, fun s => rfl⟩
      | [], hl => simp at hl; omega
      | [_], hl => simp at hl; omega
      | [_, _], hl => simp at hl; omega
      | [_, _, _], hl => simp at hl; omega
  | ldtrunc1 =>
    simp only [eff1] at h
    split at h <;> cases h
    match ws, hl with
    | b :: a :: ws, hl => exact ⟨some (_ :: ws, m), by len, fun s => rfl⟩
    | [], hl => simp at hl; omega
    | [_], hl => simp at hl; omega
  | fcint f =>
    simp only [eff1] at h
    split at h <;> cases h
    cases f <;> simp only [Fmt.slots] at *
    · match ws, hl with
      | a :: ws, hl => exact ⟨some (_ :: ws, m), by len, fun s => rfl⟩
      | [], hl => simp at hl; omega
    · match ws, hl with
      | a :: ws, hl => exact ⟨some (_ :: ws, m), by len, fun s => rfl⟩
      | [], hl => simp at hl; omega
    · match ws, hl with
      | b :: a :: ws, hl => exact ⟨some (_ :: ws, m), by len, fun s => rfl⟩
      | [], hl => simp at hl; omega
      | [_], hl => simp at hl; omega
  | intcf f =>
    simp only [eff1] at h
    split at h <;> cases h
    match ws, hl with
    | a :: ws, hl =>
      cases f <;> simp only [Fmt.slots] at *
      · exact ⟨some (_ :: ws, m), by len, fun s => rfl⟩
      · exact ⟨some (_ :: ws, m), by len, fun s => rfl⟩
      · exact ⟨some (_ :: _ :: ws, m), by len, fun s => rfl⟩
    | [], hl => simp at hl; omega
  | uintcf f =>
    simp only [eff1] at h
    split at h <;> cases h
    match ws, hl with
    | a :: ws, hl =>
      cases f <;> simp only [Fmt.slots] at *
      · exact ⟨some (_ :: ws, m), by len, fun s => rfl⟩
      · exact ⟨some (_ :: ws, m), by len, fun s => rfl⟩
      · exact ⟨some (_ :: _ :: ws, m), by len, fun s => rfl⟩
    | [], hl => simp at hl; omega
  | fcf f g =>
    simp only [eff1] at h
    split at h
    · cases h
    split at h <;> cases h
    rename_i hne hle
    match ws, hl with
    | [], hl => cases f <;> simp [Fmt.slots] at hl hle <;> omega
    | [a], hl =>
      cases f <;> cases g <;> simp only [Fmt.slots, not_true] at * <;>
        first
        | (exact ⟨some ([_], m), by len, fun s => rfl⟩)
        | (exact ⟨some ([_, _], m), by len, fun s => rfl⟩)
        | (exfalso; simp at hl; omega)
    | a :: b :: ws, hl =>
      cases f <;> cases g <;> simp only [Fmt.slots, not_true] at * <;>
        first
        | (exact ⟨some (_ :: b :: ws, m), by len, fun s => rfl⟩)
        | (exact ⟨some (_ :: _ :: b :: ws, m), by len, fun s => rfl⟩)
        | (exact ⟨some (_ :: ws, m), by len, fun s => rfl⟩)

theorem local_effs {E : Env} {is : List Instr} {n k : Nat} (h : effs is n = some k) : Local (execs E is) n k := by
  induction is generalizing n with
  | nil =>
    cases h
    intro ws m hl
    exact ⟨some (ws, m), by simp [hl], fun s => rfl⟩
  | cons i is ih =>
    simp only [effs, Option.bind_eq_some_iff] at h
    obtain ⟨j, h1, h2⟩ := h
    intro ws m hl
    obtain ⟨r1, hr1, hx1⟩ := local_one (E := E) h1 ws m hl
    cases r1 with
    | none => exact ⟨none, by simp, fun s => by simp only [execs, hx1 s]; rfl⟩
    | some p =>
      obtain ⟨r2, hr2, hx2⟩ := ih h2 p.1 p.2 (hr1 p rfl)
      exact ⟨r2, hr2, fun s => by simp only [execs, hx1 s, Option.map_some, Option.bind_some, hx2 s]⟩

namespace SC

/-- The same check for fragments: both ways through a branch must agree. -/
def eff : SC → Nat → Option Nat
  | prim is, n => effs is n
  | seq a b, n => (a.eff n).bind b.eff
  | skip x, n => if 1 ≤ n ∧ x.eff (n - 1) = some (n - 1) then some (n - 1) else none
  | ite y z, n => if 1 ≤ n ∧ y.eff (n - 1) = z.eff (n - 1) then y.eff (n - 1) else none

theorem local_eff {E : Env} {c : SC} {n k : Nat} (h : c.eff n = some k) : Local (c.run E) n k := by
  induction c generalizing n k with
  | prim is => exact local_effs h
  | seq a b iha ihb =>
    simp only [eff, Option.bind_eq_some_iff] at h
    obtain ⟨j, h1, h2⟩ := h
    intro ws m hl
    obtain ⟨r1, hr1, hx1⟩ := iha h1 ws m hl
    cases r1 with
    | none => exact ⟨none, by simp, fun s => by simp only [run, hx1 s]; rfl⟩
    | some p =>
      obtain ⟨r2, hr2, hx2⟩ := ihb h2 p.1 p.2 (hr1 p rfl)
      exact ⟨r2, hr2, fun s => by simp only [run, hx1 s, Option.map_some, Option.bind_some, hx2 s]⟩
  | skip x ih =>
    simp only [eff] at h
    split at h <;> cases h
    rename_i hc
    intro ws m hl
    match ws, hl with
    | [], hl => simp at hl; omega
    | w :: ws, hl =>
      simp only [List.length_cons] at hl
      by_cases hw : (w != 0) = true
      · refine ⟨some (ws, m), by intro p hp; cases hp; simp only; omega, fun s => ?_⟩
        simp only [run, List.cons_append, hw, if_true, Option.map_some]
      · obtain ⟨r, hr, hx⟩ := ih hc.2 ws m (by omega)
        refine ⟨r, hr, fun s => ?_⟩
        simp only [run, List.cons_append, hw, Bool.false_eq_true, if_false, hx]
  | ite y z ihy ihz =>
    simp only [eff] at h
    split at h
    case isFalse => cases h
    rename_i hc
    intro ws m hl
    match ws, hl with
    | [], hl => simp at hl; omega
    | w :: ws, hl =>
      simp only [List.length_cons] at hl
      by_cases hw : (w != 0) = true
      · obtain ⟨r, hr, hx⟩ := ihy h ws m (by omega)
        refine ⟨r, hr, fun s => ?_⟩
        simp only [run, List.cons_append, hw, if_true, hx]
      · obtain ⟨r, hr, hx⟩ := ihz (hc.2 ▸ h) ws m (by omega)
        refine ⟨r, hr, fun s => ?_⟩
        simp only [run, List.cons_append, hw, Bool.false_eq_true, if_false, hx]

end SC
end Kefir.IR

namespace Kefir.IR

theorem eff1_mono {i : Instr} {n k : Nat} (h : eff1 i n = some k) (j : Nat) : eff1 i (n + j) = some (k + j) := by
  cases i <;> simp only [eff1, reduceCtorEq, Option.some.injEq] at h ⊢ <;>
    first
    | omega
    | (split at h <;> simp only [reduceCtorEq, Option.some.injEq] at h; rw [if_pos (by omega)]; congr 1; omega)
    | (rename_i f g
       split at h
       · cases h
       · rename_i hne
         split at h <;> simp only [reduceCtorEq, Option.some.injEq] at h
         rw [if_neg hne, if_pos (by omega)]; congr 1; omega)

theorem effs_mono {is : List Instr} {n k : Nat} (h : effs is n = some k) (j : Nat) : effs is (n + j) = some (k + j) := by
  induction is generalizing n with
  | nil => cases h; rfl
  | cons i is ih =>
    simp only [effs, Option.bind_eq_some_iff] at h ⊢
    obtain ⟨a, h1, h2⟩ := h
    exact ⟨_, eff1_mono h1 j, ih h2⟩

theorem effs_append (a b : List Instr) (n : Nat) : effs (a ++ b) n = (effs a n).bind (effs b) := by
  induction a generalizing n with
  | nil => rfl
  | cons i a ih => simp only [List.cons_append, effs, Option.bind_assoc]; congr 1; funext x; exact ih x

theorem SC.eff_mono {c : SC} {n k : Nat} (h : c.eff n = some k) (j : Nat) : c.eff (n + j) = some (k + j) := by
  induction c generalizing n k with
  | prim is => exact effs_mono h j
  | seq a b iha ihb =>
    simp only [SC.eff, Option.bind_eq_some_iff] at h ⊢
    obtain ⟨x, h1, h2⟩ := h
    exact ⟨_, iha h1, ihb h2⟩
  | skip x ih =>
    simp only [SC.eff] at h ⊢
    split at h <;> cases h
    rename_i hc
    have := ih hc.2
    have e : n - 1 + j = n + j - 1 := by omega
    rw [e] at this
    rw [if_pos ⟨by omega, this⟩, e]
  | ite y z ihy ihz =>
    simp only [SC.eff] at h ⊢
    split at h
    case isFalse => cases h
    rename_i hc
    have h1 := ihy h
    have h2 := ihz (hc.2 ▸ h)
    have e : n - 1 + j = n + j - 1 := by omega
    rw [e] at h1 h2
    rw [if_pos ⟨by omega, by rw [h1, h2]⟩, h1]

/-- Code that passes the check contains no jumps among its straight-line parts. -/
theorem effs_plain {is : List Instr} {n k : Nat} (h : effs is n = some k) : ∀ i ∈ is, SC.isPlain i = true := by
  induction is generalizing n with
  | nil => simp
  | cons i is ih =>
    simp only [effs, Option.bind_eq_some_iff] at h
    obtain ⟨a, h1, h2⟩ := h
    intro x hx
    rcases List.mem_cons.mp hx with rfl | hx
    · cases x <;> first | rfl | (simp [eff1] at h1)
    · exact ih h2 x hx

theorem SC.eff_ok {c : SC} {n k : Nat} (h : c.eff n = some k) : c.Ok := by
  induction c generalizing n k with
  | prim is => exact effs_plain h
  | seq a b iha ihb =>
    simp only [SC.eff, Option.bind_eq_some_iff] at h
    obtain ⟨x, h1, h2⟩ := h
    exact ⟨iha h1, ihb h2⟩
  | skip x ih =>
    simp only [SC.eff] at h
    split at h <;> cases h
    rename_i hc
    exact ih hc.2
  | ite y z ihy ihz =>
    simp only [SC.eff] at h
    split at h
    case isFalse => cases h
    rename_i hc
    exact ⟨ihy h, ihz (hc.2 ▸ h)⟩

end Kefir.IR

namespace Kefir.Expr
open Kefir.Types (Basic)
open Kefir.IR

mutual
/-- Expressions without the two constructs that unbalance the stack (see `Findings.lean`): a conditional operator
whose condition is a `long double`, or one of whose branches is one and the other is not.  Bit-fields have integer
types (the parser's struct analysis refuses others), and so have integer constants. -/
def balanced : Expr → Bool
  | .const b _ => b.isIntegral
  | .fconst _ _ | .str _ | .sizeof _ => true
  | .lval l | .addr l | .incdec _ _ l => balancedL l
  | .cast _ e | .un _ e => balanced e
  | .bin _ a b | .land a b | .lor a b | .comma a b => balanced a && balanced b
  | .cond c a b => balanced c && balanced a && balanced b && slots (kt c) == 1 && slots (kt a) == slots (kt b)
  | .elvis c b => balanced c && balanced b && slots (kt c) == 1 && slots (kt b) == 1
  | .assign l e | .assignOp _ l e => balancedL l && balanced e
def balancedL : LV → Bool
  | .auto _ _ | .glob _ _ _ => true
  | .deref e => balanced e
  | .index a i => balanced a && balanced i
  | .member e _ t bf => balanced e && (bf.isNone || t.isIntegral)
end

theorem isSigned_ty (b : Basic) : (Ty.arith b).isSigned = b.isSigned := rfl

/-- Conversions between arithmetic types. -/
theorem conv_shape (b c : Basic) : effs (typeconv (.arith b) (.arith c)) (slots (.arith b)) = some (slots (.arith c)) := by
  cases b <;> cases c <;> rfl

theorem conv_void (t : Ty) : effs (typeconv t .void) (slots t) = some 0 := by
  cases t with
  | arith b => cases b <;> rfl
  | _ => rfl

theorem conv_ptr {t : Ty} (u : Ty) (h : slots t = 1) : effs (typeconv t (.ptr u)) (slots t) = some 1 := by
  rw [typeconv_ptr, h]; rfl

theorem conv_ptr_int (u : Ty) {c : Basic} (h : c.isIntegral = true) :
    effs (typeconv (.ptr u) (.arith c)) 1 = some 1 := by
  cases c <;> first | rfl | cases h

theorem integral_slots {t : Ty} (h : t.isIntegral = true) : slots t = 1 := by
  cases t <;> simp only [Ty.isIntegral, Bool.false_eq_true] at h
  rename_i b
  cases b <;> first | rfl | cases h

theorem integral_arith {t : Ty} (h : t.isIntegral = true) : ∃ b, t = .arith b ∧ b.isIntegral = true := by
  cases t <;> simp only [Ty.isIntegral, Bool.false_eq_true] at h
  exact ⟨_, rfl, h⟩

theorem arith_shape {op : BinOp} {c : Basic} {sg : Bool}
    (h : (op = .add ∨ op = .sub ∨ op = .mul ∨ op = .div) ∨
      (c.isIntegral = true ∧ (op = .mod ∨ op = .shl ∨ op = .shr ∨ op = .band ∨ op = .bxor ∨ op = .bor))) :
    effs (arithInstr op (.arith c) sg ++ normalize (.arith c)) (slots (.arith c) + slots (.arith c)) =
      some (slots (.arith c)) := by
  rcases h with (rfl | rfl | rfl | rfl) | ⟨hc, rfl | rfl | rfl | rfl | rfl | rfl⟩ <;> cases c <;> cases sg <;>
    first | rfl | cases hc

theorem rel_shape {op : BinOp} {c : Basic} (h : op = .lt ∨ op = .gt ∨ op = .le ∨ op = .ge ∨ op = .eq ∨ op = .ne) :
    effs (relInstr op (.arith c)) (slots (.arith c) + slots (.arith c)) = some 1 := by
  rcases h with rfl | rfl | rfl | rfl | rfl | rfl <;> cases c <;> rfl

theorem rel_ptr_shape {op : BinOp} (u : Ty) (h : op = .lt ∨ op = .gt ∨ op = .le ∨ op = .ge ∨ op = .eq ∨ op = .ne) :
    effs (relInstr op (.ptr u)) 2 = some 1 := by
  rcases h with rfl | rfl | rfl | rfl | rfl | rfl <;> rfl

theorem promo_integral {b c : Basic} {w : Option Nat} (h : b.intPromotion w = some c) : c.isIntegral = true := by
  have := Types.promoted_mem h
  simp at this
  rcases this with rfl | rfl | rfl | rfl | rfl | rfl <;> rfl

theorem integral_isInteger {b : Basic} (h : b.isIntegral = true) : C17.isInteger b = true := by
  cases b <;> first | rfl | cases h

theorem promo_some {b : Basic} {w : Option Nat} (h : b.isIntegral = true) : ∃ c, b.intPromotion w = some c := by
  unfold Types.Basic.intPromotion
  rw [if_neg (by simp [h])]
  have key : ∀ x : Basic, x.isIntegral = true → ∃ c, (if x.rank < Basic.int.rank then
      if x.fits .int then some .int else if x.fits .uint then some .uint else if w.isSome then some x else none
      else some x) = some c := by
    intro x hx
    cases x <;> first | exact ⟨_, rfl⟩ | cases hx
  apply key
  cases w with
  | none => exact h
  | some n =>
    simp only [Types.Basic.fieldBase, Types.Basic.bitfieldPromotion]
    split
    · rfl
    · split
      · exact h
      · rfl

theorem common_some (b1 b2 : Basic) (w1 w2 : Option Nat) : ∃ c, b1.commonArith w1 b2 w2 = some c ∧
    (b1.isIntegral = true → b2.isIntegral = true → c.isIntegral = true) := by
  by_cases h1 : b1.isIntegral = true
  · by_cases h2 : b2.isIntegral = true
    · obtain ⟨p, hp⟩ := promo_some (w := w1) h1
      obtain ⟨q, hq⟩ := promo_some (w := w2) h2
      rw [Types.commonArith_integer (integral_isInteger h1) (integral_isInteger h2) hp hq]
      have e1 := Types.promoted_mem hp
      have e2 := Types.promoted_mem hq
      simp only [List.mem_cons, List.not_mem_nil, or_false] at e1 e2
      rcases e1 with rfl | rfl | rfl | rfl | rfl | rfl <;>
      rcases e2 with rfl | rfl | rfl | rfl | rfl | rfl <;> exact ⟨_, rfl, fun _ _ => rfl⟩
    · refine ⟨_, Types.C12_common_floating b1 b2 w1 w2 (.inr ?_), fun _ h => absurd h h2⟩
      cases b2 <;> first | rfl | exact absurd rfl h2
  · refine ⟨_, Types.C12_common_floating b1 b2 w1 w2 (.inl ?_), fun h _ => absurd h h1⟩
    cases b1 <;> first | rfl | exact absurd rfl h1

end Kefir.Expr
