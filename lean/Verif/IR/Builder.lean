import Verif.IR.Machine

/-! The IR block builder as the translator uses it: append instructions, remember the index of a branch that was
appended with a dummy target, and patch it later (`KEFIR_IRBUILDER_BLOCK_CURRENT_INDEX`,
`KEFIR_IRBUILDER_BLOCK_INSTR_AT(...)->arg.i64 = ...`, `ir/builder.c`).  `SC` is the tree of such actions for
expressions; `build` replays them on a growing block, and the theorems below relate the block so
built to a direct evaluation of the tree. -/
namespace Kefir.IR

/-- Code fragments of expressions. -/
inductive SC
  | prim (is : List Instr)
  | seq (a b : SC)
  /-- `BRANCH end; body; end:` -/
  | skip (body : SC)
  /-- `BRANCH L1; no; JMP end; L1: yes; end:` -/
  | ite (yes no : SC)

namespace SC

/-- No control instructions among straight-line code. -/
def isPlain : Instr → Bool
  | .jmp _ => false
  | .branch _ => false
  | _ => true

/-- Straight-line fragments contain no jumps. -/
def Ok : SC → Prop
  | prim is => ∀ i ∈ is, isPlain i = true
  | seq a b => a.Ok ∧ b.Ok
  | skip x => x.Ok
  | ite y n => y.Ok ∧ n.Ok

/-- Replay the builder actions on a block: append, and patch dummy targets afterwards
(`ast-translator/nodes/binary_operation.c` 591-622, `conditional_operator.c` 36-56). -/
def build : SC → List Instr → List Instr
  | prim is, blk => blk ++ is
  | seq a b, blk => b.build (a.build blk)
  | skip x, blk =>
    let idx := blk.length
    let blk := blk ++ [.branch 0]
    let blk := x.build blk
    blk.set idx (.branch blk.length)
  | ite y n, blk =>
    let idx1 := blk.length
    let blk := blk ++ [.branch 0]
    let blk := n.build blk
    let idx2 := blk.length
    let blk := blk ++ [.jmp 0]
    let blk := blk.set idx1 (.branch blk.length)
    let blk := y.build blk
    blk.set idx2 (.jmp blk.length)

/-- Number of instructions. -/
def len : SC → Nat
  | prim is => is.length
  | seq a b => a.len + b.len
  | skip x => 1 + x.len
  | ite y n => 2 + n.len + y.len

/-- The fragment as placed at index `at`. -/
def flat : SC → Nat → List Instr
  | prim is, _ => is
  | seq a b, k => a.flat k ++ b.flat (k + a.len)
  | skip x, k => .branch (k + 1 + x.len) :: x.flat (k + 1)
  | ite y n, k =>
    .branch (k + 2 + n.len) :: (n.flat (k + 1) ++ .jmp (k + 2 + n.len + y.len) :: y.flat (k + 2 + n.len))

theorem flat_length (c : SC) (k : Nat) : (c.flat k).length = c.len := by
  induction c generalizing k with
  | prim => rfl
  | seq a b iha ihb => simp [flat, len, iha, ihb]
  | skip x ih => simp [flat, len, ih]; omega
  | ite y n ihy ihn => simp [flat, len, ihy, ihn]; omega

/-- The block the builder produces is the old block followed by the fragment with its targets resolved:
back-patching never touches anything else. -/
theorem build_eq (c : SC) (blk : List Instr) : c.build blk = blk ++ c.flat blk.length := by
  induction c generalizing blk with
  | prim => rfl
  | seq a b iha ihb => simp [build, flat, iha, ihb, flat_length]
  | skip x ih =>
    simp only [build, ih, flat, List.length_append, List.length_cons, List.length_nil, flat_length]
    rw [List.append_assoc, List.set_append_right _ _ (Nat.le_refl _)]
    simp
  | ite y n ihy ihn =>
    simp only [build, ihy, ihn, flat, List.length_append, List.length_cons, List.length_nil, flat_length,
      List.length_set]
    simp only [List.append_assoc]
    rw [List.set_append_right _ _ (Nat.le_refl _)]
    simp only [Nat.sub_self, List.singleton_append, List.set_cons_zero, List.cons_append, List.nil_append,
      List.append_assoc]
    rw [List.set_append_right _ _ (by omega)]
    have e : blk.length + (0 + 1) + n.len - blk.length = (n.flat (blk.length + (0 + 1))).length + 1 := by
      rw [flat_length]; omega
    rw [e, List.set_cons_succ, List.set_append_right _ _ (Nat.le_refl _)]
    simp only [Nat.sub_self, List.set_cons_zero, Nat.zero_add]
    have e1 : blk.length + 1 + n.len + 1 = blk.length + 2 + n.len := by omega
    have e2 : blk.length + (n.len + 1 + 1 + y.len) = blk.length + 2 + n.len + y.len := by omega
    simp [e1]

/-- Direct evaluation of a fragment. -/
def run (E : Env) : SC → List Word → Mem → Option (List Word × Mem)
  | prim is, s, m => execs E is s m
  | seq a b, s, m => (a.run E s m).bind fun (s, m) => b.run E s m
  | skip x, s, m =>
    match s with
    | [] => none
    | w :: s => if w != 0 then some (s, m) else x.run E s m
  | ite y n, s, m =>
    match s with
    | [] => none
    | w :: s => if w != 0 then y.run E s m else n.run E s m

theorem step_plain (E : Env) (P : List Instr) (pc : Nat) (s : List Word) (m : Mem) (i : Instr)
    (hi : P[pc]? = some i) (hp : isPlain i = true) :
    step E P ⟨pc, s, m⟩ = (exec E i s m).map fun (s, m) => ⟨pc + 1, s, m⟩ := by
  unfold step
  rw [hi]
  cases i <;> first | rfl | (exact absurd hp (by decide)) | simp [isPlain] at hp

theorem steps_prim (E : Env) (is : List Instr) (h : ∀ i ∈ is, isPlain i = true) :
    ∀ (pre post : List Instr) (s : List Word) (m : Mem) (s' : List Word) (m' : Mem),
      execs E is s m = some (s', m') →
      StepsIn E (pre ++ is ++ post) pre.length (pre.length + is.length) ⟨pre.length, s, m⟩
        ⟨pre.length + is.length, s', m'⟩ := by
  induction is with
  | nil =>
    intro pre post s m s' m' h
    simp only [execs, Option.some.injEq, Prod.mk.injEq] at h
    obtain ⟨rfl, rfl⟩ := h
    exact .refl _
  | cons i is ih =>
    intro pre post s m s' m' hx
    simp only [execs, Option.bind_eq_some_iff] at hx
    obtain ⟨⟨s1, m1⟩, hx1, hx2⟩ := hx
    have := ih (fun j hj => h j (by simp [hj])) (pre ++ [i]) post s1 m1 s' m' hx2
    refine .head (b := ⟨pre.length + 1, s1, m1⟩) (by simp) ?_ ?_
    · rw [step_plain E _ _ s m i (by simp) (h i (by simp)), hx1]; rfl
    · refine StepsIn.mono (lo := (pre ++ [i]).length) (hi := (pre ++ [i]).length + is.length) ?_ (by simp) (by simp; omega)
      simpa [Nat.add_assoc, Nat.add_comm 1] using this

/-- Whatever a fragment computes by direct evaluation, the machine computes when it runs the built block from
the fragment's first instruction; it ends just behind the fragment's last instruction and executes no instruction
outside the fragment. -/
theorem steps_run (E : Env) (c : SC) (hok : c.Ok) :
    ∀ (pre post : List Instr) (s : List Word) (m : Mem) (s' : List Word) (m' : Mem),
      c.run E s m = some (s', m') →
      StepsIn E (pre ++ c.flat pre.length ++ post) pre.length (pre.length + c.len) ⟨pre.length, s, m⟩
        ⟨pre.length + c.len, s', m'⟩ := by
  induction c with
  | prim is => intro pre post s m s' m' h; exact steps_prim E is hok pre post s m s' m' h
  | seq a b iha ihb =>
    intro pre post s m s' m' h
    simp only [run, Option.bind_eq_some_iff] at h
    obtain ⟨⟨s1, m1⟩, h1, h2⟩ := h
    have e1 := iha hok.1 pre (b.flat (pre.length + a.len) ++ post) s m s1 m1 h1
    have e2 := ihb hok.2 (pre ++ a.flat pre.length) post s1 m1 s' m' h2
    simp only [flat, len, List.length_append, flat_length, List.append_assoc] at e1 e2 ⊢
    rw [← Nat.add_assoc]
    exact (e1.mono (Nat.le_refl _) (by omega)).trans (e2.mono (by omega) (by omega))
  | skip x ih =>
    intro pre post s m s' m' h
    simp only [run] at h
    cases s with
    | nil => cases h
    | cons w s =>
      have hi : (pre ++ (skip x).flat pre.length ++ post)[pre.length]? = some (.branch (pre.length + 1 + x.len)) := by
        simp [flat]
      simp only at h
      by_cases hw : (w != 0) = true
      · rw [if_pos hw] at h
        simp only [Option.some.injEq, Prod.mk.injEq] at h
        obtain ⟨rfl, rfl⟩ := h
        apply StepsIn.one (by simp only [len]; omega)
        simp only [step, hi, hw, if_true, len]
        simp [Nat.add_assoc]
      · rw [if_neg hw] at h
        refine .head (b := ⟨pre.length + 1, s, m⟩) (by simp only [len]; omega) (by simp only [step, hi, hw]; simp) ?_
        have := ih hok (pre ++ [.branch (pre.length + 1 + x.len)]) post s m s' m' h
        refine StepsIn.mono (lo := pre.length + 1) (hi := pre.length + 1 + x.len) ?_ (by omega) (by simp only [len]; omega)
        simpa [flat, len, Nat.add_assoc] using this
  | ite y n ihy ihn =>
    intro pre post s m s' m' h
    simp only [run] at h
    cases s with
    | nil => cases h
    | cons w s =>
      have hi : (pre ++ (ite y n).flat pre.length ++ post)[pre.length]? =
          some (.branch (pre.length + 2 + n.len)) := by simp [flat]
      simp only at h
      by_cases hw : (w != 0) = true
      · rw [if_pos hw] at h
        refine .head (b := ⟨pre.length + 2 + n.len, s, m⟩) (by simp only [len]; omega)
          (by simp only [step, hi, hw]; simp) ?_
        have := ihy hok.1 (pre ++ Instr.branch (pre.length + 2 + n.len) :: (n.flat (pre.length + 1) ++
          [Instr.jmp (pre.length + 2 + n.len + y.len)])) post s m s' m' h
        have e : (pre ++ Instr.branch (pre.length + 2 + n.len) :: (n.flat (pre.length + 1) ++
          [Instr.jmp (pre.length + 2 + n.len + y.len)])).length = pre.length + 2 + n.len := by
          simp [flat_length]; omega
        rw [e] at this
        refine StepsIn.mono (lo := pre.length + 2 + n.len) (hi := pre.length + 2 + n.len + y.len) ?_ (by omega)
          (by simp only [len]; omega)
        simpa [flat, len, Nat.add_assoc] using this
      · rw [if_neg hw] at h
        refine .head (b := ⟨pre.length + 1, s, m⟩) (by simp only [len]; omega) (by simp only [step, hi, hw]; simp) ?_
        have := ihn hok.2 (pre ++ [.branch (pre.length + 2 + n.len)]) (.jmp (pre.length + 2 + n.len + y.len) ::
          y.flat (pre.length + 2 + n.len) ++ post) s m s' m' h
        have e : (pre ++ [Instr.branch (pre.length + 2 + n.len)]).length = pre.length + 1 := by simp
        rw [e] at this
        have t : StepsIn E (pre ++ (ite y n).flat pre.length ++ post) pre.length (pre.length + (ite y n).len)
            ⟨pre.length + 1, s, m⟩ ⟨pre.length + 1 + n.len, s', m'⟩ := by
          refine StepsIn.mono (lo := pre.length + 1) (hi := pre.length + 1 + n.len) ?_ (by omega) (by simp only [len]; omega)
          simpa [flat, Nat.add_assoc] using this
        refine t.trans (StepsIn.one (by simp only [len]; omega) ?_)
        have hj : (pre ++ (ite y n).flat pre.length ++ post)[pre.length + 1 + n.len]? =
            some (.jmp (pre.length + 2 + n.len + y.len)) := by
          simp only [flat]
          have e : pre ++ (Instr.branch (pre.length + 2 + n.len) :: (n.flat (pre.length + 1) ++
              .jmp (pre.length + 2 + n.len + y.len) :: y.flat (pre.length + 2 + n.len))) ++ post =
            (pre ++ (Instr.branch (pre.length + 2 + n.len) :: n.flat (pre.length + 1))) ++
              (.jmp (pre.length + 2 + n.len + y.len) :: (y.flat (pre.length + 2 + n.len) ++ post)) := by simp
          rw [e, List.getElem?_append_right (by simp [flat_length]; omega)]
          have : pre.length + 1 + n.len - (pre ++ (Instr.branch (pre.length + 2 + n.len) ::
              n.flat (pre.length + 1))).length = 0 := by simp [flat_length]; omega
          rw [this]; rfl
        simp only [step, hj, len]
        simp [Nat.add_assoc]

theorem stuck_prim (E : Env) (is : List Instr) (h : ∀ i ∈ is, isPlain i = true) :
    ∀ (pre post : List Instr) (s : List Word) (m : Mem), execs E is s m = none →
      ∃ c, StepsIn E (pre ++ is ++ post) pre.length (pre.length + is.length) ⟨pre.length, s, m⟩ c ∧
        pre.length ≤ c.pc ∧ c.pc < pre.length + is.length ∧ step E (pre ++ is ++ post) c = none := by
  induction is with
  | nil => intro pre post s m h; cases h
  | cons i is ih =>
    intro pre post s m hx
    have hs := step_plain E (pre ++ i :: is ++ post) pre.length s m i (by simp) (h i (by simp))
    simp only [execs] at hx
    cases hx1 : exec E i s m with
    | none =>
      rw [hx1] at hs
      exact ⟨_, .refl _, Nat.le_refl _, by simp, hs⟩
    | some p =>
      obtain ⟨s1, m1⟩ := p
      rw [hx1, Option.bind_some] at hx
      rw [hx1] at hs
      obtain ⟨c, h1, h2, h3, h4⟩ := ih (fun j hj => h j (by simp [hj])) (pre ++ [i]) post s1 m1 hx
      have e : pre ++ [i] ++ is ++ post = pre ++ i :: is ++ post := by simp
      rw [e] at h1 h4
      simp only [List.length_append, List.length_cons, List.length_nil] at h1 h2 h3 ⊢
      exact ⟨c, .head (b := ⟨pre.length + 1, s1, m1⟩) (by simp) hs (h1.mono (by omega) (by omega)), by omega, by omega, h4⟩

/-- If direct evaluation faults, so does the machine, at an instruction of the fragment. -/
theorem stuck_run (E : Env) (c : SC) (hok : c.Ok) :
    ∀ (pre post : List Instr) (s : List Word) (m : Mem), c.run E s m = none →
      ∃ k, StepsIn E (pre ++ c.flat pre.length ++ post) pre.length (pre.length + c.len) ⟨pre.length, s, m⟩ k ∧
        pre.length ≤ k.pc ∧ k.pc < pre.length + c.len ∧ step E (pre ++ c.flat pre.length ++ post) k = none := by
  induction c with
  | prim is => intro pre post s m h; exact stuck_prim E is hok pre post s m h
  | seq a b iha ihb =>
    intro pre post s m h
    simp only [run] at h
    have e : pre ++ (seq a b).flat pre.length ++ post = pre ++ a.flat pre.length ++ (b.flat (pre.length + a.len) ++ post) := by
      simp [flat]
    rw [e]
    cases h1 : a.run E s m with
    | none =>
      obtain ⟨k, k1, k2, k3, k4⟩ := iha hok.1 pre (b.flat (pre.length + a.len) ++ post) s m h1
      exact ⟨k, k1.mono (Nat.le_refl _) (by simp only [len]; omega), k2, by simp only [len]; omega, k4⟩
    | some p =>
      obtain ⟨s1, m1⟩ := p
      rw [h1, Option.bind_some] at h
      have e1 := steps_run E a hok.1 pre (b.flat (pre.length + a.len) ++ post) s m s1 m1 h1
      obtain ⟨k, k1, k2, k3, k4⟩ := ihb hok.2 (pre ++ a.flat pre.length) post s1 m1 h
      have hl : (pre ++ a.flat pre.length).length = pre.length + a.len := by simp [flat_length]
      rw [hl] at k1 k2 k3 k4
      rw [List.append_assoc _ _ post] at k1 k4
      exact ⟨k, (e1.mono (Nat.le_refl _) (by simp only [len]; omega)).trans (k1.mono (by omega) (by simp only [len]; omega)),
        by omega, by simp only [len]; omega, k4⟩
  | skip x ih =>
    intro pre post s m h
    have hi : (pre ++ (skip x).flat pre.length ++ post)[pre.length]? = some (.branch (pre.length + 1 + x.len)) := by
      simp [flat]
    simp only [run] at h
    cases s with
    | nil => exact ⟨_, .refl _, Nat.le_refl _, by simp only [len]; omega, by simp only [step, hi]⟩
    | cons w s =>
      simp only at h
      by_cases hw : (w != 0) = true
      · rw [if_pos hw] at h; cases h
      · rw [if_neg hw] at h
        obtain ⟨k, k1, k2, k3, k4⟩ := ih hok (pre ++ [.branch (pre.length + 1 + x.len)]) post s m h
        have hl : (pre ++ [Instr.branch (pre.length + 1 + x.len)]).length = pre.length + 1 := by simp
        have e : pre ++ [Instr.branch (pre.length + 1 + x.len)] ++ x.flat (pre.length + 1) ++ post =
          pre ++ (skip x).flat pre.length ++ post := by simp [flat]
        rw [hl] at k1 k2 k3 k4
        rw [e] at k1 k4
        exact ⟨k, .head (b := ⟨pre.length + 1, s, m⟩) (by simp only [len]; omega) (by simp only [step, hi, hw]; simp)
          (k1.mono (by omega) (by simp only [len]; omega)), by omega, by simp only [len]; omega, k4⟩
  | ite y n ihy ihn =>
    intro pre post s m h
    have hi : (pre ++ (ite y n).flat pre.length ++ post)[pre.length]? = some (.branch (pre.length + 2 + n.len)) := by
      simp [flat]
    simp only [run] at h
    cases s with
    | nil => exact ⟨_, .refl _, Nat.le_refl _, by simp only [len]; omega, by simp only [step, hi]⟩
    | cons w s =>
      simp only at h
      by_cases hw : (w != 0) = true
      · rw [if_pos hw] at h
        obtain ⟨k, k1, k2, k3, k4⟩ := ihy hok.1 (pre ++ Instr.branch (pre.length + 2 + n.len) :: (n.flat (pre.length + 1) ++
          [Instr.jmp (pre.length + 2 + n.len + y.len)])) post s m h
        have hl : (pre ++ Instr.branch (pre.length + 2 + n.len) :: (n.flat (pre.length + 1) ++
          [Instr.jmp (pre.length + 2 + n.len + y.len)])).length = pre.length + 2 + n.len := by
          simp [flat_length]; omega
        rw [hl] at k1 k2 k3 k4
        have e : pre ++ Instr.branch (pre.length + 2 + n.len) :: (n.flat (pre.length + 1) ++
          [Instr.jmp (pre.length + 2 + n.len + y.len)]) ++ y.flat (pre.length + 2 + n.len) ++ post =
          pre ++ (ite y n).flat pre.length ++ post := by simp [flat]
        rw [e] at k1 k4
        exact ⟨k, .head (b := ⟨pre.length + 2 + n.len, s, m⟩) (by simp only [len]; omega) (by simp only [step, hi, hw]; simp)
          (k1.mono (by omega) (by simp only [len]; omega)), by omega, by simp only [len]; omega, k4⟩
      · rw [if_neg hw] at h
        obtain ⟨k, k1, k2, k3, k4⟩ := ihn hok.2 (pre ++ [.branch (pre.length + 2 + n.len)])
          (.jmp (pre.length + 2 + n.len + y.len) :: y.flat (pre.length + 2 + n.len) ++ post) s m h
        have hl : (pre ++ [Instr.branch (pre.length + 2 + n.len)]).length = pre.length + 1 := by simp
        have e : pre ++ [Instr.branch (pre.length + 2 + n.len)] ++ n.flat (pre.length + 1) ++
          (.jmp (pre.length + 2 + n.len + y.len) :: y.flat (pre.length + 2 + n.len) ++ post) =
          pre ++ (ite y n).flat pre.length ++ post := by simp [flat]
        rw [hl] at k1 k2 k3 k4
        rw [e] at k1 k4
        exact ⟨k, .head (b := ⟨pre.length + 1, s, m⟩) (by simp only [len]; omega) (by simp only [step, hi, hw]; simp)
          (k1.mono (by omega) (by simp only [len]; omega)), by omega, by simp only [len]; omega, k4⟩

end SC
end Kefir.IR
