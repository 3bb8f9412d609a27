import Verif.AsmData.Render

/-! # Data as text: the calls of the emission stand for its bytes -/

namespace Kefir.AsmData
open Kefir.StaticData Kefir.Layout Kefir.Abi

/-- Bytes are bytes and names are names. -/
def valueOK : Value → Prop
  | .string bs | .raw bs => ∀ b ∈ bs, b < 256
  | .pointer t _ => targetOK t
  | _ => True

def isData : Call → Bool
  | .raw _ _ | .zero _ => true
  | _ => false

structure Sim (head : List Call) (s' : EmitC) (s : Emit) : Prop where
  slot : s'.slot = s.slot
  offset : s'.offset = s.offset
  iter : s'.iter = s.iter
  out : ∃ body, s'.out = head ++ body ∧ (∀ c ∈ body, callOK c ∧ isData c = true) ∧ body.flatMap callCells = s.out

inductive OutSim (head : List Call) : Abi.Out EmitC → Abi.Out Emit → Prop
  | ok {s' s} (h : Sim head s' s) : OutSim head (.ok s') (.ok s)
  | error (e) : OutSim head (.error e) (.error e)

variable {head : List Call} {s' : EmitC} {s : Emit}

theorem Sim.put (h : Sim head s' s) {cs : List Call} {cells : List Cell} (n : Nat)
    (hc : ∀ c ∈ cs, callOK c ∧ isData c = true) (he : cs.flatMap callCells = cells) :
    Sim head (s'.put cs n) (s.put cells n) := by
  obtain ⟨b, h1, h2, h3⟩ := h.out
  refine ⟨h.slot, ?_, h.iter, b ++ cs, ?_, ?_, ?_⟩
  · simp only [EmitC.put, Emit.put, h.offset]
  · simp only [EmitC.put, h1, List.append_assoc]
  · intro c hm
    rcases List.mem_append.mp hm with hm | hm
    · exact h2 c hm
    · exact hc c hm
  · simp only [Emit.put, List.flatMap_append, h3, he]

theorem Sim.setSlot (h : Sim head s' s) (n : Nat) : Sim head { s' with slot := n } { s with slot := n } :=
  ⟨rfl, h.offset, h.iter, h.out⟩

theorem Sim.setIter (h : Sim head s' s) (n : List Nat) : Sim head { s' with iter := n } { s with iter := n } :=
  ⟨h.slot, h.offset, rfl, h.out⟩

theorem Sim.zero (h : Sim head s' s) (slot offset : Nat) (iter : List Nat) (n : Nat) :
    Sim head ⟨slot, offset, iter, s'.out ++ [.zero n]⟩ ⟨slot, offset, iter, s.out ++ zeros n⟩ := by
  obtain ⟨b, h1, h2, h3⟩ := h.out
  refine ⟨rfl, rfl, rfl, b ++ [.zero n], ?_, ?_, ?_⟩
  · simp only [h1, List.append_assoc]
  · intro c hm
    rcases List.mem_append.mp hm with hm | hm
    · exact h2 c hm
    · rw [List.mem_singleton.mp hm]; exact ⟨trivial, rfl⟩
  · simp [List.flatMap_append, h3, callCells]

theorem Sim.align (h : Sim head s' s) (d : Data) : Sim head (alignOffsetC d s') (alignOffset d s) := by
  unfold alignOffsetC alignOffset
  rw [h.offset]
  simp only
  split
  · have := h.zero s.slot (padAligned s.offset d.alignment) s.iter (padAligned s.offset d.alignment - s.offset)
    rw [h.slot, h.iter]
    exact this
  · exact h

theorem Sim.trailing (h : Sim head s' s) (start : Nat) (d : Data) :
    OutSim head (trailingC start d s') (StaticData.trailing start d s) := by
  unfold trailingC StaticData.trailing
  rw [h.offset]
  simp only
  split
  · have := h.zero s.slot (start + d.size) s.iter (start + d.size - s.offset)
    rw [h.slot, h.iter]
    exact .ok this
  · split
    · exact .ok h
    · exact .error _

theorem directive_mod (n v : Nat) : directive n (v % 2 ^ (8 * n)) = directive n v := by
  unfold directive
  rw [Nat.mod_mod]

theorem directive_byte {b : Nat} (h : b < 256) : directive 1 b = [.byte b] := by
  have : b % 2 ^ 8 = b := Nat.mod_eq_of_lt h
  unfold directive le
  rw [show 8 * 1 = 8 from rfl, this]
  simp [List.range_succ]
  exact h

theorem hex_ok {w : Width} {n v : Nat} (hw : w ≠ .ascii) (hn : 0 < n) (hv : v < 16 ^ n) :
    callOK (.raw w [.hex n v]) ∧ isData (.raw w [.hex n v]) = true := by
  refine ⟨?_, rfl⟩
  cases w <;> first
    | exact absurd rfl hw
    | (intro a ha; rw [List.mem_singleton.mp ha]; exact ⟨by simp, hn, hv⟩)

theorem pair_ok {n v u : Nat} (hn : 0 < n) (hv : v < 16 ^ n) (hu : u < 16 ^ n) :
    callOK (.raw .quad [.hex n v, .hex n u]) ∧ isData (.raw .quad [.hex n v, .hex n u]) = true := by
  refine ⟨?_, rfl⟩
  intro a ha
  simp only [List.mem_cons, List.not_mem_nil, or_false] at ha
  rcases ha with rfl | rfl
  · exact ⟨by simp, hn, hv⟩
  · exact ⟨by simp, hn, hu⟩

theorem address_ok {t : Target} {o : Int} (h : targetOK t) :
    callOK (.raw .quad [.address t o]) ∧ isData (.raw .quad [.address t o]) = true := by
  refine ⟨?_, rfl⟩
  intro a ha
  rw [List.mem_singleton.mp ha]
  exact ⟨rfl, h⟩

theorem mod16 (v k n : Nat) (h : 2 ^ k = 16 ^ n) : v % 2 ^ k < 16 ^ n := by
  rw [← h]; exact Nat.mod_lt _ (Nat.two_pow_pos _)

theorem single_mem {c : Call} (h : callOK c ∧ isData c = true) : ∀ x ∈ [c], callOK x ∧ isData x = true := by
  intro x hx; rw [List.mem_singleton.mp hx]; exact h

theorem hex_cells {w : Width} (v : Nat) (n : Nat) :
    [Call.raw w [.hex n (v % 2 ^ (8 * widthOf w))]].flatMap callCells = directive (widthOf w) v := by
  simp only [List.flatMap_cons, List.flatMap_nil, List.append_nil, callCells, argCells, directive_mod]

theorem hex0_cells {w : Width} (n : Nat) :
    [Call.raw w [.hex n 0]].flatMap callCells = directive (widthOf w) 0 := by
  simp only [List.flatMap_cons, List.flatMap_nil, List.append_nil, callCells, argCells]

theorem and_byte (x : Nat) : x &&& 0xff < 256 := by
  have : x &&& 0xff = x % 2 ^ 8 := Nat.and_two_pow_sub_one_eq_mod x 8
  rw [this]
  exact Nat.mod_lt _ (by decide)

theorem integral_sim (k : Leaf) (n v : Nat) :
    (∃ cs cells, integralCalls k n v = .ok cs ∧ integralCells k n v = .ok cells ∧
      (∀ c ∈ cs, callOK c ∧ isData c = true) ∧ cs.flatMap callCells = cells) ∨
    (∃ e, integralCalls k n v = .error e ∧ integralCells k n v = .error e) := by
  have b1 := single_mem (hex_ok (w := .byte) (by decide) (by decide : 0 < 2) (mod16 v 8 2 (by decide)))
  have b2 := single_mem (hex_ok (w := .word) (by decide) (by decide : 0 < 4) (mod16 v 16 4 (by decide)))
  have b4 := single_mem (hex_ok (w := .double) (by decide) (by decide : 0 < 8) (mod16 v 32 8 (by decide)))
  have b8 := single_mem (hex_ok (w := .quad) (by decide) (by decide : 0 < 16) (mod16 v 64 16 (by decide)))
  cases k with
  | bool => exact Or.inl ⟨_, _, rfl, rfl, b1, hex_cells (w := .byte) v 2⟩
  | char => exact Or.inl ⟨_, _, rfl, rfl, b1, hex_cells (w := .byte) v 2⟩
  | int8 => exact Or.inl ⟨_, _, rfl, rfl, b1, hex_cells (w := .byte) v 2⟩
  | short => exact Or.inl ⟨_, _, rfl, rfl, b2, hex_cells (w := .word) v 4⟩
  | int16 => exact Or.inl ⟨_, _, rfl, rfl, b2, hex_cells (w := .word) v 4⟩
  | int => exact Or.inl ⟨_, _, rfl, rfl, b4, hex_cells (w := .double) v 8⟩
  | int32 => exact Or.inl ⟨_, _, rfl, rfl, b4, hex_cells (w := .double) v 8⟩
  | long => exact Or.inl ⟨_, _, rfl, rfl, b8, hex_cells (w := .quad) v 16⟩
  | int64 => exact Or.inl ⟨_, _, rfl, rfl, b8, hex_cells (w := .quad) v 16⟩
  | bits =>
    simp only [integralCalls, integralCells]
    generalize n / 8 + (if n % 8 ≠ 0 then 1 else 0) = m
    split
    · exact Or.inr ⟨_, rfl, rfl⟩
    · refine Or.inl ⟨_, _, rfl, rfl, ?_, ?_⟩
      · intro c hc
        obtain ⟨i, _, rfl⟩ := List.mem_map.mp hc
        exact hex_ok (by decide) (by decide) (and_byte _)
      · generalize List.range m = l
        induction l with
        | nil => rfl
        | cons i l ih =>
          rw [List.map_cons, List.flatMap_cons, ih, List.map_cons]
          simp only [callCells, List.flatMap_cons, List.flatMap_nil, List.append_nil, argCells, widthOf,
            directive_byte (and_byte _), List.cons_append, List.nil_append]
  | _ => exact Or.inr ⟨_, rfl, rfl⟩

theorem Sim.integral (h : Sim head s' s) (k : Leaf) (n : Nat) (d : Data) {v : Value} (hv : valueOK v) :
    OutSim head (emitIntegralC k n d v s') (emitIntegral k n d v s) := by
  have number : ∀ x, OutSim head
      (match integralCalls k n x with
        | .ok cs => .ok ((if k ≠ .bits then alignOffsetC d s' else s').put cs d.size)
        | .error e => .error e)
      (match integralCells k n x with
        | .ok cs => .ok ((if k ≠ .bits then alignOffset d s else s).put cs d.size)
        | .error e => .error e) := by
    intro x
    have ha : Sim head (if k ≠ .bits then alignOffsetC d s' else s') (if k ≠ .bits then alignOffset d s else s) := by
      split
      · exact h.align d
      · exact h
    rcases integral_sim k n x with ⟨cs, cells, h1, h2, h3, h4⟩ | ⟨e, h1, h2⟩
    · rw [h1, h2]; exact .ok (ha.put _ h3 h4)
    · rw [h1, h2]; exact .error e
  cases v with
  | undefined => exact number 0
  | integer x => exact number x
  | pointer t o =>
    simp only [emitIntegralC, emitIntegral]
    split
    · refine .ok ((h.align d).put _ (single_mem (address_ok hv)) ?_)
      simp [callCells, argCells]
    · exact .error _
  | _ => exact .error _

theorem Sim.word (h : Sim head s' s) (d : Data) {v : Value} (hv : valueOK v) :
    OutSim head (emitWordC d v s') (emitWord d v s) := by
  cases v with
  | undefined =>
    exact .ok ((h.align d).put _ (single_mem (hex_ok (by decide) (by decide) (by decide))) (hex0_cells (w := .quad) 16))
  | integer x =>
    exact .ok ((h.align d).put _ (single_mem (hex_ok (by decide) (by decide) (mod16 x 64 16 (by decide))))
      (hex_cells (w := .quad) x 16))
  | pointer t o =>
    refine .ok ((h.align d).put _ (single_mem (address_ok hv)) ?_)
    simp [callCells, argCells]
  | _ => exact .error _

theorem Sim.float32 (h : Sim head s' s) (d : Data) (v : Value) :
    OutSim head (emitFloat32C d v s') (emitFloat32 d v s) := by
  cases v with
  | undefined =>
    exact .ok ((h.align d).put _ (single_mem (hex_ok (by decide) (by decide) (by decide))) (hex0_cells (w := .double) 8))
  | float32 x =>
    exact .ok ((h.align d).put _ (single_mem (hex_ok (by decide) (by decide) (mod16 x 32 8 (by decide))))
      (hex_cells (w := .double) x 8))
  | _ => exact .error _

theorem Sim.float64 (h : Sim head s' s) (d : Data) (v : Value) :
    OutSim head (emitFloat64C d v s') (emitFloat64 d v s) := by
  cases v with
  | undefined =>
    exact .ok ((h.align d).put _ (single_mem (hex_ok (by decide) (by decide) (by decide))) (hex0_cells (w := .quad) 16))
  | float64 x =>
    exact .ok ((h.align d).put _ (single_mem (hex_ok (by decide) (by decide) (mod16 x 64 16 (by decide))))
      (hex_cells (w := .quad) x 16))
  | _ => exact .error _

theorem Sim.longDouble (h : Sim head s' s) (d : Data) (v : Value) :
    OutSim head (emitLongDoubleC d v s') (emitLongDouble d v s) := by
  cases v with
  | undefined =>
    refine .ok ((h.align d).put _ (single_mem (pair_ok (by decide) (by decide) (by decide))) ?_)
    simp [callCells, argCells, widthOf]
  | longDouble x y =>
    refine .ok ((h.align d).put _ (single_mem (pair_ok (by decide) (mod16 x 64 16 (by decide))
      (mod16 y 64 16 (by decide)))) ?_)
    have e := directive_mod 8 x
    have e' := directive_mod 8 y
    simp only [List.flatMap_cons, List.flatMap_nil, List.append_nil, callCells, argCells, widthOf]
    rw [show (64 : Nat) = 8 * 8 from rfl, e, e']
  | _ => exact .error _

theorem Sim.dump (h : Sim head s' s) {bs : List Nat} (hb : ∀ b ∈ bs, b < 256) :
    Sim head (dumpBinaryC bs s') (dumpBinary bs s) := by
  refine h.put _ (single_mem ⟨?_, rfl⟩) ?_
  · intro a ha
    obtain ⟨b, hm, rfl⟩ := List.mem_map.mp ha
    exact ⟨by simp, by decide, hb b hm⟩
  · simp only [List.flatMap_cons, List.flatMap_nil, List.append_nil, callCells, widthOf]
    induction bs with
    | nil => rfl
    | cons b bs ih =>
      rw [List.map_cons, List.flatMap_cons, List.map_cons, ih (fun x hx => hb x (List.mem_cons_of_mem _ hx))]
      simp only [argCells, directive_byte (hb b List.mem_cons_self), List.cons_append, List.nil_append]

theorem Sim.memory (h : Sim head s' s) (d : Data) {v : Value} (hv : valueOK v) :
    OutSim head (emitMemoryC d v s') (emitMemory d v s) := by
  have ha := h.align d
  cases v with
  | undefined =>
    simp only [emitMemoryC, emitMemory, ha.offset]
    exact ha.trailing _ _
  | string bs =>
    simp only [emitMemoryC, emitMemory, ha.offset]
    exact (ha.dump hv).trailing _ _
  | raw bs =>
    simp only [emitMemoryC, emitMemory, ha.offset]
    exact (ha.dump hv).trailing _ _
  | _ => exact .error _

theorem Sim.pad (h : Sim head s' s) (d : Data) : OutSim head (emitPadC d s') (emitPad d s) := by
  refine .ok ((h.align d).put _ (single_mem ⟨trivial, rfl⟩) ?_)
  simp [callCells]

/-- The values of the data. -/
def dataOK (data : DataMap) : Prop := ∀ j, valueOK (data.vals j)

theorem valueAt_ok {data : DataMap} (hd : dataOK data) {j : Nat} {v : Value} {f : Bool}
    (h : valueAt data j = .ok (v, f)) : valueOK v := by
  unfold valueAt at h
  split at h
  · split at h
    · injection h with h; injection h with h _; rw [← h]; exact hd j
    · injection h with h; injection h with h _; rw [← h]; trivial
  · cases h

theorem Sim.leaf (h : Sim head s' s) {data : DataMap} (hd : dataOK data) (k : Leaf) (n : Nat) (d : Data) :
    OutSim head (emitLeafC data k n d s') (emitLeaf data k n d s) := by
  have hs := h.setSlot (s.slot + 1)
  have val : ∀ (g' : Value → EmitC → Abi.Out EmitC) (g : Value → Emit → Abi.Out Emit),
      (∀ v, valueOK v → OutSim head (g' v { s' with slot := s.slot + 1 }) (g v { s with slot := s.slot + 1 })) →
      OutSim head
        (match valueAt data s'.slot with
          | .error e => .error e
          | .ok (v, _) => g' v { s' with slot := s'.slot + 1 })
        (match valueAt data s.slot with
          | .error e => .error e
          | .ok (v, _) => g v { s with slot := s.slot + 1 }) := by
    intro g' g hg
    rw [h.slot]
    cases hv : valueAt data s.slot with
    | error e => exact .error e
    | ok p => exact hg p.1 (valueAt_ok hd (f := p.2) hv)
  cases k with
  | pad =>
    simp only [emitLeafC, emitLeaf, h.slot]
    exact hs.pad d
  | builtin =>
    simp only [emitLeafC, emitLeaf, h.slot]
    split
    · exact hs.pad d
    · exact .error _
  | word => exact val (fun v s => emitWordC d v s) (fun v s => emitWord d v s) fun v hv => hs.word d hv
  | float32 => exact val (fun v s => emitFloat32C d v s) (fun v s => emitFloat32 d v s) fun v hv => hs.float32 d v
  | float64 => exact val (fun v s => emitFloat64C d v s) (fun v s => emitFloat64 d v s) fun v hv => hs.float64 d v
  | longDouble =>
    exact val (fun v s => emitLongDoubleC d v s) (fun v s => emitLongDouble d v s) fun v hv => hs.longDouble d v
  | memory => exact val (fun v s => emitMemoryC d v s) (fun v s => emitMemory d v s) fun v hv => hs.memory d hv
  | _ => exact val (fun v s => emitIntegralC _ n d v s) (fun v s => emitIntegral _ n d v s) fun v hv => hs.integral _ n d hv

theorem loop_sim {f' : EmitC → Abi.Out EmitC} {f : Emit → Abi.Out Emit}
    (hf : ∀ {s' s}, Sim head s' s → OutSim head (f' s') (f s)) (n es esz stop : Nat) :
    (fuel i : Nat) → {s' : EmitC} → {s : Emit} → Sim head s' s →
    OutSim head (emitLoopC f' n es esz stop fuel i s') (emitLoop f n es esz stop fuel i s)
  | 0, _, _, _, h => .ok h
  | fuel + 1, i, s', s, h => by
    rw [emitLoopC, emitLoop, h.iter, h.slot]
    by_cases hi : i < n
    · rw [if_pos hi, if_pos hi]
      simp only
      cases heq : skipTo s.iter s.slot with
      | nil => exact .ok ((h.setIter []).setSlot stop)
      | cons b rest =>
        simp only
        split
        · rw [h.offset]
          exact loop_sim hf n es esz stop fuel _ (h.zero _ _ _ _)
        · have := hf (h.setIter (b :: rest))
          rw [h.slot] at this
          revert this
          generalize f' _ = r', f _ = r
          intro this
          cases this with
          | ok h => exact loop_sim hf n es esz stop fuel _ h
          | error e => exact .error e
    · rw [if_neg hi, if_neg hi]
      exact .ok h

theorem OutSim.trailing {r' : Abi.Out EmitC} {r : Abi.Out Emit} : OutSim head r' r → ∀ (start : Nat) (d : Data),
    OutSim head (match r' with | .ok s => trailingC start d s | .error e => .error e)
      (match r with | .ok s => StaticData.trailing start d s | .error e => .error e) := by
  intro h start d
  cases h with
  | ok h => exact h.trailing start d
  | error e => exact .error e

mutual
theorem emit_sim {data : DataMap} (hd : dataOK data) : (t : Ty) → (l : LTree) → {s' : EmitC} → {s : Emit} →
    Sim head s' s → OutSim head (emitC data t l s') (emit data t l s)
  | .leaf k a n, .node d ls, s', s, h => by
    rw [emitC, emit]
    exact h.leaf hd k n d
  | .struct a ms, .node d ls, s', s, h => by
    rw [emitC, emit, h.slot]
    have ha := (h.setSlot (s.slot + 1)).align d
    simp only [ha.offset]
    exact (emitAll_sim hd ms ls ha).trailing _ _
  | .union a ms, .node d ls, s', s, h => by
    rw [emitC, emit, h.slot]
    have ha := (h.setSlot (s.slot + 1)).align d
    simp only [ha.offset]
    exact (emitUnion_sim hd false ms ls ha).trailing _ _
  | .array a n e, .node d [l], s', s, h => by
    rw [emitC, emit, h.slot]
    cases hv : valueAt data s.slot with
    | error e => exact .error e
    | ok p =>
      obtain ⟨v, f⟩ := p
      have hok := valueAt_ok hd hv
      have ha := (h.setSlot (s.slot + 1)).align d
      have hs := ha.slot
      simp only [ha.offset]
      have loop := loop_sim (f' := fun s => emitC data e l s) (f := fun s => emit data e l s)
        (fun h => emit_sim hd e l h) n (objects e) l.data.size ((alignOffset d { s with slot := s.slot + 1 }).slot +
          n * objects e) n 0 ha
      cases v with
      | undefined => simp only [hs]; exact loop.trailing _ _
      | aggregate => simp only [hs]; exact loop.trailing _ _
      | string bs =>
        have hb := ha.dump hok
        have := (OutSim.ok (hb.setSlot ((dumpBinary bs (alignOffset d { s with slot := s.slot + 1 })).slot +
          n * objects e))).trailing (alignOffset d { s with slot := s.slot + 1 }).offset d
        simp only [hb.slot]
        exact this
      | raw bs =>
        have hb := ha.dump hok
        have := (OutSim.ok (hb.setSlot ((dumpBinary bs (alignOffset d { s with slot := s.slot + 1 })).slot +
          n * objects e))).trailing (alignOffset d { s with slot := s.slot + 1 }).offset d
        simp only [hb.slot]
        exact this
      | _ => exact .error _
  | .array _ _ _, .node _ [], _, _, _ => by rw [emitC, emit]; exact .error _; all_goals simp
  | .array _ _ _, .node _ (_ :: _ :: _), _, _, _ => by rw [emitC, emit]; exact .error _; all_goals simp

theorem emitAll_sim {data : DataMap} (hd : dataOK data) : (ts : List Ty) → (ls : List LTree) → {s' : EmitC} →
    {s : Emit} → Sim head s' s → OutSim head (emitAllC data ts ls s') (emitAll data ts ls s)
  | t :: ts, l :: ls, s', s, h => by
    rw [emitAllC, emitAll]
    have := emit_sim hd t l h
    revert this
    generalize emitC data t l s' = r', emit data t l s = r
    intro this
    cases this with
    | ok h => exact emitAll_sim hd ts ls h
    | error e => exact .error e
  | [], ls, s', s, h => by rw [emitAllC, emitAll]; exact .ok h; all_goals simp
  | t :: ts, [], s', s, h => by rw [emitAllC, emitAll]; exact .ok h; all_goals simp

theorem emitUnion_sim {data : DataMap} (hd : dataOK data) : (b : Bool) → (ts : List Ty) → (ls : List LTree) →
    {s' : EmitC} → {s : Emit} → Sim head s' s → OutSim head (emitUnionC data b ts ls s') (emitUnion data b ts ls s)
  | b, t :: ts, l :: ls, s', s, h => by
    rw [emitUnionC, emitUnion, h.slot]
    cases hv : valueAt data s.slot with
    | error e => exact .error e
    | ok p =>
      obtain ⟨v, f⟩ := p
      simp only
      split
      · have := emit_sim hd t l h
        revert this
        generalize emitC data t l s' = r', emit data t l s = r
        intro this
        cases this with
        | ok h => exact emitUnion_sim hd true ts ls h
        | error e => exact .error e
      · exact emitUnion_sim hd b ts ls (h.setSlot _)
  | b, [], ls, s', s, h => by rw [emitUnionC, emitUnion]; exact .ok h; all_goals simp
  | b, t :: ts, [], s', s, h => by rw [emitUnionC, emitUnion]; exact .ok h; all_goals simp
end

theorem items_data : (cs : List Call) → (∀ c ∈ cs, isData c = true) →
    cs.flatMap callItems = ((cs.flatMap callCells).map named).map .cell
  | [], _ => rfl
  | c :: cs, h => by
    rw [List.flatMap_cons, List.flatMap_cons, items_data cs (fun x hx => h x (List.mem_cons_of_mem _ hx)),
      List.map_append, List.map_append]
    congr 1
    have := h c List.mem_cons_self
    cases c with
    | raw w as => simp [callItems]
    | zero n => simp [callItems]
    | _ => simp [isData] at this

theorem name_ofList {n : Text} (h : isName n = true) : callOK (.label n) := h

/-- The calls for an object: they fail when the emission does, and otherwise stand for the object. -/
theorem staticDataC_sim {data : DataMap} (hd : dataOK data) (ts : List Ty) (ls : List LTree) {name : Text}
    (hn : isName name = true) :
    (∃ cs img, staticDataC data ts ls name = .ok cs ∧ staticData data ts ls = .ok img ∧ (∀ c ∈ cs, callOK c) ∧
      cs.flatMap callItems = objectItems (String.ofList name) (totalAlignment ls) img) ∨
    (∃ e, staticDataC data ts ls name = .error e ∧ staticData data ts ls = .error e) := by
  unfold staticDataC staticData
  by_cases hf : data.finalized = true
  · simp only [hf, Bool.not_true, Bool.false_eq_true, if_false]
    generalize hh : (if totalAlignment ls > 1 then [Call.align (totalAlignment ls)] else []) ++ [Call.label name] = head
    have hhead : (∀ c ∈ head, callOK c) ∧ head.flatMap callItems =
        (if totalAlignment ls > 1 then [.align (totalAlignment ls)] else []) ++ [.label (String.ofList name)] := by
      rw [← hh]
      split
      · refine ⟨?_, rfl⟩
        intro c hc
        simp only [List.cons_append, List.nil_append, List.mem_cons, List.not_mem_nil, or_false] at hc
        rcases hc with rfl | rfl
        · trivial
        · exact hn
      · refine ⟨?_, rfl⟩
        intro c hc
        simp only [List.nil_append, List.mem_cons, List.not_mem_nil, or_false] at hc
        subst hc
        exact hn
    have hs : Sim head ⟨0, 0, data.blocks, head⟩ ⟨0, 0, data.blocks, []⟩ :=
      ⟨rfl, rfl, rfl, [], by simp, by simp, rfl⟩
    have := emitAll_sim hd ts ls hs
    revert this
    generalize emitAllC data ts ls _ = r', emitAll data ts ls _ = r
    intro this
    cases this with
    | error e => exact Or.inr ⟨e, rfl, rfl⟩
    | ok h =>
      rename_i s' s
      obtain ⟨b, h1, h2, h3⟩ := h.out
      have key : ∀ b', (∀ c ∈ b', callOK c ∧ isData c = true) →
          (∀ c ∈ (head ++ b') ++ [Call.newline], callOK c) ∧
          ((head ++ b') ++ [Call.newline]).flatMap callItems =
            objectItems (String.ofList name) (totalAlignment ls) (b'.flatMap callCells) := by
        intro b' hb
        refine ⟨?_, ?_⟩
        · intro c hc
          rcases List.mem_append.mp hc with hc | hc
          · rcases List.mem_append.mp hc with hc | hc
            · exact hhead.1 c hc
            · exact (hb c hc).1
          · rw [List.mem_singleton.mp hc]; trivial
        · rw [List.flatMap_append, List.flatMap_append, hhead.2, items_data b' (fun c hc => (hb c hc).2)]
          simp [objectItems, callItems]
      left
      simp only [h.offset]
      by_cases ho : s.offset < totalSize ls
      · rw [if_pos ho, if_pos ho, h1]
        obtain ⟨k1, k2⟩ := key (b ++ [.zero (totalSize ls - s.offset)]) (by
          intro c hc
          rcases List.mem_append.mp hc with hc | hc
          · exact h2 c hc
          · rw [List.mem_singleton.mp hc]; exact ⟨trivial, rfl⟩)
        rw [← List.append_assoc] at k1 k2
        refine ⟨_, _, rfl, rfl, k1, k2.trans ?_⟩
        rw [List.flatMap_append, h3]
        simp [callCells]
      · rw [if_neg ho, if_neg ho, h1]
        obtain ⟨k1, k2⟩ := key b h2
        refine ⟨_, _, rfl, rfl, k1, k2.trans ?_⟩
        rw [h3]
  · simp only [Bool.not_eq_true] at hf
    rw [hf]
    exact Or.inr ⟨_, rfl, rfl⟩

end Kefir.AsmData
