import Verif.AsmCode.Instr

/-! # Assembly text of code: instructions, one after the other -/

namespace Kefir.AsmCode
open Kefir.StaticData Kefir.AsmData

variable {P : Program} {f : Func} {k : Nat} {i : Ins} {st : St}

theorem quiet (h : i.opcode ≠ 6 ∧ i.opcode ≠ 7 ∧ i.opcode ≠ 0x6e ∧ i.opcode ≠ 0x70 ∧ i.opcode ≠ 0x72 ∧ i.opcode ≠ 0x73) :
    after P f i st = st :=
  after_same ⟨h.1, h.2.1, h.2.2.1⟩ (needs_none h.2.2.2.1 h.2.2.2.2.1 h.2.2.2.2.2)

theorem getlocals_routine : routine 0x53 = some "__kefirrt_getlocals_impl" := by decide +kernel

theorem emits_pair (i : Ins) {r : String} (h : isName r.toList = true) :
    Emits [.raw .quad [nameArg r], .raw .double [.dec i.lo, .dec i.hi]] (Entry.cells ⟨r, le 8 i.arg⟩) := by
  have e := emits_words (x := le 4 i.lo) (y := le 4 i.hi) h (a := .dec i.lo) (b := .dec i.hi) (by simp [argOK]) (by simp [argOK])
    (by rw [argCells, le_directive, Nat.mod_eq_of_lt]; unfold Ins.lo; omega)
    (by rw [argCells, le_directive, Nat.mod_eq_of_lt]; unfold Ins.hi; omega)
  unfold Ins.lo Ins.hi at e
  rw [le4_le4] at e
  exact e

theorem emits_low (i : Ins) {r : String} (h : isName r.toList = true) :
    Emits [.raw .quad [nameArg r], .raw .double [.hex 8 i.lo, zeroArg]] (Entry.cells ⟨r, le 8 i.lo⟩) := by
  have hl : i.lo < 2 ^ 32 := by unfold Ins.lo; omega
  have e := emits_words (x := le 4 (i.lo % 2 ^ 32)) (y := le 4 (i.lo / 2 ^ 32 % 2 ^ 32)) h (a := .hex 8 i.lo) (b := zeroArg)
    ⟨by simp, by decide, by omega⟩ (by simp [argOK, zeroArg])
    (by rw [argCells, le_directive])
    (by
      have : i.lo / 2 ^ 32 % 2 ^ 32 = 0 := by omega
      rw [zeroArg, argCells, le_directive, this])
  rw [le4_le4] at e
  exact e

theorem instruction_good (hN : Names P) (hU : Usual f) (hF : FetchesValues P f) (hi : f.body[k]? = some i) :
    Good P f k i st (instruction P f st k) := by
  have hmem : i ∈ f.body := List.mem_of_getElem? hi
  have he := @entryAt_eq P f k i hi
  have harg := hU.2.2.2 i hmem
  unfold instruction
  rw [hi]
  simp only
  split
  case h_1 op =>
    rw [op]
    split
    · rename_i ht
      exact good_handler 2 (bs := toLabel (bodyLabel f.name) (16 * i.arg)) (quiet (by rw [op]; decide))
        (he.trans (by unfold entry; simp only [op, if_pos ht]))
        fun r h => emits_quad h (jump_opnd hU ht)
    · rename_i ht
      exact .inl (he.trans (by unfold entry; simp only [op, if_neg ht]))
  case h_2 op =>
    rw [op]
    split
    · rename_i ht
      exact good_handler 4 (bs := toLabel (bodyLabel f.name) (16 * i.arg)) (quiet (by rw [op]; decide))
        (he.trans (by unfold entry; simp only [op, if_pos ht]))
        fun r h => emits_quad h (jump_opnd hU ht)
    · rename_i ht
      exact .inl (he.trans (by unfold entry; simp only [op, if_neg ht]))
  case h_3 op =>
    exact good_one (e := ⟨epilogueLabel f.name, le 8 0⟩) (quiet (by rw [op]; decide)).symm
      (he.trans (by unfold entry; simp only [op])) (emits_quad (epilogue_name hU.1) opnd_zero)
  case h_4 op =>
    rcases @functionDecl_eq P st i.lo false with ⟨h1, h2⟩ | h1
    · rw [h1]
      exact .inl (he.trans (by unfold entry; simp only [op, h2]; rfl))
    · rw [h1]
      cases hd : P.decls i.lo with
      | none => exact .inl (he.trans (by unfold entry; simp only [op, hd]; rfl))
      | some d =>
        simp only
        refine good_one (e := ⟨gateLabel i.lo d, le 8 0⟩) ?_ (he.trans (by unfold entry; simp only [op, hd]; rfl))
          (Eq.mpr (congrArg (fun l => Emits [quad (nameArg l) zeroArg] (Entry.cells ⟨gateLabel i.lo d, le 8 0⟩)) (gate_label i.lo d))
            (emits_quad (gate_name fun n hn => hN.1 i.lo d n hd hn) opnd_zero))
        unfold after
        rw [needs_none (by rw [op]; decide) (by rw [op]; decide) (by rw [op]; decide)]
        simp [op]
  case h_5 op =>
    rcases @functionDecl_eq P st i.lo true with ⟨h1, h2⟩ | h1
    · rw [h1]
      exact .inl (he.trans (by unfold entry; simp only [op, h2]; rfl))
    · rw [h1]
      cases hd : P.decls i.lo with
      | none => exact .inl (he.trans (by unfold entry; simp only [op, hd]; rfl))
      | some d =>
        simp only
        refine good_one (e := ⟨pointerGateLabel i.lo d, le 8 0⟩) ?_ (he.trans (by unfold entry; simp only [op, hd]; rfl))
          (Eq.mpr (congrArg (fun l => Emits [quad (nameArg l) zeroArg] (Entry.cells ⟨pointerGateLabel i.lo d, le 8 0⟩)) (pointerGate_label i.lo d))
            (emits_quad (pointerGate_name fun n hn => hN.1 i.lo d n hd hn) opnd_zero))
        unfold after
        rw [needs_none (by rw [op]; decide) (by rw [op]; decide) (by rw [op]; decide)]
        simp [op]
  case h_6 op =>
    cases hl : P.literals i.lo with
    | none => exact .inl (he.trans (by unfold entry; simp only [op, hl]))
    | some b =>
      cases b with
      | false => exact .inl (he.trans (by unfold entry; simp only [op, hl]))
      | true =>
        simp only [if_true]
        refine good_handler 0x10 (bs := toLabel (literalName i.lo) 0) (quiet (by rw [op]; decide))
          (he.trans (by unfold entry; simp only [op, hl, push_routine]; rfl)) fun r h => emits_quad h ?_
        have := opnd_name (literalName_name i.lo)
        unfold literalName at this
        rw [decS_eq]
        exact this
  case h_7 op =>
    rw [op]
    exact good_layout 0x69 "__kefirrt_bzero_impl" (by decide +kernel) Node.size (quiet (by rw [op]; decide))
      (he.trans (by unfold entry; simp only [op]))
  case h_8 op =>
    rw [op]
    exact good_layout 0x6a "__kefirrt_bcopy_impl" (by decide +kernel) Node.size (quiet (by rw [op]; decide))
      (he.trans (by unfold entry; simp only [op]))
  case h_9 op =>
    rw [op]
    exact good_handler 0x6b (bs := le 8 i.arg) (quiet (by rw [op]; decide)) (he.trans (by unfold entry; simp only [op])) fun r h => emits_pair i h
  case h_10 op =>
    rw [op]
    exact good_handler 0x6c (bs := le 8 i.arg) (quiet (by rw [op]; decide)) (he.trans (by unfold entry; simp only [op])) fun r h => emits_pair i h
  case h_11 op =>
    rw [op]
    exact good_handler 0x6d (bs := le 8 i.arg) (quiet (by rw [op]; decide)) (he.trans (by unfold entry; simp only [op])) fun r h => emits_pair i h
  case h_12 op =>
    exact good_layout 0x50 "__kefirrt_offsetptr_impl" (by decide +kernel) Node.offset (quiet (by rw [op]; decide))
      (he.trans (by unfold entry; simp only [op]))
  case h_13 op =>
    exact good_layout 0x51 "__kefirrt_elementptr_impl" (by decide +kernel) Node.size (quiet (by rw [op]; decide))
      (he.trans (by unfold entry; simp only [op]))
  case h_14 op =>
    rw [op]
    exact good_handler 0x53 (bs := le 8 f.locals) (quiet (by rw [op]; decide))
      (he.trans (by unfold entry; simp only [op, getlocals_routine]; rfl)) fun r h => emits_quad h (opnd_int _)
  case h_15 op =>
    cases hs : P.symbols i.lo with
    | none => exact .inl (he.trans (by unfold entry; simp only [op, hs]; rfl))
    | some s =>
      simp only [symbolArg_eq (hN.2 _ _ hs).2]
      exact good_handler 0x10 (bs := toLabel s 0) (quiet (by rw [op]; decide))
        (he.trans (by unfold entry; simp only [op, hs, push_routine]; rfl)) fun r h => emits_quad h (opnd_name (hN.2 _ _ hs).1)
  case h_16 op =>
    cases hs : P.symbols i.lo with
    | none => exact .inl (he.trans (by unfold entry; simp only [op, hs]; rfl))
    | some s =>
      refine good_one (e := ⟨tlsLabel s, le 8 0⟩) ?_ (he.trans (by unfold entry; simp only [op, hs]; rfl))
        (emits_quad (tls_name (hN.2 _ _ hs).1) opnd_zero)
      unfold after
      rw [needs_none (by rw [op]; decide) (by rw [op]; decide) (by rw [op]; decide)]
      unfold declareTls note
      simp only [op, hs]
      split <;> rfl
  case h_17 op =>
    simp only [start_label hU]
    exact good_one (e := ⟨vaLabel f.name .start, le 8 0⟩)
      (by rw [insert_note, after_needs (k := .start) (r := .start) (by rw [op]; decide) (by unfold needs; simp only [op])])
      (he.trans (by unfold entry; simp only [op])) (emits_quad (va_name hU.1 _) opnd_zero)
  case h_18 op =>
    exact good_one (e := ⟨"__kefirrt_copy_vararg", le 8 0⟩) (quiet (by rw [op]; decide)).symm
      (he.trans (by unfold entry; simp only [op])) (emits_quad (by decide +kernel) opnd_zero)
  case h_19 op => exact good_get hU hF hi op
  case h_20 op =>
    simp only [stop_label hU]
    exact good_one (e := ⟨vaLabel f.name .stop, le 8 0⟩)
      (by rw [insert_note, after_needs (k := .stop) (r := .stop) (by rw [op]; decide) (by unfold needs; simp only [op])])
      (he.trans (by unfold entry; simp only [op])) (emits_quad (va_name hU.1 _) opnd_zero)
  case h_21 op =>
    exact good_handler 0x10 (bs := le 8 i.lo) (quiet (by rw [op]; decide))
      (he.trans (by unfold entry; simp only [op, push_routine]; rfl)) fun r h => emits_low i h
  case h_22 op =>
    exact good_handler 0x10 (bs := le 8 i.arg) (quiet (by rw [op]; decide))
      (he.trans (by unfold entry; simp only [op, push_routine]; rfl)) fun r h => emits_quad h (opnd_hex _)
  case h_23 op =>
    exact good_handler 0x10 (bs := le 8 i.arg) (quiet (by rw [op]; decide))
      (he.trans (by unfold entry; simp only [op, push_routine]; rfl)) fun r h => emits_quad h (opnd_dec _)
  case h_24 op =>
    cases hj : f.body[k + 1]? with
    | none => exact .inl (he.trans (by unfold entry; simp only [op, hj]))
    | some j =>
      simp only
      by_cases hjo : j.opcode = 0x11
      · rw [if_pos hjo, handler_routine, push_routine]
        have hp : isName push.toList = true := routine_name push_routine
        refine ⟨(quiet (by rw [op]; decide)).symm, .inr ⟨rfl, ⟨push, le 8 i.arg⟩, ⟨push, le 8 j.arg⟩, j, hj, hjo,
          he.trans (by unfold entry; simp only [op, hj, if_pos hjo]),
          (entryAt_eq hj).trans (by unfold entry; simp only [hjo]), ?_⟩⟩
        exact (emits_quad hp (opnd_dec _)).append (emits_quad hp (opnd_dec _))
      · rw [if_neg hjo]
        exact .inl (he.trans (by unfold entry; simp only [op, hj, if_neg hjo]))
  case h_25 op =>
    split
    · rename_i ht
      exact good_handler 0x10 (bs := toLabel (bodyLabel f.name) (16 * i.arg)) (quiet (by rw [op]; decide))
        (he.trans (by unfold entry; simp only [op, if_pos ht, push_routine]; rfl)) fun r h => emits_quad h (jump_opnd hU ht)
    · rename_i ht
      exact .inl (he.trans (by unfold entry; simp only [op, if_neg ht]))
  case h_26 =>
    refine good_handler i.opcode (bs := le 8 i.arg) (quiet (by refine ⟨?_, ?_, ?_, ?_, ?_, ?_⟩ <;> assumption)) (he.trans ?_)
      fun r h => emits_quad h (opnd_int _)
    unfold entry
    split
    all_goals first
      | contradiction
      | rfl
      | (rename_i op; rw [op, push_routine]; rfl)

end Kefir.AsmCode
