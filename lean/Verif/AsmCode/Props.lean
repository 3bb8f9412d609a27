import Verif.AsmCode.Support

/-!
# C96: the assembly text of a function is the table that its instructions stand for

* `C96_body_partial`: the text of an accepted body assembles to one entry of 16 bytes for every instruction, the one the
  instruction needs, and the entry that leaves the function.
* `C96_jump_partial`: the operand of a jump is the place of the entry it is to go to.
* `C96_accepted_partial`: a body in which every instruction makes sense is accepted.
* `C96_routine_partial`: the label of an appended routine is bound to code that does what the instruction needs.
* `C96_defined_partial`: over all functions of a module, every routine that an entry refers to is defined.
* `C96_gates`: gates have different labels.
* `C96_long_name_false`, `C96_bits_false`, `C96_padding_false`, `C96_va_list_false`, `C96_vgate_false`: the conditions
  cannot be dropped.
-/
namespace Kefir.AsmCode
open Kefir.StaticData Kefir.AsmData

/-- The entries of the instructions, in order. -/
def Code (P : Program) (f : Func) (es : List Entry) : Prop :=
  es.length = f.body.length ∧ ∀ k, k < f.body.length → entryAt P f k = es[k]?

/-- The table: the entries, then one that leaves the function. -/
def table (f : Func) (es : List Entry) : List Entry := es ++ [⟨epilogueLabel f.name, le 8 0⟩]

/-- Its bytes. -/
def image (f : Func) (es : List Entry) : List Cell := (table f es).flatMap Entry.cells

theorem table_sizes {P : Program} {f : Func} {es : List Entry} (h : Code P f es) : ∀ e ∈ table f es, e.cells.length = 16 := by
  intro e he
  rcases List.mem_append.mp he with he | he
  · obtain ⟨k, hk⟩ := List.getElem?_of_mem he
    have hlt : k < f.body.length := by
      have := (List.getElem?_eq_some_iff.mp hk).1
      rw [h.1] at this
      exact this
    have h2 := h.2 k hlt
    rw [hk, entryAt_eq (List.getElem?_eq_getElem hlt)] at h2
    exact entry_size h2
  · obtain rfl := List.mem_singleton.mp he
    unfold Entry.cells
    rw [List.length_append, address_length, le_length]

theorem body_full {P : Program} {f : Func} (hN : Names P) (hU : Usual f) (hF : FetchesValues P f) (st : St) :
    match functionBody P f st with
    | .ok (cs, st') => st' = afterAll P f f.body st ∧ ∃ es, Code P f es ∧
        ∀ g : Gen, g.empty = false → g.out = [] → assemble (bodyText g cs) =
          some (.label (bodyLabel f.name) :: (image f es).map .cell)
    | .error e => ∃ k, k < f.body.length ∧ Stuck P f st k e := by
  have h := loop_good hN hU hF st f.body.length 0 st (by omega) (by omega) rfl
  unfold functionBody
  cases hb : bodyLoop P f f.body.length 0 st with
  | error e => rw [hb] at h; exact h
  | ok r =>
    obtain ⟨cs, st'⟩ := r
    rw [hb] at h
    obtain ⟨ha, es, hlen, hes, hem⟩ := h
    refine ⟨ha, es, ⟨by omega, fun k hk => ?_⟩, fun g hg ho => ?_⟩
    · have := hes k (by omega)
      rw [Nat.zero_add] at this
      exact this
    · have he : Emits [quad (nameArg ("__" ++ f.name ++ "_epilogue")) zeroArg] (Entry.cells ⟨epilogueLabel f.name, le 8 0⟩) :=
        emits_quad (epilogue_name hU.1) opnd_zero
      have hall := hem.append he
      have hn : isName ("__" ++ f.name ++ "_body").toList = true := body_name hU.1
      unfold bodyText
      rw [assemble_calls g hg ho]
      · rw [List.flatMap_cons, hall.2]
        show some ([Item.label (String.ofList ("__" ++ f.name ++ "_body").toList)] ++ _) = _
        rw [String.ofList_toList]
        unfold image table
        rw [List.flatMap_append, List.flatMap_cons, List.flatMap_nil, List.append_nil]
        rfl
      · intro c hc
        rcases List.mem_cons.mp hc with rfl | hc
        · exact hn
        · exact hall.1 c hc

/-- **C96, bodies.** If the code generator accepts a function, then its text, read by the assembler, is the label of the body
and 16 bytes for every instruction, in order: the address of the routine and the operand that the instruction needs; and 16
bytes that leave the function.  Missing from the full property: names that are operators for the assembler, very long
names, and `va_arg` for padding. -/
theorem C96_body_partial (P : Program) (f : Func) (hN : Names P) (hU : Usual f) (hF : FetchesValues P f) (st st' : St)
    (cs : List Call) (h : functionBody P f st = .ok (cs, st')) (g : Gen) (hg : g.empty = false) (ho : g.out = []) :
    ∃ es, Code P f es ∧ assemble (bodyText g cs) = some (.label (bodyLabel f.name) :: (image f es).map .cell) ∧
      (image f es).length = 16 * (f.body.length + 1) ∧
      (∀ k e, es[k]? = some e → ((image f es).drop (16 * k)).take 16 = e.cells) := by
  have b := body_full hN hU hF st
  rw [h] at b
  obtain ⟨_, es, hc, ha⟩ := b
  refine ⟨es, hc, ha g hg ho, ?_, ?_⟩
  · unfold image
    rw [pieces_length (table_sizes hc)]
    unfold table
    rw [List.length_append, hc.1]
    rfl
  · intro k e hk
    refine piece (table_sizes hc) ?_
    unfold table
    rw [List.getElem?_append_left (List.getElem?_eq_some_iff.mp hk).1, hk]

/-- **C96, jumps.** In the text of an accepted function, the operand of a jump, of a branch and of the address of a place in
the code is an address in the body; what is there is the entry of the instruction that is meant, or, for the place behind
the last instruction, the entry that leaves the function. -/
theorem C96_jump_partial (P : Program) (f : Func) (hN : Names P) (hU : Usual f) (hF : FetchesValues P f) (st st' : St)
    (cs : List Call) (h : functionBody P f st = .ok (cs, st')) (g : Gen) (hg : g.empty = false) (ho : g.out = [])
    (k : Nat) (i : Ins) (hi : f.body[k]? = some i) (hj : i.opcode = 0x02 ∨ i.opcode = 0x04 ∨ i.opcode = 0x13) :
    ∃ (cells : List Cell) (e target : Entry), assemble (bodyText g cs) = some (.label (bodyLabel f.name) :: cells.map .cell) ∧
      (cells.drop (16 * k)).take 16 = e.cells ∧ e.operand = toLabel (bodyLabel f.name) (16 * i.arg) ∧
      (cells.drop (16 * i.arg)).take 16 = target.cells ∧
      (entryAt P f i.arg = some target ∨ i.arg = f.body.length ∧ target = ⟨epilogueLabel f.name, le 8 0⟩) := by
  obtain ⟨es, hc, ha, _, hp⟩ := C96_body_partial P f hN hU hF st st' cs h g hg ho
  have hk : k < f.body.length := (List.getElem?_eq_some_iff.mp hi).1
  have he := hc.2 k hk
  have hke : k < es.length := by rw [hc.1]; exact hk
  rw [List.getElem?_eq_getElem hke] at he
  have hop : es[k].operand = toLabel (bodyLabel f.name) (16 * i.arg) ∧ i.arg ≤ f.body.length := by
    rw [entryAt_eq hi] at he
    unfold entry at he
    rcases hj with hj | hj | hj
    · rw [hj] at he
      simp only at he
      split at he
      · rename_i hle
        cases hr : routine 2 with
        | none => rw [hr] at he; cases he
        | some r =>
          rw [hr] at he
          exact ⟨by rw [← Option.some.inj he], hle⟩
      · cases he
    · rw [hj] at he
      simp only at he
      split at he
      · rename_i hle
        cases hr : routine 4 with
        | none => rw [hr] at he; cases he
        | some r =>
          rw [hr] at he
          exact ⟨by rw [← Option.some.inj he], hle⟩
      · cases he
    · rw [hj] at he
      simp only at he
      split at he
      · rename_i hle
        exact ⟨by rw [← Option.some.inj he], hle⟩
      · cases he
  by_cases hlt : i.arg < f.body.length
  · have ht : i.arg < es.length := by rw [hc.1]; exact hlt
    refine ⟨image f es, es[k], es[i.arg], ha, hp k _ (List.getElem?_eq_getElem hke), hop.1,
      hp i.arg _ (List.getElem?_eq_getElem ht), .inl ?_⟩
    rw [hc.2 i.arg hlt, List.getElem?_eq_getElem ht]
  · have e : i.arg = f.body.length := by have := hop.2; omega
    refine ⟨image f es, es[k], ⟨epilogueLabel f.name, le 8 0⟩, ha, hp k _ (List.getElem?_eq_getElem hke), hop.1, ?_,
      .inr ⟨e, rfl⟩⟩
    refine piece (table_sizes hc) ?_
    unfold table
    rw [e, ← hc.1, List.getElem?_append_right (Nat.le_refl _), Nat.sub_self]
    rfl

/-- `va_arg` for `va_list` itself at most once for every type. -/
def NoRepeat (P : Program) (f : Func) : Prop :=
  ∀ (j k : Nat) (a b : Ins) (n : Node), j < k → f.body[j]? = some a → f.body[k]? = some b → a.opcode = 0x72 → b.opcode = 0x72 →
    a.lo = b.lo → a.hi = b.hi → nodeOf P b = some n → n.fetch ≠ some .vaList

/-- **C96, acceptance.** A function is accepted if every one of its instructions has an entry (and only then, by
`C96_body_partial`), provided that `va_list` itself is not fetched repeatedly. -/
theorem C96_accepted_partial (P : Program) (f : Func) (hN : Names P) (hU : Usual f) (hF : FetchesValues P f)
    (hR : NoRepeat P f) (h : ∀ k, k < f.body.length → (entryAt P f k).isSome = true) (st : St) (hs : st.appendix = []) :
    ∃ cs st', functionBody P f st = .ok (cs, st') := by
  have b := body_full hN hU hF st
  cases hx : functionBody P f st with
  | ok r => exact ⟨r.1, r.2, rfl⟩
  | error e =>
    exfalso
    rw [hx] at b
    obtain ⟨k, hk, hn | ⟨_, i, n, hi, hop, hnode, hf, hm⟩⟩ := b
    · have := h k hk
      rw [hn] at this
      cases this
    · obtain ⟨x, hx1, hx2⟩ := List.mem_map.mp hm
      rcases afterAll_from hx1 with h0 | ⟨j, hj, key, r, h1, h2⟩
      · rw [hs] at h0; cases h0
      · rw [h2] at hx2
        have hkey := vaLabel_inj hx2
        obtain ⟨m, hmj⟩ := List.getElem?_of_mem hj
        have hmk : m < k := by
          have := (List.getElem?_eq_some_iff.mp hmj).1
          rw [List.length_take] at this
          omega
        rw [List.getElem?_take_of_lt hmk] at hmj
        rcases needs_inv h1 with ⟨_, e1, _⟩ | ⟨_, e1, _⟩ | ⟨hjo, n', hn', hc⟩
        · rw [e1] at hkey; cases hkey
        · rw [e1] at hkey; cases hkey
        · rcases hc with ⟨_, e1, _⟩ | ⟨_, e1, _⟩ | ⟨_, e1, _⟩ | ⟨_, e1, _⟩
          · rw [e1] at hkey; cases hkey
          · rw [e1] at hkey; cases hkey
          · rw [e1] at hkey
            obtain ⟨e2, e3⟩ := VaKey.typed.inj hkey
            exact hR m k j i n hmk hmj hi hjo hop e2 e3 hnode hf
          · rw [e1] at hkey
            obtain ⟨e2, e3⟩ := VaKey.typed.inj hkey
            exact hR m k j i n hmk hmj hi hjo hop e2 e3 hnode hf

/-- **C96, appended code.** In an accepted function, the label that the entry of an instruction for variable arguments refers
to is bound to code that does what the instruction needs, and to nothing else.  Missing from the full property: types that
consist of bits. -/
theorem C96_routine_partial (P : Program) (f : Func) (hN : Names P) (hU : Usual f) (hF : FetchesValues P f) (st st' : St)
    (hs : st.appendix = []) (cs : List Call) (h : functionBody P f st = .ok (cs, st'))
    (i : Ins) (hi : i ∈ f.body) (k : VaKey) (r : Routine) (hn : needs P i = some (k, r)) (hb : ∀ b, r ≠ .integer 18 b) :
    (vaLabel f.name k, r) ∈ st'.appendix ∧ (st'.appendix.map Prod.fst).Nodup := by
  have b := body_full hN hU hF st
  rw [h] at b
  obtain ⟨rfl, _⟩ := b
  obtain ⟨r', hr'⟩ := @afterAll_has P f f.body st i hi k r hn
  refine ⟨?_, afterAll_nodup (by rw [hs]; exact List.nodup_nil)⟩
  rcases afterAll_from hr' with h0 | ⟨j, _, key, r2, h1, h2⟩
  · rw [hs] at h0; cases h0
  · obtain ⟨e1, rfl⟩ := Prod.mk.inj h2
    obtain rfl := vaLabel_inj e1
    rw [needs_det hn h1 hb] at hr'
    exact hr'

/-- The routines that come with the run-time. -/
def runtimeNames : List String :=
  routines.map Prod.snd ++ ["__kefirrt_copy_vararg", "__kefirrt_load_long_double_vararg"]

theorem routine_runtime {op : Nat} {r : String} (h : routine op = some r) : r ∈ runtimeNames := by
  unfold routine at h
  refine List.mem_append_left _ (List.mem_map.mpr ⟨(op, r), ?_, rfl⟩)
  generalize routines = l at h
  induction l with
  | nil => cases h
  | cons x l ih =>
    obtain ⟨o, s⟩ := x
    by_cases e : (op == o) = true
    · rw [List.lookup, e] at h
      simp only [Option.some.injEq] at h
      rw [show op = o by simpa using e, ← h]
      exact List.mem_cons_self
    · rw [List.lookup, Bool.eq_false_iff.mpr e] at h
      exact List.mem_cons_of_mem _ (ih h)

theorem gateLabels_mem {P : Program} {ids : List Nat} {id : Nat} {d : Decl} (hd : P.decls id = some d) (h : id ∈ ids) :
    gateLabel id d ∈ gateLabels P ids false ∧ pointerGateLabel id d ∈ gateLabels P ids true := by
  unfold gateLabels
  refine ⟨List.mem_map.mpr ⟨id, h, ?_⟩, List.mem_map.mpr ⟨id, h, ?_⟩⟩
  · rw [hd]
    exact gate_label id d
  · rw [hd]
    exact pointerGate_label id d

/-- The routine of an entry is defined somewhere. -/
def Defined (P : Program) (f : Func) (gates vgates : List Nat) (tls : List String) (appendix : List (String × Routine))
    (s : String) : Prop :=
  s ∈ runtimeNames ∨ s = epilogueLabel f.name ∨ s ∈ gateLabels P gates false ∨ s ∈ gateLabels P vgates true ∨
  s ∈ tlsLabels tls ∨ s ∈ appendix.map Prod.fst

theorem entry_defined {P : Program} {f : Func} {st : St} {i : Ins} (hi : i ∈ f.body) {next : Option Ins} {e : Entry}
    (h : entry P f i next = some e) {st' : St} (hx : Extends (afterAll P f f.body st) st')  :
    Defined P f st'.gates st'.vgates st'.tls (afterAll P f f.body st).appendix e.routine := by
  obtain ⟨u1, u2, u3⟩ := @afterAll_uses P f f.body st i hi
  have hpush : push ∈ runtimeNames := by decide +kernel
  have va : ∀ {k r}, needs P i = some (k, r) → vaLabel f.name k ∈ (afterAll P f f.body st).appendix.map Prod.fst := by
    intro k r hn
    obtain ⟨r', hr'⟩ := @afterAll_has P f f.body st i hi k r hn
    exact List.mem_map.mpr ⟨_, hr', rfl⟩
  have runtime : ∀ {op : Nat} {g : String → Entry}, (routine op).map g = some e → (∀ r, (g r).routine = r) →
      Defined P f st'.gates st'.vgates st'.tls (afterAll P f f.body st).appendix e.routine := by
    intro op g h1 h2
    cases hr : routine op with
    | none => rw [hr] at h1; cases h1
    | some r =>
      rw [hr] at h1
      rw [← Option.some.inj h1, h2]
      exact .inl (routine_runtime hr)
  have node : ∀ {r : String} {g : Node → List Cell}, r ∈ runtimeNames → ((nodeOf P i).map fun n => ⟨r, g n⟩) = some e →
      Defined P f st'.gates st'.vgates st'.tls (afterAll P f f.body st).appendix e.routine := by
    intro r g h1 h2
    cases hn : nodeOf P i with
    | none => rw [hn] at h2; cases h2
    | some n =>
      rw [hn] at h2
      rw [← Option.some.inj h2]
      exact .inl h1
  unfold entry at h
  split at h
  case h_1 =>
    split at h
    · exact runtime h fun _ => rfl
    · cases h
  case h_2 =>
    split at h
    · exact runtime h fun _ => rfl
    · cases h
  case h_3 => cases h; exact .inr (.inl rfl)
  case h_4 op =>
    cases hd : P.decls i.lo with
    | none => rw [hd] at h; cases h
    | some d =>
      rw [hd] at h
      rw [← Option.some.inj h]
      exact .inr (.inr (.inl (gateLabels_mem hd (hx.gates _ (u1 op))).1))
  case h_5 op =>
    cases hd : P.decls i.lo with
    | none => rw [hd] at h; cases h
    | some d =>
      rw [hd] at h
      rw [← Option.some.inj h]
      exact .inr (.inr (.inr (.inl (gateLabels_mem hd (hx.vgates _ (u2 op))).2)))
  case h_6 => cases h; exact .inl hpush
  case h_7 => cases h; exact .inl hpush
  case h_8 => cases h; exact .inl hpush
  case h_9 => cases h; exact .inl hpush
  case h_10 =>
    split at h
    · split at h
      · cases h; exact .inl hpush
      · cases h
    · cases h
  case h_11 =>
    split at h
    · cases h; exact .inl hpush
    · cases h
  case h_12 =>
    split at h
    · cases h; exact .inl hpush
    · cases h
  case h_13 =>
    cases hs : P.symbols i.lo with
    | none => rw [hs] at h; cases h
    | some s =>
      rw [hs] at h
      rw [← Option.some.inj h]
      exact .inl hpush
  case h_14 op =>
    cases hs : P.symbols i.lo with
    | none => rw [hs] at h; cases h
    | some s =>
      rw [hs] at h
      rw [← Option.some.inj h]
      exact .inr (.inr (.inr (.inr (.inl (List.mem_map.mpr ⟨s, hx.tls _ (u3 op s hs), rfl⟩)))))
  case h_15 => exact node (by decide +kernel) h
  case h_16 => exact node (by decide +kernel) h
  case h_17 => exact node (by decide +kernel) h
  case h_18 => exact node (by decide +kernel) h
  case h_19 => cases h; exact .inl (routine_runtime getlocals_routine)
  case h_20 op =>
    cases h
    exact .inr (.inr (.inr (.inr (.inr (va (k := .start) (r := .start) (by unfold needs; simp only [op]))))))
  case h_21 => cases h; exact .inl (by decide +kernel)
  case h_22 op =>
    cases hn : nodeOf P i with
    | none => rw [hn] at h; cases h
    | some n =>
      rw [hn, Option.bind_some] at h
      have hneed := fun x (hf : n.fetch = some x) => show needs P i = _ by
        unfold needs; simp only [op]; rw [hn, Option.bind_some, hf]
      unfold fetchEntry at h
      cases hf : n.fetch with
      | none => rw [hf] at h; cases h
      | some x =>
        rw [hf] at h
        rw [← Option.some.inj h]
        have := hneed x hf
        cases x with
        | integer => exact .inr (.inr (.inr (.inr (.inr (va this)))))
        | floating => exact .inr (.inr (.inr (.inr (.inr (va this)))))
        | longDouble => exact .inl (by simp [runtimeNames])
        | aggregate => exact .inr (.inr (.inr (.inr (.inr (va this)))))
        | vaList => exact .inr (.inr (.inr (.inr (.inr (va this)))))
  case h_23 op =>
    cases h
    exact .inr (.inr (.inr (.inr (.inr (va (k := .stop) (r := .stop) (by unfold needs; simp only [op]))))))
  case h_24 => exact runtime h fun _ => rfl

theorem functions_extends {P : Program} (hN : Names P) : (fs : List Func) → (∀ f ∈ fs, Usual f ∧ FetchesValues P f) →
    {st st' : St} → {outs : List (List Call × List (String × Routine))} → functions P fs st = .ok (outs, st') →
    Extends st st' ∧ (st.gates.Nodup ∧ st.vgates.Nodup ∧ st.tls.Nodup → st'.gates.Nodup ∧ st'.vgates.Nodup ∧ st'.tls.Nodup) ∧
    ((∀ id ∈ st.gates, (P.decls id).isSome = true) → ∀ id ∈ st'.gates, (P.decls id).isSome = true) ∧
    outs.length = fs.length ∧
    ∀ (k : Nat) (f : Func) (out : List Call × List (String × Routine)), fs[k]? = some f → outs[k]? = some out → ∃ st1 st2, st1.appendix = [] ∧
      functionBody P f st1 = .ok (out.1, st2) ∧ out.2 = st2.appendix ∧ Extends st2 st'
  | [], _, st, st', outs, h => by
    cases h
    exact ⟨Extends.refl _, fun h => h, fun h => h, rfl, fun k f out hf => by simp at hf⟩
  | f :: fs, hf, st, st', outs, h => by
    unfold functions at h
    have b := body_full hN (hf f List.mem_cons_self).1 (hf f List.mem_cons_self).2 { st with appendix := [] }
    cases hb : functionBody P f { st with appendix := [] } with
    | error e => rw [hb] at h; cases h
    | ok r =>
      obtain ⟨cs, st1⟩ := r
      rw [hb] at h b
      simp only at h
      cases hr : functions P fs st1 with
      | error e => rw [hr] at h; cases h
      | ok r =>
        obtain ⟨rest, st2⟩ := r
        rw [hr] at h
        cases h
        obtain ⟨ih1, ih2, ih5, ih3, ih4⟩ := functions_extends hN fs (fun g hg => hf g (List.mem_cons_of_mem _ hg)) hr
        have hx : Extends st st1 := by
          rw [b.1]
          have := @afterAll_extends P f f.body { st with appendix := [] }
          exact ⟨this.gates, this.vgates, this.tls⟩
        refine ⟨hx.trans ih1, fun hnd => ih2 ?_, fun hd => ih5 ?_, by simp [ih3], ?_⟩
        · rw [b.1]
          exact afterAll_sets hnd
        · obtain ⟨b1, es, hc, _⟩ := b
          rw [b1]
          intro id hid
          rcases afterAll_gates hid with h0 | ⟨i, hi, hop, rfl⟩
          · exact hd id h0
          · obtain ⟨k, hk⟩ := List.getElem?_of_mem hi
            have hlt := (List.getElem?_eq_some_iff.mp hk).1
            have he := hc.2 k hlt
            rw [List.getElem?_eq_getElem (by rw [hc.1]; exact hlt), entryAt_eq hk] at he
            unfold entry at he
            rw [hop] at he
            simp only at he
            cases hdd : P.decls i.lo with
            | none => rw [hdd] at he; cases he
            | some d => rfl
        · intro k g out hg hout
          cases k with
          | zero =>
            cases hg
            cases hout
            exact ⟨{ st with appendix := [] }, st1, rfl, hb, rfl, ih1⟩
          | succ k => exact ih4 k g out hg hout

/-- **C96, definitions.** If the code generator accepts the functions of a module, then every routine that an entry refers to
is defined: by the run-time, by the end of the function, by a gate, by an entry for a thread-local object, or by the code
that is appended to the function. -/
theorem C96_defined_partial (P : Program) (fs : List Func) (hN : Names P) (hf : ∀ f ∈ fs, Usual f ∧ FetchesValues P f)
    (st st' : St) (outs : List (List Call × List (String × Routine))) (h : functions P fs st = .ok (outs, st'))
    (m : Nat) (f : Func) (hm : fs[m]? = some f) (k : Nat) (hk : k < f.body.length) :
    ∃ out e, outs[m]? = some out ∧ entryAt P f k = some e ∧
      Defined P f st'.gates st'.vgates st'.tls out.2 e.routine := by
  obtain ⟨_, _, _, hlen, hall⟩ := functions_extends hN fs hf h
  have hml : m < outs.length := by rw [hlen]; exact (List.getElem?_eq_some_iff.mp hm).1
  have hmem := List.mem_of_getElem? hm
  obtain ⟨st1, st2, _, hb, ho, hx⟩ := hall m f outs[m] hm (List.getElem?_eq_getElem hml)
  have b := body_full hN (hf f hmem).1 (hf f hmem).2 st1
  rw [hb] at b
  obtain ⟨rfl, es, hc, _⟩ := b
  have he := hc.2 k hk
  have hke : k < es.length := by rw [hc.1]; exact hk
  rw [List.getElem?_eq_getElem hke] at he
  refine ⟨outs[m], es[k], List.getElem?_eq_getElem hml, he, ?_⟩
  rw [ho]
  rw [entryAt_eq (List.getElem?_eq_getElem hk)] at he
  exact entry_defined (List.getElem_mem hk) he hx

/-- **C96, gates.** No two gates have the same label. -/
theorem C96_gates (P : Program) (fs : List Func) (hN : Names P) (hf : ∀ f ∈ fs, Usual f ∧ FetchesValues P f)
    (st' : St) (outs : List (List Call × List (String × Routine)))
    (h : functions P fs ⟨[], [], [], []⟩ = .ok (outs, st')) :
    (gateLabels P st'.gates false).Nodup := by
  have hnd := ((functions_extends hN fs hf h).2.1 ⟨List.nodup_nil, List.nodup_nil, List.nodup_nil⟩).1
  have hd := (functions_extends hN fs hf h).2.2.1 (by simp)
  unfold gateLabels
  revert hd hnd
  generalize st'.gates = ids
  intro hnd hd
  induction ids with
  | nil => exact List.nodup_nil
  | cons a ids ih =>
    rw [List.map_cons, List.nodup_cons]
    rw [List.nodup_cons] at hnd
    refine ⟨?_, ih hnd.2 (fun id hid => hd id (List.mem_cons_of_mem _ hid))⟩
    intro hm
    obtain ⟨b, hb, e⟩ := List.mem_map.mp hm
    obtain ⟨da, hda⟩ := Option.isSome_iff_exists.mp (hd a List.mem_cons_self)
    obtain ⟨db, hdb⟩ := Option.isSome_iff_exists.mp (hd b (List.mem_cons_of_mem _ hb))
    rw [hda, hdb] at e
    have : b = a := gateLabel_inj ((gate_label b db).symm.trans (e.trans (gate_label a da)))
    exact hnd.1 (this ▸ hb)

/-! ### A function

```
GETGLOBAL v; PUSHI64 -1; BRANCH 4; INVOKE 0; VARARG_START; VARARG_GET int; PUSHLD …; JMP 9; RET
```
-/

def sampleProgram : Program where
  decls := fun n => if n = 0 then some ⟨some "g", false⟩ else if n = 1 then some ⟨some "g", false⟩ else none
  types := fun n =>
    if n = 0 then some [⟨13, 0, 4, 0⟩, ⟨10, 0, 8, 8⟩, ⟨19, 0, 24, 16⟩, ⟨0, 0, 0, 0⟩, ⟨18, 3, 1, 0⟩, ⟨18, 5, 1, 0⟩] else none
  symbols := fun n => if n = 0 then some "v" else none
  literals := fun _ => none

def sample : Func where
  name := "f"
  body := [⟨0x52, 0⟩, ⟨0x11, 2 ^ 64 - 1⟩, ⟨0x04, 4⟩, ⟨0x06, 0⟩, ⟨0x70, 0⟩, ⟨0x72, 0⟩, ⟨0x82, 1⟩, ⟨0x11, 2⟩, ⟨0x02, 10⟩, ⟨0x05, 0⟩]
  locals := 32

def fresh : St := ⟨[], [], [], []⟩
def afterText : Gen := ⟨false, 0, []⟩

theorem sample_names : Names sampleProgram := by
  refine ⟨fun k d n hd hn => ?_, fun k s hs => ?_⟩
  · unfold sampleProgram at hd
    simp only at hd
    split at hd
    · cases hd; cases hn; decide +kernel
    · split at hd
      · cases hd; cases hn; decide +kernel
      · cases hd
  · unfold sampleProgram at hs
    simp only at hs
    split at hs
    · cases hs; decide +kernel
    · cases hs

theorem sample_usual : Usual sample := by
  refine ⟨by decide +kernel, by decide +kernel, by decide +kernel, ?_⟩
  decide +kernel

theorem sample_fetches : FetchesValues sampleProgram sample := by
  intro i hi hop ns hns
  simp only [sample, List.mem_cons, List.not_mem_nil, or_false] at hi
  rcases hi with rfl | rfl | rfl | rfl | rfl | rfl | rfl | rfl | rfl | rfl
  all_goals first | (exact absurd hop (by decide)) | skip
  cases hns
  refine ⟨by decide, ?_⟩
  intro n hn
  cases hn
  decide

/-- The text. -/
example : (functionBody sampleProgram sample fresh).toOption.map (fun r => String.ofList (bodyText afterText r.1)) = some
    "\n__f_body:\n    .quad __kefirrt_push_impl, v\n    .quad __kefirrt_push_impl, 18446744073709551615\n    .quad __kefirrt_branch_impl, __f_body + 64\n    .quad __kefirrt_sfunction_g_gate0, 0\n    .quad __f_vararg_start, 0\n    .quad __f_vararg_13_type, 0\n    .quad __kefirrt_push_impl, 1\n    .quad __kefirrt_push_impl, 2\n    .quad __kefirrt_jmp_impl, __f_body + 160\n    .quad __f_epilogue, 0\n    .quad __f_epilogue, 0\n" := by
  decide +kernel

/-- The hypotheses of `C96_accepted_partial`, and with it those of the others, hold. -/
example : ∃ cs st' es, functionBody sampleProgram sample fresh = .ok (cs, st') ∧ Code sampleProgram sample es ∧
    assemble (bodyText afterText cs) = some (.label "__f_body" :: (image sample es).map .cell) ∧
    ("__f_vararg_13_type", Routine.integer 13 0) ∈ st'.appendix := by
  have hR : NoRepeat sampleProgram sample := by
    intro j k a b n hjk ha hb hao hbo hl hh hn hf
    have h5 : ∀ j : Fin 10, ∀ a ∈ sample.body[j.val]?, a.opcode = 0x72 → j.val = 5 := by decide +kernel
    have hj : j = 5 := h5 ⟨j, (List.getElem?_eq_some_iff.mp ha).1⟩ a ha hao
    have hk : k = 5 := h5 ⟨k, (List.getElem?_eq_some_iff.mp hb).1⟩ b hb hbo
    omega
  obtain ⟨cs, st', h⟩ := C96_accepted_partial sampleProgram sample sample_names sample_usual sample_fetches hR
    (by decide +kernel) fresh rfl
  obtain ⟨es, h1, h2, _⟩ := C96_body_partial _ _ sample_names sample_usual sample_fetches _ _ _ h afterText rfl rfl
  refine ⟨cs, st', es, h, h1, h2, ?_⟩
  exact (C96_routine_partial _ _ sample_names sample_usual sample_fetches fresh st' rfl cs h ⟨0x72, 0⟩ (by simp [sample])
    (.scalar 13) (.integer 13 0) (by decide +kernel) (by simp)).1

/-! ### Where the property fails -/

/-- A function with a name of 250 characters. -/
def longName : Func where
  name := String.ofList (List.replicate 250 'a')
  body := [⟨0x72, 0⟩, ⟨0x72, 2 ^ 32⟩]
  locals := 0

theorem run_of {β : Type} {x : Out (List Call × St)} {g : List Call × St → β} {v : β} (h : x.toOption.map g = some v) :
    ∃ r, x = .ok r ∧ g r = v := by
  cases x with
  | error e => cases h
  | ok r => exact ⟨r, rfl, Option.some.inj h⟩

theorem longName_run : (functionBody sampleProgram longName fresh).toOption.map (fun r => r.2.appendix.map Prod.snd) =
    some [.integer 13 0] := by decide +kernel

theorem longName_needs : needs sampleProgram ⟨0x72, 0⟩ = some (.scalar 13, .integer 13 0) ∧
    needs sampleProgram ⟨0x72, 2 ^ 32⟩ = some (.scalar 10, .sse 10) := by decide +kernel

/-- **C96 is false** for very long names: the labels of appended code are cut off after 254 characters.  Here
`va_arg(…, int)` and `va_arg(…, double)` have the same label, and only the code for `int` is appended. -/
theorem C96_long_name_false : ∃ cs st' k k', functionBody sampleProgram longName fresh = .ok (cs, st') ∧
    needs sampleProgram ⟨0x72, 0⟩ = some (k, .integer 13 0) ∧ needs sampleProgram ⟨0x72, 2 ^ 32⟩ = some (k', .sse 10) ∧
    st'.appendix.map Prod.snd = [.integer 13 0] := by
  obtain ⟨r, h1, h2⟩ := run_of longName_run
  exact ⟨r.1, r.2, .scalar 13, .scalar 10, h1, longName_needs.1, longName_needs.2, h2⟩

/-- **C96 is false** for types that consist of bits: three bits and five bits have the same label, and only the code for
three bits is appended. -/
theorem C96_bits_false : ∃ cs st' k k', functionBody sampleProgram ⟨"f", [⟨0x72, 4 * 2 ^ 32⟩, ⟨0x72, 5 * 2 ^ 32⟩], 0⟩ fresh = .ok (cs, st') ∧
    needs sampleProgram ⟨0x72, 4 * 2 ^ 32⟩ = some (k, .integer 18 3) ∧
    needs sampleProgram ⟨0x72, 5 * 2 ^ 32⟩ = some (k', .integer 18 5) ∧
    st'.appendix.map Prod.snd = [.integer 18 3] := by
  have h : (match functionBody sampleProgram ⟨"f", [⟨0x72, 4 * 2 ^ 32⟩, ⟨0x72, 5 * 2 ^ 32⟩], 0⟩ fresh with
    | .ok (_, st') => st'.appendix.map Prod.snd == [.integer 18 3]
    | .error _ => false) = true := by decide +kernel
  cases hx : functionBody sampleProgram ⟨"f", [⟨0x72, 4 * 2 ^ 32⟩, ⟨0x72, 5 * 2 ^ 32⟩], 0⟩ fresh with
  | error e => rw [hx] at h; cases h
  | ok r =>
    rw [hx] at h
    exact ⟨r.1, r.2, .scalar 18, .scalar 18, rfl, by decide +kernel, by decide +kernel, by simpa using h⟩

/-- **C96 is false** for `va_arg` of padding: there is no entry for it, although it is accepted, so that the entries behind it
are not where jumps go to.  Here the jump goes to the entry that leaves the function instead of to `NOP`. -/
theorem C96_padding_false :
    (functionBody sampleProgram ⟨"f", [⟨0x72, 3 * 2 ^ 32⟩, ⟨0x02, 2⟩, ⟨0x01, 0⟩], 0⟩ fresh).toOption.map
      (fun r => String.ofList (bodyText afterText r.1)) =
    some "\n__f_body:\n    .quad __kefirrt_jmp_impl, __f_body + 32\n    .quad __kefirrt_nop_impl, 0\n    .quad __f_epilogue, 0\n" := by
  decide +kernel

/-- **C96 is false** for functions that fetch a `va_list` repeatedly: every instruction has an entry, but the function is
refused. -/
theorem C96_va_list_false :
    (∀ k, k < 2 → (entryAt sampleProgram ⟨"f", [⟨0x72, 2 * 2 ^ 32⟩, ⟨0x72, 2 * 2 ^ 32⟩], 0⟩ k).isSome = true) ∧
    functionBody sampleProgram ⟨"f", [⟨0x72, 2 * 2 ^ 32⟩, ⟨0x72, 2 * 2 ^ 32⟩], 0⟩ fresh = .error .alreadyExists := by
  refine ⟨by decide +kernel, ?_⟩
  have h : (match functionBody sampleProgram ⟨"f", [⟨0x72, 2 * 2 ^ 32⟩, ⟨0x72, 2 * 2 ^ 32⟩], 0⟩ fresh with
    | .ok _ => false
    | .error e => e == .alreadyExists) = true := by decide +kernel
  cases hx : functionBody sampleProgram ⟨"f", [⟨0x72, 2 * 2 ^ 32⟩, ⟨0x72, 2 * 2 ^ 32⟩], 0⟩ fresh with
  | error e => rw [hx] at h; rw [show e = .alreadyExists by simpa using h]
  | ok r => rw [hx] at h; cases h

/-- **C96 is false** for calls by pointers: two declarations of the same name have gates with the same label, which the
assembler refuses. -/
theorem C96_vgate_false : ∃ outs st',
    functions sampleProgram [⟨"f", [⟨0x07, 0⟩, ⟨0x07, 1⟩], 0⟩] fresh = .ok (outs, st') ∧
    gateLabels sampleProgram st'.vgates true = ["__kefirrt_sfunction_g_vgate", "__kefirrt_sfunction_g_vgate"] := by
  have h : (match functions sampleProgram [⟨"f", [⟨0x07, 0⟩, ⟨0x07, 1⟩], 0⟩] fresh with
    | .ok (_, st') => gateLabels sampleProgram st'.vgates true == ["__kefirrt_sfunction_g_vgate", "__kefirrt_sfunction_g_vgate"]
    | .error _ => false) = true := by decide +kernel
  cases hx : functions sampleProgram [⟨"f", [⟨0x07, 0⟩, ⟨0x07, 1⟩], 0⟩] fresh with
  | error e => rw [hx] at h; cases h
  | ok r =>
    rw [hx] at h
    exact ⟨r.1, r.2, rfl, by simpa using h⟩

end Kefir.AsmCode
