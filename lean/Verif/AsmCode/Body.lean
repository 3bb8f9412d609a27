import Verif.AsmCode.Lemmas

/-! # Assembly text of code: instructions -/

namespace Kefir.AsmCode
open Kefir.StaticData Kefir.AsmData

/-! ### The state after an instruction -/

def note {α : Type} [DecidableEq α] (l : List α) (x : α) : List α := if x ∈ l then l else l ++ [x]

def noteKey (a : List (String × Routine)) (k : String) (r : Routine) : List (String × Routine) :=
  if a.any (fun p => p.1 == k) then a else a ++ [(k, r)]

def after (P : Program) (f : Func) (i : Ins) (st : St) : St where
  gates := if i.opcode = 6 then note st.gates i.lo else st.gates
  vgates := if i.opcode = 7 then note st.vgates i.lo else st.vgates
  tls := if i.opcode = 0x6e then (match P.symbols i.lo with | some s => note st.tls s | none => st.tls) else st.tls
  appendix :=
    match needs P i with
    | some (k, r) => noteKey st.appendix (vaLabel f.name k) r
    | none => st.appendix

theorem needs_none {P : Program} {i : Ins} (h0 : i.opcode ≠ 0x70) (h1 : i.opcode ≠ 0x72) (h2 : i.opcode ≠ 0x73) :
    needs P i = none := by
  unfold needs
  split
  · exact absurd (by assumption) h0
  · exact absurd (by assumption) h2
  · exact absurd (by assumption) h1
  · rfl

theorem after_same {P : Program} {f : Func} {i : Ins} {st : St} (h : i.opcode ≠ 6 ∧ i.opcode ≠ 7 ∧ i.opcode ≠ 0x6e)
    (hn : needs P i = none) : after P f i st = st := by
  unfold after
  rw [if_neg h.1, if_neg h.2.1, if_neg h.2.2, hn]

theorem after_needs {P : Program} {f : Func} {i : Ins} {st : St} {k : VaKey} {r : Routine}
    (h : i.opcode ≠ 6 ∧ i.opcode ≠ 7 ∧ i.opcode ≠ 0x6e) (hn : needs P i = some (k, r)) :
    after P f i st = { st with appendix := noteKey st.appendix (vaLabel f.name k) r } := by
  unfold after
  rw [if_neg h.1, if_neg h.2.1, if_neg h.2.2, hn]

theorem insert_note (st : St) (r : Routine) (k : String) :
    (insertAppendix st r k).2 = { st with appendix := noteKey st.appendix k r } := by
  unfold insertAppendix noteKey
  split <;> rfl

/-! ### Labels -/

theorem buffered_id {s : String} (h : s.length ≤ 254) : buffered s = s := by
  unfold buffered
  rw [List.take_of_length_le (by rw [String.length_toList]; exact h), String.ofList_toList]

theorem dec_length {n k : Nat} (hk : 0 < k) (h : n < 10 ^ k) : (dec n).length ≤ k := by
  rw [← String.length_ofList, dec_repr]
  exact (Nat.length_repr_le_iff hk).2 h

theorem toString_length {n k : Nat} (hk : 0 < k) (h : n < 10 ^ k) : (toString n).length ≤ k := by
  rw [← decS_eq, decS, String.length_ofList]
  exact dec_length hk h

theorem lo_lt (i : Ins) : i.lo < 10 ^ 10 := by unfold Ins.lo; omega
theorem hi_lt (i : Ins) : i.hi < 10 ^ 10 := by unfold Ins.hi; omega

/-- The parts of a name that are appended to the name of a function. -/
theorem isName_label {f : String} (hf : isName f.toList = true) {s : List Char} (hs : s.all wordChar = true) :
    isName ("__".toList ++ f.toList ++ s) = true := by
  have h0 : isName "__".toList = true := by decide +kernel
  exact isName_append (isName_append h0 (name_all hf)) hs

theorem body_name {f : String} (hf : isName f.toList = true) : isName (bodyLabel f).toList = true := by
  unfold bodyLabel
  rw [String.toList_append, String.toList_append]
  exact isName_label hf (by decide +kernel)

theorem epilogue_name {f : String} (hf : isName f.toList = true) : isName (epilogueLabel f).toList = true := by
  unfold epilogueLabel
  rw [String.toList_append, String.toList_append]
  exact isName_label hf (by decide +kernel)

theorem tls_name {s : String} (hs : isName s.toList = true) : isName (tlsLabel s).toList = true := by
  unfold tlsLabel
  rw [String.toList_append]
  exact isName_append (by decide +kernel) (name_all hs)

theorem va_name {f : String} (hf : isName f.toList = true) (k : VaKey) : isName (vaLabel f k).toList = true := by
  cases k with
  | start =>
    unfold vaLabel
    rw [String.toList_append, String.toList_append]
    exact isName_label hf (by decide +kernel)
  | stop =>
    unfold vaLabel
    rw [String.toList_append, String.toList_append]
    exact isName_label hf (by decide +kernel)
  | scalar c =>
    unfold vaLabel
    rw [String.toList_append, String.toList_append, String.toList_append, String.toList_append]
    exact isName_append (isName_append (isName_label hf (by decide +kernel)) (toString_word c)) (by decide +kernel)
  | typed t k =>
    unfold vaLabel
    rw [String.toList_append, String.toList_append, String.toList_append, String.toList_append, String.toList_append]
    exact isName_append (isName_append (isName_append (isName_label hf (by decide +kernel)) (toString_word t))
      (by decide +kernel)) (toString_word k)

theorem gate_name {id : Nat} {d : Decl} (hd : ∀ n, d.name = some n → isName n.toList = true) :
    isName (gateLabel id d).toList = true := by
  have hi : isName ("__kefirrt_ifunction_gate" ++ toString id).toList = true := by
    rw [String.toList_append]
    exact isName_append (by decide +kernel) (toString_word id)
  unfold gateLabel
  split
  · rename_i n hn hv
    rw [String.toList_append, String.toList_append, String.toList_append]
    exact isName_append (isName_append (isName_append (by decide +kernel) (name_all (hd n hn))) (by decide +kernel))
      (toString_word id)
  · exact hi

theorem pointerGate_name {id : Nat} {d : Decl} (hd : ∀ n, d.name = some n → isName n.toList = true) :
    isName (pointerGateLabel id d).toList = true := by
  unfold pointerGateLabel
  split
  · rename_i n hn
    rw [String.toList_append, String.toList_append]
    exact isName_append (isName_append (by decide +kernel) (name_all (hd n hn))) (by decide +kernel)
  · rw [String.toList_append]
    exact isName_append (by decide +kernel) (toString_word id)

theorem literalName_name (k : Nat) : isName (literalName k).toList = true := by
  unfold literalName
  rw [String.toList_append]
  exact isName_append (by decide +kernel) (toString_word k)

/-! ### Labels of appended code -/

theorem start_label {f : Func} (hU : Usual f) : buffered ("__" ++ f.name ++ "_vararg_start") = vaLabel f.name .start := by
  have h1 : "__".length = 2 := rfl
  have h2 : "_vararg_start".length = 13 := rfl
  have := hU.2.1
  exact buffered_id (by rw [String.length_append, String.length_append]; omega)

theorem stop_label {f : Func} (hU : Usual f) : buffered ("__" ++ f.name ++ "_vararg_end") = vaLabel f.name .stop := by
  have h1 : "__".length = 2 := rfl
  have h2 : "_vararg_end".length = 11 := rfl
  have := hU.2.1
  exact buffered_id (by rw [String.length_append, String.length_append]; omega)

theorem scalar_label {f : Func} (hU : Usual f) {c : Nat} (hc : c < 10 ^ 10) :
    buffered ("__" ++ f.name ++ "_vararg_" ++ decS c ++ "_type") = vaLabel f.name (.scalar c) := by
  have h1 : "__".length = 2 := rfl
  have h2 : "_vararg_".length = 8 := rfl
  have h3 : "_type".length = 5 := rfl
  have := hU.2.1
  have := toString_length (by decide) hc
  rw [decS_eq]
  exact buffered_id (by rw [String.length_append, String.length_append, String.length_append, String.length_append]; omega)

theorem typed_label {f : Func} (hU : Usual f) (i : Ins) :
    buffered ("__" ++ f.name ++ "_vararg_type" ++ decS i.lo ++ "_" ++ decS i.hi) = vaLabel f.name (.typed i.lo i.hi) := by
  have h1 : "__".length = 2 := rfl
  have h2 : "_vararg_type".length = 12 := rfl
  have h3 : "_".length = 1 := rfl
  have := hU.2.1
  have := toString_length (by decide) (lo_lt i)
  have := toString_length (by decide) (hi_lt i)
  rw [decS_eq, decS_eq]
  exact buffered_id (by
    rw [String.length_append, String.length_append, String.length_append, String.length_append, String.length_append]; omega)

/-! ### Instructions -/

/-- What is to be shown of an instruction. -/
def Good (P : Program) (f : Func) (k : Nat) (i : Ins) (st : St) : Out (List Call × Nat × St) → Prop
  | .ok (cs, w, st') =>
    st' = after P f i st ∧
    ((w = 1 ∧ ∃ e, entryAt P f k = some e ∧ Emits cs e.cells) ∨
     (w = 2 ∧ ∃ e e' j, f.body[k + 1]? = some j ∧ j.opcode = 0x11 ∧ entryAt P f k = some e ∧
        entryAt P f (k + 1) = some e' ∧ Emits cs (e.cells ++ e'.cells)))
  | .error e =>
    entryAt P f k = none ∨
    (e = .alreadyExists ∧ i.opcode = 0x72 ∧ ∃ n, nodeOf P i = some n ∧ n.fetch = some .vaList ∧
      vaLabel f.name (.typed i.lo i.hi) ∈ st.appendix.map Prod.fst)

theorem good_one {P : Program} {f : Func} {k : Nat} {i : Ins} {st st' : St} {cs : List Call} {e : Entry}
    (ha : st' = after P f i st) (he : entryAt P f k = some e) (hc : Emits cs e.cells) :
    Good P f k i st (.ok (cs, 1, st')) := ⟨ha, .inl ⟨rfl, e, he, hc⟩⟩

theorem good_handler {P : Program} {f : Func} {k : Nat} {i : Ins} {st : St} (op : Nat) {calls : Arg → List Call}
    {bs : List Cell}
    (ha : after P f i st = st)
    (he : entryAt P f k = (routine op).map fun r => ⟨r, bs⟩)
    (hc : ∀ r, isName r.toList = true → Emits (calls (nameArg r)) (Entry.cells ⟨r, bs⟩)) :
    Good P f k i st (withHandler op calls st) := by
  unfold withHandler
  rw [handler_routine]
  cases hr : routine op with
  | none => exact .inl (by rw [he, hr]; rfl)
  | some r => exact good_one ha.symm (by rw [he, hr]; rfl) (hc r (routine_name hr))

theorem entryAt_eq {P : Program} {f : Func} {k : Nat} {i : Ins} (hi : f.body[k]? = some i) :
    entryAt P f k = entry P f i f.body[k + 1]? := by
  unfold entryAt
  rw [hi]

theorem push_routine : routine 0x10 = some push := by decide +kernel

theorem layout_node (P : Program) (i : Ins) :
    (∃ n, layoutEntry P i = .ok n ∧ nodeOf P i = some n) ∨ (∃ e, layoutEntry P i = .error e ∧ nodeOf P i = none) := by
  unfold layoutEntry nodeOf
  cases P.types i.lo with
  | none => exact .inr ⟨_, rfl, rfl⟩
  | some ns =>
    simp only [Option.bind_some]
    cases ns[i.hi]? with
    | none => exact .inr ⟨_, rfl, rfl⟩
    | some n => exact .inl ⟨n, rfl, rfl⟩

end Kefir.AsmCode
