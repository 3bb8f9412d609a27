import Verif.AsmCode.Body

/-! # Assembly text of code: every instruction -/

namespace Kefir.AsmCode
open Kefir.StaticData Kefir.AsmData

variable {P : Program} {f : Func} {k : Nat} {i : Ins} {st : St}

theorem functionDecl_eq (id : Nat) (v : Bool) :
    functionDecl P st id v = none ∧ P.decls id = none ∨
    functionDecl P st id v = some (if v then { st with vgates := note st.vgates id } else { st with gates := note st.gates id }) := by
  unfold functionDecl note
  cases v with
  | true =>
    simp only [if_true]
    by_cases h : id ∈ st.vgates
    · rw [if_pos h, if_pos h]; exact .inr rfl
    · rw [if_neg h, if_neg h]
      cases P.decls id with
      | none => exact .inl ⟨rfl, rfl⟩
      | some d => exact .inr rfl
  | false =>
    simp only [Bool.false_eq_true, if_false]
    by_cases h : id ∈ st.gates
    · rw [if_pos h, if_pos h]; exact .inr rfl
    · rw [if_neg h, if_neg h]
      cases P.decls id with
      | none => exact .inl ⟨rfl, rfl⟩
      | some d => exact .inr rfl

theorem good_layout (op : Nat) (r : String) (hr : routine op = some r) (sel : Node → Nat)
    (ha : after P f i st = st)
    (he : entryAt P f k = (nodeOf P i).map fun n => ⟨r, le 8 (sel n)⟩) :
    Good P f k i st (match layoutEntry P i with
      | .error e => .error e
      | .ok n => withHandler op (fun h => [quad h (.int (signed (sel n)))]) st) := by
  rcases layout_node P i with ⟨n, h1, h2⟩ | ⟨e, h1, h2⟩
  · rw [h1]
    rw [h2] at he
    exact good_handler op ha (by rw [he, hr]; rfl) fun r h => emits_quad h (opnd_int _)
  · rw [h1]
    rw [h2] at he
    exact .inl he

theorem symbolArg_eq {s : String} (h : s.map Char.toLower ∉ operatorNames) : symbolArg s = nameArg s := by
  unfold symbolArg
  rw [if_neg]
  intro e
  rw [e] at h
  exact h (by decide +kernel)

theorem gate_label (id : Nat) (d : Decl) :
    (match d.name with
      | none => "__kefirrt_ifunction_gate" ++ decS id
      | some n =>
        if d.variadic then "__kefirrt_ifunction_gate" ++ decS id
        else "__kefirrt_sfunction_" ++ n ++ "_gate" ++ decS id) = gateLabel id d := by
  unfold gateLabel
  rw [decS_eq]
  cases d.name with
  | none => rfl
  | some n => cases d.variadic <;> rfl

theorem pointerGate_label (id : Nat) (d : Decl) :
    (match d.name with
      | none => "__kefirrt_ifunction_vgate" ++ decS id
      | some n => "__kefirrt_sfunction_" ++ n ++ "_vgate") = pointerGateLabel id d := by
  unfold pointerGateLabel
  rw [decS_eq]
  cases d.name <;> rfl

theorem jump_opnd (hU : Usual f) {t : Nat} (ht : t ≤ f.body.length) :
    Opnd (jumpArg f t) (toLabel (bodyLabel f.name) (16 * t)) := by
  have h := @opnd_sum (bodyLabel f.name) (body_name hU.1) (2 * 8 * t % 2 ^ 64)
  have e : 2 * 8 * t % 2 ^ 64 = 16 * t := by have := hU.2.2.1; omega
  rw [e] at h
  unfold jumpArg
  rw [e]
  exact h

def one : Out (List Call × St) → Out (List Call × Nat × St)
  | .error e => .error e
  | .ok (cs, st') => .ok (cs, 1, st')

/-- The visitor in terms of what is fetched. -/
def visited (f : Func) (st : St) (t k : Nat) (id : String) (n : Node) : Option Fetch → Out (List Call × St)
  | some .integer => visitScalar f st n (.integer n.code (if n.code = 18 then n.param else 0))
  | some .floating => visitScalar f st n (.sse n.code)
  | some .longDouble => .ok ([quad (nameArg "__kefirrt_load_long_double_vararg") zeroArg], st)
  | some .aggregate => visitAggregate st t k id
  | some .vaList => visitBuiltin st n id
  | none => visitNode f st t k id n

theorem visitNode_eq (t k : Nat) (id : String) (n : Node) : visitNode f st t k id n = visited f st t k id n n.fetch := by
  obtain ⟨code, param, size, offset⟩ := n
  unfold Node.fetch
  simp only
  split
  all_goals first
    | rfl
    | (split
       · rename_i hp
         first | exact if_pos hp | rfl
       · rfl)

theorem visitNode_none (t k : Nat) (id : String) {n : Node} (h0 : n.code ≠ 0) (h : n.fetch = none) :
    ∃ e, visitNode f st t k id n = .error e ∧ e ≠ .alreadyExists := by
  obtain ⟨code, param, size, offset⟩ := n
  unfold Node.fetch at h
  simp only at h h0
  split at h
  all_goals try contradiction
  · split at h
    · cases h
    · rename_i hp
      exact ⟨_, if_neg hp, by decide⟩
  · split at h
    · cases h
    · rename_i hp
      exact ⟨_, if_neg hp, by decide⟩
  · split at h
    · cases h
    · rename_i hp
      exact ⟨_, if_neg hp, by decide⟩
  · refine ⟨.internalError, ?_, by decide⟩
    unfold visitNode
    simp only

theorem fetch_code {n : Node} {x : Fetch} (h : n.fetch = some x) : n.code < 20 := by
  obtain ⟨code, param, size, offset⟩ := n
  unfold Node.fetch at h
  simp only at h ⊢
  split at h
  all_goals first | omega | (cases h)

theorem vaList_param {n : Node} (h : n.fetch = some .vaList) : n.param = 0 := by
  obtain ⟨code, param, size, offset⟩ := n
  unfold Node.fetch at h
  simp only at h ⊢
  split at h
  all_goals try contradiction
  · split at h <;> contradiction
  · split at h <;> contradiction
  · split at h
    · assumption
    · contradiction

/-- The part of `Good` for `va_arg`. -/
theorem good_get (hU : Usual f) (hF : FetchesValues P f) (hi : f.body[k]? = some i) (hop : i.opcode = 0x72) :
    Good P f k i st (one (varargGet P f st i)) := by
  have hmem : i ∈ f.body := List.mem_of_getElem? hi
  have he : entryAt P f k = (nodeOf P i).bind (fetchEntry f i) := by
    rw [entryAt_eq hi]; unfold entry; rw [hop]; rfl
  have hneed : needs P i = (nodeOf P i).bind fun n =>
      match n.fetch with
      | some .integer => some (.scalar n.code, .integer n.code (if n.code = 18 then n.param else 0))
      | some .floating => some (.scalar n.code, .sse n.code)
      | some .aggregate => some (.typed i.lo i.hi, .aggregate i.lo i.hi)
      | some .vaList => some (.typed i.lo i.hi, .vaList)
      | _ => none := by
    unfold needs; rw [hop]; rfl
  have hops : i.opcode ≠ 6 ∧ i.opcode ≠ 7 ∧ i.opcode ≠ 0x6e := by rw [hop]; decide
  unfold varargGet
  simp only [typed_label hU]
  cases ht : P.types i.lo with
  | none =>
    have hn : nodeOf P i = none := by unfold nodeOf; rw [ht]; rfl
    exact .inl (by rw [he, hn]; rfl)
  | some ns =>
    obtain ⟨h1, h2⟩ := hF i hmem hop ns ht
    have hn : nodeOf P i = ns[i.hi]? := by unfold nodeOf; rw [ht]; rfl
    by_cases hle : i.hi ≤ ns.length
    · simp only [if_pos hle]
      cases hg : ns[i.hi]? with
      | none =>
        have := List.getElem?_eq_none_iff.mp hg
        omega
      | some n =>
        have hnode : nodeOf P i = some n := by rw [hn, hg]
        have hcode := h2 n hg
        rw [hnode, Option.bind_some] at he hneed
        simp only
        -- what the visitor does with the node
        have scalar : ∀ r, needs P i = some (.scalar n.code, r) → n.code < 10 ^ 10 →
            (fetchEntry f i n = some ⟨vaLabel f.name (.scalar n.code), le 8 0⟩) →
            Good P f k i st (one (visitScalar f st n r)) := by
          intro r hr hc hf
          unfold visitScalar
          simp only [scalar_label hU hc]
          exact good_one (by rw [insert_note, after_needs hops hr]) (he.trans hf) (emits_quad (va_name hU.1 _) opnd_zero)
        have aggregate : needs P i = some (.typed i.lo i.hi, .aggregate i.lo i.hi) →
            (fetchEntry f i n = some ⟨vaLabel f.name (.typed i.lo i.hi), le 8 0⟩) →
            Good P f k i st (one (visitAggregate st i.lo i.hi (vaLabel f.name (.typed i.lo i.hi)))) := by
          intro hr hf
          unfold visitAggregate
          exact good_one (by rw [insert_note, after_needs hops hr]) (he.trans hf) (emits_quad (va_name hU.1 _) opnd_zero)
        rw [visitNode_eq]
        cases hf : n.fetch with
        | none =>
          obtain ⟨e, h, _⟩ := @visitNode_none f st i.lo i.hi (vaLabel f.name (.typed i.lo i.hi)) n hcode hf
          show Good P f k i st (one (visitNode f st i.lo i.hi (vaLabel f.name (.typed i.lo i.hi)) n))
          rw [h]
          refine .inl (he.trans ?_)
          unfold fetchEntry; rw [hf]; rfl
        | some x =>
          have hc : n.code < 10 ^ 10 := by have := fetch_code hf; omega
          have hf' := hf
          rw [hf] at hneed
          cases x with
          | integer => exact scalar _ hneed hc (by unfold fetchEntry; rw [hf]; rfl)
          | floating => exact scalar _ hneed hc (by unfold fetchEntry; rw [hf]; rfl)
          | longDouble =>
            exact good_one (after_same hops hneed).symm (e := ⟨"__kefirrt_load_long_double_vararg", le 8 0⟩)
              (he.trans (by unfold fetchEntry; rw [hf]; rfl)) (emits_quad (by decide +kernel) opnd_zero)
          | aggregate => exact aggregate hneed (by unfold fetchEntry; rw [hf]; rfl)
          | vaList =>
            have hp : n.param = 0 := vaList_param hf
            unfold visited visitBuiltin
            simp only [hp, if_true]
            cases hx : (insertAppendix st .vaList (vaLabel f.name (.typed i.lo i.hi))).1 with
            | true =>
              simp only [if_true]
              refine .inr ⟨rfl, hop, n, hnode, hf, ?_⟩
              unfold insertAppendix at hx
              split at hx
              · rename_i h
                obtain ⟨p, hp, hpe⟩ := List.any_eq_true.mp h
                exact List.mem_map.mpr ⟨p, hp, by simpa using hpe⟩
              · cases hx
            | false =>
              simp only [Bool.false_eq_true, if_false]
              exact good_one (by rw [insert_note, after_needs hops hneed])
                (he.trans (by unfold fetchEntry; rw [hf]; rfl)) (emits_quad (va_name hU.1 _) opnd_zero)
    · simp only [if_neg hle]
      refine .inl (by rw [he, hn, List.getElem?_eq_none (by omega)]; rfl)

end Kefir.AsmCode
