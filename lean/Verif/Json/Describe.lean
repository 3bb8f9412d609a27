import Verif.Json.Run

/-! Calls that describe a value succeed and print it. -/

namespace Kefir.Json

open Kefir.Lexer (Codec Dec)

/-- The strings passed to a call can be decoded in the locale. -/
def Call.Decodable (cd : Codec) : Call → Prop
  | .objectKey k => ∃ t, formatString cd k = some t
  | .string s => ∃ t, formatString cd s = some t
  | _ => True

theorem step_scalar_ok {cd : Codec} {c : Call} {v : JVal} {j : J} {s : St} (hc : c.scalar = some v)
    (hd : c.Decodable cd) (hf : j.file = true) (hs : valueState j.top = some s) :
    ∃ t, scalarText cd c = some t ∧ step cd j c = some (.ok (),
      ⟨true, j.indent, s, j.below, j.out ++ (sepText j.indent j.below.length j.top ++ t)⟩) := by
  have h' : step cd j c = scalarCall cd c j := by
    cases c <;> first | rfl | cases hc
  have ht : ∃ t, scalarText cd c = some t := by
    cases c <;> first | exact ⟨_, rfl⟩ | exact hd
  obtain ⟨t, ht⟩ := ht
  refine ⟨t, ht, ?_⟩
  rw [h', scalarCall, writeSeparator_eq]
  simp [hf, hs, ht, J.write]

theorem step_begin_ok {st : St} {br : Text} {j : J} {s : St} (hf : j.file = true)
    (hs : valueState j.top = some s) (hl : j.below.length + 1 < 1024) :
    beginContainer st br j = (.ok (), ⟨true, j.indent, st, s :: j.below,
      j.out ++ (sepText j.indent j.below.length j.top ++ br)⟩) := by
  rw [beginContainer, writeSeparator_eq]
  simp [hf, hs, J.write, J.level, maxDepth, hl]

theorem step_end_ok {em fu : St} {br : Text} {j : J} {s : St} {bl : List St} (hf : j.file = true)
    (hb : j.below = s :: bl) (ht : j.top = em ∨ j.top = fu) :
    endContainer em fu br j = (.ok (), ⟨true, j.indent, s, bl,
      j.out ++ ((if j.top = fu then indentText j.indent bl.length else []) ++ br)⟩) := by
  rw [endContainer]
  simp only [hf, Bool.not_true, Bool.false_eq_true, if_false, hb, ht, if_true]
  by_cases hfu : j.top = fu
  · simp [hfu, writeIndent_eq, J.write, hf]
  · simp [hfu, J.write, hf]

theorem step_key_ok {cd : Codec} {k : Text} {j : J} (hf : j.file = true)
    (ht : j.top = .objectEmpty ∨ j.top = .object) {t} (hk : formatString cd k = some t) :
    step cd j (.objectKey k) = some (.ok (), ⟨true, j.indent, .objectField, j.below,
      j.out ++ (sepText j.indent j.below.length j.top ++ t)⟩) := by
  change keyCall cd k j = _
  rw [keyCall, writeSeparator_eq]
  simp [hf, ht, hk, J.write]

theorem run_step {cd : Codec} {c : Call} {cs : List Call} {j j1 : J}
    (h : step cd j c = some (.ok (), j1)) : run cd j (c :: cs) = run cd j1 cs := by
  rw [run, h]

mutual
theorem describes_run (cd : Codec) (hcd : Utf8Like cd) {cs : List Call} {v : JVal} :
    Describes cs v → ∀ (j : J) (s : St), (∀ x ∈ cs, x.Ok ∧ x.Decodable cd) → j.file = true →
    valueState j.top = some s → j.below.length + v.depth < 1024 →
    ∃ t, JsonText v t ∧ ∀ rest, run cd j (cs ++ rest) = run cd ⟨true, j.indent, s, j.below,
      j.out ++ (sepText j.indent j.below.length j.top ++ t)⟩ rest
  | .scalar (c := c) (v := v) hv => fun j s hok hf hs _ => by
    obtain ⟨t, ht, hst⟩ := step_scalar_ok hv (hok c List.mem_cons_self).2 hf hs
    exact ⟨t, scalarText_json cd hcd c v t (hok c List.mem_cons_self).1 hv ht,
      fun rest => run_step hst⟩
  | .obj (cs := cs) (ms := ms) hm => fun j s hok hf hs hl => by
    have hl' : j.below.length + (depthMembers ms + 1) < 1024 := hl
    have hb := step_begin_ok (st := .objectEmpty) (br := lit "{") hf hs (by omega)
    obtain ⟨t, ht, -, hr⟩ := members_run cd hcd hm ⟨true, j.indent, .objectEmpty, s :: j.below,
      j.out ++ (sepText j.indent j.below.length j.top ++ lit "{")⟩ s j.below
      (fun x hx => hok x (by simp [hx])) rfl (Or.inl rfl) rfl
      (by simp only [List.length_cons]; omega)
    refine ⟨_, ht rfl, fun rest => ?_⟩
    show run cd j (.objectBegin :: ((cs ++ [.objectEnd]) ++ rest)) = _
    rw [run_step (c := .objectBegin) (congrArg some hb), List.append_assoc, List.singleton_append,
      hr rest]
    simp [lit]
  | .arr (cs := cs) (es := es) hm => fun j s hok hf hs hl => by
    have hl' : j.below.length + (depthElems es + 1) < 1024 := hl
    have hb := step_begin_ok (st := .arrayEmpty) (br := lit "[") hf hs (by omega)
    obtain ⟨t, ht, -, hr⟩ := elems_run cd hcd hm ⟨true, j.indent, .arrayEmpty, s :: j.below,
      j.out ++ (sepText j.indent j.below.length j.top ++ lit "[")⟩ s j.below
      (fun x hx => hok x (by simp [hx])) rfl (Or.inl rfl) rfl
      (by simp only [List.length_cons]; omega)
    refine ⟨_, ht rfl, fun rest => ?_⟩
    show run cd j (.arrayBegin :: ((cs ++ [.arrayEnd]) ++ rest)) = _
    rw [run_step (c := .arrayBegin) (congrArg some hb), List.append_assoc, List.singleton_append,
      hr rest]
    simp [lit]

theorem members_run (cd : Codec) (hcd : Utf8Like cd) {cs : List Call} {ms : List (Text × JVal)} :
    DescribesMembers cs ms → ∀ (j : J) (s : St) (bl : List St),
    (∀ x ∈ cs, x.Ok ∧ x.Decodable cd) → j.file = true →
    (j.top = .objectEmpty ∨ j.top = .object) → j.below = s :: bl →
    j.below.length + depthMembers ms < 1024 →
    ∃ t, (j.top = .objectEmpty → JsonText (.obj ms) (b '{' :: t)) ∧
      (j.top = .object → ObjTail ms t) ∧
      ∀ rest, run cd j (cs ++ .objectEnd :: rest) = run cd ⟨true, j.indent, s, bl, j.out ++ t⟩ rest
  | .nil => fun j s bl hok hf ht hb hl => by
    refine ⟨_, ?_, ?_, fun rest => run_step (c := .objectEnd)
      (congrArg some (step_end_ok hf hb ht))⟩
    · intro e
      rw [e, if_neg (by simp)]
      exact .objNil ws_nil
    · intro e
      rw [e, if_pos rfl]
      exact Or.inl ⟨rfl, _, indentText_ws _ _, rfl⟩
  | .cons (k := k) (v := v) (cs := cs) (cs' := cs') (ms := ms) hd hm =>
    fun j s bl hok hf ht hb hl => by
    have hl' : j.below.length + max v.depth (depthMembers ms) < 1024 := hl
    obtain ⟨hk1, kt, hk⟩ := hok (.objectKey k) List.mem_cons_self
    have hkt := formatString_text cd hcd k kt hk1 hk
    have hst := step_key_ok hf ht hk
    obtain ⟨vt, hvt, hvr⟩ := describes_run cd hcd hd ⟨true, j.indent, .objectField, j.below,
      j.out ++ (sepText j.indent j.below.length j.top ++ kt)⟩ .object
      (fun x hx => hok x (by simp [hx])) rfl rfl (by simp only; omega)
    obtain ⟨t, -, htl, hmr⟩ := members_run cd hcd hm ⟨true, j.indent, .object, j.below,
      j.out ++ (sepText j.indent j.below.length j.top ++ kt) ++
        (sepText j.indent j.below.length .objectField ++ vt)⟩ s bl
      (fun x hx => hok x (by simp [hx])) rfl (Or.inr rfl) hb (by simp only; omega)
    have hw := fieldText_ws j.indent
    refine ⟨sepText j.indent j.below.length j.top ++
      (kt ++ (b ':' :: (fieldText j.indent ++ (vt ++ t)))), ?_, ?_, ?_⟩
    · intro et
      rw [et]
      rcases htl rfl with ⟨rfl, w, hw2, rfl⟩ | ⟨ts, hts, rfl⟩
      · have := JsonText.obj (MembersText.one (w1 := indentText j.indent j.below.length)
          (w2 := []) hkt hvt (indentText_ws _ _) ws_nil hw hw2)
        simpa [sepText] using this
      · have := JsonText.obj (MembersText.cons (w1 := indentText j.indent j.below.length)
          (w2 := []) (w4 := []) hkt hvt (indentText_ws _ _) ws_nil hw ws_nil hts)
        simpa [sepText] using this
    · intro et
      rw [et]
      refine Or.inr ?_
      rcases htl rfl with ⟨rfl, w, hw2, rfl⟩ | ⟨ts, hts, rfl⟩
      · exact ⟨_, MembersText.one (w1 := indentText j.indent j.below.length)
          (w2 := []) hkt hvt (indentText_ws _ _) ws_nil hw hw2, by simp [sepText]⟩
      · exact ⟨_, MembersText.cons (w1 := indentText j.indent j.below.length)
          (w2 := []) (w4 := []) hkt hvt (indentText_ws _ _) ws_nil hw ws_nil hts,
          by simp [sepText]⟩
    · intro rest
      show run cd j (.objectKey k :: (cs ++ cs' ++ .objectEnd :: rest)) = _
      rw [run_step hst, List.append_assoc, hvr, hmr]
      simp [sepText, List.append_assoc]

theorem elems_run (cd : Codec) (hcd : Utf8Like cd) {cs : List Call} {es : List JVal} :
    DescribesElems cs es → ∀ (j : J) (s : St) (bl : List St),
    (∀ x ∈ cs, x.Ok ∧ x.Decodable cd) → j.file = true →
    (j.top = .arrayEmpty ∨ j.top = .array) → j.below = s :: bl →
    j.below.length + depthElems es < 1024 →
    ∃ t, (j.top = .arrayEmpty → JsonText (.arr es) (b '[' :: t)) ∧
      (j.top = .array → ArrTail es t) ∧
      ∀ rest, run cd j (cs ++ .arrayEnd :: rest) = run cd ⟨true, j.indent, s, bl, j.out ++ t⟩ rest
  | .nil => fun j s bl hok hf ht hb hl => by
    refine ⟨_, ?_, ?_, fun rest => run_step (c := .arrayEnd)
      (congrArg some (step_end_ok hf hb ht))⟩
    · intro e
      rw [e, if_neg (by simp)]
      exact .arrNil ws_nil
    · intro e
      rw [e, if_pos rfl]
      exact Or.inl ⟨rfl, _, indentText_ws _ _, rfl⟩
  | .cons (v := v) (cs := cs) (cs' := cs') (es := es) hd hm => fun j s bl hok hf ht hb hl => by
    have hl' : j.below.length + max v.depth (depthElems es) < 1024 := hl
    obtain ⟨vt, hvt, hvr⟩ := describes_run cd hcd hd j .array
      (fun x hx => hok x (by simp [hx])) hf (by rcases ht with e | e <;> rw [e] <;> rfl) (by omega)
    obtain ⟨t, -, htl, hmr⟩ := elems_run cd hcd hm ⟨true, j.indent, .array, j.below,
      j.out ++ (sepText j.indent j.below.length j.top ++ vt)⟩ s bl
      (fun x hx => hok x (by simp [hx])) rfl (Or.inr rfl) hb (by simp only; omega)
    refine ⟨sepText j.indent j.below.length j.top ++ (vt ++ t), ?_, ?_, ?_⟩
    · intro et
      rw [et]
      rcases htl rfl with ⟨rfl, w, hw2, rfl⟩ | ⟨ts, hts, rfl⟩
      · have := JsonText.arr (ElemsText.one (w1 := indentText j.indent j.below.length)
          hvt (indentText_ws _ _) hw2)
        simpa [sepText] using this
      · have := JsonText.arr (ElemsText.cons (w1 := indentText j.indent j.below.length)
          (w2 := []) hvt (indentText_ws _ _) ws_nil hts)
        simpa [sepText] using this
    · intro et
      rw [et]
      refine Or.inr ?_
      rcases htl rfl with ⟨rfl, w, hw2, rfl⟩ | ⟨ts, hts, rfl⟩
      · exact ⟨_, ElemsText.one (w1 := indentText j.indent j.below.length)
          hvt (indentText_ws _ _) hw2, by simp [sepText]⟩
      · exact ⟨_, ElemsText.cons (w1 := indentText j.indent j.below.length)
          (w2 := []) hvt (indentText_ws _ _) ws_nil hts, by simp [sepText]⟩
    · intro rest
      rw [List.append_assoc, hvr, hmr]
      simp [List.append_assoc]
end

end Kefir.Json
