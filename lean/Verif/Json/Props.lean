import Verif.Json.Describe

/-!
# C29: what the JSON printer writes is JSON

The property as stated is false of the code: see the refutations at the end.  The positive theorems
ask that the arguments can be represented (`Call.Ok`).
-/

namespace Kefir.Json

open Kefir.Lexer (Codec Dec)

/-- **C29** (partial: the arguments must satisfy `Call.Ok`; several outermost values may be printed.)
Whatever sequence of calls succeeds up to and including `finalize` describes a sequence of JSON
values, and what was written is the concatenation of texts of these values. -/
theorem C29_wellformed_partial (cd : Codec) (hcd : Utf8Like cd) (indent : Nat) (cs : List Call) (j : J)
    (hok : ∀ x ∈ cs, x.Ok) (h : run cd (J.init indent) cs = some j)
    (hfin : (finalize j).1 = .ok ()) :
    ∃ ps : List (List Call × JVal × Text), cs = ps.flatMap (·.1) ∧ j.out = ps.flatMap (·.2.2) ∧
      ∀ p ∈ ps, Describes p.1 p.2.1 ∧ JsonText p.2.1 p.2.2 := by
  have hl : j.below = [] := by
    unfold finalize at hfin
    split at hfin
    · rename_i h0; exact List.length_eq_zero_iff.1 h0
    · cases hfin
  exact top_level cd hcd indent cs.length cs [] j (Nat.le_refl _) hok h hl

/-- **C29** (partial: the arguments must satisfy `Call.Ok`.)  A sequence of calls that describes one
value, nested at most 1023 deep, succeeds; the printer can be finalized and the text written is a JSON
text of exactly that value, whatever the indentation. -/
theorem C29_prints_value_partial (cd : Codec) (hcd : Utf8Like cd) (indent : Nat) (cs : List Call)
    (v : JVal) (hd : Describes cs v) (hok : ∀ x ∈ cs, x.Ok ∧ x.Decodable cd)
    (hdepth : v.depth ≤ 1023) :
    ∃ j, run cd (J.init indent) cs = some j ∧ (finalize j).1 = .ok () ∧ JsonText v j.out := by
  obtain ⟨t, ht, hr⟩ := describes_run cd hcd hd (J.init indent) .init hok rfl rfl
    (by show 0 + v.depth < 1024; omega)
  have := hr []
  rw [List.append_nil, run] at this
  refine ⟨_, this, rfl, ?_⟩
  simpa [J.init, sepText] using ht

/-- A 7-bit locale, used by the examples. -/
def asciiCodec : Codec where
  dec
    | [] => .bad
    | x :: _ => if x = 0 then .nul else if x < 128 then .chr x.toNat 1 else .bad
  enc c := if c < 128 then some [UInt8.ofNat c] else none
  dec_nil := rfl
  dec_chr := by
    intro bs c n h
    cases bs with
    | nil => cases h
    | cons x r =>
      simp only at h
      split at h
      · cases h
      · split at h
        · rename_i h0 _
          cases h
          refine ⟨fun e => h0 (UInt8.toNat_inj.1 e), Nat.le_refl _, by simp⟩
        · cases h

theorem asciiCodec_utf8Like : Utf8Like asciiCodec where
  chr := by
    intro bs c n h
    cases bs with
    | nil => cases h
    | cons x r =>
      simp only [asciiCodec] at h
      split at h
      · cases h
      · split at h
        · rename_i h0
          cases h
          exact Or.inl ⟨r, by rw [UInt8.ofNat_toNat], h0, rfl⟩
        · cases h
  nul := by
    intro x r h
    simp only [asciiCodec] at h
    split at h
    · assumption
    · split at h <;> cases h

/-- `{"a\n": [-5, 7], "b": {}}` -/
def sampleCalls : List Call :=
  [.objectBegin, .objectKey (lit "a\n"), .arrayBegin, .integer (-5), .uinteger 7, .arrayEnd,
    .objectKey (lit "b"), .objectBegin, .objectEnd, .objectEnd]

def sampleValue : JVal :=
  .obj [(lit "a\n", .arr [.int (-5), .int 7]), (lit "b", .obj [])]

example : Describes sampleCalls sampleValue :=
  .obj (.cons (cs := [.arrayBegin, .integer (-5), .uinteger 7, .arrayEnd])
    (.arr (.cons (cs := [.integer (-5)]) (cs' := [.uinteger 7]) (.scalar rfl)
      (.cons (cs := [.uinteger 7]) (cs' := []) (.scalar rfl) .nil)))
    (.cons (cs := [.objectBegin, .objectEnd]) (.obj .nil) .nil))

example : sampleValue.depth = 2 := rfl

example : (run asciiCodec (J.init 0) sampleCalls).map (·.out) =
    some (lit "{\"a\\n\":[-5,7],\"b\":{}}") := by
  simp only [sampleCalls, run, step, beginContainer, endContainer, keyCall, scalarCall, scalarText,
    formatString, lit]
  decide +kernel

/-! ## Where the property fails -/

/-- A string containing the alert character is printed with the escape `\a`, which JSON does not
have. -/
theorem C29_alert_false : ∃ t, scalarText asciiCodec (.rawString [0x07]) = some t ∧
    ∀ s, ¬ StrText s t := by
  refine ⟨_, rfl, ?_⟩
  rintro s ⟨body, hb, e⟩
  have : body = [0x5c, 0x61] := by
    have e' : (0x22 : UInt8) :: ([0x5c, 0x61] ++ [0x22]) = 0x22 :: (body ++ [0x22]) := e
    exact (List.append_cancel_right (List.cons.inj e').2).symm
  subst this
  cases hb with
  | plain _ _ h => exact h rfl
  | esc h _ => exact absurd h (by simp [escapes])

/-- A string containing a question mark is printed by the raw call with the escape `\?`, which JSON
does not have. -/
theorem C29_question_mark_false : ∃ t, scalarText asciiCodec (.rawString [0x3f]) = some t ∧
    ∀ s, ¬ StrText s t := by
  refine ⟨_, rfl, ?_⟩
  rintro s ⟨body, hb, e⟩
  have : body = [0x5c, 0x3f] := by
    have e' : (0x22 : UInt8) :: ([0x5c, 0x3f] ++ [0x22]) = 0x22 :: (body ++ [0x22]) := e
    exact (List.append_cancel_right (List.cons.inj e').2).symm
  subst this
  cases hb with
  | plain _ _ h => exact h rfl
  | esc h _ => exact absurd h (by simp [escapes])

/-- Other control characters are printed as they are, which JSON does not allow. -/
theorem C29_control_false : ∃ t, scalarText asciiCodec (.rawString [0x01]) = some t ∧
    ∀ s, ¬ StrText s t := by
  refine ⟨_, rfl, ?_⟩
  rintro s ⟨body, hb, e⟩
  have : body = [0x01] := by
    have e' : (0x22 : UInt8) :: ([0x01] ++ [0x22]) = 0x22 :: (body ++ [0x22]) := e
    exact (List.append_cancel_right (List.cons.inj e').2).symm
  subst this
  cases hb with
  | plain h _ _ => exact absurd h (by decide)

/-- The calls `null`, `null` succeed, the printer can be finalized, and the text `nullnull` is not a
JSON text of any value. -/
theorem C29_two_values_false : ∃ j, run asciiCodec (J.init 0) [.null, .null] = some j ∧
    (finalize j).1 = .ok () ∧ ∀ v, ¬ JsonText v j.out := by
  refine ⟨_, rfl, rfl, ?_⟩
  intro v h
  have h' : JsonText v (lit "nullnull") := h
  clear h
  generalize ht : lit "nullnull" = t at h'
  cases h' with
  | null => exact absurd ht (by decide)
  | true => exact absurd ht (by decide)
  | false => exact absurd ht (by decide)
  | int h =>
    rcases h with ⟨ds, hd, rfl, _⟩ | ⟨ds, hd, rfl, _⟩
    · exact absurd (hd.1 (b 'n') (by rw [← ht]; simp [lit])) (by decide)
    · exact absurd (congrArg List.head? ht) (by simp [lit])
  | num h =>
    obtain ⟨sign, int, frac, exp, e, hs, hi, _⟩ := h
    have : ∃ x r, t = x :: r ∧ (x = b '-' ∨ (0x30 ≤ x ∧ x ≤ 0x39)) := by
      rcases hs with rfl | rfl
      · obtain ⟨hdig, hi⟩ := hi
        rcases hi with rfl | ⟨x, r, rfl, _⟩
        · exact ⟨_, _, e, Or.inr (by decide)⟩
        · exact ⟨x, _, e, Or.inr (hdig x List.mem_cons_self)⟩
      · exact ⟨_, _, e, Or.inl rfl⟩
    obtain ⟨x, r, e, hx⟩ := this
    have : x = b 'n' := by rw [e] at ht; simpa [lit] using (congrArg List.head? ht).symm
    subst this
    exact absurd hx (by decide)
  | str h =>
    obtain ⟨_, _, e⟩ := h
    exact absurd (congrArg List.head? (ht.trans e)) (by simp [lit])
  | objNil => exact absurd (congrArg List.head? ht) (by simp [lit])
  | obj => exact absurd (congrArg List.head? ht) (by simp [lit])
  | arrNil => exact absurd (congrArg List.head? ht) (by simp [lit])
  | arr => exact absurd (congrArg List.head? ht) (by simp [lit])

end Kefir.Json
