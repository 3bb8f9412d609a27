import Verif.Errors.Lemmas
/-!
# Every call keeps the record
-/

namespace Kefir.Errors

/-- The reports after a call. -/
def after (l : List Report) (c : Call) : List Report :=
  match c.report with
  | some r => keep l r
  | none => []

/-- The location of a call with arguments leaves room for the text. -/
def Call.Fits : Call → Prop
  | .sourcef _ (some l) _ _ _ => l.prefix.length ≤ 240
  | _ => True

theorem decimal_digits (n : Nat) : '\x00' ∉ decimal n := by
  intro h
  have := Nat.isDigit_of_mem_toDigits (by decide) (by decide) h
  exact absurd this (by decide)

theorem prefix_strings {l : Location} (h : '\x00' ∉ l.source) : '\x00' ∉ locationText l := by
  unfold locationText
  intro hm
  simp only [List.mem_append, List.mem_cons, List.not_mem_nil, or_false] at hm
  rcases hm with hm | hm | hm | hm | hm | hm
  · exact h hm
  · exact absurd hm (by decide)
  · exact decimal_digits _ hm
  · exact absurd hm (by decide)
  · exact decimal_digits _ hm
  · exact absurd hm (by decide)

variable {st : State} {l : List Report}

/-- A change of what `kefir_set_error` has stored. -/
theorem holds_changed (h : Holds st l) {n : Nat} (hn : n = (settled l).length) {r : Report} {e0 e : Entry}
    (hc : ¬ Normal r.code) (hroom : (settled l).length < 32) (hv : e.view = r) (hl : Linked e (settled l).length) :
    Holds ⟨n + 1, update (update st.stack n e0) n e⟩ (keep l r) := by
  subst hn
  rw [update_update]
  exact holds_stored h hc hroom hv hl

theorem setErrorf_holds (h : Holds st l) (hf : ¬ Full l) (code : Nat) (text file : Text) (line : Nat)
    (h0 : '\x00' ∉ text) :
    ∃ st', setErrorf st code text file line = some st' ∧
      Holds st' (keep l ⟨code, text.take 255, file, line, none⟩) := by
  unfold setErrorf
  rcases setError_cases h hf code text file line with ⟨h1, h2⟩ | ⟨h1, h2, h3⟩
  · rw [h1]
    exact ⟨st, rfl, by rw [h2 _ rfl]; exact h⟩
  · rw [h3]
    simp only [update_same]
    obtain ⟨q, hq, hr, -⟩ := snprintf_read (p := List.replicate payloadLength '\x00') (offset := 0)
      (size := payloadLength) (text := text) (by decide) (by decide) (Nat.zero_le _) h0
    have hq' : snprintf (fresh (settled l).length code text file line).payload 0 payloadLength text = some q := hq
    rw [hq']
    refine ⟨_, rfl, holds_changed h rfl h1 h2 ?_ (linked_fresh (settled l).length code text file line)⟩
    show Report.mk _ _ _ _ _ = _
    congr 1

theorem setSourceError_holds (h : Holds st l) (hf : ¬ Full l) (code : Nat) (location : Option Location)
    (message file : Text) (line : Nat) (h0 : '\x00' ∉ message) (hs : ∀ x ∈ location, '\x00' ∉ x.source) :
    ∃ st', setSourceError st code location message file line = some st' ∧
      (st' = (st, none) ∧ (∀ r : Report, r.code = code → keep l r = l) ∨
        (¬ Normal code ∧ (settled l).length < 32 ∧
          ∃ e, st' = (⟨(settled l).length + 1, update st.stack (settled l).length e⟩, some (settled l).length) ∧
            Linked e (settled l).length ∧ e.code = code ∧ e.file = file ∧ e.line = line ∧
            e.location = some location ∧ messageOffset ≤ e.payload.length ∧
            e.text = match location with
              | some x => (x.prefix ++ message).take 239
              | none => message)) := by
  unfold setSourceError
  rcases setError_cases h hf code message file line with ⟨h1, h2⟩ | ⟨h1, h2, h3⟩
  · rw [h1]
    exact ⟨_, rfl, Or.inl ⟨rfl, h2⟩⟩
  · rw [h3]
    cases location with
    | none =>
      simp only [update_same, update_update]
      refine ⟨_, rfl, Or.inr ⟨h1, h2, _, rfl, ?_, rfl, rfl, rfl, rfl, ?_, rfl⟩⟩
      · exact linked_fresh (settled l).length code message file line
      · show messageOffset ≤ (List.replicate payloadLength '\x00').length
        rw [List.length_replicate]
        decide
    | some x =>
      simp only [update_same, update_update]
      have hx : '\x00' ∉ locationText x ++ message := by
        intro hm
        rcases List.mem_append.1 hm with hm | hm
        · exact prefix_strings (hs x rfl) hm
        · exact h0 hm
      obtain ⟨q, hq, hr, -, hlen, -⟩ := snprintf_read (p := List.replicate payloadLength '\x00')
        (offset := messageOffset) (size := messageLength) (text := locationText x ++ message) (by decide) (by decide)
        (by rw [List.length_replicate]; decide) hx
      have hq' : snprintf (fresh (settled l).length code message file line).payload messageOffset messageLength
          (locationText x ++ message) = some q := hq
      rw [hq']
      exact ⟨_, rfl, Or.inr ⟨h1, h2, _, rfl, linked_fresh (settled l).length code message file line, rfl, rfl, rfl,
        rfl, hlen, hr⟩⟩

theorem sourcef_text {p : Text} (hp : messageOffset ≤ p.length) (x : Location) (text : Text)
    (h0 : '\x00' ∉ text) (hs : '\x00' ∉ x.source) (hfit : x.prefix.length ≤ 240) :
    ∃ p1 p2, snprintf p messageOffset messageLength (locationText x) = some p1 ∧
      snprintf p1 (messageOffset + (textRoom (some x)).1) (textRoom (some x)).2 text = some p2 ∧
      (p2.drop messageOffset).takeWhile (fun x => decide (x ≠ '\x00')) = (x.prefix ++ text).take 239 := by
  have hpre : locationText x = x.prefix := rfl
  have hx := prefix_strings hs
  obtain ⟨p1, h1, h2, h3, h4, h5⟩ := snprintf_read (p := p) (offset := messageOffset) (size := messageLength)
    (text := locationText x) (by decide) (by decide) hp hx
  have hroom : (textRoom (some x)).2 = 240 - (locationText x).length := by
    show (240 + 2 ^ 64 - (locationText x).length) % 2 ^ 64 = _
    rw [hpre]
    omega
  have hoff : (textRoom (some x)).1 = (locationText x).length := rfl
  rw [hroom, hoff]
  by_cases hlt : (locationText x).length < 240
  · have h5 := h5 hlt
    have hlen : (p.take messageOffset).length = messageOffset := by rw [List.length_take, Nat.min_eq_left hp]
    have hle : messageOffset + (locationText x).length ≤ p1.length := by
      have := congrArg List.length h5
      rw [List.length_take, List.length_append, hlen] at this
      omega
    have hok := snprintf_ok (p := p1) (offset := messageOffset + (locationText x).length)
      (size := 240 - (locationText x).length) (text := text) (by omega)
      (by show 16 + (locationText x).length + _ ≤ 256; omega)
    refine ⟨p1, _, h1, hok, ?_⟩
    rw [h5]
    have hcut : (x.prefix ++ text).take 239 = locationText x ++ text.take (240 - (locationText x).length - 1) := by
      rw [← hpre, List.take_append, List.take_of_length_le (by omega)]
      congr 2
      omega
    rw [hcut]
    have hs' := not_mem_take h0 (240 - (locationText x).length - 1)
    generalize text.take (240 - (locationText x).length - 1) = s at *
    have := read_written (a := p.take messageOffset) (s := locationText x ++ s)
      (r := p1.drop (messageOffset + (locationText x).length + (s ++ ['\x00']).length))
      (p := p.take messageOffset ++ locationText x ++ (s ++ ['\x00']) ++
        p1.drop (messageOffset + (locationText x).length + (s ++ ['\x00']).length)) (by simp) ?_
    · rw [hlen] at this
      exact this
    · intro hm
      rcases List.mem_append.1 hm with hm | hm
      · exact hx hm
      · exact hs' hm
  · have heq : (locationText x).length = 240 := by rw [hpre]; rw [hpre] at hlt; omega
    refine ⟨p1, p1, h1, ?_, ?_⟩
    · rw [heq]
      rfl
    · rw [h2, ← hpre, List.take_append_of_le_length (by rw [heq]; decide)]
      rfl

theorem setSourceErrorf_holds (h : Holds st l) (hf : ¬ Full l) (code : Nat) (location : Option Location)
    (fmt text file : Text) (line : Nat) (hfmt : '\x00' ∉ fmt) (h0 : '\x00' ∉ text)
    (hs : ∀ x ∈ location, '\x00' ∉ x.source) (hfit : ∀ x ∈ location, x.prefix.length ≤ 240) :
    ∃ st', setSourceErrorf st code location fmt text file line = some st' ∧
      Holds st' (keep l ⟨code, match location with
        | some x => (x.prefix ++ text).take 239
        | none => text.take 239, file, line, location⟩) := by
  unfold setSourceErrorf
  obtain ⟨st', h1, h2⟩ := setSourceError_holds h hf code location fmt file line hfmt hs
  rw [h1]
  rcases h2 with ⟨rfl, h2⟩ | ⟨h2, h3, e, rfl, h4, h5, h6, h7, h8, h9, -⟩
  · exact ⟨st, rfl, by rw [h2 _ rfl]; exact h⟩
  · simp only [update_same]
    cases location with
    | none =>
      simp only
      obtain ⟨q, hq, hr, -⟩ := snprintf_read (p := e.payload) (offset := messageOffset) (size := messageLength)
        (text := text) (by decide) (by decide) h9 h0
      have hq' : snprintf e.payload (messageOffset + (textRoom none).1) (textRoom none).2 text = some q := hq
      rw [hq']
      refine ⟨_, rfl, holds_changed h rfl h2 h3 ?_ h4⟩
      show Report.mk e.code ((q.drop messageOffset).takeWhile _) e.file e.line (e.location.getD none) = _
      rw [hr, h5, h6, h7, h8]
      rfl
    | some x =>
      simp only
      obtain ⟨p1, p2, g1, g2, g3⟩ := sourcef_text h9 x text h0 (hs x rfl) (hfit x rfl)
      rw [g1]
      simp only
      rw [g2]
      refine ⟨_, rfl, holds_changed h rfl h2 h3 ?_ h4⟩
      show Report.mk e.code ((p2.drop messageOffset).takeWhile _) e.file e.line (e.location.getD none) = _
      rw [g3, h5, h6, h7, h8]
      rfl

theorem setOsError_holds (h : Holds st l) (hf : ¬ Full l) (message : Option Text) (reason file : Text) (line : Nat)
    (h0 : '\x00' ∉ reason) (hm : ∀ x ∈ message, '\x00' ∉ x) :
    ∃ st', setOsError st message reason file line = some st' ∧
      Holds st' (keep l ⟨osError, match message with
        | some m => (m ++ ' ' :: '(' :: (reason ++ [')'])).take 255
        | none => reason, file, line, none⟩) := by
  unfold setOsError
  rcases setError_cases h hf 9 reason file line with ⟨h1, h2⟩ | ⟨h1, h2, h3⟩
  · rw [h1]
    exact ⟨st, rfl, by rw [h2 _ rfl]; exact h⟩
  · rw [h3]
    cases message with
    | none =>
      exact ⟨_, rfl, holds_stored h h1 h2 rfl (linked_fresh (settled l).length 9 reason file line)⟩
    | some m =>
      simp only [update_same]
      have hx : '\x00' ∉ m ++ ' ' :: '(' :: (reason ++ [')']) := by
        intro hx
        simp only [List.mem_append, List.mem_cons, List.not_mem_nil, or_false] at hx
        rcases hx with hx | hx | hx | hx | hx
        · exact hm m rfl hx
        · exact absurd hx (by decide)
        · exact absurd hx (by decide)
        · exact h0 hx
        · exact absurd hx (by decide)
      obtain ⟨q, hq, hr, -⟩ := snprintf_read (p := List.replicate payloadLength '\x00') (offset := 0)
        (size := payloadLength) (text := m ++ ' ' :: '(' :: (reason ++ [')'])) (by decide) (by decide)
        (Nat.zero_le _) hx
      have hq' : snprintf (fresh (settled l).length 9 reason file line).payload 0 payloadLength
          (m ++ ' ' :: '(' :: (reason ++ [')'])) = some q := hq
      rw [hq']
      refine ⟨_, rfl, holds_changed h rfl h1 h2 ?_ (linked_fresh (settled l).length 9 reason file line)⟩
      show Report.mk _ _ _ _ _ = _
      congr 1

theorem step_holds (fmt : Call → Text) (hfmt : ∀ c, '\x00' ∉ fmt c) (h : Holds st l) (hf : ¬ Full l) (c : Call)
    (hs : c.Strings) (hfit : c.Fits) : ∃ st', step fmt st c = some st' ∧ Holds st' (after l c) := by
  cases c with
  | error code message file line =>
    refine ⟨_, rfl, ?_⟩
    rcases setError_cases h hf code message file line with ⟨h1, h2⟩ | ⟨h1, h2, h3⟩
    · rw [h1]
      show Holds st (keep l _)
      rw [h2 _ rfl]
      exact h
    · rw [h3]
      exact holds_stored h h1 h2 rfl (linked_fresh (settled l).length code message file line)
  | errorf code text file line => exact setErrorf_holds h hf code text file line hs
  | source code location message file line =>
    obtain ⟨st', h1, h2⟩ := setSourceError_holds h hf code location message file line hs.1 hs.2
    refine ⟨st'.1, by show Option.map _ _ = _; rw [h1]; rfl, ?_⟩
    rcases h2 with ⟨rfl, h2⟩ | ⟨h2, h3, e, rfl, h4, h5, h6, h7, h8, -, h10⟩
    · cases location
      · show Holds st (keep l _)
        rw [h2 _ rfl]; exact h
      · show Holds st (keep l _)
        rw [h2 _ rfl]; exact h
    · cases location with
      | none =>
        refine holds_stored h (r := ⟨code, message, file, line, none⟩) h2 h3 ?_ h4
        show Report.mk e.code e.text e.file e.line (e.location.getD none) = _
        rw [h5, h6, h7, h8, h10]
        rfl
      | some x =>
        refine holds_stored h (r := ⟨code, (x.prefix ++ message).take 239, file, line, some x⟩) h2 h3 ?_ h4
        show Report.mk e.code e.text e.file e.line (e.location.getD none) = _
        rw [h5, h6, h7, h8, h10]
        rfl
  | sourcef code location text file line =>
    have hfit' : ∀ x ∈ location, x.prefix.length ≤ 240 := by
      intro x hx
      cases hx
      exact hfit
    obtain ⟨st', h1, h2⟩ := setSourceErrorf_holds h hf code location (fmt (.sourcef code location text file line))
      text file line (hfmt _) hs.1 hs.2 hfit'
    refine ⟨st', h1, ?_⟩
    cases location <;> exact h2
  | os message reason file line =>
    obtain ⟨st', h1, h2⟩ := setOsError_holds h hf message reason file line hs.1 hs.2
    refine ⟨st', h1, ?_⟩
    cases message <;> exact h2
  | clear => exact ⟨_, rfl, rfl, Nat.zero_le 32, trivial⟩

end Kefir.Errors
