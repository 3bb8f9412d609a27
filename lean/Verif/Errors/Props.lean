import Verif.Errors.Sound
/-!
# C99: the record of errors
-/

namespace Kefir.Errors

/-- No part of the history leaves 32 reports of which the latest is a warning. -/
def NeverFull (l : List Report) (cs : List Call) : Prop :=
  ∀ p q, cs = p ++ q → q ≠ [] → ¬ ((reports l p).length = 32 ∧ ∃ r ∈ (reports l p).head?, Warning r.code)

theorem full_head {l : List Report} (h : Full l) : l.length = 32 ∧ ∃ r ∈ l.head?, Warning r.code := by
  obtain ⟨h1, h2⟩ := h
  refine ⟨h1, ?_⟩
  cases l with
  | nil => cases h1
  | cons r l =>
    refine ⟨r, rfl, ?_⟩
    rw [settled] at h2
    split at h2
    · assumption
    · omega

theorem run_holds (fmt : Call → Text) (hfmt : ∀ c, '\x00' ∉ fmt c) (cs : List Call)
    (hs : ∀ c ∈ cs, c.Strings ∧ c.Fits) : ∀ (st : State) (l : List Report), Holds st l → NeverFull l cs →
    ∃ st', run fmt st cs = some st' ∧ Holds st' (reports l cs) := by
  induction cs with
  | nil => exact fun st l h _ => ⟨st, rfl, h⟩
  | cons c cs ih =>
    intro st l h hn
    have hf : ¬ Full l := fun hf => hn [] (c :: cs) rfl (by simp) (full_head hf)
    obtain ⟨h1, h2⟩ := hs c List.mem_cons_self
    obtain ⟨st1, h3, h4⟩ := step_holds fmt hfmt h hf c h1 h2
    rw [run, h3]
    refine ih (fun x hx => hs x (List.mem_cons_of_mem _ hx)) st1 (after l c) h4 ?_
    intro p q hpq hq
    exact hn (c :: p) q (by rw [hpq]; rfl) hq

/-- **C99** (partial: the locations of reports with arguments have no more than 240 characters, and a
warning is not the latest of 32 reports before another call).  After any history of calls that begins
with a clear, nothing was written outside the payloads, and a caller who begins with the current error and
goes on along the previous errors reads exactly the reports that the history leaves, the latest first, each
with its code, its message (cut to the room for it), its origin and its location. -/
theorem C99_record_partial (fmt : Call → Text) (hfmt : ∀ c, '\x00' ∉ fmt c) (st : State) (cs : List Call)
    (hs : ∀ c ∈ cs, c.Strings)
    (hl : ∀ c ∈ cs, ∀ code x text file line, c = .sourcef code (some x) text file line → x.prefix.length ≤ 240)
    (hn : NeverFull [] cs) :
    ∃ st', run fmt st (.clear :: cs) = some st' ∧ (read st').map Prod.fst = reports [] cs := by
  have hfit : ∀ c ∈ cs, c.Strings ∧ c.Fits := by
    intro c hc
    refine ⟨hs c hc, ?_⟩
    unfold Call.Fits
    split
    · exact hl _ hc _ _ _ _ _ rfl
    · trivial
  obtain ⟨st', h1, h2⟩ := run_holds fmt hfmt cs hfit (clearError st) [] ⟨rfl, by decide, trivial⟩ hn
  refine ⟨st', h1, ?_⟩
  rw [read_holds h2]
  generalize reports [] cs = l
  induction l with
  | nil => rfl
  | cons r l ih => rw [flags, List.map_cons, ih]

/-- **C99**, the sign of lost reports: a caller finds it exactly at the latest of 32 reports. -/
theorem C99_overflow_partial (fmt : Call → Text) (hfmt : ∀ c, '\x00' ∉ fmt c) (st st' : State) (cs : List Call)
    (hs : ∀ c ∈ cs, c.Strings)
    (hl : ∀ c ∈ cs, ∀ code x text file line, c = .sourcef code (some x) text file line → x.prefix.length ≤ 240)
    (hn : NeverFull [] cs) (hr : run fmt st (.clear :: cs) = some st') (i : Nat) (r : Report) (o : Bool)
    (hi : (read st')[i]? = some (r, o)) : o = true ↔ i = 0 ∧ (reports [] cs).length = 32 := by
  have hfit : ∀ c ∈ cs, c.Strings ∧ c.Fits := by
    intro c hc
    refine ⟨hs c hc, ?_⟩
    unfold Call.Fits
    split
    · exact hl _ hc _ _ _ _ _ rfl
    · trivial
  obtain ⟨st1, h1, h2⟩ := run_holds fmt hfmt cs hfit (clearError st) [] ⟨rfl, by decide, trivial⟩ hn
  have : run fmt st (.clear :: cs) = some st1 := h1
  rw [hr] at this
  cases this
  rw [read_holds h2] at hi
  have hle := h2.2.1
  revert hle hi
  generalize reports [] cs = l
  intro hi hle
  have key : ∀ (l : List Report) (i : Nat), (flags l)[i]? = some (r, o) → (o = true ↔ l.length = 32 + i) := by
    intro l
    induction l with
    | nil => intro i h; cases h
    | cons x l ih =>
      intro i h
      cases i with
      | zero =>
        injection h with h
        injection h with _ h
        rw [← h, decide_eq_true_eq]
        rfl
      | succ i =>
        have := ih i h
        rw [this, List.length_cons]
        omega
  rw [key l i hi]
  omega

/-! ## Reading the history -/

/-- Not more than 32 reports are kept. -/
theorem reports_length (cs : List Call) : ∀ l : List Report, l.length ≤ 32 → (reports l cs).length ≤ 32 := by
  induction cs with
  | nil => exact fun l h => h
  | cons c cs ih =>
    intro l h
    rw [reports]
    apply ih
    split
    · unfold keep
      split
      · exact h
      · split
        · rw [List.length_cons]; omega
        · exact h
    · exact Nat.zero_le _

theorem reports_grow (p : List Call) : ∀ l : List Report, (reports l p).length ≤ l.length + p.length := by
  induction p with
  | nil => exact fun l => Nat.le_refl _
  | cons c p ih =>
    intro l
    rw [reports]
    refine Nat.le_trans (ih _) ?_
    rw [List.length_cons]
    have := settled_length l
    split
    · unfold keep
      split
      · omega
      · split
        · rw [List.length_cons]; omega
        · omega
    · rw [List.length_nil]; omega

/-- A history of not more than 32 calls meets the hypothesis on warnings. -/
theorem neverFull_short (cs : List Call) (h : cs.length ≤ 32) : NeverFull [] cs := by
  intro p q hpq hq hfull
  have h1 := reports_grow p []
  have h2 := congrArg List.length hpq
  have h3 : 0 < q.length := List.length_pos_iff.2 hq
  rw [List.length_append] at h2
  rw [List.length_nil] at h1
  omega

/-- Three reports, of which the first is a warning. -/
def sample : List Call :=
  [.error 4 "a".toList [] 1, .sourcef 21 (some ⟨"x.c".toList, 3, 14⟩) "b".toList [] 2,
    .os (some "c".toList) "d".toList [] 3]

example (fmt : Call → Text) (hfmt : ∀ c, '\x00' ∉ fmt c) (st : State) :
    ∃ st', run fmt st (.clear :: sample) = some st' ∧
      (read st').map (fun p => (p.1.code, p.1.message)) =
        [(9, "c (d)".toList), (21, "x.c@3:14 b".toList)] := by
  have hs : ∀ c ∈ sample, c.Strings := by
    intro c hc
    simp only [sample, List.mem_cons, List.not_mem_nil, or_false] at hc
    rcases hc with rfl | rfl | rfl
    · show '\x00' ∉ "a".toList
      decide
    · exact ⟨by decide, by rintro x hx; cases hx; decide⟩
    · exact ⟨by decide, by rintro x hx; cases hx; decide⟩
  have hl : ∀ c ∈ sample, ∀ code x text file line, c = .sourcef code (some x) text file line →
      x.prefix.length ≤ 240 := by
    intro c hc code x text file line h
    simp only [sample, List.mem_cons, List.not_mem_nil, or_false] at hc
    rcases hc with rfl | rfl | rfl
    · cases h
    · cases h; decide +kernel
    · cases h
  obtain ⟨st', h1, h2⟩ := C99_record_partial fmt hfmt st sample hs hl (neverFull_short _ (by decide))
  refine ⟨st', h1, ?_⟩
  have := congrArg (List.map fun r => (r.code, r.message)) h2
  rw [List.map_map] at this
  exact this.trans (by decide +kernel)

/-! ## Where the record fails -/

theorem step_sourcef (fmt : Call → Text) (st : State) (code : Nat) (x : Option Location) (text file : Text)
    (line : Nat) : step fmt st (.sourcef code x text file line) =
      setSourceErrorf st code x (fmt (.sourcef code x text file line)) text file line := rfl

theorem run_one (fmt : Call → Text) (st : State) (c : Call) (h : step fmt (clearError st) c = none) :
    run fmt st [.clear, c] = none := by
  rw [run]
  show run fmt (clearError st) [c] = none
  rw [run, h]

theorem run_clear (fmt : Call → Text) (st : State) (cs : List Call) :
    run fmt st (.clear :: cs) = run fmt (clearError st) cs := rfl

theorem run_two (fmt : Call → Text) (st s1 s2 : State) (c d : Call) (h1 : step fmt st c = some s1)
    (h2 : step fmt s1 d = some s2) : run fmt st [c, d] = some s2 := by
  rw [run, h1]
  show run fmt s1 [d] = some s2
  rw [run, h2]
  rfl

theorem read_head (st : State) (n : Nat) (h : st.next = n + 1) :
    (read st).head?.map (·.1.code) = some (st.stack n).code := by
  unfold read currentError
  rw [h, if_pos (Nat.succ_ne_zero n)]
  rfl

/-- A file name of 240 characters. -/
def longName : Text := List.replicate 240 'a'

/-- C99 is false of long file names: a report with arguments about a place in a file whose name has 240
characters writes outside the payload. -/
theorem C99_long_name_false (fmt : Call → Text) (hfmt : ∀ c, '\x00' ∉ fmt c) (st : State) :
    ∃ c : Call, c.Strings ∧ c.report ≠ none ∧ run fmt st [.clear, c] = none := by
  refine ⟨.sourcef 21 (some ⟨longName, 1, 1⟩) "b".toList [] 1, ⟨by decide, ?_⟩, by simp [Call.report], ?_⟩
  · rintro x hx
    cases hx
    show '\x00' ∉ longName
    intro h
    have := List.eq_of_mem_replicate h
    exact absurd this (by decide)
  · have hbase : Holds (clearError st) [] := ⟨rfl, by decide, trivial⟩
    have hsrc : ∀ x ∈ some (Location.mk longName 1 1), '\x00' ∉ x.source := by
      rintro x hx
      cases hx
      intro h
      exact absurd (List.eq_of_mem_replicate h) (by decide)
    have hnf : ¬ Full [] := fun h => absurd h.1 (by decide)
    obtain ⟨st', h1, h2⟩ := setSourceError_holds hbase hnf 21 (some ⟨longName, 1, 1⟩)
      (fmt (.sourcef 21 (some ⟨longName, 1, 1⟩) "b".toList [] 1)) [] 1 (hfmt _) hsrc
    have hstep : step fmt (clearError st) (.sourcef 21 (some ⟨longName, 1, 1⟩) "b".toList [] 1) = none := by
      rw [step_sourcef]
      unfold setSourceErrorf
      rw [h1]
      rcases h2 with ⟨rfl, h2⟩ | ⟨h2, h3, e, rfl, h4, h5, h6, h7, h8, h9, -⟩
      · have := h2 ⟨21, [], [], 0, none⟩ rfl
        exact absurd this (by decide)
      · simp only [update_same]
        obtain ⟨q, hq, -⟩ := snprintf_read (p := e.payload) (offset := messageOffset) (size := messageLength)
          (text := locationText ⟨longName, 1, 1⟩) (by decide) (by decide) h9 (prefix_strings (hsrc _ rfl))
        rw [hq]
        simp only
        have hroom : textRoom (some ⟨longName, 1, 1⟩) = (245, 18446744073709551611) := by decide +kernel
        rw [hroom]
        rfl
    exact run_one fmt st _ hstep

/-- 31 errors and a warning. -/
def crowded : List Call := List.replicate 31 (.error 8 [] [] 0) ++ [.error 4 [] [] 0]

/-- C99 is false where a warning is the latest of 32 reports: the error that follows it is lost, and the
caller is told of a warning. -/
theorem C99_warning_false (fmt : Call → Text) (st : State) :
    ∃ st', run fmt st (.clear :: (crowded ++ [.error 21 "x".toList [] 0])) = some st' ∧
      (reports [] (crowded ++ [.error 21 "x".toList [] 0])).head?.map (·.code) = some 21 ∧
      (read st').head?.map (·.1.code) = some 4 := by
  have hrun : ∀ n st, st.next = n → n < 32 → (n = 0 ∨ (st.stack (n - 1)).code = 8) → ∀ code, ¬ Normal code →
      ∃ st', step fmt st (.error code [] [] 0) = some st' ∧ st'.next = n + 1 ∧ (st'.stack n).code = code := by
    intro n st hn hlt htop code hc
    have hcat : category code ≠ .normal := fun h => hc ((category_normal _).1 h)
    have hi : ¬ (st.next > 0 ∧ category (st.stack (st.next - 1)).code = .warning) := by
      rintro ⟨h1, h2⟩
      rcases htop with h | h
      · omega
      · rw [hn, h] at h2
        exact absurd h2 (by decide)
    have hne : ¬ (st.next = stackSize ∨ category code = .normal) := by
      rintro (h | h)
      · rw [hn] at h
        exact absurd h (Nat.ne_of_lt hlt)
      · exact hcat h
    refine ⟨_, rfl, ?_, ?_⟩
    · show (setError st code [] [] 0).1.next = _
      unfold setError
      rw [if_neg hne]
      simp only [if_neg hi]
      rw [hn]
    · show ((setError st code [] [] 0).1.stack n).code = _
      unfold setError
      rw [if_neg hne]
      simp only [if_neg hi]
      rw [hn, update_same]
  have hmany : ∀ k n st, st.next = n → n + k < 32 → (n = 0 ∨ (st.stack (n - 1)).code = 8) → ∀ cs,
      ∃ st', run fmt st (List.replicate k (.error 8 [] [] 0) ++ cs) = run fmt st' cs ∧ st'.next = n + k ∧
        (n + k = 0 ∨ (st'.stack (n + k - 1)).code = 8) := by
    intro k
    induction k with
    | zero => exact fun n st h _ h2 cs => ⟨st, rfl, h, h2⟩
    | succ k ih =>
      intro n st h hlt h2 cs
      obtain ⟨st1, g1, g2, g3⟩ := hrun n st h (by omega) h2 8 (by decide)
      obtain ⟨st2, g4, g5, g6⟩ := ih (n + 1) st1 g2 (by omega) (Or.inr g3) cs
      refine ⟨st2, ?_, by omega, by rw [show n + (k + 1) = n + 1 + k by omega]; exact g6⟩
      rw [List.replicate_succ, List.cons_append, run, g1]
      exact g4
  obtain ⟨s1, a1, a2, a3⟩ := hmany 31 0 (clearError st) rfl (by decide) (Or.inl rfl)
    [.error 4 [] [] 0, .error 21 "x".toList [] 0]
  obtain ⟨s2, b1, b2, b3⟩ := hrun 31 s1 a2 (by decide) a3 4 (by decide)
  have hlast : step fmt s2 (.error 21 "x".toList [] 0) = some s2 := by
    show some (setError s2 21 "x".toList [] 0).1 = _
    unfold setError
    rw [if_pos (show s2.next = stackSize ∨ category 21 = .normal from Or.inl b2)]
  refine ⟨s2, ?_, by decide +kernel, ?_⟩
  · have : crowded ++ [.error 21 "x".toList [] 0] =
        List.replicate 31 (.error 8 [] [] 0) ++ [.error 4 [] [] 0, .error 21 "x".toList [] 0] := by
      unfold crowded
      rw [List.append_assoc]
      rfl
    rw [run_clear, this]
    exact a1.trans (run_two fmt s1 s2 s2 _ _ b1 hlast)
  · rw [read_head s2 31 b2, b3]

end Kefir.Errors
