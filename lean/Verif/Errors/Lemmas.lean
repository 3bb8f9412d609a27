import Verif.Errors.Model
/-!
# Lemmas on the record of errors
-/

namespace Kefir.Errors

theorem category_normal (c : Nat) : category c = .normal ↔ Normal c := by
  unfold Normal
  constructor
  · intro h
    unfold category at h
    split at h <;> first | omega | cases h
  · intro h
    match c, h with
    | 0, _ => rfl
    | 1, _ => rfl

theorem category_warning (c : Nat) : category c = .warning ↔ Warning c := by
  unfold Warning
  constructor
  · intro h
    unfold category at h
    split at h <;> first | omega | cases h
  · intro h
    match c, h with
    | 2, _ => rfl
    | 3, _ => rfl
    | 4, _ => rfl
    | 5, _ => rfl
    | 6, _ => rfl

/-- The links of the entry with index `n`. -/
def Linked (e : Entry) (n : Nat) : Prop :=
  e.prev = (if n ≠ 0 then some (n - 1) else none) ∧ e.overflow = decide (n + 1 = stackSize)

/-- The entries below `l.length` are those of `l`, the latest first. -/
def Good (stack : Nat → Entry) : List Report → Prop
  | [] => True
  | r :: l => (stack l.length).view = r ∧ Linked (stack l.length) l.length ∧ Good stack l

/-- The state holds the reports `l`. -/
def Holds (st : State) (l : List Report) : Prop := st.next = l.length ∧ l.length ≤ 32 ∧ Good st.stack l

theorem good_update {stack : Nat → Entry} {l : List Report} (h : Good stack l) {i : Nat} (hi : l.length ≤ i)
    (e : Entry) : Good (update stack i e) l := by
  induction l with
  | nil => trivial
  | cons r l ih =>
    have hlt : l.length < i := hi
    obtain ⟨h1, h2, h3⟩ := h
    have : update stack i e l.length = stack l.length := if_neg (by omega)
    exact ⟨by rw [this]; exact h1, by rw [this]; exact h2, ih h3 (by omega)⟩

theorem update_same (stack : Nat → Entry) (i : Nat) (e : Entry) : update stack i e i = e := if_pos rfl

theorem update_update (stack : Nat → Entry) (i : Nat) (e e' : Entry) :
    update (update stack i e) i e' = update stack i e' := by
  funext j
  unfold update
  split <;> rfl

/-- The flags of a list of reports: the latest of 32 has it. -/
def flags : List Report → List (Report × Bool)
  | [] => []
  | r :: l => (r, decide (l.length + 1 = stackSize)) :: flags l

theorem follow_good {stack : Nat → Entry} {l : List Report} (h : Good stack l) {fuel : Nat} (hf : l.length ≤ fuel) :
    follow stack fuel (if l.length ≠ 0 then some (l.length - 1) else none) = flags l := by
  induction l generalizing fuel with
  | nil => cases fuel <;> rfl
  | cons r l ih =>
    obtain ⟨h1, ⟨h2, h3⟩, h4⟩ := h
    have hf' : l.length + 1 ≤ fuel := hf
    obtain ⟨fuel, rfl⟩ : ∃ k, fuel = k + 1 := ⟨fuel - 1, by omega⟩
    rw [if_pos (by simp)]
    show follow stack (fuel + 1) (some l.length) = _
    rw [follow, h1, h2, h3, ih h4 (by omega)]
    rfl

theorem read_holds {st : State} {l : List Report} (h : Holds st l) : read st = flags l := by
  obtain ⟨h1, h2, h3⟩ := h
  unfold read currentError
  rw [h1]
  exact follow_good h3 h2

/-! ## Writing the payload -/

theorem snprintf_ok {p : Text} {offset size : Nat} {text : Text} (hs : size ≠ 0)
    (hr : offset + size ≤ payloadLength) :
    snprintf p offset size text =
      some (p.take offset ++ (text.take (size - 1) ++ ['\x00']) ++
        p.drop (offset + (text.take (size - 1) ++ ['\x00']).length)) := by
  unfold snprintf
  rw [if_neg hs]
  have : offset + (text.take (size - 1) ++ ['\x00']).length ≤ payloadLength := by
    rw [List.length_append, List.length_take, List.length_singleton]
    omega
  rw [if_pos this]

theorem takeWhile_string {s r : Text} (h : '\x00' ∉ s) :
    (s ++ '\x00' :: r).takeWhile (fun x => decide (x ≠ '\x00')) = s := by
  induction s with
  | nil => rfl
  | cons x s ih =>
    have hx : x ≠ '\x00' := fun e => h (by rw [e]; exact List.mem_cons_self)
    rw [List.cons_append, List.takeWhile_cons_of_pos (by simpa using hx),
      ih fun hm => h (List.mem_cons_of_mem _ hm)]

theorem not_mem_take {s : Text} (h : '\x00' ∉ s) (n : Nat) : '\x00' ∉ s.take n :=
  fun hm => h (List.mem_of_mem_take hm)

/-- A written text is read back. -/
theorem read_written {p a s r : Text} (hp : p = a ++ (s ++ ['\x00']) ++ r) (hs : '\x00' ∉ s) :
    (p.drop a.length).takeWhile (fun x => decide (x ≠ '\x00')) = s := by
  rw [hp, List.append_assoc, List.drop_left, List.append_assoc]
  exact takeWhile_string hs

/-! ## The calls -/

/-- The place for the next report. -/
def room (l : List Report) : Nat := (settled l).length

theorem settled_length (l : List Report) : (settled l).length ≤ l.length := by
  cases l with
  | nil => exact Nat.le_refl 0
  | cons r l =>
    rw [settled]
    split <;> simp

theorem good_settled {stack : Nat → Entry} {l : List Report} (h : Good stack l) : Good stack (settled l) := by
  cases l with
  | nil => exact h
  | cons r l =>
    rw [settled]
    split
    · exact h.2.2
    · exact h

theorem keep_normal {l : List Report} {r : Report} (h : Normal r.code) : keep l r = l := if_pos h

/-- A report that is stored. -/
theorem holds_stored {st : State} {l : List Report} (h : Holds st l) {r : Report} {e : Entry}
    (hn : ¬ Normal r.code) (hroom : (settled l).length < 32) (hv : e.view = r)
    (hl : Linked e (settled l).length) :
    Holds ⟨(settled l).length + 1, update st.stack (settled l).length e⟩ (keep l r) := by
  unfold keep
  rw [if_neg hn, if_pos hroom]
  refine ⟨rfl, hroom, ?_, ?_, ?_⟩
  · show (update _ _ _ _).view = r
    rw [update_same]; exact hv
  · show Linked (update _ _ _ _) _
    rw [update_same]; exact hl
  · exact good_update (good_settled h.2.2) (Nat.le_refl _) e

/-- What `kefir_set_error` stores. -/
def fresh (n code : Nat) (message file : Text) (line : Nat) : Entry :=
  { code, message := .literal message, file, line, location := none
    payload := List.replicate payloadLength '\x00'
    overflow := decide (n + 1 = stackSize)
    prev := if n ≠ 0 then some (n - 1) else none }

theorem index_settled {st : State} {l : List Report} (h : Holds st l) :
    (if st.next > 0 ∧ category (st.stack (st.next - 1)).code = .warning then st.next - 1 else st.next) =
      (settled l).length := by
  obtain ⟨h1, h2, h3⟩ := h
  rw [h1]
  cases l with
  | nil => rfl
  | cons r l =>
    obtain ⟨h4, -, -⟩ := h3
    have hc : (st.stack ((r :: l).length - 1)).code = r.code := by
      show (st.stack l.length).code = r.code
      rw [← h4]; rfl
    rw [hc, settled]
    by_cases hw : Warning r.code
    · rw [if_pos ⟨by simp, (category_warning _).2 hw⟩, if_pos hw]; simp
    · rw [if_neg fun h => hw ((category_warning _).1 h.2), if_neg hw]

/-- A state with 32 reports of which the latest is a warning. -/
def Full (l : List Report) : Prop := l.length = 32 ∧ (settled l).length < 32

theorem setError_cases {st : State} {l : List Report} (h : Holds st l) (hf : ¬ Full l) (code : Nat)
    (message file : Text) (line : Nat) :
    (setError st code message file line = (st, none) ∧ ∀ r : Report, r.code = code → keep l r = l) ∨
      (¬ Normal code ∧ (settled l).length < 32 ∧
        setError st code message file line =
          (⟨(settled l).length + 1, update st.stack (settled l).length
            (fresh (settled l).length code message file line)⟩, some (settled l).length)) := by
  unfold setError
  by_cases hc : st.next = stackSize ∨ category code = .normal
  · left
    refine ⟨if_pos hc, ?_⟩
    intro r hr
    unfold keep
    split
    · rfl
    · rename_i hn
      rcases hc with hc | hc
      · have h1 : l.length = 32 := by rw [← h.1]; exact hc
        have h2 : ¬ (settled l).length < 32 := fun h2 => hf ⟨h1, h2⟩
        rw [if_neg h2]
      · exact absurd ((category_normal _).1 (hr ▸ hc)) hn
  · right
    have hn : ¬ Normal code := fun hn => hc (Or.inr ((category_normal _).2 hn))
    have hne : l.length ≠ 32 := by rw [← h.1]; exact fun h' => hc (Or.inl h')
    have h2 := h.2.1
    have h3 := settled_length l
    refine ⟨hn, by omega, ?_⟩
    rw [if_neg hc]
    simp only [index_settled h]
    rfl

theorem linked_fresh (n code : Nat) (message file : Text) (line : Nat) :
    Linked (fresh n code message file line) n := ⟨rfl, rfl⟩

theorem payload_take (n : Nat) (h : n ≤ payloadLength) :
    ((List.replicate payloadLength '\x00').take n).length = n := by
  rw [List.length_take, List.length_replicate, Nat.min_eq_left h]

theorem snprintf_read {p : Text} {offset size : Nat} {text : Text} (hs : size ≠ 0)
    (hr : offset + size ≤ payloadLength) (hp : offset ≤ p.length) (h0 : '\x00' ∉ text) :
    ∃ q, snprintf p offset size text = some q ∧
      (q.drop offset).takeWhile (fun x => decide (x ≠ '\x00')) = text.take (size - 1) ∧
      q.take offset = p.take offset ∧ offset ≤ q.length ∧
      (text.length < size → q.take (offset + text.length) = p.take offset ++ text) := by
  have hlen : (p.take offset).length = offset := by rw [List.length_take, Nat.min_eq_left hp]
  refine ⟨_, snprintf_ok hs hr, ?_, ?_, ?_, ?_⟩
  · have := read_written (a := p.take offset) (s := text.take (size - 1))
      (r := p.drop (offset + (text.take (size - 1) ++ ['\x00']).length)) rfl (not_mem_take h0 _)
    rw [hlen] at this
    exact this
  · rw [List.append_assoc, List.take_append_of_le_length (by omega), List.take_take, Nat.min_self]
  · rw [List.append_assoc, List.length_append, hlen]
    omega
  · intro hlt
    rw [List.take_of_length_le (show text.length ≤ size - 1 by omega)]
    have : p.take offset ++ (text ++ ['\x00']) ++ p.drop (offset + (text ++ ['\x00']).length) =
        (p.take offset ++ text) ++ ('\x00' :: p.drop (offset + (text ++ ['\x00']).length)) := by simp
    rw [this, List.take_left' (by rw [List.length_append, hlen])]

end Kefir.Errors
