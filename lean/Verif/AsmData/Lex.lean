import Verif.AsmData.Model

/-! # Data as text: tokens -/

namespace Kefir.AsmData
open Kefir.StaticData

/-- Tokens in front. -/
def pre (ts : List Tok) (o : Option (List Tok)) : Option (List Tok) := o.map (ts ++ ·)

theorem pre_pre (a b : List Tok) (o : Option (List Tok)) : pre a (pre b o) = pre (a ++ b) o := by
  cases o <;> simp [pre]

theorem pre_nil (o : Option (List Tok)) : pre [] o = o := by cases o <;> simp [pre]

theorem pre_some (a b : List Tok) : pre a (some b) = some (a ++ b) := rfl

theorem tokens_cons (m : Mode) (c : Char) (cs : Text) :
    tokens m (c :: cs) = match step m c with
      | none => none
      | some (ts, m') => pre ts (tokens m' cs) := by
  rw [tokens]
  split
  · rename_i h; rw [h]
  · rename_i ts m' h
    rw [h]
    simp only
    cases tokens m' cs <;> rfl
  all_goals (intros; simp_all)

/-! ### Lines -/

theorem tokens_line : (t : Text) → (m : Mode) → (ts : List Tok) → (rest : Text) → tokens m t = some ts →
    tokens m (t ++ '\n' :: rest) = pre (ts ++ [.newline]) (tokens .start rest)
  | [], m, ts, rest, h => by
    rw [List.nil_append, tokens_cons]
    cases m <;> simp only [tokens] at h <;> cases h
    · simp [step, startStep]
    · have : wordChar '\n' = false := by decide
      simp [step, startStep, this]
    · simp [step]
  | c :: t, m, ts, rest, h => by
    rw [tokens_cons] at h
    rw [List.cons_append, tokens_cons]
    cases hs : step m c with
    | none => rw [hs] at h; cases h
    | some r =>
      obtain ⟨ts1, m'⟩ := r
      rw [hs] at h
      simp only at h ⊢
      cases ht : tokens m' t with
      | none => rw [ht] at h; cases h
      | some ts2 =>
        rw [ht, pre_some] at h
        cases h
        rw [tokens_line t m' ts2 rest ht, pre_pre, List.append_assoc]

/-! ### Pieces -/

/-- A rest that ends a word. -/
def Ends (rest : Text) : Prop := rest = [] ∨ ∃ c cs, rest = c :: cs ∧ wordChar c = false

theorem startStep_word {c : Char} (h : wordChar c = true) : startStep c = ([], .word [c]) := by
  have h1 : c ≠ '\n' := by rintro rfl; revert h; decide
  have h2 : c ≠ ' ' := by rintro rfl; revert h; decide
  have h3 : c ≠ '\t' := by rintro rfl; revert h; decide
  have h4 : c ≠ '#' := by rintro rfl; revert h; decide
  have h5 : c ≠ '"' := by rintro rfl; revert h; decide
  simp [startStep, h1, h2, h3, h4, h5, h]

theorem tokens_inWord : (w a : Text) → (rest : Text) → w.all wordChar = true → Ends rest →
    tokens (.word a) (w ++ rest) = pre [.word (a ++ w)] (tokens .start rest)
  | [], a, rest, _, he => by
    rw [List.nil_append, List.append_nil]
    rcases he with rfl | ⟨c, cs, rfl, hc⟩
    · simp [tokens, pre]
    · rw [tokens_cons, tokens_cons]
      simp only [step, hc, Bool.false_eq_true, if_false]
      rw [pre_pre]
      rfl
  | c :: w, a, rest, hw, he => by
    simp only [List.all_cons, Bool.and_eq_true] at hw
    rw [List.cons_append, tokens_cons]
    simp only [step, hw.1, if_true]
    rw [tokens_inWord w (a ++ [c]) rest hw.2 he, pre_nil, List.append_assoc]
    rfl

theorem tokens_word {w rest : Text} (hne : w ≠ []) (hw : w.all wordChar = true) (he : Ends rest) :
    tokens .start (w ++ rest) = pre [.word w] (tokens .start rest) := by
  cases w with
  | nil => exact absurd rfl hne
  | cons c w =>
    simp only [List.all_cons, Bool.and_eq_true] at hw
    rw [List.cons_append, tokens_cons]
    simp only [step, startStep_word hw.1]
    rw [tokens_inWord w [c] rest hw.2 he, pre_nil]
    rfl

theorem tokens_blank (rest : Text) : tokens .start (' ' :: rest) = tokens .start rest := by
  rw [tokens_cons]
  simp [step, startStep, pre_nil]

/-- The punctuation that occurs. -/
theorem tokens_punct {c : Char} (rest : Text) (h : c = ',' ∨ c = ':' ∨ c = '+' ∨ c = '-') :
    tokens .start (c :: rest) = pre [.punct c] (tokens .start rest) := by
  have hw : wordChar c = false := by rcases h with rfl | rfl | rfl | rfl <;> decide
  rw [tokens_cons]
  have : startStep c = ([.punct c], .start) := by
    rcases h with rfl | rfl | rfl | rfl <;> simp [startStep, hw]
  simp only [step, this]

theorem ends_blank (rest : Text) : Ends (' ' :: rest) := Or.inr ⟨_, _, rfl, by decide⟩
theorem ends_comma (rest : Text) : Ends (',' :: rest) := Or.inr ⟨_, _, rfl, by decide⟩
theorem ends_colon (rest : Text) : Ends (':' :: rest) := Or.inr ⟨_, _, rfl, by decide⟩

theorem tokens_indent (rest : Text) : tokens .start (indentation ++ rest) = tokens .start rest := by
  show tokens .start (' ' :: ' ' :: ' ' :: ' ' :: rest) = _
  rw [tokens_blank, tokens_blank, tokens_blank, tokens_blank]

/-! ### Strings -/

theorem octal_digit : ∀ d : Fin 8, (digitChar d).isDigit = true ∧ (digitChar d).toNat - 48 = d := by decide

theorem tokens_octal {b : Nat} (hb : b < 256) (acc : List Nat) (c : Char) (rest : Text) :
    tokens (.str acc) ('\\' :: fixed 8 3 b ++ c :: rest) = tokens (.str (acc ++ [b])) (c :: rest) := by
  have h2 := octal_digit ⟨b / 8 / 8 % 8, Nat.mod_lt _ (by decide)⟩
  have h1 := octal_digit ⟨b / 8 % 8, Nat.mod_lt _ (by decide)⟩
  have h0 := octal_digit ⟨b % 8, Nat.mod_lt _ (by decide)⟩
  simp only at h0 h1 h2
  simp only [fixed, List.nil_append, List.cons_append]
  rw [tokens_cons]
  simp only [step, strStep, show ('\\' = '"') = False from by decide, if_false, if_true, pre_nil]
  rw [tokens_cons]
  simp only [step, escapeStep, h2.1, if_true, pre_nil, h2.2]
  rw [tokens_cons]
  simp only [step, h1.1, show (1 < 3) = True from by decide, and_self, if_true, pre_nil, h1.2]
  rw [tokens_cons]
  simp only [step, h0.1, show (1 + 1 < 3) = True from by decide, and_self, if_true, pre_nil, h0.2]
  rw [tokens_cons, tokens_cons]
  have hv : ((b / 8 / 8 % 8 * 8 + b / 8 % 8) * 8 + b % 8) % 256 = b := by omega
  simp only [step, show (1 + 1 + 1 < 3) = False from by decide, false_and, if_false, hv]

theorem printable : ∀ b : Fin 128, 32 ≤ b.val → b.val < 127 → b.val ≠ 34 → b.val ≠ 92 →
    Char.ofNat b ≠ '"' ∧ Char.ofNat b ≠ '\\' ∧ Char.ofNat b ≠ '\n' ∧ (Char.ofNat b).toNat = b := by
  decide

theorem tokens_char {b : Nat} (hb : b < 256) (acc : List Nat) (c : Char) (rest : Text) :
    tokens (.str acc) (stringChar b ++ c :: rest) = tokens (.str (acc ++ [b])) (c :: rest) := by
  have esc : ∀ (e : Char) (v : Nat), escapeStep acc e = some ([], .str (acc ++ [v])) →
      tokens (.str acc) ('\\' :: e :: c :: rest) = tokens (.str (acc ++ [v])) (c :: rest) := by
    intro e v he
    rw [tokens_cons]
    simp only [step, strStep, show ('\\' = '"') = False from by decide, if_false, if_true, pre_nil]
    rw [tokens_cons]
    simp only [step, he, pre_nil]
  unfold stringChar
  by_cases h0 : b = 0
  · subst h0; rw [if_pos rfl]; exact tokens_octal (b := 0) (by decide) acc c rest
  rw [if_neg h0]
  by_cases h1 : b = 34
  · subst h1; rw [if_pos rfl]; exact esc _ _ (by simp [escapeStep])
  rw [if_neg h1]
  by_cases h2 : b = 92
  · subst h2; rw [if_pos rfl]; exact esc _ _ (by simp [escapeStep])
  rw [if_neg h2]
  by_cases h3 : b = 7
  · subst h3; rw [if_pos rfl]; exact tokens_octal (b := 7) (by decide) acc c rest
  rw [if_neg h3]
  by_cases h4 : b = 8
  · subst h4; rw [if_pos rfl]; exact esc _ _ (by simp [escapeStep])
  rw [if_neg h4]
  by_cases h5 : b = 9
  · subst h5; rw [if_pos rfl]; exact esc _ _ (by simp [escapeStep])
  rw [if_neg h5]
  by_cases h6 : b = 10
  · subst h6; rw [if_pos rfl]; exact esc _ _ (by simp [escapeStep])
  rw [if_neg h6]
  by_cases h7 : b = 11
  · subst h7; rw [if_pos rfl]; exact tokens_octal (b := 11) (by decide) acc c rest
  rw [if_neg h7]
  by_cases h8 : b = 12
  · subst h8; rw [if_pos rfl]; exact esc _ _ (by simp [escapeStep])
  rw [if_neg h8]
  by_cases h9 : b = 13
  · subst h9; rw [if_pos rfl]; exact esc _ _ (by simp [escapeStep])
  rw [if_neg h9]
  by_cases h : 32 ≤ b ∧ b < 127
  · rw [if_pos h]
    obtain ⟨p1, p2, p3, p4⟩ := printable ⟨b, by omega⟩ h.1 h.2 h1 h2
    simp only at p1 p2 p3 p4
    rw [List.cons_append, tokens_cons]
    simp only [step, strStep, p1, p2, p3, p4, if_false, show b < 128 from by omega, if_true, pre_nil, List.nil_append]
  · rw [if_neg h]; exact tokens_octal hb acc c rest

theorem tokens_chars : (bs : List Nat) → (acc : List Nat) → (rest : Text) → (∀ b ∈ bs, b < 256) →
    tokens (.str acc) (bs.flatMap stringChar ++ '"' :: rest) = pre [.str (acc ++ bs)] (tokens .start rest)
  | [], acc, rest, _ => by
    rw [List.flatMap_nil, List.nil_append, List.append_nil, tokens_cons]
    simp [step, strStep]
  | b :: bs, acc, rest, h => by
    rw [List.flatMap_cons, List.append_assoc]
    have ih := tokens_chars bs (acc ++ [b]) rest (fun x hx => h x (List.mem_cons_of_mem _ hx))
    rw [List.append_assoc] at ih
    obtain ⟨c, cs, hc⟩ : ∃ c cs, bs.flatMap stringChar ++ '"' :: rest = c :: cs := by
      cases hl : bs.flatMap stringChar ++ '"' :: rest with
      | nil => simp at hl
      | cons c cs => exact ⟨c, cs, rfl⟩
    rw [hc] at ih ⊢
    rw [tokens_char (h b List.mem_cons_self), ih]
    rfl

theorem tokens_string {bs : List Nat} (rest : Text) (h : ∀ b ∈ bs, b < 256) :
    tokens .start ('"' :: (bs.flatMap stringChar ++ '"' :: rest)) = pre [.str bs] (tokens .start rest) := by
  rw [tokens_cons]
  have : startStep '"' = ([], .str []) := by decide
  simp only [step, this, pre_nil]
  rw [tokens_chars bs [] rest h]
  rfl

/-! ### Numbers -/

theorem hex_digit : ∀ d : Fin 16, wordChar (digitChar d) = true ∧ digitOf 16 (digitChar d) = some d.val := by decide

theorem dec_digit : ∀ d : Fin 10, wordChar (digitChar d) = true ∧ digitOf 10 (digitChar d) = some d.val ∧
    (digitChar d).isDigit = true ∧ (d.val ≠ 0 → digitChar d ≠ '0') ∧ digitChar d = Nat.digitChar d := by decide

theorem digitsValue_append (base : Nat) : (a b : Text) → (acc : Nat) →
    digitsValue base acc (a ++ b) = (digitsValue base acc a).bind fun v => digitsValue base v b
  | [], b, acc => by simp [digitsValue]
  | c :: a, b, acc => by
    rw [List.cons_append, digitsValue, digitsValue]
    cases digitOf base c with
    | none => rfl
    | some d => exact digitsValue_append base a b _

theorem fixed_word : (n v : Nat) → (fixed 16 n v).all wordChar = true
  | 0, v => rfl
  | n + 1, v => by
    rw [fixed, List.all_append, fixed_word n]
    have := (hex_digit ⟨v % 16, Nat.mod_lt _ (by decide)⟩).1
    simp only at this
    simp [this]

theorem fixed_value : (n v : Nat) → v < 16 ^ n → digitsValue 16 0 (fixed 16 n v) = some v
  | 0, v, h => by
    have : v = 0 := by simpa using h
    subst this; rfl
  | n + 1, v, h => by
    rw [fixed, digitsValue_append, fixed_value n (v / 16) (by rw [Nat.pow_succ] at h; omega)]
    have := (hex_digit ⟨v % 16, Nat.mod_lt _ (by decide)⟩).2
    simp only at this
    simp only [Option.bind_some, digitsValue, this]
    congr 1
    omega

/-- A hexadecimal argument. -/
def hexText (n v : Nat) : Text := '0' :: 'x' :: fixed 16 n v

theorem fixed_cons (n v : Nat) : ∃ c cs, fixed 16 (n + 1) v = c :: cs := by
  cases h : fixed 16 (n + 1) v with
  | nil => rw [fixed] at h; simp at h
  | cons c cs => exact ⟨c, cs, rfl⟩

theorem hexText_number {n v : Nat} (hn : 0 < n) (h : v < 16 ^ n) : number (hexText n v) = some v := by
  obtain ⟨n, rfl⟩ : ∃ k, n = k + 1 := ⟨n - 1, by omega⟩
  obtain ⟨c, cs, hc⟩ := fixed_cons n v
  have := fixed_value (n + 1) v h
  unfold hexText
  rw [hc] at this ⊢
  simp only [number]
  exact this

theorem hexText_word (n v : Nat) : (hexText n v).all wordChar = true := by
  unfold hexText
  rw [List.all_cons, List.all_cons, fixed_word]
  decide

theorem hexText_notName (n v : Nat) : isName (hexText n v) = false := by
  have : '0'.isDigit = true := by decide
  simp only [hexText, isName, this]
  simp

theorem dec_lt {n : Nat} (h : n < 10) : dec n = [digitChar n] := by
  rw [dec, Nat.toDigits_of_lt_base h, (dec_digit ⟨n, h⟩).2.2.2.2]
theorem dec_ge {n : Nat} (h : ¬ n < 10) : dec n = dec (n / 10) ++ [digitChar (n % 10)] := by
  rw [dec, Nat.toDigits_of_base_le (by decide) (by omega), (dec_digit ⟨n % 10, Nat.mod_lt _ (by decide)⟩).2.2.2.2]
  rfl

theorem dec_repr (n : Nat) : dec n = Nat.toDigits 10 n := rfl

theorem dec_facts (n : Nat) : (dec n).all wordChar = true ∧ digitsValue 10 0 (dec n) = some n ∧
    ∃ c cs, dec n = c :: cs ∧ c.isDigit = true ∧ (n ≠ 0 → c ≠ '0') := by
  induction n using Nat.strongRecOn with
  | ind n ih =>
    by_cases h : n < 10
    · have := dec_digit ⟨n, h⟩
      simp only at this
      rw [dec_lt h]
      exact ⟨by simp [this.1], by simp [digitsValue, this.2.1], _, _, rfl, this.2.2.1, this.2.2.2.1⟩
    · obtain ⟨i1, i2, c, cs, i3, i4, i5⟩ := ih (n / 10) (by omega)
      have := dec_digit ⟨n % 10, Nat.mod_lt _ (by decide)⟩
      simp only at this
      rw [dec_ge h]
      refine ⟨by rw [List.all_append, i1]; simp [this.1], ?_, c, cs ++ [digitChar (n % 10)], by rw [i3]; rfl, i4,
        fun _ => i5 (by omega)⟩
      rw [digitsValue_append, i2]
      simp only [Option.bind_some, digitsValue, this.2.1]
      congr 1
      omega

theorem dec_number (n : Nat) : number (dec n) = some n := by
  obtain ⟨h1, h2, c, cs, h3, h4, h5⟩ := dec_facts n
  by_cases hn : n = 0
  · subst hn; rw [dec_lt (by decide)]; decide
  · have hc := h5 hn
    rw [h3] at h2 ⊢
    rw [number]
    · exact h2
    · intro a b hab; exact absurd hab hc
    · intro hab; exact absurd hab hc

theorem dec_notName (n : Nat) : isName (dec n) = false := by
  obtain ⟨_, _, c, cs, h3, h4, _⟩ := dec_facts n
  rw [h3]
  simp [isName, h4]

theorem dec_ne (n : Nat) : dec n ≠ [] := by
  obtain ⟨_, _, c, cs, h3, _⟩ := dec_facts n
  rw [h3]; simp

end Kefir.AsmData
