import Verif.Lexer.Matchers
/-!
# Lemmas about integer constants
-/

namespace Kefir.Lexer

theorem mem_dec (c : Nat) : c ∈ ([48, 49, 50, 51, 52, 53, 54, 55, 56, 57] : List Nat) ↔
    48 ≤ c ∧ c ≤ 57 := by
  simp only [List.mem_cons, List.not_mem_nil, or_false]
  omega

theorem mem_oct (c : Nat) : c ∈ ([48, 49, 50, 51, 52, 53, 54, 55] : List Nat) ↔
    48 ≤ c ∧ c ≤ 55 := by
  simp only [List.mem_cons, List.not_mem_nil, or_false]
  omega

theorem mem_hex (c : Nat) :
    c ∈ ([97, 65, 98, 66, 99, 67, 100, 68, 101, 69, 102, 70] : List Nat) ↔
    97 ≤ c ∧ c ≤ 102 ∨ 65 ≤ c ∧ c ≤ 70 := by
  simp only [List.mem_cons, List.not_mem_nil, or_false]
  omega

theorem isdigit_iff (c : Nat) : isdigit c = true ↔ ch '0' ≤ c ∧ c ≤ ch '9' := by
  have h : str "0123456789" = [48, 49, 50, 51, 52, 53, 54, 55, 56, 57] := by decide
  unfold isdigit
  rw [h, List.contains_eq_mem, decide_eq_true_eq]
  exact mem_dec c

theorem isoctdigit_iff (c : Nat) : isoctdigit c = true ↔ ch '0' ≤ c ∧ c ≤ ch '7' := by
  have h : str "01234567" = [48, 49, 50, 51, 52, 53, 54, 55] := by decide
  unfold isoctdigit
  rw [h, List.contains_eq_mem, decide_eq_true_eq]
  exact mem_oct c

theorem ishexdigit_iff (c : Nat) : ishexdigit c = true ↔
    (ch '0' ≤ c ∧ c ≤ ch '9' ∨ ch 'a' ≤ c ∧ c ≤ ch 'f' ∨ ch 'A' ≤ c ∧ c ≤ ch 'F') := by
  have h : str "aAbBcCdDeEfF" = [97, 65, 98, 66, 99, 67, 100, 68, 101, 69, 102, 70] := by decide
  unfold ishexdigit
  rw [Bool.or_eq_true, isdigit_iff, h, List.contains_eq_mem, decide_eq_true_eq]
  have e : c ∈ ([97, 65, 98, 66, 99, 67, 100, 68, 101, 69, 102, 70] : List Chr) ↔ _ := mem_hex c
  rw [e]
  exact or_comm

theorem digit10_iff (c : Nat) : IsDigit 10 c ↔ isdigit c = true := by
  rw [isdigit_iff]
  unfold IsDigit digitVal
  show (48 ≤ c ∧ c ≤ 57 ∨ 97 ≤ c ∧ c ≤ 102 ∨ 65 ≤ c ∧ c ≤ 70) ∧
    (if 48 ≤ c ∧ c ≤ 57 then c - 48 else if 97 ≤ c ∧ c ≤ 102 then c - 97 + 10
      else if 65 ≤ c ∧ c ≤ 70 then c - 65 + 10 else 0) < 10 ↔ 48 ≤ c ∧ c ≤ 57
  split
  · omega
  · split
    · omega
    · split <;> omega

theorem digit8_iff (c : Nat) : IsDigit 8 c ↔ isoctdigit c = true := by
  rw [isoctdigit_iff]
  unfold IsDigit digitVal
  show (48 ≤ c ∧ c ≤ 57 ∨ 97 ≤ c ∧ c ≤ 102 ∨ 65 ≤ c ∧ c ≤ 70) ∧
    (if 48 ≤ c ∧ c ≤ 57 then c - 48 else if 97 ≤ c ∧ c ≤ 102 then c - 97 + 10
      else if 65 ≤ c ∧ c ≤ 70 then c - 65 + 10 else 0) < 8 ↔ 48 ≤ c ∧ c ≤ 55
  split
  · omega
  · split
    · omega
    · split <;> omega

theorem digit16_iff (c : Nat) : IsDigit 16 c ↔ ishexdigit c = true := by
  rw [ishexdigit_iff]
  unfold IsDigit digitVal
  show (48 ≤ c ∧ c ≤ 57 ∨ 97 ≤ c ∧ c ≤ 102 ∨ 65 ≤ c ∧ c ≤ 70) ∧
    (if 48 ≤ c ∧ c ≤ 57 then c - 48 else if 97 ≤ c ∧ c ≤ 102 then c - 97 + 10
      else if 65 ≤ c ∧ c ≤ 70 then c - 65 + 10 else 0) < 16 ↔
    48 ≤ c ∧ c ≤ 57 ∨ 97 ≤ c ∧ c ≤ 102 ∨ 65 ≤ c ∧ c ≤ 70
  split
  · omega
  · split
    · omega
    · split <;> omega

theorem hex32todec_eq {c : Nat} (h : ishexdigit c = true) : hex32todec c = digitVal c := by
  rw [ishexdigit_iff] at h
  unfold hex32todec digitVal
  replace h : 48 ≤ c ∧ c ≤ 57 ∨ 97 ≤ c ∧ c ≤ 102 ∨ 65 ≤ c ∧ c ≤ 70 := h
  show (if c = 97 ∨ c = 65 then 10 else if c = 98 ∨ c = 66 then 11 else if c = 99 ∨ c = 67 then 12
    else if c = 100 ∨ c = 68 then 13 else if c = 101 ∨ c = 69 then 14
    else if c = 102 ∨ c = 70 then 15 else if 48 ≤ c ∧ c ≤ 57 then c - 48 else 2 ^ 32 - 1) =
    (if 48 ≤ c ∧ c ≤ 57 then c - 48 else if 97 ≤ c ∧ c ≤ 102 then c - 97 + 10
      else if 65 ≤ c ∧ c ≤ 70 then c - 65 + 10 else 0)
  repeat' split
  all_goals omega

theorem digitVal_dec {c : Nat} (h : isdigit c = true) : c - ch '0' = digitVal c := by
  rw [isdigit_iff] at h
  unfold digitVal
  rw [if_pos h]

theorem oct_dec {c : Nat} (h : isoctdigit c = true) : isdigit c = true := by
  rw [isoctdigit_iff] at h
  rw [isdigit_iff]
  replace h : 48 ≤ c ∧ c ≤ 55 := h
  show 48 ≤ c ∧ c ≤ 57
  omega

/-- Horner's rule in a wrapping accumulator computes the positional value, modulo the wrap. -/
theorem horner (b m : Nat) (f : Nat → Chr → Nat) (ds : List Chr)
    (hf : ∀ a, ∀ d ∈ ds, f a d = (a * b + digitVal d) % m) (a : Nat) (ha : a < m) :
    ds.foldl f a = (a * b ^ ds.length + positional b ds) % m := by
  induction ds generalizing a with
  | nil => simp [positional, Nat.mod_eq_of_lt ha]
  | cons d ds ih =>
    rw [List.foldl_cons, hf a d (List.mem_cons_self ..)]
    rw [ih (fun a x hx => hf a x (List.mem_cons_of_mem _ hx)) _ (Nat.mod_lt _ (by omega))]
    simp only [positional, List.length_cons]
    rw [Nat.add_mod, Nat.mul_mod, Nat.mod_mod, ← Nat.mul_mod, ← Nat.add_mod]
    congr 1
    rw [Nat.add_mul, Nat.mul_assoc, Nat.pow_succ, Nat.mul_comm b, Nat.add_assoc]

/-- The digits at the beginning of a text. -/
theorem takeWhile_split (p : Chr → Bool) (ds rest : List Chr) (h : ∀ x ∈ ds, p x = true)
    (hr : ∀ x r, rest = x :: r → p x = false) : (ds ++ rest).takeWhile p = ds := by
  induction ds with
  | nil =>
    cases rest with
    | nil => rfl
    | cons x r => simp [hr x r rfl]
  | cons d ds ih =>
    rw [List.cons_append, List.takeWhile_cons_of_pos (h d (List.mem_cons_self ..)),
      ih (fun x hx => h x (List.mem_cons_of_mem _ hx))]

/-! ## Suffixes -/

theorem matchString_eq (s : List Chr) (hs : 0 ∉ s) (i : Nat) (c : Cursor) :
    matchString s i c = some (.ok (s.isPrefixOf (c.text.drop i)), c) := by
  induction s generalizing i with
  | nil => rfl
  | cons x s ih =>
    rw [matchString, peek_bind]
    have hx : x ≠ 0 := by intro h; exact hs (by simp [h])
    have hat : c.at i = (c.text.drop i).head?.getD 0 := by
      simp [Cursor.at, List.getD_eq_getElem?_getD]
    rw [hat]
    have hd : c.text.drop (i + 1) = (c.text.drop i).tail := by simp
    cases hc : c.text.drop i with
    | nil => simp [Ne.symm hx, pure_apply]
    | cons y r =>
      have e : (y :: r).head?.getD 0 = y := rfl
      by_cases h : y = x
      · subst h
        rw [if_neg (by simp), ih (fun h => hs (by simp [h])), hd, hc]
        simp [List.isPrefixOf]
      · rw [if_pos (by rw [e]; exact h)]
        simp [pure_apply, List.isPrefixOf, Ne.symm h]

theorem isPrefixOf_length {s t : List Chr} (h : s.isPrefixOf t = true) : s.length ≤ t.length :=
  (List.isPrefixOf_iff_prefix.1 h).length_le

theorem findSuffix_eq (l : List (List Chr × IntTy)) (hl : ∀ e ∈ l, 0 ∉ e.1) (c : Cursor) :
    findSuffix l c = match l.find? (fun e => e.1.isPrefixOf c.text) with
      | some e => some (.ok (some e.2), c.adv e.1.length)
      | none => some (.ok none, c) := by
  induction l with
  | nil => rfl
  | cons e l ih =>
    obtain ⟨s, t⟩ := e
    rw [findSuffix, bind_some (matchString_eq s (hl _ (List.mem_cons_self ..)) 0 c)]
    simp only [List.drop_zero, List.find?_cons]
    by_cases h : s.isPrefixOf c.text
    · rw [if_pos h, skip_bind (isPrefixOf_length h), h]
      rfl
    · rw [if_neg h, ih (fun e he => hl e (List.mem_cons_of_mem _ he))]
      simp only [h]

/-- The type the table gives to a suffix. -/
def suffixTy (s : Suffix) : IntTy :=
  match s.unsigned, s.length with
  | false, 0 => .int
  | true, 0 => .uint
  | false, 1 => .long
  | true, 1 => .ulong
  | false, _ => .llong
  | true, _ => .ullong

theorem suffix_in_table : ∀ s ∈ intSuffixes, s.spelling = [] ∧ suffixTy s = .int ∨
    (s.spelling, suffixTy s) ∈ suffixes := by decide +kernel

theorem table_in_suffixes : ∀ e ∈ suffixes, ∃ s ∈ intSuffixes, s.spelling = e.1 ∧ suffixTy s = e.2 := by
  decide +kernel

theorem table_nonempty : ∀ e ∈ suffixes, e.1 ≠ [] := by decide +kernel

theorem table_no_zero : ∀ e ∈ suffixes, 0 ∉ e.1 := by decide +kernel

theorem table_order : ∀ i : Fin 22, ∀ j : Fin 22,
    (suffixes[i.1]'(i.2)).1.isPrefixOf (suffixes[j.1]'(j.2)).1 = true → j.1 ≤ i.1 := by decide +kernel

/-- The search through the table finds the longest suffix. -/
theorem find_longest {s : Suffix} {t : List Chr} (h : IsLongestSuffix s t) :
    (s.spelling = [] ∧ suffixTy s = .int ∧
      suffixes.find? (fun e => e.1.isPrefixOf t) = none) ∨
    suffixes.find? (fun e => e.1.isPrefixOf t) = some (s.spelling, suffixTy s) := by
  obtain ⟨h1, h2, h3⟩ := h
  cases hf : suffixes.find? (fun e => e.1.isPrefixOf t) with
  | none =>
    left
    rcases suffix_in_table s h1 with ⟨e1, e2⟩ | hm
    · exact ⟨e1, e2, rfl⟩
    · rw [List.find?_eq_none] at hf
      exact absurd (List.isPrefixOf_iff_prefix.2 h2) (hf _ hm)
  | some e =>
    right
    have hp := List.isPrefixOf_iff_prefix.1 (show e.1.isPrefixOf t = true from List.find?_some (p := fun e : List Chr × IntTy => e.1.isPrefixOf t) hf)
    have hm := List.mem_of_find?_eq_some hf
    obtain ⟨s', hs', e1, e2⟩ := table_in_suffixes e hm
    have hle : e.1.length ≤ s.spelling.length := by
      rw [← e1]
      exact h3 s' hs' (by rw [e1]; exact hp)
    rw [List.find?_eq_some_iff_getElem] at hf
    obtain ⟨-, i, hi, hei, hlt⟩ := hf
    rcases suffix_in_table s h1 with ⟨e3, -⟩ | hin
    · rw [e3] at hle
      exact absurd (List.eq_nil_of_length_eq_zero (by simpa using hle)) (table_nonempty e hm)
    · obtain ⟨j, hj, hej⟩ := List.getElem_of_mem hin
      have hpre : e.1 <+: s.spelling := List.prefix_of_prefix_length_le hp h2 hle
      have hji : j ≤ i := by
        refine table_order ⟨i, hi⟩ ⟨j, hj⟩ ?_
        show (suffixes[i]).1.isPrefixOf (suffixes[j]).1 = true
        rw [hei, hej]
        exact List.isPrefixOf_iff_prefix.2 hpre
      rcases Nat.lt_or_ge j i with hlt' | hge
      · have := hlt j hlt'
        rw [hej] at this
        simp [List.isPrefixOf_iff_prefix.2 h2] at this
      · obtain rfl : j = i := by omega
        rw [← hei, hej]

/-! ## Types -/

theorem makeIntegral_eq (t : IntTy) (v : Nat) :
    makeIntegral t v = if v < 2 ^ t.valueBits then .ok (.intConst t v) else .error .noMatch := by
  unfold makeIntegral
  have : v ≤ maxValue t ↔ v < 2 ^ t.valueBits := by
    cases t <;> simp [maxValue, IntTy.valueBits] <;> omega
  simp [this]

theorem firstFitting_eq (v : Nat) (l : List IntTy) :
    firstFitting v l = match l.find? (fun t => decide (v < 2 ^ t.valueBits)) with
      | some t => .ok (.intConst t v)
      | none => .error .outOfBounds := by
  induction l with
  | nil => rfl
  | cons t l ih =>
    rw [firstFitting, makeIntegral_eq, List.find?_cons]
    by_cases h : v < 2 ^ t.valueBits
    · simp [h]
    · simp [h, ih]

theorem permitted_eq : ∀ s ∈ intSuffixes,
    permittedTypes (suffixTy s) true = candidates s 10 ∧
    permittedTypes (suffixTy s) false = candidates s 8 ∧
    permittedTypes (suffixTy s) false = candidates s 16 := by decide +kernel

/-- What a constant of a given value, base and suffix becomes. -/
def constResult (s : Suffix) (base v : Nat) : Res Token :=
  match constantType s base v with
  | some t => .ok (.intConst t v)
  | none => .error .outOfBounds

theorem scanSuffix_eq {s : Suffix} {c : Cursor} (h : IsLongestSuffix s c.text) (base : Nat)
    (hb : base = 8 ∨ base = 10 ∨ base = 16) (v : Nat) :
    scanSuffix (base = 10) v c = some (constResult s base v, c.adv s.spelling.length) := by
  have hperm : permittedTypes (suffixTy s) (base = 10) = candidates s base := by
    have := permitted_eq s h.1
    rcases hb with rfl | rfl | rfl
    · exact this.2.1
    · exact this.1
    · exact this.2.2
  have hres : firstFitting v (permittedTypes (suffixTy s) (base = 10)) = constResult s base v := by
    rw [firstFitting_eq, hperm]; rfl
  rw [scanSuffix, bind_apply, findSuffix_eq _ table_no_zero]
  rcases find_longest h with ⟨e1, e2, e3⟩ | e
  · rw [e3, e1]
    simp only [buildIntegral, List.length_nil, Cursor.adv_zero]
    rw [← e2, hres]
  · rw [e]
    simp only [buildIntegral, hres]

/-! ## The whole constant -/

theorem at_zero (c : Cursor) : c.at 0 = c.text.head?.getD 0 := by
  simp [Cursor.at, List.getD_eq_getElem?_getD, List.head?_eq_getElem?]

theorem orElse_ok {α : Type} {x y : Lex α} {c c' : Cursor} {a : α} (h : x c = some (.ok a, c')) :
    orElse x y c = some (.ok a, c') := by
  simp [orElse, h]

theorem orElse_noMatch {α : Type} {x y : Lex α} {c c' : Cursor} (h : x c = some (.error .noMatch, c')) :
    orElse x y c = y c' := by
  simp [orElse, h]

theorem fail_eq {α : Type} (e : Err) (c : Cursor) : (fail e : Lex α) c = some (.error e, c) := rfl

theorem isdigit_zero : isdigit 0 = false := by decide
theorem ishexdigit_zero : ishexdigit 0 = false := by decide
theorem isoctdigit_zero : isoctdigit 0 = false := by decide

theorem nextDecimal_ok {c : Cursor} {d : Chr} {ds rest : List Chr}
    (ht : c.text = d :: ds ++ rest) (h0 : d ≠ ch '0') (hd : ∀ x ∈ d :: ds, IsDigit 10 x)
    (hr : ∀ x r, rest = x :: r → ¬ IsDigit 10 x) :
    nextDecimal c = some (.ok (positional 10 (d :: ds) % 2 ^ 64), c.adv (d :: ds).length) := by
  have hd' : ∀ x ∈ d :: ds, isdigit x = true := fun x hx => (digit10_iff x).1 (hd x hx)
  have hr' : ∀ x r, rest = x :: r → isdigit x = false := fun x r e => by
    have := hr x r e; rw [digit10_iff] at this; simpa using this
  rw [nextDecimal, peek_bind]
  have hat : c.at 0 = d := by rw [at_zero, ht]; rfl
  rw [hat, if_pos ⟨hd' d (List.mem_cons_self ..), h0⟩, scanWhile_eq _ isdigit_zero, ht,
    takeWhile_split _ _ _ hd' hr']
  congr 3
  rw [horner 10 (2 ^ 64) _ _ (fun a x hx => ?_) 0 (by decide)]
  · simp
  · rw [decStep, digitVal_dec (hd' x hx)]

theorem nextOctal_ok {c : Cursor} {ds rest : List Chr}
    (ht : c.text = ch '0' :: ds ++ rest) (hd : ∀ x ∈ ds, IsDigit 8 x)
    (hr : ∀ x r, rest = x :: r → ¬ IsDigit 8 x) :
    nextOctal c = some (.ok (positional 8 (ch '0' :: ds) % 2 ^ 64), c.adv (ch '0' :: ds).length) := by
  have hd' : ∀ x ∈ ch '0' :: ds, isoctdigit x = true := fun x hx => by
    rcases List.mem_cons.1 hx with rfl | hx
    · decide
    · exact (digit8_iff x).1 (hd x hx)
  have hr' : ∀ x r, rest = x :: r → isoctdigit x = false := fun x r e => by
    have := hr x r e; rw [digit8_iff] at this; simpa using this
  rw [nextOctal, peek_bind]
  have hat : c.at 0 = ch '0' := by rw [at_zero, ht]; rfl
  rw [hat, if_pos (by rfl), scanWhile_eq _ isoctdigit_zero, ht, takeWhile_split _ _ _ hd' hr']
  congr 3
  rw [horner 8 (2 ^ 64) _ _ (fun a x hx => ?_) 0 (by decide)]
  · simp
  · rw [octStep, digitVal_dec (oct_dec (hd' x hx))]

theorem nextHexadecimal_ok {c : Cursor} {x : Chr} {ds rest : List Chr}
    (hx : x = ch 'x' ∨ x = ch 'X') (hn : ds ≠ [])
    (ht : c.text = [ch '0', x] ++ ds ++ rest) (hd : ∀ x ∈ ds, IsDigit 16 x)
    (hr : ∀ x r, rest = x :: r → ¬ IsDigit 16 x) :
    nextHexadecimal c = some (.ok (positional 16 ds % 2 ^ 64), c.adv (2 + ds.length)) := by
  have hd' : ∀ x ∈ ds, ishexdigit x = true := fun x hx => (digit16_iff x).1 (hd x hx)
  have hr' : ∀ x r, rest = x :: r → ishexdigit x = false := fun x r e => by
    have := hr x r e; rw [digit16_iff] at this; simpa using this
  obtain ⟨d, ds', rfl⟩ := List.exists_cons_of_ne_nil hn
  have h0 : c.at 0 = ch '0' := by rw [at_zero, ht]; rfl
  have h1 : c.at 1 = x := by simp [Cursor.at, ht]
  have h2 : c.at 2 = d := by simp [Cursor.at, ht]
  rw [nextHexadecimal, peek_bind, peek_bind, peek_bind, h0, h1, h2,
    if_pos ⟨rfl, hx, hd' d (List.mem_cons_self ..)⟩, skip_bind (by rw [ht]; simp),
    scanWhile_eq _ ishexdigit_zero, Cursor.text_adv, ht]
  have : ([ch '0', x] ++ d :: ds' ++ rest).drop 2 = d :: ds' ++ rest := by simp
  rw [this, takeWhile_split _ _ _ hd' hr', Cursor.adv_adv]
  congr 3
  rw [horner 16 (2 ^ 64) _ _ (fun a x hx => ?_) 0 (by decide)]
  · simp
  · rw [hexStep, hex32todec_eq (hd' x hx)]

theorem nextDecimal_no {c : Cursor} (h : c.at 0 = ch '0') :
    nextDecimal c = some (.error .noMatch, c) := by
  rw [nextDecimal, peek_bind, h, if_neg (by decide)]
  rfl

theorem nextHexadecimal_no {c : Cursor} (h : c.at 1 ≠ ch 'x' ∧ c.at 1 ≠ ch 'X') :
    nextHexadecimal c = some (.error .noMatch, c) := by
  rw [nextHexadecimal, peek_bind, peek_bind, peek_bind, if_neg]
  · rfl
  · rintro ⟨-, h', -⟩
    rcases h' with h' | h'
    · exact h.1 h'
    · exact h.2 h'

/-- The scanner on a text that begins with an integer constant. -/
theorem scanIntegral_eq {c : Cursor} {base : Nat} {pre ds : List Chr} {s : Suffix} {rest : List Chr}
    (hf : IntForm base pre ds) (ht : c.text = pre ++ ds ++ (s.spelling ++ rest))
    (hm : MaximalDigits base pre ds (s.spelling ++ rest))
    (hs : IsLongestSuffix s (s.spelling ++ rest)) :
    scanIntegral c = some (constResult s base (positional base ds % 2 ^ 64),
      c.adv (pre.length + ds.length + s.spelling.length)) := by
  obtain ⟨hr, hx⟩ := hm
  have tail : ∀ k, k = pre.length + ds.length → (c.adv k).text = s.spelling ++ rest := by
    intro k hk
    rw [Cursor.text_adv, ht, hk]
    have : pre.length + ds.length = (pre ++ ds).length := by simp
    rw [this, List.drop_left]
  rw [scanIntegral]
  cases hf with
  | decimal d ds h0 hd =>
    have e := nextDecimal_ok (rest := s.spelling ++ rest)
      (by rw [ht]; simp) h0 hd hr
    have e1 : (do let v ← nextDecimal; pure (true, v) : Lex (Bool × Nat)) c =
        some (.ok (true, positional 10 (d :: ds) % 2 ^ 64), c.adv (d :: ds).length) := bind_some e
    rw [bind_some (orElse_ok e1)]
    have := scanSuffix_eq (c := c.adv (d :: ds).length) (s := s) (base := 10)
      (by rw [tail _ (by simp)]; exact hs) (by simp) (positional 10 (d :: ds) % 2 ^ 64)
    simp only at this
    refine Eq.trans this ?_
    rw [Cursor.adv_adv]
    simp
  | octal ds hd =>
    have e := nextOctal_ok (c := c) (rest := s.spelling ++ rest)
      (by rw [ht]; simp) hd hr
    have hat : c.at 0 = ch '0' := by rw [at_zero, ht]; rfl
    have hn : nextHexadecimal c = some (.error .noMatch, c) := by
      rw [nextHexadecimal, peek_bind, peek_bind, peek_bind, if_neg]
      · rfl
      · rintro ⟨-, hx1, hx2⟩
        have h1 : c.at 1 ≠ 0 := by rintro h; rw [h] at hx1; revert hx1; decide
        have h2 : c.at 2 ≠ 0 := by rintro h; rw [h] at hx2; revert hx2; decide
        have ht' : c.text = ch '0' :: (ds ++ (s.spelling ++ rest)) := by rw [ht]; simp
        have ht2 : [] ++ ch '0' :: ds ++ (s.spelling ++ rest) =
            ch '0' :: (ds ++ (s.spelling ++ rest)) := by simp
        rw [ht2] at hx
        generalize ds ++ (s.spelling ++ rest) = t at ht' hx
        match t, ht', hx with
        | [], ht', _ => exact h1 (by simp [Cursor.at, ht'])
        | [_], ht', _ => exact h2 (by simp [Cursor.at, ht'])
        | x :: d :: r, ht', hx =>
          have e1 : c.at 1 = x := by simp [Cursor.at, ht']
          have e2 : c.at 2 = d := by simp [Cursor.at, ht']
          rw [e1] at hx1
          rw [e2] at hx2
          exact absurd (hx x d r rfl hx1 ((digit16_iff d).2 hx2)) (by decide)
    have e1 : (do let v ← nextDecimal; pure (true, v) : Lex (Bool × Nat)) c =
        some (.error .noMatch, c) := bind_err (nextDecimal_no hat)
    have e2 : (do let v ← nextHexadecimal; pure (false, v) : Lex (Bool × Nat)) c =
        some (.error .noMatch, c) := bind_err hn
    have e3 : (do let v ← nextOctal; pure (false, v) : Lex (Bool × Nat)) c =
        some (.ok (false, positional 8 (ch '0' :: ds) % 2 ^ 64), c.adv (ch '0' :: ds).length) :=
      bind_some e
    rw [bind_some ((orElse_noMatch e1).trans ((orElse_noMatch e2).trans e3))]
    have := scanSuffix_eq (c := c.adv (ch '0' :: ds).length) (s := s) (base := 8)
      (by rw [tail _ (by simp)]; exact hs) (by simp) (positional 8 (ch '0' :: ds) % 2 ^ 64)
    simp only [show (decide ((8 : Nat) = 10)) = false by decide] at this
    refine Eq.trans this ?_
    rw [Cursor.adv_adv]
    simp
  | hexadecimal x hx' ds hn hd =>
    have e := nextHexadecimal_ok (c := c) (rest := s.spelling ++ rest) hx' hn
      ht hd hr
    have hat : c.at 0 = ch '0' := by rw [at_zero, ht]; rfl
    have e1 : (do let v ← nextDecimal; pure (true, v) : Lex (Bool × Nat)) c =
        some (.error .noMatch, c) := bind_err (nextDecimal_no hat)
    have e2 : (do let v ← nextHexadecimal; pure (false, v) : Lex (Bool × Nat)) c =
        some (.ok (false, positional 16 ds % 2 ^ 64), c.adv (2 + ds.length)) := bind_some e
    rw [bind_some ((orElse_noMatch e1).trans (orElse_ok e2))]
    have := scanSuffix_eq (c := c.adv (2 + ds.length)) (s := s) (base := 16)
      (by rw [tail _ (by simp)]; exact hs) (by simp) (positional 16 ds % 2 ^ 64)
    simp only [show (decide ((16 : Nat) = 10)) = false by decide] at this
    refine Eq.trans this ?_
    rw [Cursor.adv_adv]
    simp

theorem constResult_cases (s base v) : constResult s base v ≠ .error .noMatch := by
  unfold constResult; split <;> simp

theorem matchInteger_eq {c : Cursor} {r : Res Token} {c' : Cursor} (h : scanIntegral c = some (r, c'))
    (hr : r ≠ .error .noMatch) : matchInteger c = some (r, c') := by
  unfold matchInteger apply
  rw [h]
  split
  · rename_i h'; cases h'; exact absurd rfl hr
  · rfl

end Kefir.Lexer
