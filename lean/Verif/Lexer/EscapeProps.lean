import Verif.Lexer.EscapeSpec
import Verif.Lexer.IntConst
/-!
# Property C11: escape sequences
-/

namespace Kefir.Lexer

theorem or_shift {a : Nat} (b n : Nat) (h : a < 2 ^ n) : a ||| (b <<< n) = a + b * 2 ^ n := by
  rw [Nat.or_comm, ← Nat.shiftLeft_add_eq_or_of_lt h, Nat.shiftLeft_eq, Nat.add_comm]

theorem shift_or {a : Nat} (b n : Nat) (h : a < 2 ^ n) : (b <<< n) ||| a = a + b * 2 ^ n := by
  rw [Nat.or_comm, or_shift b n h]

theorem hex_lt {c : Chr} (h : ishexdigit c = true) : hex32todec c < 16 := by
  rw [hex32todec_eq h]
  exact ((digit16_iff c).2 h).2

theorem octToDigit_eq {c : Chr} (h : isoctdigit c = true) : octToDigit c = digitVal c ∧ digitVal c < 8 := by
  refine ⟨?_, ((digit8_iff c).2 h).2⟩
  rw [← digitVal_dec (oct_dec h)]
  unfold octToDigit
  rw [if_pos ((isoctdigit_iff c).1 h)]

theorem positional_lt (b : Nat) (ds : List Chr) (hd : ∀ x ∈ ds, IsDigit b x) :
    positional b ds < b ^ ds.length := by
  induction ds with
  | nil => simp [positional]
  | cons d ds ih =>
    have h1 := (hd d (List.mem_cons_self ..)).2
    have h2 := ih fun x hx => hd x (List.mem_cons_of_mem _ hx)
    simp only [positional, List.length_cons, Nat.pow_succ]
    have h3 : (digitVal d + 1) * b ^ ds.length ≤ b * b ^ ds.length := Nat.mul_le_mul_right _ h1
    rw [Nat.add_mul] at h3
    rw [Nat.mul_comm _ b]
    omega

/-- A character at the cursor that is not zero is part of the text. -/
theorem text_cons {c : Cursor} (h : c.at 0 ≠ 0) : ∃ r, c.text = c.at 0 :: r := by
  rw [at_zero] at h ⊢
  cases ht : c.text with
  | nil => rw [ht] at h; exact absurd rfl h
  | cons x r => exact ⟨r, rfl⟩

theorem drop_cons {c : Cursor} {k : Nat} (h : c.at k ≠ 0) :
    c.text.drop k = c.at k :: c.text.drop (k + 1) := by
  have hk := at_pos h
  rw [List.drop_eq_getElem_cons hk]
  congr 1
  simp [Cursor.at, List.getD_eq_getElem?_getD, List.getElem?_eq_getElem hk]

theorem ne_zero_of_hex {c : Chr} (h : ishexdigit c = true) : c ≠ 0 := by
  rintro rfl; revert h; decide

theorem ne_zero_of_oct {c : Chr} (h : isoctdigit c = true) : c ≠ 0 := by
  rintro rfl; revert h; decide

theorem simple_table (c : Chr) (v : Nat) : simpleEscape c = some v ↔ (c, v) ∈ simpleEscapes := by
  have t : simpleEscapes = [(39, 39), (34, 34), (63, 63), (92, 92), (97, 7), (98, 8), (102, 12),
    (110, 10), (114, 13), (116, 9), (118, 11)] := by decide
  have e : simpleEscape c = if c = 39 then some 39 else if c = 34 then some 34 else if c = 63 then some 63
    else if c = 92 then some 92 else if c = 97 then some 7 else if c = 98 then some 8
    else if c = 102 then some 12 else if c = 110 then some 10 else if c = 114 then some 13
    else if c = 116 then some 9 else if c = 118 then some 11 else none := rfl
  rw [t, e]
  simp only [List.mem_cons, Prod.mk.injEq, List.not_mem_nil, or_false]
  constructor
  · intro h
    repeat' split at h
    all_goals first | cases h; done | (injection h with h; subst_vars; simp)
  · rintro (⟨rfl, rfl⟩ | ⟨rfl, rfl⟩ | ⟨rfl, rfl⟩ | ⟨rfl, rfl⟩ | ⟨rfl, rfl⟩ | ⟨rfl, rfl⟩ | ⟨rfl, rfl⟩ |
      ⟨rfl, rfl⟩ | ⟨rfl, rfl⟩ | ⟨rfl, rfl⟩ | ⟨rfl, rfl⟩) <;> rfl

/-! ## Reading digits at the cursor -/

theorem universal4_value {a b c d : Chr} (ha : ishexdigit a = true) (hb : ishexdigit b = true)
    (hc : ishexdigit c = true) (hd : ishexdigit d = true) :
    hex32todec d ||| (hex32todec c <<< 4) ||| (hex32todec b <<< 8) ||| (hex32todec a <<< 12) =
      positional 16 [a, b, c, d] := by
  have := hex_lt ha; have := hex_lt hb; have := hex_lt hc; have := hex_lt hd
  rw [or_shift _ 4 (by omega), or_shift _ 8 (by omega), or_shift _ 12 (by omega)]
  simp only [positional, ← hex32todec_eq ha, ← hex32todec_eq hb, ← hex32todec_eq hc,
    ← hex32todec_eq hd, List.length_cons, List.length_nil]
  omega

theorem universal8_value {a b c d e f g h : Chr} (ha : ishexdigit a = true) (hb : ishexdigit b = true)
    (hc : ishexdigit c = true) (hd : ishexdigit d = true) (he : ishexdigit e = true)
    (hf : ishexdigit f = true) (hg : ishexdigit g = true) (hh : ishexdigit h = true) :
    hex32todec h ||| (hex32todec g <<< 4) ||| (hex32todec f <<< 8) ||| (hex32todec e <<< 12) |||
      (hex32todec d <<< 16) ||| (hex32todec c <<< 20) ||| (hex32todec b <<< 24) |||
      (hex32todec a <<< 28) = positional 16 [a, b, c, d, e, f, g, h] := by
  have := hex_lt ha; have := hex_lt hb; have := hex_lt hc; have := hex_lt hd
  have := hex_lt he; have := hex_lt hf; have := hex_lt hg; have := hex_lt hh
  rw [or_shift _ 4 (by omega), or_shift _ 8 (by omega), or_shift _ 12 (by omega),
    or_shift _ 16 (by omega), or_shift _ 20 (by omega), or_shift _ 24 (by omega),
    or_shift _ 28 (by omega)]
  simp only [positional, ← hex32todec_eq ha, ← hex32todec_eq hb, ← hex32todec_eq hc,
    ← hex32todec_eq hd, ← hex32todec_eq he, ← hex32todec_eq hf, ← hex32todec_eq hg,
    ← hex32todec_eq hh, List.length_cons, List.length_nil]
  omega

/-! ## The parts of the matcher -/

theorem nextSimple_no {c : Cursor} (h : simpleEscape (c.at 1) = none) :
    nextSimpleEscape c = some (.error .noMatch, c) := by
  rw [nextSimpleEscape, peek_bind, h]; rfl

theorem nextOctal_no' {c : Cursor} (h : isoctdigit (c.at 1) = false) :
    nextOctalEscape c = some (.error .noMatch, c) := by
  rw [nextOctalEscape, peek_bind, peek_bind, peek_bind]
  simp only [h, Bool.false_and, Bool.false_eq_true, if_false]
  rfl

theorem nextHex_no {c : Cursor} (h : c.at 1 ≠ ch 'x') :
    nextHexEscape c = some (.error .noMatch, c) := by
  rw [nextHexEscape, peek_bind, if_neg h]; rfl

/-- The matcher on an escape sequence: its value, modulo 2^32. -/
theorem nextEscape_ok {c : Cursor} {seq rest : List Chr} {v : Nat} (h : EscapeAt seq rest v)
    (ht : c.text = seq ++ rest) :
    nextEscape c = some (.ok (v % 2 ^ 32), c.adv seq.length) := by
  have h0 : c.at 0 = ch '\\' := by rw [at_zero, ht]; cases h <;> rfl
  rw [nextEscape, peek_bind, if_pos h0]
  cases h with
  | simple x v rest hx =>
    have h1 : c.at 1 = x := by simp [Cursor.at, ht]
    have hv : v % 2 ^ 32 = v := by
      have : ∀ e ∈ simpleEscapes, e.2 % 2 ^ 32 = e.2 := by decide
      exact this _ hx
    refine orElse_ok ?_
    rw [nextSimpleEscape, peek_bind, h1, (simple_table x v).2 hx, hv]
    exact skip_bind (by rw [ht]; simp)
  | octal ds rest hl1 hl3 hd hr =>
    have hd' : ∀ x ∈ ds, isoctdigit x = true := fun x hx => (digit8_iff x).1 (hd x hx)
    have hv : positional 8 ds % 2 ^ 32 = positional 8 ds := by
      have h1 := positional_lt 8 ds hd
      have h2 : 8 ^ ds.length ≤ 8 ^ 3 := Nat.pow_le_pow_right (by decide) hl3
      exact Nat.mod_eq_of_lt (by omega)
    rw [hv]
    have hs : nextSimpleEscape c = some (.error .noMatch, c) := by
      apply nextSimple_no
      match ds, hl1 with
      | d :: ds, _ =>
        have h1 : c.at 1 = d := by simp [Cursor.at, ht]
        rw [h1]
        cases hse : simpleEscape d with
        | none => rfl
        | some w =>
          have hm := (simple_table d w).1 hse
          have : ∀ e ∈ simpleEscapes, isoctdigit e.1 = false := by decide
          have := this _ hm
          rw [hd' d (List.mem_cons_self ..)] at this
          cases this
    rw [orElse_noMatch hs]
    refine orElse_ok ?_
    rw [nextOctalEscape, peek_bind, peek_bind, peek_bind]
    have nxt : ∀ k, (∀ x r, rest = x :: r → ¬ IsDigit 8 x) → k = 1 + ds.length →
        isoctdigit (c.at k) = false := by
      intro k hr hk
      have : c.at k = rest.head?.getD 0 := by
        simp [Cursor.at, ht, hk, List.getD_eq_getElem?_getD, List.head?_eq_getElem?, Nat.add_comm 1,
          List.getElem?_append_right (Nat.le_refl ds.length)]
      rw [this]
      cases rest with
      | nil => decide
      | cons x r =>
        have := hr x r rfl
        rw [digit8_iff] at this
        simpa using this
    match ds, hl1, hl3 with
    | [a], _, _ =>
      have h1 : c.at 1 = a := by simp [Cursor.at, ht]
      have ha := hd' a (by simp)
      have h2 : isoctdigit (c.at 2) = false := nxt 2 (hr.resolve_left (by simp)) rfl
      simp only [h1, h2, ha, Bool.true_and, Bool.false_and, Bool.false_eq_true, if_false, if_true]
      rw [skip_bind (by rw [ht]; simp), (octToDigit_eq ha).1]
      simp [positional, pure_apply]
    | [a, b], _, _ =>
      have h1 : c.at 1 = a := by simp [Cursor.at, ht]
      have h2 : c.at 2 = b := by simp [Cursor.at, ht]
      have ha := hd' a (by simp)
      have hb := hd' b (by simp)
      have h3 : isoctdigit (c.at 3) = false := nxt 3 (hr.resolve_left (by simp)) rfl
      simp only [h1, h2, h3, ha, hb, Bool.and_false, Bool.and_true, Bool.false_eq_true, if_false,
        if_true]
      rw [skip_bind (by rw [ht]; simp), (octToDigit_eq ha).1, (octToDigit_eq hb).1,
        shift_or _ 3 (octToDigit_eq hb).2]
      simp [positional, pure_apply]
      exact Nat.add_comm ..
    | [a, b, d], _, _ =>
      have h1 : c.at 1 = a := by simp [Cursor.at, ht]
      have h2 : c.at 2 = b := by simp [Cursor.at, ht]
      have h3 : c.at 3 = d := by simp [Cursor.at, ht]
      have ha := hd' a (by simp)
      have hb := hd' b (by simp)
      have hd := hd' d (by simp)
      simp only [h1, h2, h3, ha, hb, hd, Bool.and_true, if_true]
      have lb := (octToDigit_eq hb).2
      have ld := (octToDigit_eq hd).2
      rw [skip_bind (by rw [ht]; simp), (octToDigit_eq ha).1, (octToDigit_eq hb).1,
        (octToDigit_eq hd).1, Nat.or_assoc, shift_or _ 3 ld, shift_or _ 6 (by omega)]
      have key : digitVal d + digitVal b * 2 ^ 3 + digitVal a * 2 ^ 6 = positional 8 [a, b, d] := by
        simp only [positional, List.length_cons, List.length_nil]
        omega
      rw [key]
      rfl
  | hexadecimal ds rest hn hd hr =>
    have hd' : ∀ x ∈ ds, ishexdigit x = true := fun x hx => (digit16_iff x).1 (hd x hx)
    have hr' : ∀ x r, rest = x :: r → ishexdigit x = false := fun x r e => by
      have := hr x r e; rw [digit16_iff] at this; simpa using this
    have h1 : c.at 1 = ch 'x' := by simp [Cursor.at, ht]
    rw [orElse_noMatch (nextSimple_no (by rw [h1]; decide)),
      orElse_noMatch (nextOctal_no' (by rw [h1]; decide))]
    refine orElse_ok ?_
    obtain ⟨d, ds', rfl⟩ := List.exists_cons_of_ne_nil hn
    have htx : (c.adv 2).text = d :: ds' ++ rest := by rw [Cursor.text_adv, ht]; rfl
    have h2 : (c.adv 2).at 0 = d := by rw [at_zero, htx]; rfl
    rw [nextHexEscape, peek_bind, if_pos h1, skip_bind (by rw [ht]; simp), peek_bind, h2,
      if_pos (hd' d (List.mem_cons_self ..)), scanWhile_eq _ ishexdigit_zero, htx,
      takeWhile_split _ _ _ hd' hr', Cursor.adv_adv]
    rw [horner 16 (2 ^ 32) _ _ (fun a x hx => ?_) 0 (by decide)]
    · have : 2 + (d :: ds').length = (ch '\\' :: ch 'x' :: d :: ds').length := by simp; omega
      rw [this, Nat.zero_mul, Nat.zero_add]
    · rw [hexStep32, hex32todec_eq (hd' x hx)]
  | universal4 ds rest hl hd =>
    have hd' : ∀ x ∈ ds, ishexdigit x = true := fun x hx => (digit16_iff x).1 (hd x hx)
    have hv : positional 16 ds % 2 ^ 32 = positional 16 ds := by
      have h1 := positional_lt 16 ds hd
      rw [hl] at h1
      exact Nat.mod_eq_of_lt (by omega)
    have h1 : c.at 1 = ch 'u' := by simp [Cursor.at, ht]
    rw [orElse_noMatch (nextSimple_no (by rw [h1]; decide)),
      orElse_noMatch (nextOctal_no' (by rw [h1]; decide)),
      orElse_noMatch (nextHex_no (by rw [h1]; decide)), hv]
    match ds, hl with
    | [a, b, d, e], _ =>
      have e2 : c.at 2 = a := by simp [Cursor.at, ht]
      have e3 : c.at 3 = b := by simp [Cursor.at, ht]
      have e4 : c.at 4 = d := by simp [Cursor.at, ht]
      have e5 : c.at 5 = e := by simp [Cursor.at, ht]
      have ha := hd' a (by simp)
      have hb := hd' b (by simp)
      have hc := hd' d (by simp)
      have he := hd' e (by simp)
      rw [nextUniversal, peek_bind, peek_bind, if_pos ⟨h0, h1⟩, peek_bind, peek_bind, peek_bind,
        peek_bind, e2, e3, e4, e5, if_pos (by simp [ha, hb, hc, he]), skip_bind (by rw [ht]; simp),
        universal4_value ha hb hc he]
      rfl
  | universal8 ds rest hl hd =>
    have hd' : ∀ x ∈ ds, ishexdigit x = true := fun x hx => (digit16_iff x).1 (hd x hx)
    have hv : positional 16 ds % 2 ^ 32 = positional 16 ds := by
      have h1 := positional_lt 16 ds hd
      rw [hl] at h1
      exact Nat.mod_eq_of_lt (by omega)
    have h1 : c.at 1 = ch 'U' := by simp [Cursor.at, ht]
    rw [orElse_noMatch (nextSimple_no (by rw [h1]; decide)),
      orElse_noMatch (nextOctal_no' (by rw [h1]; decide)),
      orElse_noMatch (nextHex_no (by rw [h1]; decide)), hv]
    match ds, hl with
    | [a, b, d, e, f, g, i, j], _ =>
      have e2 : c.at 2 = a := by simp [Cursor.at, ht]
      have e3 : c.at 3 = b := by simp [Cursor.at, ht]
      have e4 : c.at 4 = d := by simp [Cursor.at, ht]
      have e5 : c.at 5 = e := by simp [Cursor.at, ht]
      have e6 : c.at 6 = f := by simp [Cursor.at, ht]
      have e7 : c.at 7 = g := by simp [Cursor.at, ht]
      have e8 : c.at 8 = i := by simp [Cursor.at, ht]
      have e9 : c.at 9 = j := by simp [Cursor.at, ht]
      have ha := hd' a (by simp)
      have hb := hd' b (by simp)
      have hc := hd' d (by simp)
      have he := hd' e (by simp)
      have hf := hd' f (by simp)
      have hg := hd' g (by simp)
      have hi := hd' i (by simp)
      have hj := hd' j (by simp)
      rw [nextUniversal, peek_bind, peek_bind, if_neg (by rw [h0, h1]; decide), if_pos ⟨h0, h1⟩, peek_bind,
        peek_bind, peek_bind, peek_bind, peek_bind, peek_bind, peek_bind, peek_bind, e2, e3, e4, e5,
        e6, e7, e8, e9, if_pos (by simp [ha, hb, hc, he, hf, hg, hi, hj]),
        skip_bind (by rw [ht]; simp), universal8_value ha hb hc he hf hg hi hj]
      rfl

theorem skip_cases (k : Nat) (c : Cursor) :
    skip k c = some (.ok (), c.adv k) ∨ ∃ e c', skip k c = some (.error e, c') := by
  unfold skip
  cases h : nextRes c.stop c.text.length k with
  | ok u => exact Or.inl rfl
  | error e => exact Or.inr ⟨e, _, rfl⟩

theorem takeWhile_all (p : Chr → Bool) (l : List Chr) : ∀ x ∈ l.takeWhile p, p x = true := by
  induction l with
  | nil => simp
  | cons y l ih =>
    by_cases hy : p y = true
    · rw [List.takeWhile_cons_of_pos hy]
      intro x hx
      rcases List.mem_cons.1 hx with rfl | hx
      · exact hy
      · exact ih x hx
    · rw [List.takeWhile_cons_of_neg hy]
      simp

theorem dropWhile_head (p : Chr → Bool) (l : List Chr) : ∀ x r, l.dropWhile p = x :: r → p x = false := by
  induction l with
  | nil => intro x r h; simp at h
  | cons y l ih =>
    intro x r h
    by_cases hy : p y = true
    · rw [List.dropWhile_cons_of_pos hy] at h
      exact ih x r h
    · rw [List.dropWhile_cons_of_neg hy] at h
      injection h with h1 h2
      rw [← h1]
      simpa using hy

/-- Every text begins with an escape sequence or is rejected. -/
theorem escape_or_error (c : Cursor) :
    (∃ seq rest w, EscapeAt seq rest w ∧ c.text = seq ++ rest) ∨
    (∃ e c', nextEscape c = some (.error e, c')) := by
  rcases Classical.em (c.at 0 = ch '\\') with h0 | h0
  case inr =>
    right
    rw [nextEscape, peek_bind, if_neg h0]
    exact ⟨_, _, rfl⟩
  have ht0 : c.text = ch '\\' :: c.text.drop 1 := by
    have := drop_cons (c := c) (k := 0) (by rw [h0]; decide)
    rwa [List.drop_zero, h0] at this
  have step : ∀ k, c.at k ≠ 0 → c.text.drop k = c.at k :: c.text.drop (k + 1) := fun k h => drop_cons h
  cases hs : simpleEscape (c.at 1) with
  | some v =>
    left
    have hm := (simple_table _ _).1 hs
    have hz : c.at 1 ≠ 0 := by intro h; rw [h, show simpleEscape 0 = none by decide] at hs; cases hs
    refine ⟨_, _, _, .simple _ v (c.text.drop 2) hm, ?_⟩
    rw [step 1 hz] at ht0
    exact ht0
  | none =>
    by_cases ho : isoctdigit (c.at 1) = true
    · left
      have hz := ne_zero_of_oct ho
      rw [step 1 hz] at ht0
      by_cases ho2 : isoctdigit (c.at 2) = true
      · have hz2 := ne_zero_of_oct ho2
        rw [step 2 hz2] at ht0
        by_cases ho3 : isoctdigit (c.at 3) = true
        · have hz3 := ne_zero_of_oct ho3
          rw [step 3 hz3] at ht0
          refine ⟨_, _, _, .octal [c.at 1, c.at 2, c.at 3] (c.text.drop 4) (by simp) (by simp) ?_
            (Or.inl rfl), ht0⟩
          intro x hx
          simp only [List.mem_cons, List.not_mem_nil, or_false] at hx
          rw [digit8_iff]
          rcases hx with rfl | rfl | rfl <;> assumption
        · refine ⟨_, _, _, .octal [c.at 1, c.at 2] (c.text.drop 3) (by simp) (by simp) ?_
            (Or.inr ?_), ht0⟩
          · intro x hx
            simp only [List.mem_cons, List.not_mem_nil, or_false] at hx
            rw [digit8_iff]
            rcases hx with rfl | rfl <;> assumption
          · intro x r hxr
            rw [digit8_iff]
            have : c.at 3 = x := by
              have := Cursor.at_adv c 3 0
              rw [← this, at_zero, Cursor.text_adv, hxr]; rfl
            rw [← this]; exact ho3
      · refine ⟨_, _, _, .octal [c.at 1] (c.text.drop 2) (by simp) (by simp) ?_ (Or.inr ?_), ht0⟩
        · intro x hx
          simp only [List.mem_cons, List.not_mem_nil, or_false] at hx
          rw [digit8_iff, hx]
          exact ho
        · intro x r hxr
          rw [digit8_iff]
          have : c.at 2 = x := by
            have := Cursor.at_adv c 2 0
            rw [← this, at_zero, Cursor.text_adv, hxr]; rfl
          rw [← this]; exact ho2
    · have ho' : isoctdigit (c.at 1) = false := by simpa using ho
      have red : nextEscape c = orElse nextHexEscape nextUniversal c := by
        rw [nextEscape, peek_bind, if_pos h0, orElse_noMatch (nextSimple_no hs),
          orElse_noMatch (nextOctal_no' ho')]
      rw [red]
      by_cases hx : c.at 1 = ch 'x'
      · have hz : c.at 1 ≠ 0 := by rw [hx]; decide
        rw [step 1 hz, hx] at ht0
        by_cases hh : ishexdigit (c.at 2) = true
        · left
          refine ⟨_, _, _, .hexadecimal ((c.text.drop 2).takeWhile ishexdigit)
            ((c.text.drop 2).dropWhile ishexdigit) ?_ ?_ ?_, ?_⟩
          · rw [step 2 (ne_zero_of_hex hh), List.takeWhile_cons_of_pos hh]
            simp
          · intro x hx; rw [digit16_iff]; exact takeWhile_all _ _ x hx
          · intro x r hxr; rw [digit16_iff, dropWhile_head _ _ x r hxr]; simp
          · rw [List.cons_append, List.cons_append, List.takeWhile_append_dropWhile]
            exact ht0
        · right
          have : nextHexEscape c = some (.error .lexerError, c.adv 2) := by
            rw [nextHexEscape, peek_bind, if_pos hx, skip_bind (by rw [ht0]; simp), peek_bind,
              Cursor.at_adv, if_neg hh]
            rfl
          exact ⟨_, _, by rw [orElse, this]⟩
      · rw [orElse_noMatch (nextHex_no hx)]
        have rd : ∀ k, ishexdigit (c.at k) = true → c.text.drop k = c.at k :: c.text.drop (k + 1) :=
          fun k h => step k (ne_zero_of_hex h)
        rw [nextUniversal, peek_bind, peek_bind]
        by_cases hu : c.at 1 = ch 'u'
        · rw [if_pos ⟨h0, hu⟩, peek_bind, peek_bind, peek_bind, peek_bind]
          by_cases hall : (ishexdigit (c.at 2) && ishexdigit (c.at 3) && ishexdigit (c.at 4) &&
              ishexdigit (c.at 5)) = true
          · left
            simp only [Bool.and_eq_true] at hall
            obtain ⟨⟨⟨a2, a3⟩, a4⟩, a5⟩ := hall
            refine ⟨_, _, _, .universal4 [c.at 2, c.at 3, c.at 4, c.at 5] (c.text.drop 6) rfl ?_, ?_⟩
            · intro x hx
              simp only [List.mem_cons, List.not_mem_nil, or_false] at hx
              rw [digit16_iff]
              rcases hx with rfl | rfl | rfl | rfl <;> assumption
            · rw [step 1 (by rw [hu]; decide), rd 2 a2, rd 3 a3, rd 4 a4, rd 5 a5, hu] at ht0
              exact ht0
          · right
            rw [if_neg hall]
            exact ⟨_, _, rfl⟩
        · rw [if_neg (fun h => hu h.2)]
          by_cases hU : c.at 1 = ch 'U'
          · rw [if_pos ⟨h0, hU⟩, peek_bind, peek_bind, peek_bind, peek_bind, peek_bind, peek_bind,
              peek_bind, peek_bind]
            by_cases hall : (ishexdigit (c.at 2) && ishexdigit (c.at 3) && ishexdigit (c.at 4) &&
                ishexdigit (c.at 5) && ishexdigit (c.at 6) && ishexdigit (c.at 7) &&
                ishexdigit (c.at 8) && ishexdigit (c.at 9)) = true
            · left
              simp only [Bool.and_eq_true] at hall
              obtain ⟨⟨⟨⟨⟨⟨⟨a2, a3⟩, a4⟩, a5⟩, a6⟩, a7⟩, a8⟩, a9⟩ := hall
              refine ⟨_, _, _, .universal8 [c.at 2, c.at 3, c.at 4, c.at 5, c.at 6, c.at 7, c.at 8,
                c.at 9] (c.text.drop 10) rfl ?_, ?_⟩
              · intro x hx
                simp only [List.mem_cons, List.not_mem_nil, or_false] at hx
                rw [digit16_iff]
                rcases hx with rfl | rfl | rfl | rfl | rfl | rfl | rfl | rfl <;> assumption
              · rw [step 1 (by rw [hU]; decide), rd 2 a2, rd 3 a3, rd 4 a4, rd 5 a5, rd 6 a6, rd 7 a7,
                  rd 8 a8, rd 9 a9, hU] at ht0
                exact ht0
            · right
              rw [if_neg hall]
              exact ⟨_, _, rfl⟩
          · right
            rw [if_neg (fun h => hU h.2)]
            exact ⟨_, _, rfl⟩

/-- **C11** Whatever is decoded is an escape sequence of C17; anything else is rejected. -/
theorem C11_only_escape_sequences (c : Cursor) (v : Chr) (c' : Cursor)
    (h : nextEscape c = some (.ok v, c')) :
    ∃ seq rest w, EscapeAt seq rest w ∧ c.text = seq ++ rest ∧ v = w % 2 ^ 32 ∧
      c' = c.adv seq.length := by
  rcases escape_or_error c with ⟨seq, rest, w, he, ht⟩ | ⟨e, c'', he⟩
  · rw [nextEscape_ok he ht] at h
    injection h with h
    injection h with h1 h2
    injection h1 with h1
    exact ⟨seq, rest, w, he, ht, h1.symm, h2.symm⟩
  · rw [he] at h
    injection h with h
    injection h with h1
    cases h1

/-- **C11** (in part) An escape sequence whose value is below 2^32 is decoded to the value C17
assigns, and exactly its characters are consumed.  Missing: hexadecimal sequences of 2^32 and above,
which C17 makes a constraint violation, see `C11_hex_overflow_accepted`. -/
theorem C11_escape_value_partial (c : Cursor) (seq rest : List Chr) (v : Nat)
    (h : EscapeAt seq rest v) (ht : c.text = seq ++ rest) (hv : v < 2 ^ 32) :
    nextEscape c = some (.ok v, c.adv seq.length) := by
  rw [nextEscape_ok h ht, Nat.mod_eq_of_lt hv]

/-- C11 is false of the code: `\x100000041` is accepted as the character `A`. -/
theorem C11_hex_overflow_accepted : ∃ c seq rest v, EscapeAt seq rest v ∧ c.text = seq ++ rest ∧
    2 ^ 32 ≤ v ∧ ∃ c', nextEscape c = some (.ok (ch 'A'), c') := by
  have h : EscapeAt (str "\\x100000041") (str "'") (positional 16 (str "100000041")) :=
    .hexadecimal _ _ (by decide) (by decide) (by intro x r h; cases h; decide)
  refine ⟨⟨str "\\x100000041'", .nul, 1, 1⟩, _, _, _, h, by decide, by decide, ?_⟩
  exact ⟨_, nextEscape_ok h (by decide)⟩

/-- Concrete sequences that meet the hypotheses. -/
example : ∃ c', nextEscape ⟨str "\\1234", .nul, 1, 1⟩ = some (.ok 83, c') := by
  have h : EscapeAt (str "\\123") (str "4") (positional 8 (str "123")) :=
    .octal _ _ (by decide) (by decide) (by decide) (Or.inl (by decide))
  exact ⟨_, C11_escape_value_partial _ _ _ _ h (by decide) (by decide)⟩

example : ∃ c', nextEscape ⟨str "\\U0001F600x", .nul, 1, 1⟩ = some (.ok 0x1F600, c') := by
  have h : EscapeAt (str "\\U0001F600") (str "x") (positional 16 (str "0001F600")) :=
    .universal8 _ _ (by decide) (by decide)
  exact ⟨_, C11_escape_value_partial _ _ _ _ h (by decide) (by decide)⟩

example : ∃ c', nextEscape ⟨str "\\n", .nul, 1, 1⟩ = some (.ok 10, c') :=
  ⟨_, C11_escape_value_partial _ _ _ _ (.simple (ch 'n') 10 [] (by decide)) (by decide) (by decide)⟩

end Kefir.Lexer
