import Verif.Lexer.IntConst
/-!
# Properties C05–C07: integer constants
-/

namespace Kefir.Lexer

/-- The text at the cursor begins with an integer constant: prefix, digits (as many as there are) and
suffix (the longest one). -/
structure StartsWithConstant (c : Cursor) (base : Nat) (pre ds : List Chr) (s : Suffix) : Prop where
  form : IntForm base pre ds
  text : ∃ rest, c.text = pre ++ ds ++ (s.spelling ++ rest) ∧
    MaximalDigits base pre ds (s.spelling ++ rest) ∧ IsLongestSuffix s (s.spelling ++ rest)

/-- **C06** A constant below 2^64 gets the first type of the list of C17 6.4.4.1p5 that can represent
it; exactly its characters are consumed; without such a type it is rejected. -/
theorem C06_integer_constant_type (c : Cursor) (base : Nat) (pre ds : List Chr) (s : Suffix)
    (h : StartsWithConstant c base pre ds s) (hv : positional base ds < 2 ^ 64) :
    matchInteger c = some
      (match constantType s base (positional base ds) with
        | some t => .ok (.intConst t (positional base ds))
        | none => .error .outOfBounds,
      c.adv (pre.length + ds.length + s.spelling.length)) := by
  obtain ⟨hf, rest, ht, hm, hs⟩ := h
  have e := scanIntegral_eq hf ht hm hs
  rw [Nat.mod_eq_of_lt hv] at e
  rw [matchInteger_eq e (constResult_cases _ _ _)]
  rfl

/-- **C05** The token of a constant below 2^64 carries its positional value and ends at the first
character that cannot continue the constant.  It is produced whenever the value fits a type of the
list, in particular whenever it is below 2^63 and has no `u` suffix, or has one. -/
theorem C05_integer_constant_value (c : Cursor) (base : Nat) (pre ds : List Chr) (s : Suffix)
    (h : StartsWithConstant c base pre ds s) (hv : positional base ds < 2 ^ 64) :
    (∀ tok c', matchInteger c = some (.ok tok, c') →
      (∃ t, tok = .intConst t (positional base ds)) ∧
      c' = c.adv (pre.length + ds.length + s.spelling.length)) ∧
    (positional base ds < 2 ^ 63 ∨ s.unsigned = true ∨ base ≠ 10 →
      ∃ tok c', matchInteger c = some (.ok tok, c')) := by
  have e := C06_integer_constant_type c base pre ds s h hv
  constructor
  · intro tok c' h'
    rw [h'] at e
    split at e
    · injection e with e
      injection e with e1 e2
      injection e1 with e1
      exact ⟨⟨_, e1⟩, e2⟩
    · injection e with e
      injection e with e1 e2
      cases e1
  · intro hfit
    have hmem : (positional base ds < 2 ^ 63 ∧ .llong ∈ candidates s base) ∨ .ullong ∈ candidates s base := by
      obtain ⟨hf, rest, -, -, hs⟩ := h
      have key : ∀ s ∈ intSuffixes, ∀ b ∈ [8, 10, 16],
          (s.unsigned = false → IntTy.llong ∈ candidates s b) ∧
          (s.unsigned = true ∨ b ≠ 10 → IntTy.ullong ∈ candidates s b) := by decide +kernel
      have hb : base ∈ [8, 10, 16] := by cases hf <;> decide
      have := key s hs.1 base hb
      rcases hfit with h1 | h1 | h1
      · cases hu : s.unsigned
        · exact Or.inl ⟨h1, this.1 hu⟩
        · exact Or.inr (this.2 (Or.inl hu))
      · exact Or.inr (this.2 (Or.inl h1))
      · exact Or.inr (this.2 (Or.inr h1))
    have hsome : ∃ t, constantType s base (positional base ds) = some t := by
      cases hc : constantType s base (positional base ds) with
      | some t => exact ⟨t, rfl⟩
      | none =>
        rw [constantType, List.find?_eq_none] at hc
        rcases hmem with ⟨h1, hm⟩ | hm
        · exact absurd (decide_eq_true h1) (hc _ hm)
        · exact absurd (decide_eq_true hv) (hc _ hm)
    obtain ⟨t, ht⟩ := hsome
    rw [ht] at e
    exact ⟨_, _, e⟩

/-- **C07** (in part) A constant that is below 2^64 but fits no type of its list is rejected.
Missing: constants of 2^64 and above, see `C07_overflow_accepted`. -/
theorem C07_out_of_range_rejected_partial (c : Cursor) (base : Nat) (pre ds : List Chr) (s : Suffix)
    (h : StartsWithConstant c base pre ds s) (hv : positional base ds < 2 ^ 64)
    (hn : ∀ t ∈ candidates s base, 2 ^ t.valueBits ≤ positional base ds) :
    ∃ c', matchInteger c = some (.error .outOfBounds, c') := by
  have e := C06_integer_constant_type c base pre ds s h hv
  have : constantType s base (positional base ds) = none := by
    rw [constantType, List.find?_eq_none]
    intro t ht
    simpa using hn t ht
  rw [this] at e
  exact ⟨_, e⟩

/-- The general rule behind the missing part of C07: a constant is read modulo 2^64. -/
theorem integer_constant_wraps (c : Cursor) (base : Nat) (pre ds : List Chr) (s : Suffix)
    (h : StartsWithConstant c base pre ds s) :
    matchInteger c = some
      (match constantType s base (positional base ds % 2 ^ 64) with
        | some t => .ok (.intConst t (positional base ds % 2 ^ 64))
        | none => .error .outOfBounds,
      c.adv (pre.length + ds.length + s.spelling.length)) := by
  obtain ⟨hf, rest, ht, hm, hs⟩ := h
  rw [matchInteger_eq (scanIntegral_eq hf ht hm hs) (constResult_cases _ _ _)]
  rfl

/-- A cursor at the beginning of a text. -/
def atText (t : List Chr) : Cursor := ⟨t, .nul, 1, 1⟩

instance (s : Suffix) (t : List Chr) : Decidable (IsLongestSuffix s t) := by
  unfold IsLongestSuffix; infer_instance

/-- The text `18446744073709551616;`, that is 2^64. -/
theorem starts_two_pow_64 : StartsWithConstant (atText (str "18446744073709551616;")) 10 []
    (str "18446744073709551616") ⟨[], false, 0⟩ := by
  refine ⟨.decimal (ch '1') (str "8446744073709551616") (by decide) (by decide), str ";", by decide,
    ⟨?_, ?_⟩, by decide⟩
  · intro x r h; cases h; decide
  · intro x d r h hx; cases h

/-- C07 is false of the code: the constant 18446744073709551616, which no type can represent, is
accepted as the `int` constant 0. -/
theorem C07_overflow_accepted : ∃ c base pre ds s, StartsWithConstant c base pre ds s ∧
    (∀ t : IntTy, 2 ^ t.valueBits ≤ positional base ds) ∧
    ∃ c', matchInteger c = some (.ok (.intConst .int 0), c') := by
  refine ⟨_, _, _, _, _, starts_two_pow_64, ?_, ?_⟩
  · intro t; cases t <;> decide
  · refine Exists.intro _ ((integer_constant_wraps _ _ _ _ _ starts_two_pow_64).trans (by
      have e : constantType ⟨[], false, 0⟩ 10
          (positional 10 (str "18446744073709551616") % 2 ^ 64) = some .int := by decide
      have e2 : positional 10 (str "18446744073709551616") % 2 ^ 64 = 0 := by decide
      rw [e, e2]))

/-- Concrete constants that meet the hypotheses: `0xFFFFFFFFuL+1` is an `unsigned long`. -/
example : ∃ c', matchInteger (atText (str "0xFFFFFFFFuL+1")) =
    some (.ok (.intConst .ulong 4294967295), c') := by
  have h : StartsWithConstant (atText (str "0xFFFFFFFFuL+1")) 16 (str "0x") (str "FFFFFFFF")
      ⟨str "uL", true, 1⟩ := by
    refine ⟨.hexadecimal (ch 'x') (by decide) _ (by decide) (by decide), str "+1", by decide,
      ⟨?_, ?_⟩, by decide⟩
    · intro x r h; cases h; decide
    · intro x d r h hx _; rfl
  exact ⟨_, (C06_integer_constant_type _ _ _ _ _ h (by decide)).trans (by
    have e : constantType ⟨str "uL", true, 1⟩ 16 (positional 16 (str "FFFFFFFF")) = some .ulong := by
      decide
    have e2 : positional 16 (str "FFFFFFFF") = 4294967295 := by decide
    rw [e, e2])⟩

/-- `9223372036854775808`, one more than the largest `long long`, has no type and is rejected. -/
example : ∃ c', matchInteger (atText (str "9223372036854775808 ")) = some (.error .outOfBounds, c') := by
  have h : StartsWithConstant (atText (str "9223372036854775808 ")) 10 [] (str "9223372036854775808")
      ⟨[], false, 0⟩ := by
    refine ⟨.decimal (ch '9') (str "223372036854775808") (by decide) (by decide), str " ", by decide,
      ⟨?_, ?_⟩, by decide⟩
    · intro x r h; cases h; decide
    · intro x d r h hx; cases h
  exact C07_out_of_range_rejected_partial _ _ _ _ _ h (by decide) (by decide)

/-- The octal constant `0777` is 511. -/
example : ∃ c', matchInteger (atText (str "0777")) = some (.ok (.intConst .int 511), c') := by
  have h : StartsWithConstant (atText (str "0777")) 8 [] (str "0777") ⟨[], false, 0⟩ := by
    refine ⟨.octal (str "777") (by decide), [], by decide, ⟨?_, ?_⟩, by decide⟩
    · intro x r h; cases h
    · intro x d r h hx; cases h; revert hx; decide
  exact ⟨_, (C06_integer_constant_type _ _ _ _ _ h (by decide)).trans (by
    have e : constantType ⟨[], false, 0⟩ 8 (positional 8 (str "0777")) = some .int := by decide
    have e2 : positional 8 (str "0777") = 511 := by decide
    rw [e, e2])⟩

/-- A text that does not begin with a digit holds no integer constant; the cursor stays. -/
theorem C05_no_digit_no_constant (c : Cursor) (h : ∀ x r, c.text = x :: r → ¬ IsDigit 10 x) :
    matchInteger c = some (.error .noMatch, c) := by
  have h0 : isdigit (c.at 0) = false := by
    rw [at_zero]
    cases ht : c.text with
    | nil => decide
    | cons x r =>
      have := h x r ht
      rw [digit10_iff] at this
      simpa using this
  have hz : c.at 0 ≠ ch '0' := by intro e; rw [e] at h0; revert h0; decide
  have e1 : (do let v ← nextDecimal; pure (true, v) : Lex (Bool × Nat)) c =
      some (.error .noMatch, c) := bind_err (by
    rw [nextDecimal, peek_bind, if_neg (by rw [h0]; simp)]; rfl)
  have e2 : (do let v ← nextHexadecimal; pure (false, v) : Lex (Bool × Nat)) c =
      some (.error .noMatch, c) := bind_err (by
    rw [nextHexadecimal, peek_bind, peek_bind, peek_bind, if_neg (fun h => hz h.1)]; rfl)
  have e3 : (do let v ← nextOctal; pure (false, v) : Lex (Bool × Nat)) c =
      some (.error .noMatch, c) := bind_err (by
    rw [nextOctal, peek_bind, if_neg hz]; rfl)
  have e : scanIntegral c = some (.error .noMatch, c) :=
    bind_err ((orElse_noMatch e1).trans ((orElse_noMatch e2).trans e3))
  unfold matchInteger apply
  rw [e]

example : matchInteger (atText (str "x1")) = some (.error .noMatch, atText (str "x1")) :=
  C05_no_digit_no_constant _ (by intro x r h; cases h; decide)

end Kefir.Lexer
