import Verif.PpToken.NumberConvert
import Verif.PpToken.StringifyProps
import Verif.Lexer.IdentProps
import Verif.Lexer.Good
/-!
# C81: preprocessing tokens become tokens (C17 5.1.1.2, phase 7)

* `C81_constant` — a preprocessing number that is a constant is converted to it: an integer constant with
  its value and type, a floating constant with its spelling and type.
* `C81_number_partial` — which preprocessing numbers are converted, exactly; every other is refused.  Full
  claim: only constants.  Missing: `C81_no_exponent_false`, `C81_two_dots_false`, `C81_overflow_false`.
* `C81_identifier_partial` — identifiers become the keyword they are spelled like, and stay otherwise.
  Missing: names with universal character names (`C81_universal_name_false`), longer than 255 characters.
* `C81_others` — other tokens are passed on, whitespace and header names are refused.
-/

namespace Kefir.PpToken

open Kefir.Lexer

/-- **C81** A preprocessing number that has the form of an integer or floating constant becomes this
constant. -/
theorem C81_constant (cd : Codec) (ha : AsciiCodec cd) (t : Tries) (bs : List UInt8) (hp : PlainBytes bs)
    (τ : Token) (h : Number (chars bs) τ) : convertToken cd t (.ppNumber bs) = some (.ok τ) :=
  number_complete ha hp h

/-- **C81** What a preprocessing number is converted to.  If it is neither a constant nor one of the
listed forms, the conversion fails. -/
theorem C81_number_partial (cd : Codec) (ha : AsciiCodec cd) (t : Tries) (bs : List UInt8)
    (hp : PlainBytes bs) :
    (∀ τ, convertToken cd t (.ppNumber bs) = some (.ok τ) ↔ Number (chars bs) τ ∨ Lax (chars bs) τ) ∧
    ((∀ τ, ¬ Number (chars bs) τ ∧ ¬ Lax (chars bs) τ) →
      ∃ e, convertToken cd t (.ppNumber bs) = some (.error e)) := by
  have hiff : ∀ τ, convertToken cd t (.ppNumber bs) = some (.ok τ) ↔
      Number (chars bs) τ ∨ Lax (chars bs) τ := by
    intro τ
    constructor
    · exact number_sound ha hp
    · rintro (h | h)
      · exact number_complete ha hp h
      · exact lax_complete ha hp h
  refine ⟨hiff, ?_⟩
  intro hno
  have htotal : ∃ r, convertToken cd t (.ppNumber bs) = some r := by
    have whole : ∀ {n c o}, GoodAt n c o → ∃ r, wholeToken o = some r := by
      rintro n c o ⟨r, k, rfl, -, -⟩
      cases r with
      | error e => exact ⟨_, rfl⟩
      | ok τ =>
        unfold wholeToken
        simp only
        split <;> exact ⟨_, rfl⟩
    show ∃ r, convertNumber cd bs = some r
    unfold convertNumber
    simp only
    split
    · exact whole (good_scanIntegral _)
    · exact whole (good_scanFloat _)
  obtain ⟨r, hr⟩ := htotal
  cases r with
  | error e => exact ⟨e, hr⟩
  | ok τ =>
    rcases (hiff τ).1 hr with h | h
    · exact absurd h (hno τ).1
    · exact absurd h (hno τ).2

/-- A preprocessing number is at most one constant. -/
theorem C81_constant_unique (s : List Chr) (hs : ∀ x ∈ s, 1 ≤ x ∧ x < 128 ∧ x ≠ ch '\\') (τ τ' : Token)
    (h : Number s τ) (h' : Number s τ') : τ = τ' := by
  have hb : chars (s.map UInt8.ofNat) = s := by
    unfold chars
    rw [List.map_map]
    refine (List.map_congr_left fun x hx => ?_).trans (List.map_id s)
    have key : ∀ y : Nat, y < 128 → (UInt8.ofNat y).toNat = y := by
      intro y hy
      rw [UInt8.toNat_ofNat']
      omega
    exact key x (hs x hx).2.1
  have hp : PlainBytes (s.map UInt8.ofNat) := by
    intro b hbm
    have : b.toNat ∈ chars (s.map UInt8.ofNat) := List.mem_map.2 ⟨b, hbm, rfl⟩
    rw [hb] at this
    exact hs _ this
  have h1 := number_complete ascii_ascii hp (by rw [hb]; exact h)
  have h2 := number_complete ascii_ascii hp (by rw [hb]; exact h')
  rw [h1] at h2
  injection h2 with h2
  injection h2

/-- **C81** An identifier becomes the keyword it is spelled like; if there is none, it is passed on. -/
theorem C81_identifier_partial (cd : Codec) (ha : AsciiCodec cd) (hcd : AsciiCompatible cd) (t : Tries)
    (ht : KeywordTrie t) (bs : List UInt8) (hid : IdentifierAt (chars bs) (chars bs) [])
    (hl : bs.length ≤ 255) :
    (∀ k : Keyword, chars bs ∈ k.spellings → convertToken cd t (.identifier bs) = some (.ok (.keyword k))) ∧
    ((∀ k : Keyword, chars bs ∉ k.spellings) →
      convertToken cd t (.identifier bs) = some (.ok (.identifier bs))) := by
  have hall : ∀ y ∈ chars bs, IsNondigit y ∨ IsDigit 10 y := by
    obtain ⟨-, ⟨x, r, hx, hn, hr⟩, -⟩ := hid
    intro y hy
    rw [hx] at hy
    rcases List.mem_cons.1 hy with rfl | hy
    · exact Or.inl hn
    · exact hr y hy
  have hp : PlainBytes bs := by
    intro b hb
    have h1 := graphic_id (hall b.toNat (List.mem_map.2 ⟨b, hb, rfl⟩))
    have h2 : 33 ≤ b.toNat ∧ b.toNat ≤ 126 := by
      have := h1.1
      unfold Graphic at this
      omega
    exact ⟨by omega, by omega, h1.2.1⟩
  have hb : bytesOf (chars bs) = bs := by
    unfold bytesOf chars
    rw [List.map_map]
    refine (List.map_congr_left fun b _ => ?_).trans (List.map_id bs)
    exact UInt8.ofNat_toNat
  obtain ⟨h1, h2⟩ := C51_identifier_or_keyword cd hcd t ht (view cd (start bs)) (chars bs) []
    (by rw [(plain_view ha hp).2]; exact hid) (by unfold chars; simpa using hl)
  rw [hb] at h2
  have un : ∀ {τ c'}, matchIdentifierOrKeyword cd t (view cd (start bs)) = some (.ok τ, c') →
      scanIdentifier cd (some t.kws) (view cd (start bs)) = some (.ok τ, c') := by
    intro τ c' h
    unfold matchIdentifierOrKeyword apply at h
    split at h
    · cases h
    · exact h
  constructor
  · intro k hk
    show wholeToken _ = _
    rw [un (h1 k hk), whole_end ha hp rfl]
  · intro hk
    show wholeToken _ = _
    rw [un (h2 hk), whole_end ha hp rfl]

/-- **C81** Character constants, string literals and punctuators are tokens already; whitespace and header
names are no tokens of phase 7. -/
theorem C81_others (cd : Codec) (t : Tries) :
    (∀ v, convertToken cd t (.charConst v) = some (.ok (.charConst v))) ∧
    (∀ m bs, convertToken cd t (.string m bs) = some (.ok (.string m bs))) ∧
    (∀ p, convertToken cd t (.punct p) = some (.ok (.punct p))) ∧
    (∀ b, convertToken cd t (.ppWhitespace b) = some (.error .invalidParameter)) ∧
    (∀ s bs, convertToken cd t (.ppHeader s bs) = some (.error .invalidParameter)) :=
  ⟨fun _ => rfl, fun _ _ => rfl, fun _ => rfl, fun _ => rfl, fun _ _ => rfl⟩

/-! ## Examples -/

/-- `0x1Fu`, `1e+5f` and `.5L` are constants. -/
example (t : Tries) :
    convertToken ascii t (.ppNumber (lit "0x1Fu")) = some (.ok (.intConst .uint 31)) ∧
    convertToken ascii t (.ppNumber (lit "1e+5f")) = some (.ok (.floatConst .float (str "1e+5"))) ∧
    convertToken ascii t (.ppNumber (lit ".5L")) = some (.ok (.floatConst .ldouble (str ".5"))) := by
  refine ⟨C81_constant _ ascii_ascii t _ (by unfold PlainBytes; decide) _ ?_,
    C81_constant _ ascii_ascii t _ (by unfold PlainBytes; decide) _ ?_,
    C81_constant _ ascii_ascii t _ (by unfold PlainBytes; decide) _ ?_⟩
  · exact Number.integer (s := ⟨str "u", true, 0⟩) (base := 16) (pre := str "0x") (ds := str "1F")
      (.hexadecimal (ch 'x') (Or.inl rfl) (str "1F") (by decide) (by decide)) (by decide) (by decide)
  · exact Number.floating (x := (str "f", .float)) (FloatForm.whole (a := str "1") (e := str "e+5") (by decide)
      (by decide) (.signed (e := ch 'e') (sg := ch '+') (ds := str "5") (by decide) (by decide) (by decide)
        (by decide))) (by decide)
  · exact Number.floating (x := (str "L", .ldouble)) (FloatForm.fraction (a := []) (b := str "5") (e := [])
      (by decide) (by decide) (Or.inr (by decide)) (Or.inl rfl)) (by decide)

/-- `while` is a keyword, `whilst` is not. -/
example (t : Tries) (ht : KeywordTrie t) :
    convertToken ascii t (.identifier (lit "while")) = some (.ok (.keyword .kWhile)) ∧
    convertToken ascii t (.identifier (lit "whilst")) = some (.ok (.identifier (lit "whilst"))) := by
  have hcd : AsciiCompatible ascii := by
    intro c hc
    show (if c < 128 then some [UInt8.ofNat c] else none) = _
    rw [if_pos hc]
  refine ⟨(C81_identifier_partial _ ascii_ascii hcd t ht _ ?_ (by decide)).1 _ (by decide),
    (C81_identifier_partial _ ascii_ascii hcd t ht _ ?_ (by decide)).2 (by intro k; cases k <;> decide)⟩
  · exact ⟨by simp, ⟨ch 'w', str "hile", by decide, by decide, by decide⟩, fun _ _ h => by cases h⟩
  · exact ⟨by simp, ⟨ch 'w', str "hilst", by decide, by decide, by decide⟩, fun _ _ h => by cases h⟩

/-! ## What is accepted although it is no constant -/

theorem int_chars {base : Nat} {pre ds : List Chr} {s : Suffix} (h : IntForm base pre ds)
    (hs : s ∈ intSuffixes) : ch '.' ∉ pre ++ ds ++ s.spelling := by
  have hsp : ∀ s ∈ intSuffixes, ch '.' ∉ s.spelling := by decide
  have hd : ∀ {b : Nat} {l : List Chr}, (∀ x ∈ l, IsDigit b x) → ch '.' ∉ l := by
    intro b l h hm
    have := (h _ hm).1
    revert this
    decide
  intro hm
  rcases List.mem_append.1 hm with hm | hm
  · cases h with
    | decimal d ds h0 hdd => exact hd hdd hm
    | octal ds hdd =>
      rcases List.mem_cons.1 hm with hm | hm
      · revert hm; decide
      · exact hd hdd hm
    | hexadecimal x hx ds hn hdd =>
      rcases List.mem_append.1 hm with hm | hm
      · rcases List.mem_cons.1 hm with hm | hm
        · revert hm; decide
        · have : ch '.' = x := by simpa using hm
          rw [← this] at hx
          revert hx
          decide
      · exact hd hdd hm
  · exact hsp s hs hm

theorem no_x {base : Nat} {l : List Chr} (h : ∀ x ∈ l, IsDigit base x) : ch 'x' ∉ l := by
  intro hm
  have := (h _ hm).1
  revert this
  decide

theorem exp_no_x {e : List Chr} (h : Exponent (str "eE") e) : ch 'x' ∉ e := by
  have hl : ∀ l ∈ str "eE", ch 'x' ≠ l := by decide
  have hs : ∀ l ∈ str "+-", ch 'x' ≠ l := by decide
  cases h with
  | plain he _ hd =>
    intro hm
    rcases List.mem_cons.1 hm with hm | hm
    · exact hl _ he hm
    · exact no_x hd hm
  | signed he hsg _ hd =>
    intro hm
    rcases List.mem_cons.1 hm with hm | hm
    · exact hl _ he hm
    · rcases List.mem_cons.1 hm with hm | hm
      · exact hs _ hsg hm
      · exact no_x hd hm

/-- `1x` is no constant, and refused. -/
example (t : Tries) : ∃ e, convertToken ascii t (.ppNumber (lit "1x")) = some (.error e) := by
  refine (C81_number_partial ascii ascii_ascii t _ (by unfold PlainBytes; decide)).2 ?_
  have hc : chars (lit "1x") = [ch '1', ch 'x'] := by decide
  rw [hc]
  have hi : ∀ {base : Nat} {pre ds : List Chr} {s : Suffix}, IntForm base pre ds → s ∈ intSuffixes →
      [ch '1', ch 'x'] ≠ pre ++ ds ++ s.spelling := by
    intro base pre ds s hf hs e
    have hsp : ∀ s ∈ intSuffixes, ch 'x' ∉ s.spelling := by decide
    cases hf with
    | decimal d ds h0 hd =>
      have hm : ch 'x' ∈ [] ++ d :: ds ++ s.spelling := by rw [← e]; decide
      rcases List.mem_append.1 hm with hm | hm
      · exact no_x hd hm
      · exact hsp s hs hm
    | octal ds hd => injection e with e _; revert e; decide
    | hexadecimal x hx ds hn hd => injection e with e _; revert e; decide
  intro τ
  constructor
  · intro h
    generalize hs : [ch '1', ch 'x'] = s at h
    cases h with
    | integer hf hsf _ => exact hi hf hsf hs
    | floating hf hx =>
      rename_i s x
      have hsp : ∀ s ∈ floatSuffixes, ch 'x' ∉ s.1 := by decide
      have hm : ch 'x' ∈ s ++ x.1 := by rw [← hs]; decide
      rcases List.mem_append.1 hm with hm | hm
      · cases hf with
        | fraction hda hdb _ he =>
          rcases List.mem_append.1 hm with hm | hm
          · exact no_x hda hm
          · rcases List.mem_cons.1 hm with hm | hm
            · revert hm; decide
            · rcases List.mem_append.1 hm with hm | hm
              · exact no_x hdb hm
              · rcases he with rfl | he
                · cases hm
                · exact exp_no_x he hm
        | whole hda _ he =>
          rcases List.mem_append.1 hm with hm | hm
          · exact no_x hda hm
          · exact exp_no_x he hm
        | hexFraction => injection hs with hs _; revert hs; decide
        | hexWhole => injection hs with hs _; revert hs; decide
      · exact hsp x hx hm
  · intro h
    generalize hs : [ch '1', ch 'x'] = s at h
    cases h with
    | overflow hf hsf _ _ => exact hi hf hsf hs
    | noExponent => injection hs with hs _; revert hs; decide
    | twoDots => injection hs with hs _; revert hs; decide

/-- C81 is false of `0x1.8`: a hexadecimal floating constant needs an exponent, but the number is
accepted. -/
theorem C81_no_exponent_false (cd : Codec) (ha : AsciiCodec cd) (t : Tries) :
    convertToken cd t (.ppNumber (lit "0x1.8")) = some (.ok (.floatConst .double (str "0x1.8"))) ∧
    ¬ ∃ τ, Number (str "0x1.8") τ := by
  have hp : PlainBytes (lit "0x1.8") := by unfold PlainBytes; decide
  have hc : chars (lit "0x1.8") = str "0x1.8" := by decide
  have h1 : convertToken cd t (.ppNumber (lit "0x1.8")) = some (.ok (.floatConst .double (str "0x1.8"))) := by
    refine ((C81_number_partial cd ha t _ hp).1 _).2 (Or.inr ?_)
    exact Lax.noExponent (x := ([], .double)) (y := ch 'x') (a := str "1") (b := str "8") (Or.inl rfl)
      (by decide) (by decide) (Or.inl (by decide)) (by decide) (by simp)
  refine ⟨h1, ?_⟩
  rintro ⟨τ, h⟩
  generalize hs : str "0x1.8" = s at h
  cases h with
  | integer hf hsf ht => exact int_chars hf hsf (by rw [← hs]; decide)
  | floating hf hx =>
    rename_i s x
    have hno : ∀ y ∈ s, y ∉ str "pP" := by
      intro y hy
      have : ∀ y ∈ str "0x1.8", y ∉ str "pP" := by decide
      exact this y (by rw [hs]; exact List.mem_append_left _ hy)
    have hexp : ∀ {e : List Chr}, Exponent (str "pP") e → ¬ ∀ y ∈ e, y ∈ s := by
      intro e he hm
      obtain ⟨l, s2, rfl, hl⟩ := exp_head he
      exact hno l (hm l (List.mem_cons_self ..)) hl
    cases hf with
    | fraction hda _ _ _ =>
      rename_i a b e
      rw [List.append_assoc] at hs
      refine dec_not_hex hda ?_ (ch 'x') (str "1.8") hs.symm (Or.inl rfl)
      intro y r h
      injection h with h _
      rw [← h]
      decide
    | whole hda _ he =>
      rename_i a e
      rw [List.append_assoc] at hs
      refine dec_not_hex hda ?_ (ch 'x') (str "1.8") hs.symm (Or.inl rfl)
      obtain ⟨l, s2, rfl, hl⟩ := exp_head he
      intro y r h
      injection h with h _
      rw [← h]
      have : ∀ l ∈ str "eE", l ≠ ch '0' ∧ l ≠ ch 'x' ∧ l ≠ ch 'X' := by decide
      exact this l hl
    | hexFraction _ _ _ _ he => exact hexp he (fun y hy => by simp [hy])
    | hexWhole _ _ _ he => exact hexp he (fun y hy => by simp [hy])

/-- C81 is false of `0x..5`: the scanner of decimal constants starts where that of hexadecimal constants
gave up, and reads `.5`. -/
theorem C81_two_dots_false (cd : Codec) (ha : AsciiCodec cd) (t : Tries) :
    convertToken cd t (.ppNumber (lit "0x..5")) = some (.ok (.floatConst .double (str ".5"))) ∧
    ¬ ∃ τ, Number (str "0x..5") τ := by
  have hp : PlainBytes (lit "0x..5") := by unfold PlainBytes; decide
  have h1 : convertToken cd t (.ppNumber (lit "0x..5")) = some (.ok (.floatConst .double (str ".5"))) := by
    refine ((C81_number_partial cd ha t _ hp).1 _).2 (Or.inr ?_)
    exact Lax.twoDots (x := ([], .double)) (y := ch 'x') (b := str "5") (e := []) (Or.inl rfl)
      (by decide) (by decide) (Or.inl rfl) (by decide)
  refine ⟨h1, ?_⟩
  rintro ⟨τ, h⟩
  have h2 := C81_constant cd ha t (lit "0x..5") hp τ h
  rw [h1] at h2
  injection h2 with h2
  injection h2 with h2
  subst h2
  generalize hs : str "0x..5" = s at h
  generalize hd : Token.floatConst .double (str ".5") = d at h
  cases h with
  | integer => cases hd
  | floating hf hx =>
    injection hd with _ hd
    have hl := congrArg List.length hs
    rw [← hd, List.length_append] at hl
    rcases suffix_single _ hx with h | ⟨y, h⟩
    · rw [h] at hl
      revert hl
      decide
    · rw [h, List.length_singleton] at hl
      revert hl
      decide

/-- C81 is false of 18446744073709551616, which no type holds: the number becomes the constant 0. -/
theorem C81_overflow_false (cd : Codec) (ha : AsciiCodec cd) (t : Tries) :
    convertToken cd t (.ppNumber (lit "18446744073709551616")) = some (.ok (.intConst .int 0)) ∧
    ¬ ∃ τ, Number (str "18446744073709551616") τ := by
  have hp : PlainBytes (lit "18446744073709551616") := by unfold PlainBytes; decide
  have h1 : convertToken cd t (.ppNumber (lit "18446744073709551616")) = some (.ok (.intConst .int 0)) := by
    refine ((C81_number_partial cd ha t _ hp).1 _).2 (Or.inr ?_)
    exact Lax.overflow (s := ⟨[], false, 0⟩) (ty := .int) (.decimal (ch '1') (str "8446744073709551616") (by decide) (by decide))
      (by decide) (by decide) (by decide)
  refine ⟨h1, ?_⟩
  rintro ⟨τ, h⟩
  have h2 := C81_constant cd ha t (lit "18446744073709551616") hp τ h
  rw [h1] at h2
  injection h2 with h2
  injection h2 with h2
  subst h2
  generalize hs : str "18446744073709551616" = s at h
  generalize hv : (0 : Nat) = v at h
  cases h with
  | integer hf hsf ht =>
    cases hf with
    | decimal d ds h0 hd =>
      injection hs with hs _
      unfold positional at hv
      have : digitVal d = 1 := by rw [← hs]; decide
      rw [this, Nat.one_mul] at hv
      have := Nat.pow_pos (n := ds.length) (show 0 < 10 by decide)
      omega
    | octal ds hd => injection hs with hs _; revert hs; decide
    | hexadecimal x hx ds hn hd => injection hs with hs _; revert hs; decide

/-- C81 is false of identifiers with universal character names, if the encoding is UTF-8: `é` names a
variable, but its preprocessing token does not become a token. -/
theorem C81_universal_name_false (cd : Codec) (t : Tries) (hd : cd.dec [0xC3, 0xA9] = .chr 0xE9 2) :
    convertToken cd t (.identifier [0xC3, 0xA9]) = some (.error .noMatch) := by
  have ht : (view cd (start [0xC3, 0xA9])).text = [0xE9] := by
    show splice (decodeAll cd [0xC3, 0xA9]).1 = _
    rw [decodeAll_chr hd]
    simp only [List.drop_succ_cons, List.drop_zero]
    rw [decodeAll_bad cd.dec_nil]
    rfl
  show wholeToken (scanIdentifier cd (some t.kws) (view cd (start [0xC3, 0xA9]))) = _
  generalize view cd (start [0xC3, 0xA9]) = c at ht
  have h0 : c.at 0 = 0xE9 := at_cons ht
  have h1 : c.at 1 = 0 := by simp [Cursor.at, ht]
  have : scanNondigit c = some (.error .noMatch, c) := by
    unfold scanNondigit
    rw [peek_bind, h0, if_neg (by decide)]
    unfold nextUniversal
    rw [peek_bind, peek_bind, h0, if_neg (fun h => absurd h.1 (by decide)),
      if_neg (fun h => absurd h.1 (by decide))]
    rfl
  unfold scanIdentifier
  rw [bind_err this]
  rfl

end Kefir.PpToken
