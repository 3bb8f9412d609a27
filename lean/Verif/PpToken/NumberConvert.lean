import Verif.PpToken.NumberScan
import Verif.Lexer.IntProps
/-!
# Which texts are converted
-/

namespace Kefir.PpToken

open Kefir.Lexer

/-! ## Text without backslashes -/

theorem plain_adv (r : List Chr) (h : ch '\\' ∉ r) (n l k : Nat) : (advList r n l k).1 = r.drop n := by
  induction r generalizing n l k with
  | nil => rw [advList_nil]; simp
  | cons x r ih =>
    cases n with
    | zero => rfl
    | succ n =>
      have hr : ch '\\' ∉ r := fun e => h (List.mem_cons_of_mem _ e)
      by_cases hx : x = ch '\n'
      · rw [hx, advList_newline, ih hr]; rfl
      · rw [advList_cons x r n l k hx (fun r' e => h (by rw [e.1]; exact List.mem_cons_self ..)), ih hr]; rfl

theorem plain_splice (r : List Chr) (h : ch '\\' ∉ r) : splice r = r := by
  induction r with
  | nil => rfl
  | cons x r ih =>
    rw [splice_cons x r (fun r' e => h (by rw [e.1]; exact List.mem_cons_self ..)),
      ih (fun e => h (List.mem_cons_of_mem _ e))]

/-- What the bytes of a token look like: ASCII, and no backslash. -/
def PlainBytes (bs : List UInt8) : Prop := ∀ b ∈ bs, 1 ≤ b.toNat ∧ b.toNat < 128 ∧ b.toNat ≠ ch '\\'

theorem plain_chars {bs : List UInt8} (h : PlainBytes bs) : ch '\\' ∉ chars bs := by
  intro hm
  obtain ⟨b, hb, e⟩ := List.mem_map.1 hm
  exact (h b hb).2.2 e

theorem plain_view {cd : Codec} (ha : AsciiCodec cd) {bs : List UInt8} (h : PlainBytes bs) :
    (view cd (start bs)).rest = chars bs ∧ (view cd (start bs)).text = chars bs := by
  have h1 : (view cd (start bs)).rest = chars bs :=
    decode_ascii ha bs (fun b hb => ⟨(h b hb).1, (h b hb).2.1⟩)
  refine ⟨h1, ?_⟩
  show splice (view cd (start bs)).rest = _
  rw [h1, plain_splice _ (plain_chars h)]

theorem plain_end {cd : Codec} (ha : AsciiCodec cd) {bs : List UInt8} (h : PlainBytes bs) (k : Nat) :
    ((view cd (start bs)).adv k).rest = [] ↔ (chars bs).length ≤ k := by
  show (advList (view cd (start bs)).rest k _ _).1 = [] ↔ _
  rw [(plain_view ha h).1, plain_adv _ (plain_chars h), List.drop_eq_nil_iff]

/-! ## Integers -/

theorem longest_exists (t : List Chr) : ∃ s, IsLongestSuffix s t := by
  have key : ∀ l : List Suffix, (∃ s ∈ l, s.spelling <+: t) →
      ∃ s ∈ l, s.spelling <+: t ∧ ∀ s' ∈ l, s'.spelling <+: t → s'.spelling.length ≤ s.spelling.length := by
    intro l
    induction l with
    | nil => rintro ⟨s, hs, -⟩; cases hs
    | cons a l ih =>
      rintro ⟨s0, hs0, hp0⟩
      by_cases hl : ∃ s ∈ l, s.spelling <+: t
      · obtain ⟨s, hs, hp, hm⟩ := ih hl
        by_cases ha : a.spelling <+: t ∧ s.spelling.length ≤ a.spelling.length
        · refine ⟨a, List.mem_cons_self .., ha.1, ?_⟩
          intro s' hs' hp'
          rcases List.mem_cons.1 hs' with rfl | hs'
          · exact Nat.le_refl _
          · exact Nat.le_trans (hm s' hs' hp') ha.2
        · refine ⟨s, List.mem_cons_of_mem _ hs, hp, ?_⟩
          intro s' hs' hp'
          rcases List.mem_cons.1 hs' with rfl | hs'
          · exact Nat.le_of_not_le fun h => ha ⟨hp', h⟩
          · exact hm s' hs' hp'
      · have : s0 = a := by
          rcases List.mem_cons.1 hs0 with h | h
          · exact h
          · exact absurd ⟨s0, h, hp0⟩ hl
        subst this
        refine ⟨s0, List.mem_cons_self .., hp0, ?_⟩
        intro s' hs' hp'
        rcases List.mem_cons.1 hs' with rfl | hs'
        · exact Nat.le_refl _
        · exact absurd ⟨s', hs', hp'⟩ hl
  obtain ⟨s, h1, h2, h3⟩ := key intSuffixes ⟨⟨[], false, 0⟩, by decide, List.nil_prefix⟩
  exact ⟨s, h1, h2, h3⟩

/-- A text that begins with a digit begins with an integer constant. -/
theorem int_exists {t : List Chr} {d : Chr} {t' : List Chr} (ht : t = d :: t') (hd : IsDigit 10 d) :
    ∃ base pre ds s rest, IntForm base pre ds ∧ t = pre ++ ds ++ (s.spelling ++ rest) ∧
      MaximalDigits base pre ds (s.spelling ++ rest) ∧ IsLongestSuffix s (s.spelling ++ rest) := by
  have fin : ∀ {base pre ds r}, IntForm base pre ds → t = pre ++ ds ++ r → MaximalDigits base pre ds r →
      ∃ base pre ds s rest, IntForm base pre ds ∧ t = pre ++ ds ++ (s.spelling ++ rest) ∧
        MaximalDigits base pre ds (s.spelling ++ rest) ∧ IsLongestSuffix s (s.spelling ++ rest) := by
    intro base pre ds r h1 h2 h3
    obtain ⟨s, hs⟩ := longest_exists r
    obtain ⟨rest, hr⟩ := hs.2.1
    exact ⟨base, pre, ds, s, rest, h1, by rw [hr]; exact h2, by rw [hr]; exact h3, by rw [hr]; exact hs⟩
  by_cases h0 : d = ch '0'
  · subst h0
    by_cases hx : ∃ x z r, t' = x :: z :: r ∧ (x = ch 'x' ∨ x = ch 'X') ∧ IsDigit 16 z
    · obtain ⟨x, z, r, rfl, hx, hz⟩ := hx
      obtain ⟨ds, r2, hdr, hds, hr2⟩ := split_class ishexdigit (z :: r)
      have hn : ds ≠ [] := by
        rintro rfl
        have := hr2 z r hdr.symm
        rw [(digit16_iff z).1 hz] at this
        cases this
      refine fin (.hexadecimal x hx ds hn (digits16 hds)) (by rw [ht, hdr]; rfl) ⟨?_, fun _ _ _ _ _ _ => rfl⟩
      intro y s e
      rw [digit16_iff, hr2 y s e]
      exact Bool.false_ne_true
    · obtain ⟨ds, r2, hdr, hds, hr2⟩ := split_class isoctdigit t'
      refine fin (.octal ds (fun y hy => (digit8_iff y).2 (hds y hy))) (by rw [ht, hdr]; rfl) ⟨?_, ?_⟩
      · intro y s e
        rw [digit8_iff, hr2 y s e]
        exact Bool.false_ne_true
      · intro x z r e h1 h2
        exfalso
        apply hx
        refine ⟨x, z, r, ?_, h1, h2⟩
        rw [hdr]
        simpa using e
  · obtain ⟨ds, r2, hdr, hds, hr2⟩ := split_class isdigit t'
    refine fin (.decimal d ds h0 ?_) (by rw [ht, hdr]; rfl) ⟨?_, ?_⟩
    · intro y hy
      rcases List.mem_cons.1 hy with rfl | hy
      · exact hd
      · exact digits10 hds y hy
    · intro y s e
      rw [digit10_iff, hr2 y s e]
      exact Bool.false_ne_true
    · intro x z r e
      injection e with e _
      exact absurd e h0

theorem scanIntegral_none {c : Cursor} (h : ∀ x r, c.text = x :: r → ¬ IsDigit 10 x) :
    ∃ c', scanIntegral c = some (.error .noMatch, c') := by
  have := C05_no_digit_no_constant c h
  unfold matchInteger apply at this
  split at this
  · rename_i c' h'; exact ⟨c', h'⟩
  · rename_i h'; rw [this] at h'; exact absurd rfl (h' c)

theorem int_sound {c c' : Cursor} {τ : Token} (h : scanIntegral c = some (.ok τ, c')) :
    ∃ s r, c.text = s ++ r ∧ c' = c.adv s.length ∧ (Number s τ ∨ Lax s τ) := by
  by_cases hd : ∃ d t, c.text = d :: t ∧ IsDigit 10 d
  · obtain ⟨d, t, ht, hd⟩ := hd
    obtain ⟨base, pre, ds, s, rest, hf, he, hm, hs⟩ := int_exists ht hd
    rw [scanIntegral_eq hf he hm hs] at h
    injection h with h
    injection h with h1 h2
    refine ⟨pre ++ ds ++ s.spelling, rest, by rw [he]; simp, by rw [← h2]; simp [Nat.add_assoc], ?_⟩
    unfold constResult at h1
    split at h1
    · rename_i ty hty
      injection h1 with h1
      subst h1
      by_cases hv : positional base ds < 2 ^ 64
      · rw [Nat.mod_eq_of_lt hv] at hty ⊢
        exact Or.inl (.integer hf hs.1 hty)
      · exact Or.inr (.overflow hf hs.1 (Nat.le_of_not_lt hv) hty)
    · cases h1
  · obtain ⟨c2, h2⟩ := scanIntegral_none (c := c) (fun x r e hx => hd ⟨x, r, e, hx⟩)
    rw [h2] at h
    cases h

/-! ## Soundness -/

theorem whole_ok {r : Option (Res Token × Cursor)} {τ : Token} (h : wholeToken r = some (.ok τ)) :
    ∃ c, r = some (.ok τ, c) ∧ c.rest = [] := by
  rcases r with _ | ⟨_ | τ', c⟩
  · cases h
  · cases h
  · unfold wholeToken at h
    simp only at h
    split at h
    · injection h with h
      injection h with h
      exact ⟨c, by rw [h], ‹_›⟩
    · cases h

theorem number_sound {cd : Codec} (ha : AsciiCodec cd) {bs : List UInt8} (hp : PlainBytes bs) {τ : Token}
    (h : convertNumber cd bs = some (.ok τ)) : Number (chars bs) τ ∨ Lax (chars bs) τ := by
  have fin : ∀ {c'}, (∃ s r, (view cd (start bs)).text = s ++ r ∧ c' = (view cd (start bs)).adv s.length ∧
      (Number s τ ∨ Lax s τ)) → c'.rest = [] → Number (chars bs) τ ∨ Lax (chars bs) τ := by
    rintro c' ⟨s, r, h1, rfl, h2⟩ he
    rw [(plain_view ha hp).2] at h1
    rw [plain_end ha hp, h1] at he
    have : r = [] := by
      cases r with
      | nil => rfl
      | cons x r => simp at he; omega
    rw [h1, this, List.append_nil]
    exact h2
  unfold convertNumber at h
  simp only at h
  split at h
  · obtain ⟨c, h1, h2⟩ := whole_ok h
    exact fin (int_sound h1) h2
  · obtain ⟨c, h1, h2⟩ := whole_ok h
    exact fin (float_sound h1) h2

/-! ## Completeness -/

/-- An integer constant is not taken for a floating constant. -/
theorem float_not_int {c : Cursor} {base : Nat} {pre ds : List Chr} {s : Suffix} (hf : IntForm base pre ds)
    (hs : s ∈ intSuffixes) (ht : c.text = pre ++ ds ++ s.spelling) :
    ∃ c', scanFloat c = some (.error .noMatch, c') := by
  have hsp : ∀ s ∈ intSuffixes, ∀ y ∈ s.spelling, ishexdigit y = false ∧ y ≠ ch '.' ∧ isDecExp y = false ∧
      isHexExp y = false ∧ y ≠ ch 'x' ∧ y ≠ ch 'X' := by decide
  have hh : ∀ y r, s.spelling = y :: r → ishexdigit y = false ∧ y ≠ ch '.' ∧ isDecExp y = false ∧
      isHexExp y = false ∧ y ≠ ch 'x' ∧ y ≠ ch 'X' :=
    fun y r e => hsp s hs y (by rw [e]; exact List.mem_cons_self ..)
  have notdec : ∀ y, ishexdigit y = false → isdigit y = false := by
    intro y h
    cases hd : isdigit y with
    | false => rfl
    | true => rw [dec_is_hex hd] at h; cases h
  have hdot : ∀ r, s.spelling ≠ ch '.' :: r := fun r e => (hh _ r e).2.1 rfl
  have hde : isDecExp (s.spelling.head?.getD 0) = false := head_class decExp_zero fun y r e => (hh y r e).2.2.1
  have hhe : isHexExp (s.spelling.head?.getD 0) = false := head_class hexExp_zero fun y r e => (hh y r e).2.2.2.1
  have decimal : ∀ {c : Cursor} {a : List Chr}, (∀ x ∈ a, IsDigit 10 x) → c.text = a ++ s.spelling →
      ∃ c', matchDecimalFloat c = some (.error .noMatch, c') := by
    intro c a had hta
    rw [decimal_body]
    exact ⟨_, body_none isdigit_zero hta (undigits10 had) (fun y r e => notdec y (hh y r e).1) hdot (Or.inr hde)⟩
  unfold scanFloat
  cases hf with
  | decimal d ds h0 hd =>
    rw [orElse_noMatch (hex_none (by
      intro x t e
      rw [ht] at e
      injection e with e _
      exact absurd e h0))]
    exact decimal hd (by rw [ht]; rfl)
  | octal ds hd =>
    have hd10 : ∀ x ∈ ch '0' :: ds, IsDigit 10 x := by
      intro x hx
      rcases List.mem_cons.1 hx with rfl | hx
      · decide
      · exact ⟨(hd x hx).1, Nat.lt_trans (hd x hx).2 (by decide)⟩
    rw [orElse_noMatch (hex_none (by
      intro x t e hx
      rw [ht] at e
      injection e with _ e
      cases ds with
      | nil =>
        rcases hx with rfl | rfl
        · exact (hh _ _ e).2.2.2.2.1 rfl
        · exact (hh _ _ e).2.2.2.2.2 rfl
      | cons z ds =>
        injection e with e _
        have := hd10 z (by simp)
        rw [e] at this
        rcases hx with rfl | rfl <;> revert this <;> decide))]
    exact decimal hd10 (by rw [ht]; rfl)
  | hexadecimal x hx ds hn hd =>
    have ht' : c.text = ch '0' :: x :: (ds ++ s.spelling) := by rw [ht]; simp
    have ht2 : (c.adv 2).text = ds ++ s.spelling := by rw [Cursor.text_adv, ht']; rfl
    have h1 := body_none (isd := ishexdigit) (ise := isHexExp) (lit := [ch '0', x]) hex_zero ht2 (undigits16 hd)
      (fun y r e => (hh y r e).1) hdot (Or.inr hhe)
    rw [← hexFloat_body hx ht'] at h1
    rw [orElse_noMatch h1]
    refine decimal (a := []) (by simp) ?_
    rw [text_after ht2]
    rfl

theorem suffix_maximal {s : Suffix} (hs : s ∈ intSuffixes) : IsLongestSuffix s (s.spelling ++ []) := by
  rw [List.append_nil]
  exact ⟨hs, List.prefix_refl _, fun s' _ h => h.length_le⟩

theorem int_scan {c : Cursor} {base : Nat} {pre ds : List Chr} {s : Suffix} (hf : IntForm base pre ds)
    (hs : s ∈ intSuffixes) (ht : c.text = pre ++ ds ++ s.spelling) :
    scanIntegral c = some (constResult s base (positional base ds % 2 ^ 64),
      c.adv (pre ++ ds ++ s.spelling).length) := by
  have hsp : ∀ s ∈ intSuffixes, ∀ y ∈ s.spelling, ¬ IsDigit 16 y ∧ ¬ IsDigit 10 y ∧ ¬ IsDigit 8 y ∧
      y ≠ ch 'x' ∧ y ≠ ch 'X' := by decide
  have hh : ∀ y r, s.spelling ++ [] = y :: r → ¬ IsDigit 16 y ∧ ¬ IsDigit 10 y ∧ ¬ IsDigit 8 y ∧
      y ≠ ch 'x' ∧ y ≠ ch 'X' :=
    fun y r e => hsp s hs y (by rw [List.append_nil] at e; rw [e]; exact List.mem_cons_self ..)
  have hm : MaximalDigits base pre ds (s.spelling ++ []) := by
    constructor
    · intro y r e
      cases hf with
      | decimal => exact (hh y r e).2.1
      | octal => exact (hh y r e).2.2.1
      | hexadecimal => exact (hh y r e).1
    · intro x z r e hx hz
      cases hf with
      | decimal d ds h0 hd =>
        injection e with e _
        exact absurd e h0
      | hexadecimal => rfl
      | octal ds hd =>
        exfalso
        injection e with _ e
        cases ds with
        | nil =>
          rcases hx with rfl | rfl
          · exact (hh _ _ e).2.2.2.1 rfl
          · exact (hh _ _ e).2.2.2.2 rfl
        | cons w ds =>
          injection e with e _
          have := hd w (List.mem_cons_self ..)
          rw [e] at this
          rcases hx with rfl | rfl <;> revert this <;> decide
  rw [scanIntegral_eq hf (by rw [ht, List.append_nil]) hm (suffix_maximal hs)]
  simp [Nat.add_assoc]

theorem whole_end {cd : Codec} (ha : AsciiCodec cd) {bs : List UInt8} (hp : PlainBytes bs) {s : List Chr}
    (hs : chars bs = s) (τ : Token) :
    wholeToken (some (.ok τ, (view cd (start bs)).adv s.length)) = some (.ok τ) := by
  unfold wholeToken
  simp only
  rw [if_pos ((plain_end ha hp _).2 (by rw [hs]; exact Nat.le_refl _))]

theorem convert_int {cd : Codec} (ha : AsciiCodec cd) {bs : List UInt8} (hp : PlainBytes bs)
    {base : Nat} {pre ds : List Chr} {s : Suffix} {ty : IntTy} (hf : IntForm base pre ds)
    (hs : s ∈ intSuffixes) (ht : constantType s base (positional base ds % 2 ^ 64) = some ty)
    (he : chars bs = pre ++ ds ++ s.spelling) :
    convertNumber cd bs = some (.ok (.intConst ty (positional base ds % 2 ^ 64))) := by
  have hv := (plain_view ha hp).2
  obtain ⟨c', h1⟩ := float_not_int (c := view cd (start bs)) hf hs (by rw [hv, he])
  unfold convertNumber
  simp only
  rw [h1]
  simp only
  rw [int_scan (c := view cd (start bs)) hf hs (by rw [hv, he])]
  have : constResult s base (positional base ds % 2 ^ 64) =
      .ok (.intConst ty (positional base ds % 2 ^ 64)) := by
    unfold constResult
    rw [ht]
  rw [this, whole_end ha hp he]

theorem convert_float {cd : Codec} (ha : AsciiCodec cd) {bs : List UInt8} (hp : PlainBytes bs)
    {s : List Chr} {τ : Token} (he : chars bs = s)
    (h : ∀ c : Cursor, c.text = s → scanFloat c = some (.ok τ, c.adv s.length)) :
    convertNumber cd bs = some (.ok τ) := by
  have h1 := h (view cd (start bs)) (by rw [(plain_view ha hp).2, he])
  unfold convertNumber
  simp only
  rw [h1]
  simp only
  rw [whole_end ha hp he]

theorem scan_hex {c c' : Cursor} {x : Chr} {t : List Chr} {τ : Token} (hx : x = ch 'x' ∨ x = ch 'X')
    (ht : c.text = ch '0' :: x :: t)
    (h : floatBody ishexdigit isHexExp [ch '0', x] (c.adv 2) = some (.ok τ, c')) :
    scanFloat c = some (.ok τ, c') :=
  orElse_ok ((hexFloat_body hx ht).trans h)

theorem scan_dec {c c' : Cursor} {τ : Token}
    (hno : ∀ x t, c.text = ch '0' :: x :: t → ¬ (x = ch 'x' ∨ x = ch 'X'))
    (h : floatBody isdigit isDecExp [] c = some (.ok τ, c')) : scanFloat c = some (.ok τ, c') :=
  (orElse_noMatch (hex_none hno)).trans h

/-- A decimal floating constant does not begin like a hexadecimal one. -/
theorem dec_not_hex {a t : List Chr} (ha : ∀ x ∈ a, IsDigit 10 x)
    (ht : ∀ y r, t = y :: r → y ≠ ch '0' ∧ y ≠ ch 'x' ∧ y ≠ ch 'X') :
    ∀ x s, a ++ t = ch '0' :: x :: s → ¬ (x = ch 'x' ∨ x = ch 'X') := by
  intro x s e hx
  match a, ha, e with
  | [], _, e => exact (ht _ _ e).1 rfl
  | [_], _, e =>
    injection e with _ e
    rcases hx with rfl | rfl
    · exact (ht _ _ e).2.1 rfl
    · exact (ht _ _ e).2.2 rfl
  | _ :: z :: _, ha, e =>
    injection e with _ e
    injection e with e _
    have := ha z (by simp)
    rw [e] at this
    rcases hx with rfl | rfl <;> revert this <;> decide

theorem number_complete {cd : Codec} (ha : AsciiCodec cd) {bs : List UInt8} (hp : PlainBytes bs) {τ : Token}
    (h : Number (chars bs) τ) : convertNumber cd bs = some (.ok τ) := by
  generalize hs : chars bs = s at h
  cases h with
  | integer hf hsf ht =>
    rename_i base pre ds suf ty
    have hlt : positional base ds < 2 ^ 64 := by
      unfold constantType at ht
      have := List.find?_some ht
      have hb : 2 ^ ty.valueBits ≤ 2 ^ 64 := Nat.pow_le_pow_right (by decide) (by cases ty <;> decide)
      exact Nat.lt_of_lt_of_le (by simpa using this) hb
    have := convert_int ha hp hf hsf (by rw [Nat.mod_eq_of_lt hlt]; exact ht) hs
    rw [Nat.mod_eq_of_lt hlt] at this
    exact this
  | floating hf hx =>
    rename_i s x
    refine convert_float ha hp hs ?_
    intro c ht
    have sufdec : ∀ {e : List Chr}, (e = [] ∨ Exponent (str "eE") e) → ∀ y s, e ++ x.1 = y :: s →
        isdigit y = false := by
      intro e he y s' h
      rcases he with rfl | he
      · exact digit_not10 (suffix_head hx h).1
      · obtain ⟨l, s2, rfl, hl⟩ := exp_head he
        injection h with h _
        rw [← h]
        exact (decLetters l hl).1
    cases hf with
    | fraction hda hdb hn he =>
      rename_i a b e
      refine scan_dec ?_ ?_
      · rw [ht, List.append_assoc]
        exact dec_not_hex hda (fun y r h => by
          injection h with h _
          rw [← h]
          decide)
      · exact body_dot isdigit_zero dec_dot decExp_zero decExp_iff suffix_dec (undigits10 hda) (undigits10 hdb)
          hn he hx (sufdec he) (by rw [ht]; simp)
    | whole hda hn he =>
      rename_i a e
      refine scan_dec ?_ ?_
      · rw [ht, List.append_assoc]
        obtain ⟨l, s2, rfl, hl⟩ := exp_head he
        exact dec_not_hex hda (fun y r h => by
          injection h with h _
          rw [← h]
          have : ∀ l ∈ str "eE", l ≠ ch '0' ∧ l ≠ ch 'x' ∧ l ≠ ch 'X' := by decide
          exact this l hl)
      · exact body_whole isdigit_zero decExp_zero decExp_iff suffix_dec decLetters (undigits10 hda) hn he hx
          (by rw [ht]; simp)
    | hexFraction hy hda hdb hn he =>
      rename_i y a b e
      have ht' : c.text = ch '0' :: y :: (a ++ ch '.' :: (b ++ (e ++ x.1))) := by rw [ht]; simp
      have hb := body_dot (c := c.adv 2) (lit := [ch '0', y]) hex_zero hex_dot hexExp_zero hexExp_iff suffix_hex
        (undigits16 hda) (undigits16 hdb) hn (Or.inr he) hx (fun z s' h => by
          obtain ⟨l, s2, rfl, hl⟩ := exp_head he
          injection h with h _
          rw [← h]
          exact (hexLetters l hl).1) (by rw [Cursor.text_adv, ht']; rfl)
      rw [Cursor.adv_adv] at hb
      refine (scan_hex hy ht' hb).trans ?_
      congr 3
      simp only [List.length_append, List.length_cons]
      omega
    | hexWhole hy hda hn he =>
      rename_i y a e
      have ht' : c.text = ch '0' :: y :: (a ++ (e ++ x.1)) := by rw [ht]; simp
      have hb := body_whole (c := c.adv 2) (lit := [ch '0', y]) hex_zero hexExp_zero hexExp_iff suffix_hex
        hexLetters (undigits16 hda) hn he hx (by rw [Cursor.text_adv, ht']; rfl)
      rw [Cursor.adv_adv] at hb
      refine (scan_hex hy ht' hb).trans ?_
      congr 3
      simp only [List.length_append, List.length_cons]
      omega

theorem lax_complete {cd : Codec} (ha : AsciiCodec cd) {bs : List UInt8} (hp : PlainBytes bs) {τ : Token}
    (h : Lax (chars bs) τ) : convertNumber cd bs = some (.ok τ) := by
  generalize hs : chars bs = s at h
  cases h with
  | overflow hf hsf ho ht => exact convert_int ha hp hf hsf ht hs
  | noExponent hy hda hdb hn hx hl =>
    rename_i y a b x
    refine convert_float ha hp hs ?_
    intro c ht
    have ht' : c.text = ch '0' :: y :: (a ++ ch '.' :: (b ++ ([] ++ x.1))) := by rw [ht]; simp
    have hb := body_dot (c := c.adv 2) (lit := [ch '0', y]) (e := []) hex_zero hex_dot hexExp_zero hexExp_iff
      suffix_hex (undigits16 hda) (undigits16 hdb) hn (Or.inl rfl) hx (fun z s' h => by
        have := hl z (by rw [show x.1 = z :: s' from h]; exact List.mem_cons_self ..)
        rw [digit16_iff] at this
        simpa using this) (by rw [Cursor.text_adv, ht']; rfl)
    rw [Cursor.adv_adv] at hb
    refine (scan_hex hy ht' hb).trans ?_
    rw [List.append_nil]
    congr 3
    simp only [List.length_append, List.length_cons]
    omega
  | twoDots hy hdb hn he hx =>
    rename_i y b e x
    refine convert_float ha hp hs ?_
    intro c ht
    have ht2 : (c.adv 2).text = [] ++ ch '.' :: ([] ++ ch '.' :: ((b ++ e) ++ x.1)) := by
      rw [Cursor.text_adv, ht]; rfl
    have h1 := frac_dot (ise := isHexExp) (lit := [ch '0', y]) (c := c.adv 2) (a := []) (b := []) hex_zero hex_dot
      ht2 (by simp) (by simp) (fun z s' h => by injection h with h _; rw [← h]; exact hex_dot)
    rw [if_neg (by simp)] at h1
    have h2 : matchHexFloat c = some (.error .noMatch, (c.adv 2).adv 1) := by
      rw [hexFloat_body hy ht]
      exact bind_err h1
    have hb := body_dot (c := (c.adv 2).adv 1) (lit := []) (a := []) isdigit_zero dec_dot decExp_zero decExp_iff
      suffix_dec (by simp) (undigits10 hdb) (Or.inr hn) he hx (fun z s' h => by
        rcases he with rfl | he
        · exact digit_not10 (suffix_head hx h).1
        · obtain ⟨l, s2, rfl, hl⟩ := exp_head he
          injection h with h _
          rw [← h]
          exact (decLetters l hl).1) (by rw [Cursor.text_adv, ht2]; simp)
    unfold scanFloat
    rw [orElse_noMatch h2, decimal_body, hb, Cursor.adv_adv, Cursor.adv_adv]
    congr 3
    simp only [List.length_append, List.length_cons, List.length_nil]
    omega

end Kefir.PpToken
