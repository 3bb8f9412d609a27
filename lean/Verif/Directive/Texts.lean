import Verif.Directive.Scan
import Verif.PpToken.FormatProps
/-!
# Reading concrete texts
-/

namespace Kefir.Directive

open Kefir.Lexer Kefir.PpToken

variable {sc : StrCodec} {t : Tries}

theorem next_token (hg : GoodCodec sc) (htr : PunctTrie t) {τ : Token} (h : Printable asciiLocale τ)
    (hnw : ∀ nl, τ ≠ .ppWhitespace nl) {bs : List UInt8} (hf : formatToken asciiLocale .original τ = .ok bs)
    {c : Cursor} (h0 : 0 ∉ c.text) {rest : List Chr} (ht : c.text = chars bs ++ rest)
    (hr : ∀ x r, rest = x :: r → ¬ Continues τ x ∧ x ≠ ch '\\')
    {x : Chr} {r : List Chr} (hx : c.text = x :: r) (h1 : x ∉ whitespaceChars) (h2 : x ≠ ch '/')
    (hnorm : normalise .original τ = τ) : Next sc t c τ (c.adv bs.length) := by
  obtain ⟨hb, hu⟩ := no_blank_cons (r := r) h1 h2
  have := read_token hg asciiLocale_good .original htr h hnw hf h0 ht hr
  rw [hnorm] at this
  exact ⟨_, _, ppNext_of_token (whitespace_none h0 (by rw [hx]; exact hb) (by rw [hx]; exact hu)) this⟩

/-- A punctuator. -/
theorem next_punct (hg : GoodCodec sc) (htr : PunctTrie t) (p : Punct) {c : Cursor} {rest : List Chr}
    (ht : c.text = p.spelling ++ rest) (h0 : 0 ∉ c.text) (hp : primary p = p)
    (hs : p ≠ .dot ∧ p.spelling.head? ≠ some (ch '/'))
    (hr : ∀ x ∈ rest.head?, (∀ q : Punct, ¬ p.spelling ++ [x] <+: q.spelling) ∧ x ≠ ch '\\') :
    Next sc t c (.punct p) (c.adv p.spelling.length) := by
  have hf : formatToken asciiLocale .original (.punct p) = .ok (lit (punctText p)) := rfl
  have hlen : (lit (punctText p)).length = p.spelling.length := by
    rw [← chars_length, punct_text, hp]
  rw [← hlen]
  obtain ⟨x, r, hx, hx1, -⟩ := punct_first p
  refine next_token hg htr (.punctuator p) (by simp) hf h0 (rest := rest) (by rw [ht, punct_text, hp]) ?_
    (x := x) (r := r ++ rest) (by rw [ht, hx]; rfl) ?_ ?_ (by simp [normalise, hp])
  · intro y r' hy
    have := hr y (by rw [hy]; rfl)
    refine ⟨?_, this.2⟩
    rintro (⟨q, hq⟩ | ⟨h, -⟩ | ⟨h, -⟩)
    · rw [hp] at hq
      exact this.1 q hq
    · exact hs.1 h
    · rw [h] at hs
      exact hs.2 rfl
  · have : ∀ p : Punct, ∀ x ∈ p.spelling.head?, x ∉ whitespaceChars := by intro p; cases p <;> decide
    exact this p x (by rw [hx]; rfl)
  · intro h
    exact hs.2 (by rw [hx, h]; rfl)

theorem nameBytes_chars (name : String) (h : ∀ x ∈ str name, IsNondigit x ∨ IsDigit 10 x) :
    chars (nameBytes name) = str name := by
  have : ∀ s : List Chr, (∀ x ∈ s, IsNondigit x ∨ IsDigit 10 x) → (s.map UInt8.ofNat).map UInt8.toNat = s := by
    intro s hs
    induction s with
    | nil => rfl
    | cons x s ih =>
      have hx := (identChar_lt (hs x List.mem_cons_self)).1
      rw [List.map_cons, List.map_cons, ih fun y hy => hs y (List.mem_cons_of_mem _ hy),
        UInt8.toNat_ofNat_of_lt' (Nat.lt_trans hx (by decide))]
  exact this _ h

/-- An identifier. -/
theorem next_name (hg : GoodCodec sc) (htr : PunctTrie t) (name : String) {c : Cursor} {rest : List Chr}
    (ht : c.text = str name ++ rest) (h0 : 0 ∉ c.text)
    (hn : (∀ x ∈ (str name).head?, IsNondigit x) ∧ str name ≠ [] ∧ (∀ x ∈ str name, IsNondigit x ∨ IsDigit 10 x) ∧
      (str name).length ≤ 255)
    (hr : ∀ x ∈ rest.head?, ¬ IsNondigit x ∧ ¬ IsDigit 10 x ∧ x ∉ str "'\"\\") :
    Next sc t c (.identifier (nameBytes name)) (c.adv (str name).length) := by
  obtain ⟨hn1, hn2, hn3, hn4⟩ := hn
  have hc := nameBytes_chars name hn3
  have hlen : (nameBytes name).length = (str name).length := by rw [← hc, chars_length]
  rw [← hlen]
  cases hs : str name with
  | nil => exact absurd hs hn2
  | cons x s =>
    have hx : IsNondigit x := hn1 x (by rw [hs]; rfl)
    refine next_token hg htr (.identifier _ x s (hc.trans hs) hx
        (fun y hy => hn3 y (by rw [hs]; exact List.mem_cons_of_mem _ hy)) (by rw [hlen]; exact hn4))
      (by simp) rfl h0 (rest := rest) (by rw [ht, hc]) ?_ (x := x) (r := s ++ rest) (by rw [ht, hs]; rfl) ?_ ?_ rfl
    · intro y r hy
      obtain ⟨h1, h2, h3⟩ := hr y (by rw [hy]; rfl)
      refine ⟨?_, by rintro rfl; exact h3 (by decide)⟩
      rintro (h | h | h)
      · exact h1 h
      · exact h2 h
      · have : ∀ o ∈ openings, ∀ y ∈ o.getLast?, y ∈ str "'\"\\" := by decide
        exact h3 (this _ h y (by simp))
    · have : ∀ x ∈ whitespaceChars, ¬ IsNondigit x := by decide
      exact fun h => this x h hx
    · rintro rfl
      exact absurd hx (by decide)

/-- A blank. -/
theorem next_blank {x : Chr} {c : Cursor} {rest : List Chr} (ht : c.text = x :: rest)
    (hx : x ∈ whitespaceChars) (hr : rest.head? ≠ some (ch '/')) :
    Next sc t c (.ppWhitespace (x = ch '\n')) (c.adv 1) := by
  have hs := (isspace_iff x).2 hx
  have h1 : Lexer.skipWhitespaces .noMatch c =
      some (.ok (if x = ch '\n' then WsMatch.newline else .blank), c.adv 1) := by
    rw [Lexer.skipWhitespaces, peek_bind, at_cons ht, if_pos hs, skip_bind (by rw [ht]; simp)]
    rfl
  have hne : ∀ y, ¬ ((c.adv 1).at 0 = ch '/' ∧ (c.adv 1).at 1 = y) := by
    rintro y ⟨h, -⟩
    rw [at_zero, Cursor.text_adv, ht] at h
    cases rest with
    | nil =>
      have h : (0 : Nat) = ch '/' := h
      exact absurd h (by decide)
    | cons z r =>
      have h : z = ch '/' := h
      exact hr (by rw [h]; rfl)
  have h2 : whitespaceRound c = some (.ok (if x = ch '\n' then WsMatch.newline else .blank), c.adv 1) := by
    rw [whitespaceRound, bind_some h1]
    simp only [skipMultilineComment, skipOnelineComment, bind_apply, peek, if_neg (hne _), pure_apply]
  have := next_round (sc := sc) (t := t) h2 (by split <;> simp)
  by_cases hx : x = ch '\n'
  · rw [if_pos hx] at this
    rw [decide_eq_true hx]
    exact this
  · rw [if_neg hx] at this
    rw [decide_eq_false hx]
    exact this

/-- A comment. -/
theorem next_comment {body : List Chr} {c : Cursor} {rest : List Chr}
    (ht : c.text = str "/*" ++ (body ++ (str "*/" ++ rest))) (h0 : 0 ∉ c.text)
    (hb : closePos (body ++ (str "*/" ++ rest)) = some body.length) (hr : rest.head? ≠ some (ch '/')) :
    Next sc t c (.ppWhitespace false) (c.adv (body.length + 4)) := by
  have ha : c.at 0 = ch '/' := at_cons (r := (ch '*') :: (body ++ (str "*/" ++ rest))) (by rw [ht]; rfl)
  have ha1 : c.at 1 = ch '*' := at_cons1 (x := ch '/') (r := (body ++ (str "*/" ++ rest))) (by rw [ht]; rfl)
  have h1 : Lexer.skipWhitespaces .noMatch c = some (.ok .noMatch, c) := by
    rw [Lexer.skipWhitespaces, peek_bind, ha]
    rfl
  have ht2 : (c.adv 2).text = body ++ (str "*/" ++ rest) := by rw [Cursor.text_adv, ht]; rfl
  have ht3 : ((c.adv 2).adv body.length).text = str "*/" ++ rest := by
    rw [Cursor.text_adv, ht2, List.drop_left]
  have h2 : skipMultilineComment .noMatch c = some (.ok .blank, c.adv (body.length + 4)) := by
    have hloop := blockCommentLoop_eq (c.adv 2) (drop_no_zero h0 2)
    rw [ht2, hb, Option.getD_some] at hloop
    have hb0 : ((c.adv 2).adv body.length).at 0 = ch '*' := at_cons (r := ch '/' :: rest) (by rw [ht3]; rfl)
    have hb1 : ((c.adv 2).adv body.length).at 1 = ch '/' := at_cons1 (x := ch '*') (r := rest) (by rw [ht3]; rfl)
    rw [skipMultilineComment, peek_bind, peek_bind, if_pos ⟨ha, ha1⟩,
      skip_bind (by rw [ht]; simp [str]), bind_some hloop,
      peek_bind, peek_bind, if_pos ⟨hb0, hb1⟩, skip_bind (by rw [ht3]; simp [str]), pure_apply,
      Cursor.adv_adv, Cursor.adv_adv, show 2 + (body.length + 2) = body.length + 4 by omega]
    rfl
  have hne : ∀ y, ¬ ((c.adv (body.length + 4)).at 0 = ch '/' ∧ (c.adv (body.length + 4)).at 1 = y) := by
    rintro y ⟨h, -⟩
    have : (c.adv (body.length + 4)).text = rest := by
      rw [show body.length + 4 = 2 + (body.length + 2) by omega, ← Cursor.adv_adv, ← Cursor.adv_adv,
        Cursor.text_adv, ht3]
      rfl
    rw [at_zero, this] at h
    cases rest with
    | nil => exact absurd h (by decide)
    | cons z r =>
      have h : z = ch '/' := h
      exact hr (by rw [h]; rfl)
  have h3 : whitespaceRound c = some (.ok .blank, c.adv (body.length + 4)) := by
    rw [whitespaceRound, bind_some h1, bind_some h2]
    simp only [skipOnelineComment, bind_apply, peek, if_neg (hne _), pure_apply]
  exact next_round h3 (by simp)

/-! The same at the position `n` of a text. -/

/-- The position `n` of the text. -/
def pos (T : List Chr) (n : Nat) : Cursor := (atText T).adv n

/-- A text without line continuations and null characters. -/
def Simple (T : List Chr) : Prop := splice T = T ∧ 0 ∉ T

instance (T : List Chr) : Decidable (Simple T) := inferInstanceAs (Decidable (_ ∧ _))

theorem pos_text {T : List Chr} (h : Simple T) (n : Nat) : (pos T n).text = T.drop n := by
  unfold pos
  rw [Cursor.text_adv]
  show (splice T).drop n = T.drop n
  rw [h.1]

theorem pos_adv (T : List Chr) (n k : Nat) : (pos T n).adv k = pos T (n + k) := by
  unfold pos
  rw [Cursor.adv_adv]

theorem at_punct (hg : GoodCodec sc) (htr : PunctTrie t) {T : List Chr} (n : Nat) (p : Punct) (m : Nat)
    (h0 : Simple T) (ht : T.drop n = p.spelling ++ T.drop m) (hm : m = n + p.spelling.length) (hp : primary p = p)
    (hs : p ≠ .dot ∧ p.spelling.head? ≠ some (ch '/'))
    (hr : ∀ x ∈ (T.drop m).head?, (∀ q : Punct, ¬ p.spelling ++ [x] <+: q.spelling) ∧ x ≠ ch '\\') :
    Next sc t (pos T n) (.punct p) (pos T m) := by
  rw [hm, ← pos_adv]
  exact next_punct hg htr p (rest := T.drop m) (by rw [pos_text h0, ht])
    (by rw [pos_text h0]; exact fun h => h0.2 (List.mem_of_mem_drop h)) hp hs hr

theorem at_name (hg : GoodCodec sc) (htr : PunctTrie t) {T : List Chr} (n : Nat) (name : String) (m : Nat)
    (h0 : Simple T) (ht : T.drop n = str name ++ T.drop m) (hm : m = n + (str name).length)
    (hn : (∀ x ∈ (str name).head?, IsNondigit x) ∧ str name ≠ [] ∧ (∀ x ∈ str name, IsNondigit x ∨ IsDigit 10 x) ∧
      (str name).length ≤ 255)
    (hr : ∀ x ∈ (T.drop m).head?, ¬ IsNondigit x ∧ ¬ IsDigit 10 x ∧ x ∉ str "'\"\\") :
    Next sc t (pos T n) (.identifier (nameBytes name)) (pos T m) := by
  rw [hm, ← pos_adv]
  exact next_name hg htr name (rest := T.drop m) (by rw [pos_text h0, ht])
    (by rw [pos_text h0]; exact fun h => h0.2 (List.mem_of_mem_drop h)) hn hr

theorem at_blank {T : List Chr} (h0 : Simple T) (n : Nat) (nl : Bool) (x : Chr) (ht : T.drop n = x :: T.drop (n + 1))
    (hx : x ∈ whitespaceChars) (hnl : nl = decide (x = ch '\n')) (hr : (T.drop (n + 1)).head? ≠ some (ch '/')) :
    Next sc t (pos T n) (.ppWhitespace nl) (pos T (n + 1)) := by
  rw [← pos_adv, hnl]
  exact next_blank (by rw [pos_text h0, ht]) hx hr

theorem at_comment {T : List Chr} (n : Nat) (body : List Chr) (m : Nat) (h0 : Simple T)
    (ht : T.drop n = str "/*" ++ (body ++ (str "*/" ++ T.drop m))) (hm : m = n + (body.length + 4))
    (hb : closePos (body ++ (str "*/" ++ T.drop m)) = some body.length)
    (hr : (T.drop m).head? ≠ some (ch '/')) : Next sc t (pos T n) (.ppWhitespace false) (pos T m) := by
  rw [hm, ← pos_adv]
  exact next_comment (rest := T.drop m) (by rw [pos_text h0, ht])
    (by rw [pos_text h0]; exact fun h => h0.2 (List.mem_of_mem_drop h)) hb hr

/-- A number of one digit. -/
theorem at_digit (hg : GoodCodec sc) (htr : PunctTrie t) {T : List Chr} (n : Nat) (d : Chr) (b : UInt8)
    (h0 : Simple T) (ht : T.drop n = [d]) (hd : IsDigit 10 d) (hb : b.toNat = d) :
    Next sc t (pos T n) (.ppNumber [b]) (pos T (n + 1)) := by
  rw [← pos_adv]
  have hx : d ∉ whitespaceChars ∧ d ≠ ch '/' := by
    have : ∀ y ∈ whitespaceChars ++ [ch '/'], ¬ IsDigit 10 y := by decide
    constructor
    · exact fun h => this d (List.mem_append_left _ h) hd
    · rintro rfl; exact this _ (by decide) hd
  refine next_token hg htr (.number [b] d [] (by simp [hb]) hd .nil (by simp)) (by simp) rfl
    (by rw [pos_text h0]; exact fun h => h0.2 (List.mem_of_mem_drop h)) (rest := []) ?_ (by simp)
    (x := d) (r := []) (by rw [pos_text h0, ht]) hx.1 hx.2 rfl
  rw [pos_text h0, ht]
  simp [chars, hb]

/-- The digraph for `#` at the end of a text. -/
theorem at_digraph (htr : PunctTrie t) {T : List Chr} (h0 : Simple T) (n : Nat) (ht : T.drop n = str "%:") :
    Next sc t (pos T n) (.punct .digraphHash) (pos T (n + 2)) := by
  rw [← pos_adv]
  have hx : (pos T n).text = ch '%' :: [ch ':'] := by rw [pos_text h0, ht]; decide
  have h0' : 0 ∉ (pos T n).text := by rw [hx]; decide
  obtain ⟨hb, hu⟩ := no_blank_cons (x := ch '%') (r := [ch ':']) (by decide) (by decide)
  refine ⟨_, _, ppNext_of_token (whitespace_none h0' (by rw [hx]; exact hb) (by rw [hx]; exact hu)) ?_⟩
  have hno : ∀ o ∈ openings, ¬ o <+: (pos T n).text := by rw [hx]; decide
  obtain ⟨hq0, hq1⟩ := not_opening_two hno
  have hat := at_cons hx
  have hp : matchPunctuator t (pos T n) = some (.ok (.punct .digraphHash), (pos T n).adv 2) := by
    rcases C08_longest_punctuator_partial t htr (pos T n) (by rw [hx]; decide) with ⟨q, ⟨h1, h2⟩, hq⟩ | ⟨hn, -⟩
    · have h3 := h2 .digraphHash (by rw [hx]; decide)
      rw [hx] at h1
      have : q = .digraphHash := by
        have := h1.length_le
        revert h1 h3
        cases q <;> decide
      subst this
      exact hq
    · exact absurd (by rw [hx]; decide) (hn .digraphHash)
  rw [ppToken, peek_bind, if_neg (by rw [hat]; decide), orElse_noMatch (char_none hq0 hq1),
    orElse_noMatch (number_none (by rw [hat]; decide) (fun h => absurd (hat ▸ h.1) (by decide))),
    orElse_noMatch (string_none hno),
    orElse_noMatch (identifier_none (by rw [hat]; decide) (by rw [hat]; decide)),
    orElse_ok hp]

end Kefir.Directive
