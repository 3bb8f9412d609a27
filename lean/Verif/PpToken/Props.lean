import Verif.PpToken.Gap
/-!
# C78: the preprocessor reads the longest preprocessing token

C17 6.4p4: "If the input stream has been parsed into preprocessing tokens up to a given character, the
next preprocessing token is the longest sequence of characters that could constitute a preprocessing
token."
-/

namespace Kefir.PpToken

open Kefir.Lexer

theorem ppNext_of_token {sc : StrCodec} {t : Tries} {c c' : Cursor} {τ : Token}
    (hw : matchWhitespace c = some (.error .noMatch, c)) (h : ppToken sc t c = some (.ok τ, c')) :
    ppNext sc t c = some (.ok ⟨τ, c.line, c.col⟩, c') := by
  refine apply_ok ?_
  have hl : location c = some (.ok (c.line, c.col), c) := rfl
  rw [ppNextImpl, bind_some hl]
  simp only
  rw [bind_some (by rw [orElse_noMatch hw, h])]
  rfl

theorem ppNext_of_error {sc : StrCodec} {t : Tries} {c c' : Cursor} {e : Err}
    (hw : matchWhitespace c = some (.error .noMatch, c)) (h : ppToken sc t c = some (.error e, c')) :
    ∃ c2, ppNext sc t c = some (.error e, c2) := by
  have hl : location c = some (.ok (c.line, c.col), c) := rfl
  have : ppNextImpl sc t c = some (.error e, c') := by
    rw [ppNextImpl, bind_some hl]
    simp only
    rw [bind_err (by rw [orElse_noMatch hw, h])]
  unfold ppNext apply
  rw [this]
  cases e <;> exact ⟨_, rfl⟩

/-- C78: where the text begins with preprocessing tokens, the longest is read: the token it spells is
returned, with the position of its first character, and the cursor moves behind it.

Partial: not for a punctuator in a dead end (`C78_dead_end_false`), an identifier or number before
`\u` or `\U` that names no character (`C78_backslash_false`), an identifier of more than 255 characters, or a wide string literal
with a number above 2^31-1 (`C78_wide_number_false`).  A quote without a partner makes the behaviour
undefined (6.4p3) and is left out too. -/
theorem C78_longest_partial (sc : StrCodec) (hg : GoodCodec sc) (t : Tries) (htr : PunctTrie t)
    (c : Cursor) (h0 : 0 ∉ c.text) (hblank : ∀ r, ¬ Blank c.text r) (hopen : ¬ Unterminated c.text)
    (s : List Chr) (hl : Longest sc.encode c.text s) (hq : ¬ StrayQuote sc.encode c.text)
    (hd : ¬ DeadEnd c.text) 
    (hbs : ¬ s ++ str "\\u" <+: c.text ∧ ¬ s ++ str "\\U" <+: c.text)
    (hid : (∃ bs, Spelled sc.encode s (.identifier bs)) → s.length ≤ 255)
    (hw : ∀ b es, s = str "L\"" ++ (b ++ str "\"") → Body (ch '"') b es →
      ∀ v, .code v ∈ es → v < 2 ^ 31) :
    ∃ τ, Spelled sc.encode s τ ∧
      ppNext sc t c = some (.ok ⟨τ, c.line, c.col⟩, c.adv s.length) := by
  have hws := whitespace_none h0 hblank hopen
  have : ∃ τ, Spelled sc.encode s τ ∧ ppToken sc t c = some (.ok τ, c.adv s.length) := by
    by_cases hop : ∃ o ∈ openings, o <+: c.text
    · obtain ⟨o, ho, hop⟩ := hop
      obtain ⟨⟨hs, τ, hsp⟩, hmax⟩ := hl
      have hlit : ∃ s τ, s <+: c.text ∧ o <+: s ∧ Spelled sc.encode s τ := by
        by_cases h : ∃ s τ, s <+: c.text ∧ o <+: s ∧ Spelled sc.encode s τ
        · exact h
        · exact absurd ⟨o, ho, hop, h⟩ hq
      obtain ⟨s', τ', hs', hos', hsp'⟩ := hlit
      have hle := hmax s' hs' ⟨τ', hsp'⟩
      have hos : o <+: s := List.prefix_of_prefix_length_le hop hs (Nat.le_trans hos'.length_le hle)
      obtain ⟨rest, ht⟩ := hs
      exact literal_token hg t h0 ho hos hsp ht.symm hw
    · exact plain_token hg htr h0 hl (fun o ho h => hop ⟨o, ho, h⟩) hd hbs hid
  obtain ⟨τ, h1, h2⟩ := this
  exact ⟨τ, h1, ppNext_of_token hws h2⟩

/-- C78: a text that begins with a whitespace character or a comment gives a whitespace token.  It
stands for one or more of them, and tells whether a newline is among them.  Otherwise a comment that is
never closed is reported. -/
theorem C78_whitespace (sc : StrCodec) (t : Tries) (c : Cursor) (h0 : 0 ∉ c.text) (r : List Chr)
    (hb : Blank c.text r) :
    (∃ nl k, ppNext sc t c = some (.ok ⟨.ppWhitespace nl, c.line, c.col⟩, c.adv k) ∧ 1 ≤ k ∧
      k ≤ c.text.length ∧ Gap c.text (c.text.drop k) nl) ∨
    (∃ c' t', ppNext sc t c = some (.error .lexerError, c') ∧ Blanks c.text t' ∧ Unterminated t') := by
  have hl : location c = some (.ok (c.line, c.col), c) := rfl
  rcases whitespace_match h0 hb with ⟨nl, k, e, hk, hkl, hg⟩ | ⟨c', t', e, h⟩
  · refine Or.inl ⟨nl, k, apply_ok ?_, hk, hkl, hg⟩
    rw [ppNextImpl, bind_some hl]
    simp only
    rw [bind_some (orElse_ok e)]
    rfl
  · right
    have : ppNextImpl sc t c = some (.error .lexerError, c') := by
      rw [ppNextImpl, bind_some hl]
      simp only
      rw [bind_err]
      unfold orElse
      rw [e]
    refine ⟨c', t', ?_, h⟩
    unfold ppNext apply
    rw [this]

/-- C78: at the end of the text there is only the end. -/
theorem C78_end (sc : StrCodec) (t : Tries) (c : Cursor) (h : c.text = []) :
    ppNext sc t c = some (.ok ⟨.sentinel, c.line, c.col⟩, c) := by
  refine ppNext_of_token (whitespace_none (by rw [h]; simp) ?_ ?_) ?_
  · rw [h]; intro r hb; cases hb
  · rw [h]; rintro ⟨body, hb, -⟩; cases hb
  · have : c.at 0 = 0 := by rw [at_zero, h]; rfl
    rw [ppToken, peek_bind, if_pos this]
    rfl

/-- C78: where no preprocessing token of 6.4 begins, an error is reported.

Partial: a text that begins with a quote (undefined, 6.4p3) or with a backslash
(`C78_universal_name_false`) is left out. -/
theorem C78_no_token_partial (sc : StrCodec) (hg : GoodCodec sc) (t : Tries) (htr : PunctTrie t)
    (c : Cursor) (h0 : 0 ∉ c.text) (hne : c.text ≠ []) (hblank : ∀ r, ¬ Blank c.text r)
    (hopen : ¬ Unterminated c.text) (hno : ¬ ∃ s τ, s <+: c.text ∧ Spelled sc.encode s τ)
    (hq : ∀ o ∈ openings, ¬ o <+: c.text) (hbs : ¬ str "\\" <+: c.text) :
    ∃ c', ppNext sc t c = some (.error .lexerError, c') := by
  obtain ⟨x, r, hx⟩ : ∃ x r, c.text = x :: r := by
    cases h : c.text with
    | nil => exact absurd h hne
    | cons x r => exact ⟨x, r, rfl⟩
  have hat := at_cons hx
  have hz : c.at 0 ≠ 0 := by
    intro h
    rw [hat] at h
    rw [hx, h] at h0
    exact h0 List.mem_cons_self
  obtain ⟨hq0, hq1⟩ := not_opening_two hq
  have hdig : isdigit (c.at 0) = false := by
    refine Bool.eq_false_iff.2 fun h => ?_
    rw [hat] at h
    have hd := (digit10_iff x).2 h
    exact hno ⟨[x], _, ⟨r, by rw [hx]; rfl⟩,
      .number hd .nil (.cons (hg.ascii .multibyte x (digit_facts hd).1) .nil)⟩
  have hdot : ¬ (c.at 0 = ch '.' ∧ isdigit (c.at 1) = true) := by
    rintro ⟨h1, h2⟩
    have hd := (digit10_iff _).2 h2
    obtain ⟨r', ht⟩ := two_chars (by decide) (digit_ne_zero hd) ⟨h1, rfl⟩
    exact hno ⟨[ch '.', c.at 1], .ppNumber _, ⟨r', by rw [ht]; rfl⟩,
      .dotNumber hd .nil (.cons (hg.ascii .multibyte _ (by decide))
        (.cons (hg.ascii .multibyte _ (digit_facts hd).1) .nil))⟩
  have hnd : isnondigit (c.at 0) = false := by
    refine Bool.eq_false_iff.2 fun h => ?_
    rw [hat] at h
    have hi := (isnondigit_iff x).1 h
    exact hno ⟨[x], _, ⟨r, by rw [hx]; rfl⟩, .identifier (.letter x hi) .nil
      (.cons (hg.ascii .multibyte x (identChar_lt (Or.inl hi)).1) .nil)⟩
  have hback : c.at 0 ≠ ch '\\' := by
    intro h
    rw [hat] at h
    exact hbs ⟨r, by rw [hx, h]; rfl⟩
  have hdead : ¬ DeadEnd c.text := by
    intro h
    rcases (C08_dead_end_unmatched t htr c h).2 with h | h
    · exact hno ⟨_, _, h, .punctuator _⟩
    · exact hno ⟨_, _, h, .punctuator _⟩
  rcases C08_longest_punctuator_partial t htr c hdead with ⟨p, hp, -⟩ | ⟨-, hp⟩
  · exact absurd ⟨_, _, hp.1, .punctuator p⟩ hno
  · refine ppNext_of_error (whitespace_none h0 hblank hopen) ?_ (c' := c)
    rw [ppToken, peek_bind, if_neg hz, orElse_noMatch (char_none hq0 hq1),
      orElse_noMatch (number_none hdig hdot), orElse_noMatch (string_none hq),
      orElse_noMatch (identifier_none hnd hback), orElse_noMatch hp]
    rfl

/-! ## Where the property fails -/

/-- What the first characters of a preprocessing token tell. -/
theorem spelled_first {enc : Mode → Chr → Option (List UInt8)} {x : Chr} {r : List Chr} {τ : Token}
    (h : Spelled enc (x :: r) τ) :
    IsNondigit x ∨ (∃ a s v, x :: r = a ++ s ∧ Ucn a v) ∨ IsDigit 10 x ∨
    (x = ch '.' ∧ ∃ d r', r = d :: r' ∧ IsDigit 10 d) ∨ (∃ o ∈ openings, o <+: x :: r) ∨
    ∃ p : Punct, p.spelling = x :: r := by
  generalize hs : x :: r = s at h
  cases h with
  | @identifier a _ s _ _ hn _ _ =>
    cases hn with
    | letter _ hx =>
      injection hs with hs _
      exact Or.inl (hs ▸ hx)
    | ucn hu => exact Or.inr (Or.inl ⟨_, _, _, rfl, hu⟩)
  | number hd _ _ =>
    injection hs with hs _
    exact Or.inr (Or.inr (Or.inl (hs ▸ hd)))
  | dotNumber hd _ _ =>
    injection hs with hs1 hs2
    exact Or.inr (Or.inr (Or.inr (Or.inl ⟨hs1, _, _, hs2, hd⟩)))
  | punctuator p => exact Or.inr (Or.inr (Or.inr (Or.inr (Or.inr ⟨p, rfl⟩))))
  | character _ _ _ _ =>
    exact Or.inr (Or.inr (Or.inr (Or.inr (Or.inl ⟨str "'", by decide, List.prefix_append _ _⟩))))
  | wideCharacter _ _ _ =>
    exact Or.inr (Or.inr (Or.inr (Or.inr (Or.inl ⟨str "L'", by decide, List.prefix_append _ _⟩))))
  | character16 _ _ _ =>
    exact Or.inr (Or.inr (Or.inr (Or.inr (Or.inl ⟨str "u'", by decide, List.prefix_append _ _⟩))))
  | character32 _ _ _ =>
    exact Or.inr (Or.inr (Or.inr (Or.inr (Or.inl ⟨str "U'", by decide, List.prefix_append _ _⟩))))
  | @string m _ _ _ _ _ =>
    refine Or.inr (Or.inr (Or.inr (Or.inr (Or.inl ⟨stringPrefix m ++ str "\"", ?_, ?_⟩))))
    · cases m <;> decide
    · rw [← List.append_assoc]
      exact List.prefix_append _ _

/-- No token begins with a backslash that does not begin a universal character name. -/
theorem ucn_two {a s : List Chr} {v : Chr} {x : Chr} {r : List Chr} (h : x :: r = a ++ s) (hu : Ucn a v) :
    x = ch '\\' ∧ ∃ y r', r = y :: r' ∧ (y = ch 'u' ∨ y = ch 'U') := by
  cases hu with
  | short ds _ _ _ =>
    injection h with h1 h2
    exact ⟨h1, _, _, h2, Or.inl rfl⟩
  | long ds _ _ _ =>
    injection h with h1 h2
    exact ⟨h1, _, _, h2, Or.inr rfl⟩

theorem no_blank_cons {x : Chr} {r : List Chr} (h1 : x ∉ whitespaceChars) (h2 : x ≠ ch '/') :
    (∀ r', ¬ Blank (x :: r) r') ∧ ¬ Unterminated (x :: r) := by
  constructor
  · refine no_blank ?_ ?_ ?_
    · rintro ⟨y, r', h, hy⟩
      injection h with h _
      exact h1 (h ▸ hy)
    · rintro ⟨r', h⟩
      injection h with h _
      exact h2 h.symm
    · rintro ⟨r', h⟩
      injection h with h _
      exact h2 h.symm
  · rintro ⟨body, h, -⟩
    injection h with h _
    exact h2 h

theorem spelled_nil {enc : Mode → Chr → Option (List UInt8)} {τ : Token} : ¬ Spelled enc [] τ := by
  intro hsp
  generalize hn : ([] : List Chr) = s at hsp
  cases hsp with
  | identifier h _ _ =>
    have := nondigit_length h
    have := congrArg List.length hn
    simp at this
    omega
  | string _ _ =>
    have := congrArg List.length hn
    simp [str] at this
  | punctuator p => exact absurd hn (by cases p <;> decide)
  | _ => cases hn

/-- C78 is false of two dots: the longest token is `.`, but the tokenizer reports an error.  So `1...x`
aside, a text like `a..b` cannot be preprocessed, even where no such tokens remain after it. -/
theorem C78_dead_end_false (sc : StrCodec) (t : Tries) (htr : PunctTrie t) :
    Longest sc.encode (str "..") (str ".") ∧
    ∃ c', ppNext sc t (atText (str "..")) = some (.error .lexerError, c') := by
  have ht : (atText (str "..")).text = str ".." := by decide
  constructor
  · refine ⟨⟨by decide, _, .punctuator .dot⟩, ?_⟩
    rintro s hs ⟨τ, hsp⟩
    have : s.length ≤ 2 := hs.length_le
    rcases Nat.lt_or_ge s.length 2 with h | h
    · exact Nat.le_of_lt_succ h
    · have hs' := hs.eq_of_length (Nat.le_antisymm this h)
      subst hs'
      rcases spelled_first hsp with h | ⟨a, r, v, h, hu⟩ | h | ⟨-, d, r, h, hd⟩ | ⟨o, ho, h⟩ | ⟨p, h⟩
      · exact absurd h (by decide)
      · exact absurd (ucn_two h hu).1 (by decide)
      · exact absurd h (by decide)
      · injection h with h _
        rw [← h] at hd
        exact absurd hd (by decide)
      · have : ∀ o ∈ openings, ¬ o <+: str ".." := by decide
        exact absurd h (this o ho)
      · have : ∀ p : Punct, p.spelling ≠ str ".." := by intro p; cases p <;> decide
        exact absurd h (this p)
  · generalize hc : atText (str "..") = c at ht ⊢
    have h0 : 0 ∉ c.text := by rw [ht]; decide
    have hno : ∀ o ∈ openings, ¬ o <+: c.text := by rw [ht]; decide
    obtain ⟨hb, hu⟩ := no_blank_cons (x := ch '.') (r := str ".") (by decide) (by decide)
    obtain ⟨hq0, hq1⟩ := not_opening_two hno
    have hat : c.at 0 = ch '.' := at_cons ht
    have hat1 : c.at 1 = ch '.' := at_cons1 ht
    refine ppNext_of_error (whitespace_none h0 (by rw [ht]; exact hb) (by rw [ht]; exact hu)) ?_ (c' := c)
    rw [ppToken, peek_bind, if_neg (by rw [hat]; decide), orElse_noMatch (char_none hq0 hq1),
      orElse_noMatch (number_none (by rw [hat]; decide) (fun h => absurd h.2 (by rw [hat1]; decide))),
      orElse_noMatch (string_none hno),
      orElse_noMatch (identifier_none (by rw [hat]; decide) (by rw [hat]; decide)),
      orElse_noMatch (C08_dead_end_unmatched t htr c (by rw [ht]; decide)).1]
    rfl

/-- C78 is false of a character that is none of the above: 6.4p1 makes `@` a preprocessing token, and
it may stand in skipped groups or as the operand of `#`; the tokenizer reports an error. -/
theorem C78_other_character_false (sc : StrCodec) (hg : GoodCodec sc) (t : Tries) (htr : PunctTrie t) :
    ∃ c', ppNext sc t (atText (str "@")) = some (.error .lexerError, c') := by
  have ht : (atText (str "@")).text = str "@" := by decide
  obtain ⟨hb, hu⟩ := no_blank_cons (x := ch '@') (r := []) (by decide) (by decide)
  refine C78_no_token_partial sc hg t htr _ (by decide) (by rw [ht]; decide) (by rw [ht]; exact hb)
    (by rw [ht]; exact hu) ?_ (by rw [ht]; decide) (by rw [ht]; decide)
  rw [ht]
  rintro ⟨s, τ, hs, hsp⟩
  cases s with
  | nil => exact spelled_nil hsp
  | cons x r =>
    obtain ⟨r', hs⟩ := hs
    injection hs with hx hr
    subst hx
    have hr : r = [] := (List.append_eq_nil_iff.1 hr).1
    subst hr
    rcases spelled_first hsp with h | ⟨a, r, v, h, hu⟩ | h | ⟨-, d, r, h, hd⟩ | ⟨o, ho, h⟩ | ⟨p, h⟩
    · exact absurd h (by decide)
    · exact absurd (ucn_two h hu).1 (by decide)
    · exact absurd h (by decide)
    · cases h
    · have : ∀ o ∈ openings, ¬ o <+: str "@" := by decide
      exact absurd h (this o ho)
    · have : ∀ p : Punct, p.spelling ≠ str "@" := by intro p; cases p <;> decide
      exact absurd h (this p)

/-- C78 is false of an identifier before `\u` or `\U` that names no character: `a` is the longest
token of `a\u;`, but the tokenizer reports an error. -/
theorem C78_backslash_false (sc : StrCodec) (hg : GoodCodec sc) (t : Tries) :
    Longest sc.encode (str "a\\u;") (str "a") ∧
    ∃ c', ppNext sc t (atText (str "a\\u;")) = some (.error .lexerError, c') := by
  have ht : (atText (str "a\\u;")).text = str "a\\u;" := by decide
  constructor
  · refine ⟨⟨by decide, _, .identifier (.letter (ch 'a') (by decide)) .nil
      (.cons (hg.ascii .multibyte _ (by decide)) .nil)⟩, ?_⟩
    rintro s hs ⟨τ, hsp⟩
    cases hsp with
    | @identifier a x s cs bs hn htl hb =>
      obtain ⟨r, hr⟩ := hs
      cases hn with
      | letter _ hx =>
        cases htl with
        | nil => exact Nat.le_refl _
        | digit hd _ =>
          injection hr with _ hr
          injection hr with hr _
          rw [hr] at hd
          exact absurd hd (by decide)
        | nondigit hn _ =>
          injection hr with _ hr
          cases hn with
          | letter _ hx =>
            injection hr with hr _
            rw [hr] at hx
            exact absurd hx (by decide)
          | ucn hu =>
            exfalso
            cases hu with
            | short ds hl hd _ =>
              have := congrArg List.length hr
              simp at this
              omega
            | long ds hl hd _ =>
              have := congrArg List.length hr
              simp at this
              omega
      | ucn hu =>
        obtain ⟨r', ha⟩ := ucn_head hu
        rw [ha] at hr
        injection hr with hr _
        exact absurd hr (by decide)
    | number hd _ _ =>
      obtain ⟨r, hr⟩ := hs
      injection hr with hr _
      rw [hr] at hd
      exact absurd hd (by decide)
    | dotNumber _ _ _ =>
      obtain ⟨r, hr⟩ := hs
      injection hr with hr _
      exact absurd hr (by decide)
    | punctuator p =>
      have : ∀ p : Punct, ¬ p.spelling <+: str "a\\u;" := by intro p; cases p <;> decide
      exact absurd hs (this p)
    | character _ _ _ _ => exact absurd ((List.prefix_append _ _).trans hs) (by decide)
    | wideCharacter _ _ _ => exact absurd ((List.prefix_append _ _).trans hs) (by decide)
    | character16 _ _ _ => exact absurd ((List.prefix_append _ _).trans hs) (by decide)
    | character32 _ _ _ => exact absurd ((List.prefix_append _ _).trans hs) (by decide)
    | @string m _ _ _ _ _ =>
      rw [← List.append_assoc] at hs
      have : ∀ m, ¬ stringPrefix m ++ str "\"" <+: str "a\\u;" := by intro m; cases m <;> decide
      exact absurd ((List.prefix_append _ _).trans hs) (this m)
  · generalize hc : atText (str "a\\u;") = c at ht ⊢
    have h0 : 0 ∉ c.text := by rw [ht]; decide
    have hno : ∀ o ∈ openings, ¬ o <+: c.text := by rw [ht]; decide
    obtain ⟨hb, hu⟩ := no_blank_cons (x := ch 'a') (r := str "\\u;") (by decide) (by decide)
    obtain ⟨hq0, hq1⟩ := not_opening_two hno
    have hat : c.at 0 = ch 'a' := at_cons ht
    have h1 : scanNondigit c = some (.ok (ch 'a'), c.adv 1) :=
      scanNondigit_ok (.letter (ch 'a') (by decide)) (rest := str "\\u;") (by rw [ht]; rfl)
    have h2 : scanIdDigit (c.adv 1) = some (.error .lexerError, c.adv 1) := by
      rw [← hc]
      rfl
    have h3 : identifierLoop [ch 'a'] (c.adv 1) = some (.error .lexerError, c.adv 1) := by
      rw [identifierLoop, attempt_bind h2]
      rfl
    refine ppNext_of_error (whitespace_none h0 (by rw [ht]; exact hb) (by rw [ht]; exact hu)) ?_
      (c' := c.adv 1)
    rw [ppToken, peek_bind, if_neg (by rw [hat]; decide), orElse_noMatch (char_none hq0 hq1),
      orElse_noMatch (number_none (by rw [hat]; decide)
        (fun h => absurd (hat.symm.trans h.1) (by decide))), orElse_noMatch (string_none hno)]
    unfold orElse
    have : matchIdentifier sc.cd c = some (.error .lexerError, c.adv 1) := by
      unfold matchIdentifier apply
      rw [scanIdentifier, bind_some h1, bind_err h3]
    rw [this]

/-- C78 is false of a universal character name that may not be used (6.4.3p2, a constraint): `\u0041`
is not a preprocessing token, but the tokenizer reads the identifier `A`. -/
theorem C78_universal_name_false (sc : StrCodec) (hg : GoodCodec sc) (t : Tries) :
    (¬ ∃ s τ, s <+: str "\\u0041" ∧ Spelled sc.encode s τ) ∧
    ∃ c', ppNext sc t (atText (str "\\u0041")) = some (.ok ⟨.identifier [0x41], 1, 1⟩, c') := by
  have ht : (atText (str "\\u0041")).text = str "\\u0041" := by decide
  constructor
  · rintro ⟨s, τ, hs, hsp⟩
    cases s with
    | nil => exact spelled_nil hsp
    | cons x r =>
      have hx : x = ch '\\' := by
        obtain ⟨r', hs⟩ := hs
        injection hs
      subst hx
      rcases spelled_first hsp with h | ⟨a, r2, v, h, hu⟩ | h | ⟨h, -⟩ | ⟨o, ho, h⟩ | ⟨p, h⟩
      · exact absurd h (by decide)
      · have ha : a <+: str "\\u0041" := (by rw [h]; exact List.prefix_append _ _ : a <+: _).trans hs
        cases hu with
        | short ds hl hd hv =>
          have hd' : ds = str "0041" := by
            obtain ⟨r3, h3⟩ := ha
            injection h3 with _ h3
            injection h3 with _ h3
            have h4 : ds <+: str "0041" := ⟨r3, h3⟩
            exact h4.eq_of_length hl
          rw [hd'] at hv
          exact absurd hv (by decide)
        | long ds hl hd hv =>
          obtain ⟨r3, h3⟩ := ha
          injection h3 with _ h3
          injection h3 with h3 _
          exact absurd h3 (by decide)
      · exact absurd h (by decide)
      · exact absurd h (by decide)
      · have : ∀ o ∈ openings, ¬ o <+: str "\\u0041" := by decide
        exact absurd (h.trans hs) (this o ho)
      · have : ∀ p : Punct, ¬ p.spelling <+: str "\\u0041" := by intro p; cases p <;> decide
        exact absurd (h ▸ hs) (this p)
  · generalize hc : atText (str "\\u0041") = c at ht ⊢
    have h0 : 0 ∉ c.text := by rw [ht]; decide
    have hno : ∀ o ∈ openings, ¬ o <+: c.text := by rw [ht]; decide
    obtain ⟨hb, hu⟩ := no_blank_cons (x := ch '\\') (r := str "u0041") (by decide) (by decide)
    obtain ⟨hq0, hq1⟩ := not_opening_two hno
    have hat : c.at 0 = ch '\\' := at_cons ht
    have h1 : scanNondigit c = some (.ok (ch 'A'), c.adv 6) := by
      rw [← hc]
      rfl
    have h2 : scanIdDigit (c.adv 6) = some (.error .noMatch, c.adv 6) := by
      rw [← hc]
      rfl
    have h3 : identifierLoop [ch 'A'] (c.adv 6) = some (.ok [ch 'A'], c.adv 6) := by
      rw [identifierLoop, attempt_bind h2]
      rfl
    have h4 := encodeAll_of hg (cs := [ch 'A']) (bs := [0x41]) (by decide)
      (.cons (e := .chr (ch 'A')) (b := [0x41]) (hg.ascii .multibyte (ch 'A') (by decide)) .nil)
    have : matchIdentifier sc.cd c = some (.ok (.identifier [0x41]), c.adv 6) := by
      refine apply_ok ?_
      rw [scanIdentifier, bind_some h1, bind_some h3]
      simp only
      rw [h4.1]
      rfl
    have hloc : c.line = 1 ∧ c.col = 1 := by rw [← hc]; exact ⟨rfl, rfl⟩
    refine ⟨c.adv 6, Eq.trans (ppNext_of_token
      (whitespace_none h0 (by rw [ht]; exact hb) (by rw [ht]; exact hu)) ?_) (by rw [hloc.1, hloc.2])⟩
    rw [ppToken, peek_bind, if_neg (by rw [hat]; decide), orElse_noMatch (char_none hq0 hq1),
      orElse_noMatch (number_none (by rw [hat]; decide)
        (fun h => absurd (hat.symm.trans h.1) (by decide))), orElse_noMatch (string_none hno),
      orElse_ok this]

/-- C78 is false of a number that a wide string literal can hold: `wchar_t` has four bytes, but
`L"\xffffffff"` is rejected. -/
theorem C78_wide_number_false (sc : StrCodec) (t : Tries) :
    Longest sc.encode (str "L\"\\xffffffff\"") (str "L\"\\xffffffff\"") ∧
    ∃ c', ppNext sc t (atText (str "L\"\\xffffffff\"")) = some (.error .lexerError, c') := by
  have ht : (atText (str "L\"\\xffffffff\"")).text = str "L\"\\xffffffff\"" := by decide
  have hesc : Escape (str "\\xffffffff") [] (.code 0xffffffff) := by
    have : positional 16 (str "ffffffff") = 0xffffffff := by decide
    rw [← this]
    exact .hexadecimal (str "ffffffff") [] (by decide) (by decide) (by intro x r h; cases h)
  constructor
  · refine ⟨⟨List.prefix_rfl, _, .string (m := .wide) (.escape hesc .nil)
      (.cons (b := littleEndian 4 0xffffffff) (by simp [elemBytes, unitSize]) .nil)⟩, ?_⟩
    rintro s hs -
    exact hs.length_le
  · generalize hc : atText (str "L\"\\xffffffff\"") = c at ht ⊢
    have h0 : 0 ∉ c.text := by rw [ht]; decide
    obtain ⟨hb, hu⟩ := no_blank_cons (x := ch 'L') (r := str "\"\\xffffffff\"") (by decide) (by decide)
    have hat : c.at 0 = ch 'L' := at_cons ht
    have hat1 : c.at 1 = ch '"' := at_cons1 ht
    have ht2 : (c.adv 2).text = str "\\xffffffff" ++ ([] ++ ch '"' :: []) := by
      rw [Cursor.text_adv, ht]; rfl
    have hs := escape_step hesc dquote_digit ht2 (by intro v h; injection h with h; omega)
    have hl : literalLoop sc .wide [] (c.adv 2) = some (.ok (.error .lexerError, []), (c.adv 2).adv 10) := by
      rw [literalLoop, peek_bind, at_cons (x := ch '\\') (by rw [ht2]; rfl), if_neg (by decide), if_neg (by decide),
        if_neg (by decide), if_pos rfl, peek_bind, attempt_bind hs]
      have : (c.adv 2).at 1 = ch 'x' := at_cons1 (by rw [ht2]; rfl)
      simp only [this]
      rw [if_pos (Or.inl trivial)]
      rfl
    have hm := matchString_zero (str "L\"") (by decide) c
    have hp : (str "L\"").isPrefixOf c.text = true := by rw [ht]; decide
    rw [hp] at hm
    have hn : nextLiteral sc .wide (str "L\"") [] c =
        some (.ok (.error .lexerError, []), (c.adv 2).adv 10) := by
      rw [nextLiteral, bind_some hm, if_pos rfl, attempt_bind (skip_ok (by rw [ht]; decide))]
      exact hl
    have hpre : prefixedString sc (str "L\"") .wide false c =
        some (.error .lexerError, (c.adv 2).adv 10) := by
      have : literalSequence sc .wide (str "L\"") [] false c =
          some (.ok (.error .lexerError, []), (c.adv 2).adv 10) := by
        rw [literalSequence, bind_some hn]
        rfl
      rw [prefixedString, bind_some hm, if_pos rfl, bind_some this]
      rfl
    have hstr : matchStringLiteral sc false c = some (.error .lexerError, (c.adv 2).adv 10) := by
      have hpx : str "L\"" <+: c.text := by rw [ht]; decide
      have : scanString sc false c = some (.error .lexerError, (c.adv 2).adv 10) := by
        unfold scanString
        rw [orElse_noMatch (narrow_string_none (by rw [hat]; decide)),
          orElse_noMatch (prefixed_string_none (by decide) (not_prefix hpx (by decide) (by decide))),
          orElse_noMatch (prefixed_string_none (by decide) (not_prefix hpx (by decide) (by decide))),
          orElse_noMatch (prefixed_string_none (by decide) (not_prefix hpx (by decide) (by decide)))]
        unfold orElse
        rw [hpre]
      unfold matchStringLiteral apply
      rw [this]
    refine ppNext_of_error (whitespace_none h0 (by rw [ht]; exact hb) (by rw [ht]; exact hu)) ?_
      (c' := (c.adv 2).adv 10)
    rw [ppToken, peek_bind, if_neg (by rw [hat]; decide),
      orElse_noMatch (char_none (by rw [hat]; decide)
        (fun p _ h => absurd (hat1.symm.trans h.2) (by decide))),
      orElse_noMatch (number_none (by rw [hat]; decide)
        (fun h => absurd (hat.symm.trans h.1) (by decide)))]
    unfold orElse
    rw [hstr]

/-- C78 is false of a number that a character constant cannot hold (6.4.4.4p9, a constraint):
`u'\x12345'` is read as if it were `u'\x2345'`. -/
theorem C78_out_of_range_false (sc : StrCodec) (t : Tries) :
    ¬ WideValue 2 [.code 0x12345] 0x2345 ∧
    ∃ c', ppNext sc t (atText (str "u'\\x12345'")) = some (.ok ⟨.unicode16Char 0x2345, 1, 1⟩, c') := by
  have ht : (atText (str "u'\\x12345'")).text = str "u'\\x12345'" := by decide
  have hesc : Escape (str "\\x12345") [] (.code 0x12345) := by
    have : positional 16 (str "12345") = 0x12345 := by decide
    rw [← this]
    exact .hexadecimal (str "12345") [] (by decide) (by decide) (by intro x r h; cases h)
  refine ⟨fun h => absurd (h.1 0x12345 (by simp)) (by decide), ?_⟩
  generalize hc : atText (str "u'\\x12345'") = c at ht ⊢
  have h0 : 0 ∉ c.text := by rw [ht]; decide
  obtain ⟨hb, hu⟩ := no_blank_cons (x := ch 'u') (r := str "'\\x12345'") (by decide) (by decide)
  obtain ⟨w, e, hw⟩ := char_16 (cd := sc.cd) (.escape hesc .nil) (by simp)
    (by intro x hx; simp at hx; omega) (c := c) (rest := []) (by rw [ht]; rfl)
  rw [hw _ rfl] at e
  have hloc : c.line = 1 ∧ c.col = 1 := by rw [← hc]; exact ⟨rfl, rfl⟩
  refine ⟨c.adv 10, Eq.trans (ppNext_of_token (τ := .unicode16Char 0x2345)
    (whitespace_none h0 (by rw [ht]; exact hb) (by rw [ht]; exact hu)) ?_)
    (by rw [hloc.1, hloc.2])⟩
  rw [ppToken, peek_bind, if_neg (by rw [at_cons ht]; decide), orElse_ok e]
  rfl

/-! ## Examples -/

/-- The codec of the "C" locale. -/
def asciiStrings : StrCodec where
  cd := ascii
  enc16 c := if c < 128 then some (leBytes 2 c) else none
  encWide c := if c < 128 then some (leBytes 4 c) else none

theorem asciiStrings_good : GoodCodec asciiStrings where
  ascii := by
    intro m c hc
    have key : ∀ c : Fin 128, asciiStrings.cd.enc c.val = some (littleEndian 1 c.val) := by decide +kernel
    cases m with
    | multibyte => exact key ⟨c, hc⟩
    | unicode8 => exact key ⟨c, hc⟩
    | unicode16 => simp [StrCodec.encode, asciiStrings, unitSize, littleEndian_two, hc]
    | unicode32 => simp [StrCodec.encode, unitSize, littleEndian_four]
    | wide => simp [StrCodec.encode, asciiStrings, unitSize, littleEndian_four, hc]
  noZero := by
    intro c bs hc h
    change (if c < 128 then some [UInt8.ofNat c] else none) = some bs at h
    split at h
    · rename_i hlt
      injection h with h
      subst h
      intro h0
      have h0 := congrArg UInt8.toNat (List.mem_singleton.1 h0)
      have : c % 256 = 0 := by simpa using h0.symm
      have h3 : ∀ x : Nat, x < 128 → x ≠ 0 → ¬ x % 256 = 0 := by omega
      exact h3 c hlt hc this
    · cases h

/-- Non-vacuity of `C78_longest_partial`: `+=` is read of `+=1`. -/
example (t : Tries) (htr : PunctTrie t) : ∃ τ, Spelled asciiStrings.encode (str "+=") τ ∧
    ppNext asciiStrings t (atText (str "+=1")) =
      some (.ok ⟨τ, 1, 1⟩, (atText (str "+=1")).adv 2) := by
  have ht : (atText (str "+=1")).text = str "+=1" := by decide
  have h3 : ∀ τ, ¬ Spelled asciiStrings.encode (str "+=1") τ := by
    intro τ hsp
    rcases spelled_first hsp with h | ⟨a, r, v, h, hu⟩ | h | ⟨h, -⟩ | ⟨o, ho, h⟩ | ⟨p, h⟩
    · exact absurd h (by decide)
    · exact absurd (ucn_two h hu).1 (by decide)
    · exact absurd h (by decide)
    · exact absurd h (by decide)
    · have : ∀ o ∈ openings, ¬ o <+: str "+=1" := by decide
      exact absurd h (this o ho)
    · have : ∀ p : Punct, p.spelling ≠ str "+=1" := by intro p; cases p <;> decide
      exact absurd h (this p)
  obtain ⟨hb, hu⟩ := no_blank_cons (x := ch '+') (r := str "=1") (by decide) (by decide)
  have hl : Longest asciiStrings.encode (str "+=1") (str "+=") := by
    refine ⟨⟨by decide, _, .punctuator .assignAdd⟩, ?_⟩
    rintro s hs ⟨τ, hsp⟩
    have hle : s.length ≤ 3 := hs.length_le
    rcases Nat.lt_or_ge s.length 3 with h | h
    · exact Nat.le_of_lt_succ h
    · have := hs.eq_of_length (Nat.le_antisymm hle h)
      subst this
      exact absurd hsp (h3 τ)
  have hq : ¬ StrayQuote asciiStrings.encode (str "+=1") := by
    rintro ⟨o, ho, h, -⟩
    have : ∀ o ∈ openings, ¬ o <+: str "+=1" := by decide
    exact this o ho h
  refine C78_longest_partial asciiStrings asciiStrings_good t htr (atText (str "+=1")) (by rw [ht]; decide)
    (by rw [ht]; exact hb) (by rw [ht]; exact hu) (str "+=") (by rw [ht]; exact hl)
    (by rw [ht]; exact hq) (by rw [ht]; decide) (by rw [ht]; decide) (fun _ => by decide) ?_
  intro b es h
  injection h with h _
  exact absurd h (by decide)

/-- Non-vacuity of `C78_whitespace`: a comment and the newline after a blank. -/
example : Blank (str "// c\n x") (str " x") ∧ NewlineAt (str "// c\n x") (str " x") :=
  ⟨.line (str " c") (str " x") (by decide), .comment (str " c") (str " x") (by decide)⟩

end Kefir.PpToken
