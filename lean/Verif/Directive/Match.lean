import Verif.Directive.Define
/-!
# Lemmas about the directive scanner: header names, directive names, blanks before tokens
-/

namespace Kefir.Directive

open Kefir.Lexer Kefir.PpToken

variable {sc : StrCodec} {t : Tries}

/-! ## Header names -/

theorem headerLoop_eq {term : Chr} (hterm : term ≠ ch '\n') {s r : List Chr} {es : List Elem} {bs : List UInt8}
    (hes : es = s.map .chr) (hb : Bytes sc.encode .multibyte es bs) {c : Cursor}
    (ht : c.text = s ++ term :: r) (hc : ∀ x ∈ s, x ≠ ch '\n' ∧ x ≠ term) (acc : List UInt8) :
    headerLoop sc.cd term acc c = some (.ok (acc ++ bs), c.adv s.length) := by
  induction hb generalizing s c acc with
  | nil =>
    cases s with
    | cons _ _ => cases hes
    | nil =>
      rw [headerLoop, peek_bind, at_cons (x := term) (r := r) (by rw [ht]; rfl), if_neg hterm,
        if_neg (by simp), List.append_nil, List.length_nil, Cursor.adv_zero]
      rfl
  | @cons e es b bs he _ ih =>
    cases s with
    | nil => cases hes
    | cons x s =>
      injection hes with h1 h2
      subst h1
      have hx := hc x List.mem_cons_self
      have henc : sc.cd.enc x = some b := he
      rw [headerLoop, peek_bind, at_cons (x := x) (r := s ++ term :: r) (by rw [ht]; rfl), if_neg hx.1,
        if_pos hx.2, skip_bind (by rw [ht]; simp), henc]
      simp only []
      rw [ih h2 (by rw [Cursor.text_adv, ht]; rfl) (fun y hy => hc y (List.mem_cons_of_mem _ hy)),
        Cursor.adv_adv, List.append_assoc, List.length_cons, Nat.add_comm]

theorem matchHeaderName_eq {sys : Bool} {s r : List Chr} {bs : List UInt8} {c : Cursor}
    (ht : c.text = ch (if sys then '<' else '"') :: (s ++ ch (if sys then '>' else '"') :: r))
    (hc : ∀ x ∈ s, x ≠ ch '\n' ∧ x ≠ ch (if sys then '>' else '"')) (hb : Encoded sc.encode s bs) :
    matchHeaderName sc.cd c = some (.ok (.ppHeader sys bs), c.adv (s.length + 2)) := by
  apply apply_ok
  have h1 : (c.adv 1).text = s ++ ch (if sys then '>' else '"') :: r := by rw [Cursor.text_adv, ht]; rfl
  have h2 : ((c.adv 1).adv s.length).text = ch (if sys then '>' else '"') :: r := by
    rw [Cursor.text_adv, h1, List.drop_left]
  rw [scanHeaderName, peek_bind, at_cons ht]
  have hlen : 1 ≤ c.text.length := by rw [ht]; simp
  have hlen2 : 1 ≤ ((c.adv 1).adv s.length).text.length := by rw [h2]; simp
  have hadv : ((c.adv 1).adv s.length).adv 1 = c.adv (s.length + 2) := by
    rw [Cursor.adv_adv, Cursor.adv_adv]
    congr 1
    omega
  cases sys with
  | true =>
    rw [if_pos (c := ch (if true = true then '<' else '"') = ch '<') rfl, skip_bind hlen,
      bind_some (headerLoop_eq (term := ch '>') (by decide) rfl hb h1 hc []), skip_bind hlen2, hadv]
    rfl
  | false =>
    rw [if_neg (by decide), if_pos (c := ch (if false = true then '<' else '"') = ch '"') rfl, skip_bind hlen,
      bind_some (headerLoop_eq (term := ch '"') (by decide) rfl hb h1 hc []), skip_bind hlen2, hadv]
    rfl

theorem matchHeaderName_none {c : Cursor} {x : Chr} {r : List Chr} (ht : c.text = x :: r)
    (hx : x ∉ str "<\"") : matchHeaderName sc.cd c = some (.error .noMatch, c) := by
  have h1 : x ≠ ch '<' := by rintro rfl; exact hx (by decide)
  have h2 : x ≠ ch '"' := by rintro rfl; exact hx (by decide)
  have : scanHeaderName sc.cd c = some (.error .noMatch, c) := by
    rw [scanHeaderName, peek_bind, at_cons ht, if_neg h1, if_neg h2]
    rfl
  unfold matchHeaderName apply
  rw [this]

/-! ## Directive names -/

theorem readName_eq (n : Nat) (acc : List Chr) (c : Cursor) :
    readName n acc c = some (.ok (acc ++ (leadingLetters c.text).take n),
      c.adv ((leadingLetters c.text).take n).length) := by
  induction n generalizing acc c with
  | zero => simp [readName, pure_apply, Cursor.adv_zero]
  | succ n ih =>
    rw [readName, peek_bind]
    cases hc : c.text with
    | nil =>
      have : c.at 0 = 0 := by rw [at_zero, hc]; rfl
      rw [this, if_neg (by decide)]
      simp [leadingLetters, pure_apply, Cursor.adv_zero]
    | cons x r =>
      rw [at_cons hc]
      have ht : (c.adv 1).text = r := by rw [Cursor.text_adv, hc]; rfl
      by_cases hx : isnondigit x = true
      · rw [if_pos hx, skip_bind (by rw [hc]; simp), ih, ht]
        have : leadingLetters (x :: r) = x :: leadingLetters r := by
          unfold leadingLetters
          rw [List.takeWhile_cons_of_pos (by rw [decide_eq_true_eq]; exact (isnondigit_iff x).1 hx)]
        rw [this, List.take_succ_cons, List.append_assoc, Cursor.adv_adv, List.length_cons, Nat.add_comm]
        rfl
      · rw [if_neg hx]
        have : leadingLetters (x :: r) = [] := by
          unfold leadingLetters
          rw [List.takeWhile_cons_of_neg]
          rw [decide_eq_true_eq]
          exact fun h => hx ((isnondigit_iff x).2 h)
        rw [this]
        simp [pure_apply, Cursor.adv_zero]

theorem leadingLetters_append {s r : List Chr} (hs : ∀ x ∈ s, IsNondigit x)
    (hr : ∀ x r', r = x :: r' → ¬ IsNondigit x) : leadingLetters (s ++ r) = s := by
  unfold leadingLetters
  induction s with
  | nil =>
    cases r with
    | nil => rfl
    | cons x r' => rw [List.nil_append, List.takeWhile_cons_of_neg (by simpa using hr x r' rfl)]
  | cons x s ih =>
    rw [List.cons_append, List.takeWhile_cons_of_pos (by simpa using hs x List.mem_cons_self),
      ih fun y hy => hs y (List.mem_cons_of_mem _ hy)]

/-! ## Lines that begin with `#` -/

theorem OnlyBlanks.refl (c : Cursor) : OnlyBlanks c c := ⟨[], by simp, rfl, by rw [List.length_nil, Cursor.adv_zero]⟩

theorem not_blank_hash : ¬ IsBlank (ch '#') := fun h => absurd h.1 (by decide)

theorem first_not_blank {s : List Chr} {x : Chr} {r : List Chr} (h : s = x :: r) (hx : ¬ IsBlank x) :
    ∀ y r', s = y :: r' → ¬ IsBlank y := by
  rintro y r' hy
  rw [h] at hy
  injection hy with hy _
  exact hy ▸ hx

/-- The part of `match` after the `#`. -/
theorem matchDirective_hash {c ch : Cursor} {r : List Chr} (hb : OnlyBlanks c ch)
    (hh : ch.text = Lexer.ch '#' :: r) :
    matchDirective c = (do
      skipBlanks
      let chr ← peek 0
      if chr = Lexer.ch '\n' then pure (.empty, true)
      else do
        let name ← readName 63 []
        match knownDirectives.find? (fun e => e.1 = name) with
        | some e => pure (e.2, false)
        | none => do
          restore ch
          pure (.non, false) : Lex (Kind × Bool)) (ch.adv 1) := by
  rw [matchDirective, save_bind, bind_some (skipBlanks_only hb (first_not_blank hh not_blank_hash)), peek_bind,
    at_cons hh, if_neg (by decide), if_neg (by simp), save_bind, skip_bind (by rw [hh]; simp)]
  rfl

theorem matchDirective_known {c ch c1 c2 : Cursor} {r r' : List Chr} (hb : OnlyBlanks c ch)
    (hh : ch.text = Lexer.ch '#' :: r) (hb2 : OnlyBlanks (ch.adv 1) c1) {name : List Chr} {k : Kind}
    (hk : (name, k) ∈ knownDirectives) (ht : c1.text = name ++ r') (h2 : c2 = c1.adv name.length)
    (hr : ∀ x r'', r' = x :: r'' → ¬ IsNondigit x) :
    matchDirective c = some (.ok (k, false), c2) := by
  have facts : ∀ e ∈ knownDirectives, (∃ x s, e.1 = x :: s ∧ ¬ IsBlank x ∧ x ≠ Lexer.ch '\n') ∧
      (∀ x ∈ e.1, IsNondigit x) ∧ e.1.length ≤ 63 ∧ knownDirectives.find? (fun e' => e'.1 = e.1) = some e := by
    simp only [knownDirectives, List.forall_mem_cons, List.not_mem_nil, false_implies, implies_true, and_true]
    refine ⟨?_, ?_, ?_, ?_, ?_, ?_, ?_, ?_, ?_, ?_, ?_⟩ <;>
      exact ⟨⟨_, _, rfl, fun h => absurd h.1 (by decide), by decide⟩, by decide, by decide, by decide⟩
  obtain ⟨⟨x, s, hx, hxb, hxn⟩, hnd, hlen, hfind⟩ := facts _ hk
  simp only at hx hnd hlen hfind
  have htx : c1.text = x :: (s ++ r') := by rw [ht, hx]; rfl
  rw [matchDirective_hash hb hh, bind_some (skipBlanks_only hb2 (first_not_blank htx hxb)), peek_bind,
    at_cons htx, if_neg hxn, bind_some (readName_eq 63 [] c1), ht, leadingLetters_append hnd hr,
    List.take_of_length_le hlen, List.nil_append, hfind, h2]
  rfl

theorem matchDirective_empty {c ch c1 : Cursor} {r r' : List Chr} (hb : OnlyBlanks c ch)
    (hh : ch.text = Lexer.ch '#' :: r) (hb2 : OnlyBlanks (ch.adv 1) c1) (ht : c1.text = Lexer.ch '\n' :: r') :
    matchDirective c = some (.ok (.empty, true), c1) := by
  rw [matchDirective_hash hb hh, bind_some (skipBlanks_only hb2 (first_not_blank ht fun h => h.2 rfl)),
    peek_bind, at_cons ht, if_pos rfl]
  rfl

theorem matchDirective_unknown {c ch c1 : Cursor} {x : Chr} {r r' : List Chr} (hb : OnlyBlanks c ch)
    (hh : ch.text = Lexer.ch '#' :: r) (hb2 : OnlyBlanks (ch.adv 1) c1) (ht : c1.text = x :: r')
    (hx : x ∉ whitespaceChars) (hn : ∀ e ∈ knownDirectives, leadingLetters c1.text ≠ e.1) :
    matchDirective c = some (.ok (.non, false), ch) := by
  have hxn : x ≠ Lexer.ch '\n' := by rintro rfl; exact hx (by decide)
  rw [matchDirective_hash hb hh, bind_some (skipBlanks_only hb2 (first_not_blank ht fun h => hx h.1)),
    peek_bind, at_cons ht, if_neg hxn, bind_some (readName_eq 63 [] c1), List.nil_append]
  have hfind : knownDirectives.find? (fun e => e.1 = (leadingLetters c1.text).take 63) = none := by
    rw [List.find?_eq_none]
    intro e he
    rw [decide_eq_true_eq]
    intro h
    have h2 : e.1.length < 63 := by
      clear h
      revert e
      decide
    rcases Nat.le_total (leadingLetters c1.text).length 63 with hl | hl
    · rw [List.take_of_length_le hl] at h
      exact hn e he h.symm
    · rw [h, List.length_take] at h2
      omega
  rw [hfind]
  rfl

theorem matchDirective_non {c ch c1 : Cursor} {x : Chr} {r r' : List Chr} (hb : OnlyBlanks c ch)
    (hh : ch.text = Lexer.ch '#' :: r) (hb2 : OnlyBlanks (ch.adv 1) c1) (ht : c1.text = x :: r')
    (hx : x ∉ whitespaceChars) (hn : ∀ name ∈ directiveNames, leadingLetters c1.text ≠ str name) :
    matchDirective c = some (.ok (.non, false), ch) := by
  refine matchDirective_unknown hb hh hb2 ht hx fun e he => ?_
  have hname : ∃ name ∈ directiveNames, e.1 = str name := by
    revert e
    decide
  obtain ⟨name, hm, h⟩ := hname
  rw [h]
  exact hn name hm

theorem matchDirective_text {c : Cursor} {x : Chr} (h : FirstChar c.text x) (h1 : x ≠ ch '#') (h2 : x ≠ 0) :
    matchDirective c = some (.ok (.ppToken, true), c) := by
  obtain ⟨bl, r, hb, ht, hx⟩ := h
  have htx : (c.adv bl.length).text = x :: r := by rw [Cursor.text_adv, ht, List.drop_left]
  rw [matchDirective, save_bind,
    bind_some (skipBlanks_eq hb ht (first_not_blank rfl hx)), peek_bind, at_cons htx, if_neg h2, if_pos h1,
    restore_bind]
  rfl

theorem matchDirective_end {c : Cursor} (h : c.text = []) :
    matchDirective c = some (.ok (.sentinel, true), c) := by
  have : c.at 0 = 0 := by rw [at_zero, h]; rfl
  rw [matchDirective, save_bind, bind_some (skipBlanks_stop (by rw [this]; exact fun h => absurd h.1 (by decide))),
    peek_bind, this, if_pos rfl]
  rfl

/-! ## Blanks before the tokens of a line -/

/-- A phase of the whitespace matcher moves the cursor in the same way whatever was matched before, and
adds to it. -/
def Adds (f : WsMatch → Lex WsMatch) : Prop :=
  ∀ m c, f m c = (do let m' ← f .noMatch; pure (m.max m')) c

/-- A phase that matches nothing leaves the cursor where it is. -/
def Stays (f : WsMatch → Lex WsMatch) : Prop :=
  ∀ c c', f .noMatch c = some (.ok .noMatch, c') → c' = c

theorem max_noMatch (m : WsMatch) : WsMatch.noMatch.max m = m := by cases m <;> rfl

theorem max_assoc (a b c : WsMatch) : (a.max b).max c = a.max (b.max c) := by
  cases a <;> cases b <;> cases c <;> rfl

theorem max_eq_noMatch {a b : WsMatch} (h : a.max b = .noMatch) : a = .noMatch ∧ b = .noMatch := by
  cases a <;> cases b <;> first | exact ⟨rfl, rfl⟩ | cases h

theorem skipMultilineComment_adds : Adds skipMultilineComment := by
  intro m c
  have hm : m.max .noMatch = m := by cases m <;> rfl
  simp only [skipMultilineComment, bind_apply, peek]
  by_cases h : c.at 0 = ch '/' ∧ c.at 1 = ch '*'
  · simp only [if_pos h, bind_apply]
    cases h1 : skip 2 c with
    | none => rfl
    | some x =>
      obtain ⟨x | x, c1⟩ := x
      · rfl
      · simp only []
        cases h2 : blockCommentLoop c1 with
        | none => rfl
        | some x =>
          obtain ⟨x | x, c2⟩ := x
          · rfl
          · simp only [peek]
            by_cases hc : c2.at 0 = ch '*' ∧ c2.at 1 = ch '/'
            · simp only [if_pos hc, bind_apply]
              cases h3 : skip 2 c2 with
              | none => rfl
              | some x => obtain ⟨x | x, c3⟩ := x <;> rfl
            · simp only [if_neg hc]
              rfl
  · simp only [if_neg h, pure_apply, hm]

theorem skipOnelineComment_adds : Adds skipOnelineComment := by
  intro m c
  have hm : m.max .noMatch = m := by cases m <;> rfl
  simp only [skipOnelineComment, bind_apply, peek]
  by_cases h : c.at 0 = ch '/' ∧ c.at 1 = ch '/'
  · simp only [if_pos h, bind_apply]
    cases h1 : skip 2 c with
    | none => rfl
    | some x =>
      obtain ⟨x | x, c1⟩ := x
      · rfl
      · simp only []
        cases h2 : lineCommentLoop c1 with
        | none => rfl
        | some x =>
          obtain ⟨x | x, c2⟩ := x
          · rfl
          · simp only [peek]
            by_cases hc : c2.at 0 = ch '\n'
            · simp only [if_pos hc, bind_apply]
              cases h3 : skip 1 c2 with
              | none => rfl
              | some x => obtain ⟨x | x, c3⟩ := x <;> cases m <;> rfl
            · simp only [if_neg hc]
              rfl
  · simp only [if_neg h, pure_apply, hm]

theorem skipMultilineComment_stays : Stays skipMultilineComment := by
  intro c c' h
  simp only [skipMultilineComment, bind_apply, peek] at h
  by_cases hc : c.at 0 = ch '/' ∧ c.at 1 = ch '*'
  · simp only [if_pos hc, bind_apply] at h
    cases h1 : skip 2 c with
    | none => rw [h1] at h; cases h
    | some x =>
      obtain ⟨x | x, c1⟩ := x
      · rw [h1] at h; cases h
      · rw [h1] at h
        simp only [] at h
        cases h2 : blockCommentLoop c1 with
        | none => rw [h2] at h; cases h
        | some x =>
          obtain ⟨x | x, c2⟩ := x
          · rw [h2] at h; cases h
          · rw [h2] at h
            simp only [peek] at h
            by_cases hc : c2.at 0 = ch '*' ∧ c2.at 1 = ch '/'
            · simp only [if_pos hc, bind_apply] at h
              cases h3 : skip 2 c2 with
              | none => rw [h3] at h; cases h
              | some x => obtain ⟨x | x, c3⟩ := x <;> rw [h3] at h <;> cases h
            · simp only [if_neg hc] at h
              cases h
  · simp only [if_neg hc, pure_apply] at h
    cases h
    rfl

theorem skipOnelineComment_stays : Stays skipOnelineComment := by
  intro c c' h
  simp only [skipOnelineComment, bind_apply, peek] at h
  by_cases hc : c.at 0 = ch '/' ∧ c.at 1 = ch '/'
  · simp only [if_pos hc, bind_apply] at h
    cases h1 : skip 2 c with
    | none => rw [h1] at h; cases h
    | some x =>
      obtain ⟨x | x, c1⟩ := x
      · rw [h1] at h; cases h
      · rw [h1] at h
        simp only [] at h
        cases h2 : lineCommentLoop c1 with
        | none => rw [h2] at h; cases h
        | some x =>
          obtain ⟨x | x, c2⟩ := x
          · rw [h2] at h; cases h
          · rw [h2] at h
            simp only [peek] at h
            by_cases hc : c2.at 0 = ch '\n'
            · simp only [if_pos hc, bind_apply] at h
              cases h3 : skip 1 c2 with
              | none => rw [h3] at h; cases h
              | some x => obtain ⟨x | x, c3⟩ := x <;> rw [h3] at h <;> cases h
            · simp only [if_neg hc] at h
              cases h
  · simp only [if_neg hc, pure_apply] at h
    cases h
    rfl

/-- The comments after the whitespace character. -/
def comments (m : WsMatch) : Lex WsMatch := do
  let m ← skipMultilineComment m
  skipOnelineComment m

theorem comments_adds : Adds comments := by
  intro m c
  simp only [comments, bind_apply]
  rw [skipMultilineComment_adds m]
  simp only [bind_apply]
  cases h1 : skipMultilineComment .noMatch c with
  | none => rfl
  | some x =>
    obtain ⟨x | m1, c1⟩ := x
    · rfl
    · simp only [pure_apply]
      rw [skipOnelineComment_adds (m.max m1), skipOnelineComment_adds m1]
      simp only [bind_apply]
      cases h2 : skipOnelineComment .noMatch c1 with
      | none => rfl
      | some x =>
        obtain ⟨x | m2, c2⟩ := x
        · rfl
        · simp only [pure_apply, max_assoc]

theorem comments_stays : Stays comments := by
  intro c c' h
  simp only [comments, bind_apply] at h
  cases h1 : skipMultilineComment .noMatch c with
  | none => rw [h1] at h; cases h
  | some x =>
    obtain ⟨x | m1, c1⟩ := x
    · rw [h1] at h; cases h
    · rw [h1] at h
      simp only [] at h
      rw [skipOnelineComment_adds m1] at h
      simp only [bind_apply] at h
      cases h2 : skipOnelineComment .noMatch c1 with
      | none => rw [h2] at h; cases h
      | some x =>
        obtain ⟨x | m2, c2⟩ := x
        · rw [h2] at h; cases h
        · rw [h2] at h
          simp only [pure_apply, Option.some.injEq, Prod.mk.injEq, Except.ok.injEq] at h
          obtain ⟨h3, h4⟩ := h
          obtain ⟨rfl, rfl⟩ := max_eq_noMatch h3
          rw [← h4, skipOnelineComment_stays _ _ h2, skipMultilineComment_stays _ _ h1]

/-- A blank and what follows it in one round. -/
theorem round_blank {c : Cursor} {x : Chr} {r : List Chr} (ht : c.text = x :: r) (hx : IsBlank x)
    {m : WsMatch} {c' : Cursor} (h : whitespaceRound c = some (.ok m, c')) :
    (m = .blank ∧ c' = c.adv 1) ∨
    (∃ m', m' ≠ .noMatch ∧ m = WsMatch.blank.max m' ∧ whitespaceRound (c.adv 1) = some (.ok m', c')) := by
  have hx' := (blank_iff x).2 hx
  have h1 : Lexer.skipWhitespaces .noMatch c = some (.ok .blank, c.adv 1) := by
    rw [Lexer.skipWhitespaces, peek_bind, at_cons ht, if_pos hx'.1]
    simp only [if_neg hx'.2]
    rw [skip_bind (by rw [ht]; simp)]
    rfl
  have h2 : comments .blank (c.adv 1) = some (.ok m, c') := by
    rw [whitespaceRound, bind_some h1] at h
    exact h
  rw [comments_adds] at h2
  simp only [bind_apply] at h2
  cases h3 : comments .noMatch (c.adv 1) with
  | none => rw [h3] at h2; cases h2
  | some y =>
    obtain ⟨y | m', c2⟩ := y
    · rw [h3] at h2; cases h2
    · rw [h3] at h2
      simp only [pure_apply, Option.some.injEq, Prod.mk.injEq, Except.ok.injEq] at h2
      obtain ⟨h4, rfl⟩ := h2
      by_cases hm : m' = .noMatch
      · subst hm
        exact Or.inl ⟨h4.symm, comments_stays _ _ h3⟩
      · right
        refine ⟨m', hm, h4.symm, ?_⟩
        cases hs : isspace ((c.adv 1).at 0) with
        | false =>
          have : Lexer.skipWhitespaces .noMatch (c.adv 1) = some (.ok .noMatch, c.adv 1) := by
            rw [Lexer.skipWhitespaces, peek_bind, hs]
            rfl
          rw [whitespaceRound, bind_some this]
          exact h3
        | true =>
          -- no comment begins with a whitespace character
          exfalso
          have hne : ∀ y, ¬ ((c.adv 1).at 0 = ch '/' ∧ (c.adv 1).at 1 = y) := by
            rintro y ⟨h, -⟩
            rw [h] at hs
            exact absurd hs (by decide)
          simp only [comments, skipMultilineComment, skipOnelineComment, bind_apply, peek, if_neg (hne _),
            pure_apply, Option.some.injEq, Prod.mk.injEq, Except.ok.injEq] at h3
          exact hm h3.1.symm

/-- The result is not NO_MATCH. -/
def Hard {α : Type} (x : Lex α) (c : Cursor) : Prop := ∀ c', x c ≠ some (.error .noMatch, c')

theorem Hard.bind {α β : Type} {x : Lex α} {f : α → Lex β} {c : Cursor} (hx : Hard x c)
    (hf : ∀ a c', Hard (f a) c') : Hard (x >>= f) c := by
  intro c' h
  rw [bind_apply] at h
  cases h1 : x c with
  | none => rw [h1] at h; cases h
  | some y =>
    obtain ⟨e | a, c1⟩ := y
    · rw [h1] at h
      simp only [Option.some.injEq, Prod.mk.injEq, Except.error.injEq] at h
      exact hx c1 (by rw [h1, h.1])
    · rw [h1] at h
      exact hf a c1 c' h

theorem Hard.pure {α : Type} (a : α) (c : Cursor) : Hard (Pure.pure a : Lex α) c := by
  intro c' h
  cases h

theorem Hard.skip (k : Nat) (c : Cursor) : Hard (Lexer.skip k) c := by
  intro c' h
  simp only [Lexer.skip, nextRes, Option.some.injEq, Prod.mk.injEq] at h
  obtain ⟨h, -⟩ := h
  split at h <;> cases h

theorem Hard.peek {β : Type} (k : Nat) {f : Chr → Lex β} {c : Cursor} (h : Hard (f (c.at k)) c) :
    Hard (Lexer.peek k >>= f) c := by
  intro c' h'
  rw [peek_bind] at h'
  exact h c' h'

theorem Hard.ite {α : Type} {p : Prop} [Decidable p] {x y : Lex α} {c : Cursor} (hx : p → Hard x c)
    (hy : Hard y c) : Hard (if p then x else y) c := by
  by_cases hp : p
  · rw [if_pos hp]; exact hx hp
  · rw [if_neg hp]; exact hy

theorem hard_blockCommentLoop (c : Cursor) : Hard blockCommentLoop c := by
  generalize hn : c.text.length = n
  induction n using Nat.strongRecOn generalizing c with
  | ind n ih =>
    rw [blockCommentLoop]
    refine .peek _ (.peek _ (.ite (fun h => ?_) (.pure _ _)))
    have := at_pos h.2
    intro c' h'
    rw [skip_bind (by omega)] at h'
    exact ih (n - 1) (by omega) _ (by rw [Cursor.text_adv, List.length_drop]; omega) c' h'

theorem hard_lineCommentLoop (c : Cursor) : Hard lineCommentLoop c := by
  generalize hn : c.text.length = n
  induction n using Nat.strongRecOn generalizing c with
  | ind n ih =>
    rw [lineCommentLoop]
    refine .peek _ (.ite (fun h => ?_) (.pure _ _))
    have := at_pos h.2
    intro c' h'
    rw [skip_bind (by omega)] at h'
    exact ih (n - 1) (by omega) _ (by rw [Cursor.text_adv, List.length_drop]; omega) c' h'

theorem hard_whitespaceRound (c : Cursor) : Hard whitespaceRound c := by
  unfold whitespaceRound
  refine .bind ?_ fun m c => .bind ?_ fun m c => ?_
  · unfold Lexer.skipWhitespaces
    exact .peek _ (.ite (fun _ => .bind (.skip _ _) fun _ _ => .pure _ _) (.pure _ _))
  · unfold skipMultilineComment
    refine .peek _ (.peek _ (.ite (fun _ => ?_) (.pure _ _)))
    refine .bind (.skip _ _) fun _ c => .bind (hard_blockCommentLoop c) fun _ c => ?_
    refine .peek _ (.peek _ (.ite (fun _ => .bind (.skip _ _) fun _ _ => .pure _ _) ?_))
    intro c' h
    cases h
  · unfold skipOnelineComment
    refine .peek _ (.peek _ (.ite (fun _ => ?_) (.pure _ _)))
    refine .bind (.skip _ _) fun _ c => .bind (hard_lineCommentLoop c) fun _ c => ?_
    exact .peek _ (.ite (fun _ => .bind (.skip _ _) fun _ _ => .pure _ _) (.pure _ _))

theorem matchWhitespace_round {c c' : Cursor} {m : WsMatch} (h : whitespaceRound c = some (.ok m, c'))
    (hm : m ≠ .noMatch) : matchWhitespace c = some (.ok (.ppWhitespace (m = .newline)), c') := by
  rw [matchWhitespace, bind_some h, if_neg hm]
  rfl

theorem next_round {c c' : Cursor} {m : WsMatch} (h : whitespaceRound c = some (.ok m, c'))
    (hm : m ≠ .noMatch) : Next sc t c (.ppWhitespace (m = .newline)) c' := by
  refine ⟨c.line, c.col, apply_ok ?_⟩
  have := matchWhitespace_round h hm
  rw [ppNextImpl, location_bind, bind_some (orElse_ok this)]
  rfl

theorem round_next {c c' : Cursor} {τ : Token} {x : Chr} {r : List Chr} (ht : c.text = x :: r) (hx : IsBlank x)
    (h : Next sc t c τ c') :
    ∃ m, m ≠ .noMatch ∧ τ = .ppWhitespace (m = .newline) ∧ whitespaceRound c = some (.ok m, c') := by
  obtain ⟨i, j, h⟩ := h
  unfold ppNext apply at h
  rw [ppNextImpl, location_bind] at h
  have hx' := (blank_iff x).2 hx
  have h1 : Lexer.skipWhitespaces .noMatch c = some (.ok .blank, c.adv 1) := by
    rw [Lexer.skipWhitespaces, peek_bind, at_cons ht, if_pos hx'.1]
    simp only [if_neg hx'.2]
    rw [skip_bind (by rw [ht]; simp)]
    rfl
  cases h2 : whitespaceRound c with
  | none =>
    simp only [bind_apply, orElse, matchWhitespace, h2] at h
    cases h
  | some y =>
    obtain ⟨e | m, c2⟩ := y
    · have he : e ≠ .noMatch := fun he => hard_whitespaceRound c c2 (by rw [h2, he])
      have h3 : matchWhitespace c = some (.error e, c2) := by rw [matchWhitespace, bind_err h2]
      have h4 : orElse matchWhitespace (ppToken sc t) c = some (.error e, c2) := by
        unfold orElse
        rw [h3]
        cases e <;> first | rfl | exact absurd rfl he
      rw [bind_err h4] at h
      cases e <;> first | cases h | exact absurd rfl he
    · have hm : m ≠ .noMatch := by
        have h3 : comments .blank (c.adv 1) = some (.ok m, c2) := by
          rw [whitespaceRound, bind_some h1] at h2
          exact h2
        rw [comments_adds] at h3
        simp only [bind_apply] at h3
        cases h4 : comments .noMatch (c.adv 1) with
        | none => rw [h4] at h3; cases h3
        | some y =>
          obtain ⟨y | m', c2⟩ := y
          · rw [h4] at h3; cases h3
          · rw [h4] at h3
            simp only [pure_apply, Option.some.injEq, Prod.mk.injEq, Except.ok.injEq] at h3
            rw [← h3.1]
            cases m' <;> decide
      have := matchWhitespace_round h2 hm
      rw [bind_some (orElse_ok this)] at h
      simp only [pure_apply, Option.some.injEq, Prod.mk.injEq, Except.ok.injEq, LocToken.mk.injEq] at h
      refine ⟨m, hm, h.1.1.symm, by rw [h.2]⟩

theorem blank_step {c c' : Cursor} {τ : Token} {x : Chr} {r : List Chr} (ht : c.text = x :: r) (hx : IsBlank x)
    (h : Next sc t c τ c') :
    ∃ nl, τ = .ppWhitespace nl ∧ ((nl = false ∧ c' = c.adv 1) ∨ Next sc t (c.adv 1) τ c') := by
  obtain ⟨m, hm, hτ, hr⟩ := round_next ht hx h
  refine ⟨_, hτ, ?_⟩
  rcases round_blank ht hx hr with ⟨rfl, rfl⟩ | ⟨m', hm', rfl, hr'⟩
  · exact Or.inl ⟨rfl, rfl⟩
  · right
    have := next_round (sc := sc) (t := t) hr' hm'
    rw [hτ]
    cases m' with
    | noMatch => exact absurd rfl hm'
    | blank => exact this
    | newline => exact this

theorem lineTokens_blank {c c' : Cursor} {τs : List Token} {x : Chr} {r : List Chr}
    (hl : LineTokens sc t c τs c') (ht : c.text = x :: r) (hx : IsBlank x) :
    ∃ τs', LineTokens sc t (c.adv 1) τs' c' ∧ significant τs' = significant τs := by
  cases τs with
  | nil =>
    cases hl with
    | newline hs h =>
      cases hs
      obtain ⟨nl, h1, h2⟩ := blank_step ht hx h
      rcases h2 with ⟨rfl, -⟩ | h2
      · cases h1
      · exact ⟨[], .newline (.nil _) h2, rfl⟩
    | lastLine hs h =>
      cases hs
      rw [ht] at h
      cases h
  | cons τ τs =>
    obtain ⟨c1, h, hn, he, hl'⟩ := hl.uncons
    obtain ⟨nl, h1, h2⟩ := blank_step ht hx h
    rcases h2 with ⟨rfl, rfl⟩ | h2
    · exact ⟨τs, hl', by rw [significant_cons, h1]; rfl⟩
    · exact ⟨τ :: τs, .cons hn he h2 hl', rfl⟩

/-- Blanks at the beginning of a line do not change its tokens. -/
theorem lineTokens_blanks {bl r : List Chr} (hb : ∀ x ∈ bl, IsBlank x) {c c' : Cursor} {τs : List Token}
    (hl : LineTokens sc t c τs c') (ht : c.text = bl ++ r) :
    ∃ τs', LineTokens sc t (c.adv bl.length) τs' c' ∧ significant τs' = significant τs := by
  induction bl generalizing c τs with
  | nil => exact ⟨τs, by rw [List.length_nil, Cursor.adv_zero]; exact hl, rfl⟩
  | cons x bl ih =>
    obtain ⟨τ1, h1, e1⟩ := lineTokens_blank hl ht (hb x List.mem_cons_self)
    obtain ⟨τ2, h2, e2⟩ := ih (fun y hy => hb y (List.mem_cons_of_mem _ hy)) h1
      (by rw [Cursor.text_adv, ht]; rfl)
    refine ⟨τ2, ?_, e2.trans e1⟩
    rw [Cursor.adv_adv] at h2
    rw [List.length_cons, Nat.add_comm]
    exact h2

/-- The blanks at the beginning of a text. -/
theorem split_blanks (s : List Chr) : ∃ bl r, (∀ x ∈ bl, IsBlank x) ∧ s = bl ++ r ∧
    ∀ x r', r = x :: r' → ¬ IsBlank x := by
  induction s with
  | nil => exact ⟨[], [], by simp, rfl, by simp⟩
  | cons y s ih =>
    by_cases hy : IsBlank y
    · obtain ⟨bl, r, h1, h2, h3⟩ := ih
      refine ⟨y :: bl, r, ?_, by rw [h2]; rfl, h3⟩
      intro x hx
      rcases List.mem_cons.1 hx with rfl | hx
      · exact hy
      · exact h1 x hx
    · refine ⟨[], y :: s, by simp, rfl, ?_⟩
      rintro x r' h
      injection h with h _
      exact h ▸ hy

theorem scan_after_blanks {c c' : Cursor} {τs : List Token} (hl : LineTokens sc t c τs c') :
    ∃ τs', (do skipBlanks; scanPpTokens sc t [] : Lex (List Token)) c = some (.ok τs', c') ∧
      significant τs' = significant τs := by
  obtain ⟨bl, r, hb, ht, hr⟩ := split_blanks c.text
  obtain ⟨τs', h1, h2⟩ := lineTokens_blanks hb hl ht
  refine ⟨τs', ?_, h2⟩
  rw [bind_some (skipBlanks_eq hb ht hr), scanPpTokens_line h1]
  rfl

end Kefir.Directive
