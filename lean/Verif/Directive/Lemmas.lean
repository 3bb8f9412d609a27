import Verif.Directive.Model
/-!
# Lemmas about the directive scanner: blanks, lines and token lists
-/

namespace Kefir.Directive

open Kefir.Lexer Kefir.PpToken

variable {sc : StrCodec} {t : Tries}

theorem save_bind {β : Type} (f : Cursor → Lex β) (c : Cursor) : (save >>= f) c = f c c := bind_some rfl

theorem restore_bind {β : Type} (c0 : Cursor) (f : Unit → Lex β) (c : Cursor) :
    (restore c0 >>= f) c = f () c0 := bind_some rfl

theorem nextToken_of {c c' : Cursor} {τ : Token} (h : Next sc t c τ c') :
    nextToken sc t c = some (.ok τ, c') := by
  obtain ⟨i, j, h⟩ := h
  rw [nextToken, bind_some h]
  rfl

theorem nextToken_end {c : Cursor} (h : c.text = []) : nextToken sc t c = some (.ok .sentinel, c) :=
  nextToken_of ⟨_, _, C78_end sc t c h⟩

/-! ## Blanks -/

theorem blank_iff (x : Chr) : (isspace x = true ∧ x ≠ ch '\n') ↔ IsBlank x := by
  unfold IsBlank
  rw [isspace_iff]

theorem skipBlanks_stop {c : Cursor} (h : ¬ IsBlank (c.at 0)) : skipBlanks c = some (.ok (), c) := by
  rw [skipBlanks, peek_bind, if_neg (by rw [blank_iff]; exact h)]
  rfl

theorem skipBlanks_eq {c : Cursor} {bl r : List Chr} (hb : ∀ x ∈ bl, IsBlank x) (ht : c.text = bl ++ r)
    (hr : ∀ x r', r = x :: r' → ¬ IsBlank x) : skipBlanks c = some (.ok (), c.adv bl.length) := by
  induction bl generalizing c with
  | nil =>
    rw [List.length_nil, Cursor.adv_zero]
    apply skipBlanks_stop
    rw [at_zero, ht, List.nil_append]
    cases r with
    | nil => exact fun h => absurd h.1 (by decide)
    | cons x r' => exact hr x r' rfl
  | cons x bl ih =>
    rw [skipBlanks, peek_bind, at_cons (x := x) (r := bl ++ r) (by rw [ht]; rfl),
      if_pos (by rw [blank_iff]; exact hb x List.mem_cons_self),
      skip_bind (by rw [ht]; simp),
      ih (fun y hy => hb y (List.mem_cons_of_mem _ hy)) (by rw [Cursor.text_adv, ht]; rfl),
      Cursor.adv_adv]
    rw [List.length_cons, Nat.add_comm]

theorem skipBlanks_only {c c' : Cursor} (h : OnlyBlanks c c') (hr : ∀ x r, c'.text = x :: r → ¬ IsBlank x) :
    skipBlanks c = some (.ok (), c') := by
  obtain ⟨bl, hb, ht, rfl⟩ := h
  exact skipBlanks_eq hb ht hr

/-! ## Lines -/

theorem skipLine_eq {c : Cursor} {s r : List Chr} (ht : c.text = s ++ ch '\n' :: r) (hn : ch '\n' ∉ s)
    (h0 : 0 ∉ s) : skipLine c = some (.ok (), c.adv (s.length + 1)) := by
  induction s generalizing c with
  | nil =>
    rw [skipLine, peek_bind, at_cons (x := ch '\n') (r := r) (by rw [ht]; rfl), if_neg (by decide),
      skip_bind (by rw [ht]; simp), if_neg (by simp)]
    rfl
  | cons x s ih =>
    have hx : x ≠ 0 := fun h => h0 (by rw [h]; exact List.mem_cons_self)
    have hxn : x ≠ ch '\n' := fun h => hn (by rw [h]; exact List.mem_cons_self)
    rw [skipLine, peek_bind, at_cons (x := x) (r := s ++ ch '\n' :: r) (by rw [ht]; rfl), if_neg hx,
      skip_bind (by rw [ht]; simp), if_pos hxn,
      ih (by rw [Cursor.text_adv, ht]; rfl) (fun h => hn (List.mem_cons_of_mem _ h))
        (fun h => h0 (List.mem_cons_of_mem _ h)), Cursor.adv_adv]
    rw [List.length_cons, show 1 + (s.length + 1) = s.length + 1 + 1 by omega]

theorem skipLine_last {c : Cursor} (hn : ch '\n' ∉ c.text) (h0 : 0 ∉ c.text) :
    ∃ c', skipLine c = some (.ok (), c') ∧ c'.text = [] := by
  generalize ht : c.text = s at hn h0
  induction s generalizing c with
  | nil =>
    refine ⟨c, ?_, ht⟩
    rw [skipLine, peek_bind, at_zero, ht]
    rfl
  | cons x s ih =>
    have hx : x ≠ 0 := fun h => h0 (by rw [h]; exact List.mem_cons_self)
    have hxn : x ≠ ch '\n' := fun h => hn (by rw [h]; exact List.mem_cons_self)
    rw [skipLine, peek_bind, at_cons ht, if_neg hx,
      skip_bind (by rw [ht]; simp), if_pos hxn]
    exact ih (by rw [Cursor.text_adv, ht]; rfl) (fun h => hn (List.mem_cons_of_mem _ h))
        (fun h => h0 (List.mem_cons_of_mem _ h))

/-! ## White space -/

theorem significant_nil {τs : List Token} : significant τs = [] ↔ ∀ τ ∈ τs, isWhite τ = true := by
  unfold significant
  rw [List.filter_eq_nil_iff]
  simp

theorem significant_cons (τ : Token) (τs : List Token) :
    significant (τ :: τs) = if isWhite τ = true then significant τs else τ :: significant τs := by
  unfold significant
  rw [List.filter_cons]
  cases isWhite τ <;> rfl

theorem significant_append (a b : List Token) : significant (a ++ b) = significant a ++ significant b :=
  List.filter_append ..

theorem significant_idem (τs : List Token) : significant (significant τs) = significant τs := by
  unfold significant
  rw [List.filter_filter]
  simp

theorem white_eq {τ : Token} (h : isWhite τ = true) (hn : τ ≠ .ppWhitespace true) :
    τ = .ppWhitespace false := by
  cases τ with
  | ppWhitespace nl => cases nl with
    | false => rfl
    | true => exact absurd rfl hn
  | _ => cases h

theorem Steps.append {c c1 c' : Cursor} {τs τs' : List Token} (h1 : Steps sc t c τs c1)
    (h2 : Steps sc t c1 τs' c') : Steps sc t c (τs ++ τs') c' := by
  induction h1 with
  | nil => exact h2
  | cons hn he h _ ih => exact .cons hn he h (ih h2)

theorem skipWhitespaces_steps {c c' : Cursor} {τs : List Token} (h : Steps sc t c τs c')
    (hw : significant τs = []) : skipWhitespaces sc t c = skipWhitespaces sc t c' := by
  induction h with
  | nil => rfl
  | cons hn he hx _ ih =>
    rw [significant_nil] at hw
    have := white_eq (hw _ List.mem_cons_self) hn
    subst this
    conv => lhs; rw [skipWhitespaces, bind_some (nextToken_of hx), if_neg (by simp)]
    exact ih (significant_nil.2 fun τ hτ => hw τ (List.mem_cons_of_mem _ hτ))

theorem skipWhitespaces_token {c c' : Cursor} {τ : Token} (h : Next sc t c τ c')
    (hn : τ ≠ .ppWhitespace false) : skipWhitespaces sc t c = some (.ok τ, c') := by
  rw [skipWhitespaces, bind_some (nextToken_of h), if_pos hn]
  rfl

theorem skipWhitespaces_eq {c c1 c' : Cursor} {τ : Token} {τs : List Token} (hs : Steps sc t c τs c1)
    (hw : significant τs = []) (h : Next sc t c1 τ c') (hn : τ ≠ .ppWhitespace false) :
    skipWhitespaces sc t c = some (.ok τ, c') := by
  rw [skipWhitespaces_steps hs hw, skipWhitespaces_token h hn]

/-! ## Lists of tokens -/

theorem scanPpTokens_steps {c c' : Cursor} {τs : List Token} (h : Steps sc t c τs c') (buffer : List Token) :
    scanPpTokens sc t buffer c = scanPpTokens sc t (buffer ++ τs) c' := by
  induction h generalizing buffer with
  | nil => rw [List.append_nil]
  | cons hn he hx _ ih =>
    rw [scanPpTokens, bind_some (nextToken_of hx), if_neg (by simp [he, hn]), ih, List.append_assoc]
    rfl

theorem scanPpTokens_line {c c' : Cursor} {τs : List Token} (h : LineTokens sc t c τs c')
    (buffer : List Token) : scanPpTokens sc t buffer c = some (.ok (buffer ++ τs), c') := by
  cases h with
  | newline hs h =>
    rw [scanPpTokens_steps hs, scanPpTokens, bind_some (nextToken_of h), if_pos (Or.inr rfl)]
    rfl
  | lastLine hs h =>
    rw [scanPpTokens_steps hs, scanPpTokens, bind_some (nextToken_end h), if_pos (Or.inl rfl)]
    rfl

/-- The token with which a line ends. -/
def LineEnd (sc : StrCodec) (t : Tries) (c : Cursor) (τ : Token) (c' : Cursor) : Prop :=
  Next sc t c τ c' ∧ (τ = .sentinel ∨ τ = .ppWhitespace true)

theorem LineTokens.split {c c' : Cursor} {τs : List Token} (h : LineTokens sc t c τs c') :
    ∃ c1 τ, Steps sc t c τs c1 ∧ LineEnd sc t c1 τ c' := by
  cases h with
  | newline hs h => exact ⟨_, _, hs, h, Or.inr rfl⟩
  | lastLine hs h => exact ⟨_, _, hs, ⟨_, _, C78_end sc t _ h⟩, Or.inl rfl⟩

theorem LineTokens.cons {c c1 c' : Cursor} {τ : Token} {τs : List Token} (hn : τ ≠ .ppWhitespace true)
    (he : τ ≠ .sentinel) (h : Next sc t c τ c1) (hl : LineTokens sc t c1 τs c') :
    LineTokens sc t c (τ :: τs) c' := by
  cases hl with
  | newline hs h' => exact .newline (.cons hn he h hs) h'
  | lastLine hs h' => exact .lastLine (.cons hn he h hs) h'

theorem LineTokens.uncons {c c' : Cursor} {τ : Token} {τs : List Token}
    (h : LineTokens sc t c (τ :: τs) c') :
    ∃ c1, Next sc t c τ c1 ∧ τ ≠ .ppWhitespace true ∧ τ ≠ .sentinel ∧ LineTokens sc t c1 τs c' := by
  cases h with
  | newline hs h' =>
    cases hs with
    | cons hn he h hs => exact ⟨_, h, hn, he, .newline hs h'⟩
  | lastLine hs h' =>
    cases hs with
    | cons hn he h hs => exact ⟨_, h, hn, he, .lastLine hs h'⟩

/-- A line whose tokens are read in two parts. -/
theorem Steps.split {c c' : Cursor} {a b : List Token} (h : Steps sc t c (a ++ b) c') :
    ∃ c1, Steps sc t c a c1 ∧ Steps sc t c1 b c' := by
  induction a generalizing c with
  | nil => exact ⟨c, .nil c, h⟩
  | cons τ a ih =>
    cases h with
    | cons hn he hx hs =>
      obtain ⟨c1, h1, h2⟩ := ih hs
      exact ⟨c1, .cons hn he hx h1, h2⟩

/-! ## Replacement lists -/

theorem replacementLoop_steps {c c1 c' : Cursor} {τs : List Token} {e : Token} (h : Steps sc t c τs c1)
    (he : LineEnd sc t c1 e c') {τ : Token} (h1 : τ ≠ .sentinel) (h2 : τ ≠ .ppWhitespace true)
    (buffer : List Token) :
    replacementLoop sc t buffer τ c = some (.ok (buffer ++ τ :: τs), c') := by
  induction h generalizing τ buffer with
  | nil =>
    rw [replacementLoop, if_pos ⟨h1, h2⟩, bind_some (nextToken_of he.1), replacementLoop,
      if_neg (by rcases he.2 with h | h <;> simp [h])]
    rfl
  | cons hn hne hx _ ih =>
    rw [replacementLoop, if_pos ⟨h1, h2⟩, bind_some (nextToken_of hx), ih he hne hn, List.append_assoc]
    rfl

theorem replacementLoop_end {e : Token} (he : e = .sentinel ∨ e = .ppWhitespace true) (buffer : List Token)
    (c : Cursor) : replacementLoop sc t buffer e c = some (.ok buffer, c) := by
  rw [replacementLoop, if_neg (by rcases he with h | h <;> simp [h])]
  rfl

/-- The replacement list after the token `τ0`, which has been read already. -/
theorem replacementList_eq {c c1 c' : Cursor} {τs : List Token} {e : Token} (h : Steps sc t c τs c1)
    (he : LineEnd sc t c1 e c') {τ0 : Token} (h1 : τ0 ≠ .sentinel) (h2 : τ0 ≠ .ppWhitespace true) :
    replacementList sc t τ0 c = some (.ok (trim (τ0 :: τs)), c') := by
  by_cases hw : τ0 = .ppWhitespace false
  · subst hw
    -- the next token that is not white space
    rw [replacementList, if_pos rfl]
    have key : ∃ τ' c2 , skipWhitespaces sc t c = some (.ok τ', c2) ∧
        replacementLoop sc t [] τ' c2 = some (.ok (τs.dropWhile isWhite), c') := by
      induction h with
      | nil =>
        refine ⟨_, _, skipWhitespaces_token he.1 (by rcases he.2 with h | h <;> simp [h]), ?_⟩
        exact replacementLoop_end he.2 _ _
      | @cons c c2 c' τ τs hn hne hx hs ih =>
        by_cases hτ : τ = .ppWhitespace false
        · subst hτ
          obtain ⟨τ', c3, e1, e2⟩ := ih he
          refine ⟨τ', c3, ?_, e2⟩
          rw [skipWhitespaces, bind_some (nextToken_of hx), if_neg (by simp)]
          exact e1
        · refine ⟨τ, _, skipWhitespaces_token hx hτ, ?_⟩
          rw [replacementLoop_steps hs he hne hn, List.dropWhile_cons_of_neg]
          · rfl
          · intro h
            exact hτ (white_eq h hn)
    obtain ⟨τ', c2, e1, e2⟩ := key
    rw [bind_some e1]
    simp only []
    rw [bind_some e2]
    rfl
  · rw [replacementList, if_neg hw]
    rw [bind_some (pure_apply _ _)]
    simp only []
    rw [bind_some (replacementLoop_steps h he h1 h2 [])]
    have : isWhite τ0 = false := by
      cases hw' : isWhite τ0 with
      | false => rfl
      | true => exact absurd (white_eq hw' h2) hw
    have e : trim (τ0 :: τs) = dropWhitespace (τ0 :: τs) := by
      unfold trim dropWhitespace
      rw [List.dropWhile_cons_of_neg (by rw [this]; simp)]
    rw [e]
    rfl

/-- The replacement list where nothing follows. -/
theorem replacementList_end {e : Token} (he : e = .sentinel ∨ e = .ppWhitespace true) (c : Cursor) :
    replacementList sc t e c = some (.ok [], c) := by
  rw [replacementList, if_neg (by rcases he with h | h <;> simp [h]), bind_some (pure_apply _ _)]
  simp only []
  rw [bind_some (replacementLoop_end he _ _)]
  rfl

end Kefir.Directive
