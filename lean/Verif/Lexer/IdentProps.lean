import Verif.Lexer.LexProps
/-!
# Property C51: identifiers and keywords
-/

namespace Kefir.Lexer

/-- Letters and the underscore (C17 6.4.2.1 nondigit). -/
def IsNondigit (c : Nat) : Prop := 97 ≤ c ∧ c ≤ 122 ∨ 65 ≤ c ∧ c ≤ 90 ∨ c = 95

instance (c) : Decidable (IsNondigit c) := by unfold IsNondigit; infer_instance

/-- The text is an identifier `id` without universal character names, followed by `after`, which
cannot continue it. -/
def IdentifierAt (text id after : List Chr) : Prop :=
  text = id ++ after ∧
  (∃ x r, id = x :: r ∧ IsNondigit x ∧ ∀ y ∈ r, IsNondigit y ∨ IsDigit 10 y) ∧
  ∀ x r, after = x :: r → ¬ IsNondigit x ∧ ¬ IsDigit 10 x ∧ x ≠ ch '\\'

/-- The locale encodes the 7-bit characters as themselves. -/
def AsciiCompatible (cd : Codec) : Prop := ∀ c < 128, cd.enc c = some [UInt8.ofNat c]

/-- The bytes of an identifier. -/
def bytesOf (id : List Chr) : List UInt8 := id.map UInt8.ofNat

theorem isnondigit_iff (c : Nat) : isnondigit c = true ↔ IsNondigit c := by
  have small : ∀ c < 128, isnondigit c = decide (IsNondigit c) := by decide +kernel
  by_cases h : c < 128
  · rw [small c h, decide_eq_true_iff]
  · constructor
    · intro hc
      unfold isnondigit at hc
      rw [List.contains_iff_mem] at hc
      have : ∀ x ∈ str "_abcdefghijklmnopqrstuvwxyzABCDEFGHIJKLMNOPQRSTUVWXYZ", x < 128 := by
        decide +kernel
      exact absurd (this c hc) h
    · unfold IsNondigit
      omega

theorem matchKeyword_eq {V : Type} (s : List Chr) (t : Trie V) :
    matchKeyword s t = match t.get s with
      | some (some v) => .ok v
      | _ => .error .notFound := by
  induction s generalizing t with
  | nil =>
    obtain ⟨v, cs⟩ := t
    rw [matchKeyword, Trie.get_nil]
    cases v <;> rfl
  | cons k s ih =>
    obtain ⟨v, cs⟩ := t
    rw [matchKeyword, Trie.get_cons]
    show (match Trie.findChild k cs with | some t' => _ | none => _) = _
    cases Trie.findChild k cs with
    | none => rfl
    | some t' => exact ih t'

/-- The keyword trie the lexer builds (`kefir_lexer_init_keywords` succeeded). -/
def KeywordTrie (t : Tries) : Prop := Trie.build keywords Trie.empty = .ok t.kws

theorem keyword_table : ∀ e ∈ keywords, e.1 ∈ e.2.spellings ∧ e.1 ≠ [] := by decide +kernel

theorem keyword_complete (k : Keyword) : ∀ s ∈ k.spellings, (s, k) ∈ keywords := by
  cases k <;> decide

theorem keyword_unique : ∀ e ∈ keywords, ∀ e' ∈ keywords, e.1 = e'.1 → e.2 = e'.2 := by
  decide +kernel

theorem keyword_get {t : Tries} (h : KeywordTrie t) (id : List Chr) (hid : id ≠ []) :
    (∀ k, id ∈ k.spellings → matchKeyword id t.kws = .ok k) ∧
    ((∀ k : Keyword, id ∉ k.spellings) → matchKeyword id t.kws = .error .notFound) := by
  have e := Trie.get_build keywords Trie.empty t.kws h id
  rw [Trie.get_empty, if_neg hid] at e
  rw [matchKeyword_eq, e]
  cases hf : keywords.reverse.find? (fun e => decide (e.1 = id)) with
  | some x =>
    have hx : x.1 = id := by simpa using List.find?_some hf
    have hm : x ∈ keywords := by simpa using List.mem_of_find?_eq_some hf
    refine ⟨fun k hk => ?_, fun hn => absurd (hx ▸ (keyword_table x hm).1) (hn x.2)⟩
    have := keyword_unique _ (keyword_complete k id hk) x hm hx.symm
    simp only at this ⊢
    rw [this]
  | none =>
    have hne : ∀ x ∈ keywords, x.1 ≠ id := by
      intro x hx
      rw [List.find?_eq_none] at hf
      simpa using hf x (by simpa using hx)
    refine ⟨fun k hk => absurd rfl (hne _ (keyword_complete k id hk)), fun _ => ?_⟩
    cases keywords.any fun e => id.isPrefixOf e.1 <;> rfl

/-- A character that neither continues an identifier nor is a backslash. -/
theorem scanIdDigit_stop (c : Cursor) (h : ∀ x r, c.text = x :: r →
    ¬ IsNondigit x ∧ ¬ IsDigit 10 x ∧ x ≠ ch '\\') :
    scanIdDigit c = some (.error .noMatch, c) := by
  have key : isdigit (c.at 0) = false ∧ isnondigit (c.at 0) = false ∧ c.at 0 ≠ ch '\\' := by
    rw [at_zero]
    cases ht : c.text with
    | nil => decide
    | cons x r =>
      obtain ⟨h1, h2, h3⟩ := h x r ht
      refine ⟨?_, ?_, h3⟩
      · rw [Bool.eq_false_iff]; exact fun h' => h2 ((digit10_iff x).2 h')
      · rw [Bool.eq_false_iff]; exact fun h' => h1 ((isnondigit_iff x).1 h')
  obtain ⟨k1, k2, k3⟩ := key
  rw [scanIdDigit, peek_bind, if_neg (by rw [k1]; decide), scanNondigit, peek_bind,
    if_neg (by rw [k2]; decide), nextUniversal, peek_bind, peek_bind, if_neg (fun h => k3 h.1),
    if_neg (fun h => k3 h.1)]
  rfl

theorem identifierLoop_eq (id r after : List Chr) (c : Cursor) (ht : c.text = r ++ after)
    (hr : ∀ y ∈ r, IsNondigit y ∨ IsDigit 10 y)
    (ha : ∀ x r, after = x :: r → ¬ IsNondigit x ∧ ¬ IsDigit 10 x ∧ x ≠ ch '\\')
    (hl : id.length + r.length ≤ 255) :
    identifierLoop id c = some (.ok (id ++ r), c.adv r.length) := by
  induction r generalizing id c with
  | nil =>
    rw [identifierLoop, attempt_bind (scanIdDigit_stop c (by rw [ht]; exact ha))]
    simp [pure_apply, Cursor.adv_zero]
  | cons x r ih =>
    have hx : c.at 0 = x := by rw [at_zero, ht]; rfl
    have hs : scanIdDigit c = some (.ok x, c.adv 1) := by
      rw [scanIdDigit, peek_bind, hx]
      by_cases hd : isdigit x = true
      · rw [if_pos hd, skip_bind (by rw [ht]; simp)]; rfl
      · have hn : isnondigit x = true := by
          rcases hr x List.mem_cons_self with h | h
          · exact (isnondigit_iff x).2 h
          · exact absurd ((digit10_iff x).1 h) hd
        rw [if_neg hd, scanNondigit, peek_bind, hx, if_pos hn, skip_bind (by rw [ht]; simp)]; rfl
    have hlen : id.length < 255 := by simp at hl; omega
    rw [identifierLoop, attempt_bind hs]
    show (if id.length < 255 then identifierLoop (id ++ [x]) else fail .lexerError) (c.adv 1) = _
    rw [if_pos hlen, ih (id ++ [x]) (c.adv 1) (by rw [Cursor.text_adv, ht]; rfl)
      (fun y hy => hr y (List.mem_cons_of_mem _ hy)) (by simp at hl ⊢; omega), Cursor.adv_adv]
    simp [Nat.add_comm]

theorem identChar_lt {x : Nat} (h : IsNondigit x ∨ IsDigit 10 x) : x < 128 ∧ x ≠ 0 := by
  unfold IsNondigit IsDigit at h
  have : 97 ≤ x ∧ x ≤ 122 ∨ 65 ≤ x ∧ x ≤ 90 ∨ x = 95 ∨
      48 ≤ x ∧ x ≤ 57 ∨ 97 ≤ x ∧ x ≤ 102 ∨ 65 ≤ x ∧ x ≤ 70 := by
    rcases h with (h | h | h) | ⟨h | h | h, -⟩
    · exact Or.inl h
    · exact Or.inr (Or.inl h)
    · exact Or.inr (Or.inr (Or.inl h))
    · exact Or.inr (Or.inr (Or.inr (Or.inl h)))
    · exact Or.inr (Or.inr (Or.inr (Or.inr (Or.inl h))))
    · exact Or.inr (Or.inr (Or.inr (Or.inr (Or.inr h))))
  omega

theorem encodeAll_ascii {cd : Codec} (h : AsciiCompatible cd) (l : List Chr) (hl : ∀ x ∈ l, x < 128) :
    encodeAll cd l = some (bytesOf l) := by
  induction l with
  | nil => rfl
  | cons x l ih =>
    rw [encodeAll, h x (hl x List.mem_cons_self), ih fun y hy => hl y (List.mem_cons_of_mem _ hy)]
    rfl

theorem takeWhile_of_all (p : Chr → Bool) (l : List Chr) (h : ∀ x ∈ l, p x = true) :
    l.takeWhile p = l := by
  induction l with
  | nil => rfl
  | cons x l ih =>
    rw [List.takeWhile_cons_of_pos (h x List.mem_cons_self), ih fun y hy => h y (List.mem_cons_of_mem _ hy)]

theorem takeWhile_append_zero (l : List UInt8) (h : ∀ b ∈ l, b ≠ 0) :
    (l ++ [0]).takeWhile (· ≠ 0) = l := by
  induction l with
  | nil => rfl
  | cons b l ih =>
    rw [List.cons_append, List.takeWhile_cons_of_pos (by simpa using h b List.mem_cons_self),
      ih fun x hx => h x (List.mem_cons_of_mem _ hx)]

/-- **C51** An identifier of up to 255 characters is read to its end.  It becomes a keyword token
exactly if it is spelled like a keyword, and an identifier token with its spelling otherwise. -/
theorem C51_identifier_or_keyword (cd : Codec) (hcd : AsciiCompatible cd) (t : Tries)
    (ht : KeywordTrie t) (c : Cursor) (id after : List Chr) (h : IdentifierAt c.text id after)
    (hl : id.length ≤ 255) :
    (∀ k : Keyword, id ∈ k.spellings →
      matchIdentifierOrKeyword cd t c = some (.ok (.keyword k), c.adv id.length)) ∧
    ((∀ k : Keyword, id ∉ k.spellings) →
      matchIdentifierOrKeyword cd t c = some (.ok (.identifier (bytesOf id)), c.adv id.length)) := by
  obtain ⟨htx, ⟨x, r, rfl, hx, hr⟩, ha⟩ := h
  have hx0 : c.at 0 = x := by rw [at_zero, htx]; rfl
  have hs : scanNondigit c = some (.ok x, c.adv 1) := by
    rw [scanNondigit, peek_bind, hx0, if_pos ((isnondigit_iff x).2 hx), skip_bind (by rw [htx]; simp)]
    rfl
  have hloop := identifierLoop_eq [x] r after (c.adv 1) (by rw [Cursor.text_adv, htx]; rfl) hr ha
    (by simpa [Nat.add_comm] using hl)
  rw [Cursor.adv_adv] at hloop
  have hall : ∀ y ∈ x :: r, y < 128 ∧ y ≠ 0 := by
    intro y hy
    cases hy with
    | head => exact identChar_lt (Or.inl hx)
    | tail _ hy => exact identChar_lt (hr y hy)
  have hcstr : cstr ([x] ++ r) = x :: r := by
    unfold cstr
    exact takeWhile_of_all _ _ fun y hy => by simpa using (hall y hy).2
  have hbs : ((bytesOf (x :: r ++ [0])).takeWhile (· ≠ 0)) = bytesOf (x :: r) := by
    have : bytesOf (x :: r ++ [0]) = bytesOf (x :: r) ++ [0] := by simp [bytesOf]
    rw [this]
    apply takeWhile_append_zero
    intro b hb
    obtain ⟨y, hy, rfl⟩ := List.mem_map.1 hb
    obtain ⟨h1, h2⟩ := hall y hy
    intro h0
    have : (UInt8.ofNat y).toNat = 0 := by rw [h0]; rfl
    rw [UInt8.toNat_ofNat'] at this
    have h1' : (y : Nat) < 128 := h1
    have h2' : (y : Nat) ≠ 0 := h2
    have key : ∀ z : Nat, z < 128 → z ≠ 0 → z % 2 ^ 8 = 0 → False := by omega
    exact key y h1' h2' this
  have henc : encodeAll cd ([x] ++ r ++ [0]) = some (bytesOf (x :: r ++ [0])) := by
    apply encodeAll_ascii hcd
    intro y hy
    have : y ∈ x :: r ∨ y = 0 := by simpa [or_assoc] using hy
    rcases this with hy | rfl
    · exact (hall y hy).1
    · decide
  have hlen : 1 + r.length = (x :: r).length := by simp [Nat.add_comm]
  obtain ⟨hk1, hk2⟩ := keyword_get ht (x :: r) (by simp)
  refine ⟨fun k hk => ?_, fun hn => ?_⟩
  · have : scanIdentifier cd (some t.kws) c = some (.ok (.keyword k), c.adv (x :: r).length) := by
      rw [scanIdentifier, bind_some hs, bind_some hloop]
      simp only
      rw [hcstr, hk1 k hk, hlen]
      rfl
    rw [matchIdentifierOrKeyword, Kefir.Lexer.apply, this]
  · have : scanIdentifier cd (some t.kws) c =
        some (.ok (.identifier (bytesOf (x :: r))), c.adv (x :: r).length) := by
      rw [scanIdentifier, bind_some hs, bind_some hloop]
      simp only
      rw [hcstr, hk2 hn, hlen]
      simp only
      rw [henc]
      simp only
      rw [hbs]
      rfl
    rw [matchIdentifierOrKeyword, Kefir.Lexer.apply, this]

theorem keywordTrie_exists : ∃ t, Trie.build keywords Trie.empty = .ok t := by
  have h : (match Trie.build keywords Trie.empty with | .ok _ => true | .error _ => false) = true := by
    decide +kernel
  cases hb : Trie.build keywords (Trie.empty : Trie Keyword) with
  | ok t => exact ⟨t, rfl⟩
  | error e => rw [hb] at h; cases h

/-- Non-vacuity: `int` is a keyword, `int_` and `x1` are not; the codec of the examples is
ASCII-compatible. -/
example : IdentifierAt (str "int x") (str "int") (str " x") ∧ str "int" ∈ Keyword.kInt.spellings := by
  refine ⟨⟨rfl, ⟨_, _, rfl, by decide, by decide⟩, ?_⟩, by decide⟩
  intro x r h; cases h; decide

example : IdentifierAt (str "int_") (str "int_") [] ∧ ∀ k : Keyword, str "int_" ∉ k.spellings := by
  refine ⟨⟨rfl, ⟨_, _, rfl, by decide, by decide⟩, ?_⟩, ?_⟩
  · intro x r h; cases h
  · intro k; cases k <;> decide

example : AsciiCompatible ascii := fun c h => by simp [ascii, h]

end Kefir.Lexer
