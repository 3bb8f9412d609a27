import Verif.PpToken.FormatRead
/-!
# Reading a printed list of tokens (lemmas for C79)
-/

namespace Kefir.PpToken

open Kefir.Lexer

/-! ## Whitespace -/

theorem blank_cons {x : Chr} {r t' : List Chr} (hx : x ≠ ch '/') (h : Blank (x :: r) t') : t' = r := by
  generalize hs : x :: r = s at h
  cases h with
  | space c r' _ => injection hs with _ h2; exact h2.symm
  | block body r' _ => injection hs with h1 _; exact absurd h1 hx
  | line body r' _ => injection hs with h1 _; exact absurd h1 hx
  | lastLine body _ => injection hs with h1 _; exact absurd h1 hx

theorem newlineAt_blank {t t' : List Chr} (h : NewlineAt t t') : Blank t t' := by
  cases h with
  | newline r => exact .space _ _ (by decide)
  | comment body r h => exact .line body _ h

theorem gap_stop {t t' : List Chr} {nl : Bool} (h : Gap t t' nl) (hb : ∀ r, ¬ Blank t r) :
    t' = t ∧ nl = false := by
  cases h with
  | nil => exact ⟨rfl, rfl⟩
  | newline h _ => exact absurd (newlineAt_blank h) (hb _)
  | blank h _ _ => exact absurd h (hb _)

/-- One printed whitespace character is one whitespace token. -/
theorem read_whitespace {sc : StrCodec} {t : Tries} {c : Cursor} (h0 : 0 ∉ c.text) {x : Chr}
    (hx : x = ch ' ' ∨ x = ch '\n') {rest : List Chr} (ht : c.text = x :: rest)
    (hb : ∀ r, ¬ Blank rest r) (hu : ¬ Unterminated rest) :
    ppNext sc t c = some (.ok ⟨.ppWhitespace (decide (x = ch '\n')), c.line, c.col⟩, c.adv 1) := by
  have hxs : x ≠ ch '/' := by rcases hx with rfl | rfl <;> decide
  have hxw : x ∈ whitespaceChars := by rcases hx with rfl | rfl <;> decide
  rcases C78_whitespace sc t c h0 rest (by rw [ht]; exact .space x rest hxw) with
    ⟨nl, k, e, hk, hkl, hg⟩ | ⟨c', t', -, hbl, hun⟩
  · rw [ht] at hg
    have hdrop : (x :: rest).drop k = rest ∧ nl = decide (x = ch '\n') := by
      have hlen : ((x :: rest).drop k).length < (x :: rest).length := by simp; omega
      generalize hd : (x :: rest).drop k = d at hg hlen
      clear hd
      generalize hs : x :: rest = s at hg
      cases hg with
      | nil => rw [hs] at hlen; omega
      | newline h hs' =>
        subst hs
        have := blank_cons hxs (newlineAt_blank h)
        subst this
        obtain ⟨g1, -⟩ := gap_stop hs' hb
        refine ⟨g1, ?_⟩
        rcases newlineAt_cases h with ⟨r, h1⟩ | ⟨body, r, h1⟩
        · injection h1 with h1 _
          simp [h1]
        · injection h1 with h1 _
          exact absurd h1 hxs
      | blank h hn hs' =>
        subst hs
        have := blank_cons hxs h
        subst this
        obtain ⟨g1, g2⟩ := gap_stop hs' hb
        refine ⟨g1, ?_⟩
        rw [g2]
        have : x ≠ ch '\n' := by
          rintro rfl
          exact hn (.newline _)
        simp [this]
    have hk1 : (x :: rest).length - k = rest.length := by
      rw [← List.length_drop, hdrop.1]
    have hk2 : k = 1 := by
      rw [ht] at hkl
      simp at hk1 hkl
      omega
    rw [e, hdrop.2, hk2]
  · exfalso
    cases hbl with
    | nil =>
      obtain ⟨body, hb', -⟩ := hun
      rw [ht] at hb'
      injection hb' with hb' _
      exact hxs hb'
    | cons h hs =>
      rw [ht] at h
      have := blank_cons hxs h
      subst this
      cases hs with
      | nil => exact hu hun
      | cons h _ => exact hb _ h

/-! ## The text of a list of tokens -/

theorem opens_facts {l : Locale} {τ : Token} (h : Printable l τ) (hnw : ∀ nl, τ ≠ .ppWhitespace nl) :
    opens τ ∉ whitespaceChars ∧ opens τ ≠ ch '\\' ∧
    (opens τ = ch '/' → τ = .punct .slash ∨ τ = .punct .assignDivide) := by
  have hws : ∀ x : Nat, Graphic x → x ≠ 32 → x ∉ whitespaceChars := by
    intro x h1 h2 hm
    have : ∀ y ∈ whitespaceChars, Graphic y → y = 32 := by decide
    exact h2 (this x hm h1)
  cases h with
  | identifier bs x s h hx hs hlen =>
    have : opens (.identifier bs) = x := by rw [opens, h]; rfl
    rw [this]
    obtain ⟨h1, h2, h3, h4, -⟩ := graphic_id (Or.inl hx)
    exact ⟨hws x h1 h4, h2, fun h => absurd h h3⟩
  | number bs d s h hd hs hb =>
    have : opens (.ppNumber bs) = d := by rw [opens, h]; rfl
    rw [this]
    obtain ⟨h1, h2, h3, h4, -⟩ := graphic_id (Or.inr hd)
    exact ⟨hws d h1 h4, h2, fun h => absurd h h3⟩
  | dotNumber bs d s h hd hs hb =>
    have : opens (.ppNumber bs) = ch '.' := by rw [opens, h]; rfl
    rw [this]
    exact ⟨by decide, by decide, fun h => absurd h (by decide)⟩
  | punctuator p => cases p <;> decide
  | whitespace nl => exact absurd rfl (hnw nl)
  | character v hv => exact ⟨(by decide : ch '\'' ∉ whitespaceChars), (by decide : ch '\'' ≠ ch '\\'),
      fun h => absurd h (by decide : ch '\'' ≠ ch '/')⟩
  | narrow m bs hm hb hz => 
    rcases hm with rfl | rfl
    · exact ⟨(by decide : ch '"' ∉ whitespaceChars), (by decide : ch '"' ≠ ch '\\'),
        fun h => absurd h (by decide : ch '"' ≠ ch '/')⟩
    · exact ⟨(by decide : ch 'u' ∉ whitespaceChars), (by decide : ch 'u' ≠ ch '\\'),
        fun h => absurd h (by decide : ch 'u' ≠ ch '/')⟩
  | unicode16 us hu => exact ⟨(by decide : ch 'u' ∉ whitespaceChars), (by decide : ch 'u' ≠ ch '\\'),
      fun h => absurd h (by decide : ch 'u' ≠ ch '/')⟩
  | unicode32 us hu => exact ⟨(by decide : ch 'U' ∉ whitespaceChars), (by decide : ch 'U' ≠ ch '\\'),
      fun h => absurd h (by decide : ch 'U' ≠ ch '/')⟩
  | wide us hu hz => exact ⟨(by decide : ch 'L' ∉ whitespaceChars), (by decide : ch 'L' ≠ ch '\\'),
      fun h => absurd h (by decide : ch 'L' ≠ ch '/')⟩

theorem splice_solid {s : List Chr} (h : Solid s) (r : List Chr) : splice (s ++ r) = s ++ splice r := by
  obtain ⟨hg, -, hl⟩ := h
  induction s with
  | nil => rfl
  | cons x s ih =>
    have hs : splice (s ++ r) = s ++ splice r :=
      ih (fun y hy => hg y (List.mem_cons_of_mem _ hy)) (fun y hy => hl y (by
        rw [show x :: s = [x] ++ s from rfl, List.getLast?_append, hy]; rfl))
    rw [List.cons_append, splice_cons, hs]
    · rfl
    · rintro r' ⟨h1, h2⟩
      cases s with
      | nil => exact hl x rfl h1
      | cons y s =>
        injection h2 with h2 _
        have := hg y (List.mem_cons_of_mem _ List.mem_cons_self)
        rw [h2] at this
        exact absurd this (by decide)

/-- What the text of a list of tokens begins with. -/
def Begins (ts : List Token) (s : List Chr) : Prop :=
  match ts with
  | [] => s = []
  | τ :: _ => ∃ x r, s = x :: r ∧
    ((∃ nl, τ = .ppWhitespace nl ∧ (x = ch ' ' ∨ x = ch '\n')) ∨ ((∀ nl, τ ≠ .ppWhitespace nl) ∧ x = opens τ))

theorem begins_rest {l : Locale} {τ : Token} {τs : List Token} (hp : ∀ τ' ∈ τs, Printable l τ')
    (hs : Separated (τ :: τs)) {s : List Chr} (hb : Begins τs s) :
    ∀ x r, s = x :: r → (¬ Continues τ x ∨ ∃ nl, τ = .ppWhitespace nl ∧ x ≠ ch ' ') ∧ x ≠ ch '\\' := by
  rintro x r rfl
  cases τs with
  | nil => cases hb
  | cons τ' τs =>
    obtain ⟨x', r', h1, h2⟩ := hb
    injection h1 with h1 _
    subst h1
    rcases h2 with ⟨nl, rfl, hx⟩ | ⟨hn, rfl⟩
    · have hc : ¬ Continues τ (ch ' ') := hs.1
      refine ⟨?_, by rcases hx with rfl | rfl <;> decide⟩
      rcases hx with rfl | rfl
      · exact Or.inl hc
      · cases τ with
        | ppWhitespace nl => exact Or.inr ⟨nl, rfl, by decide⟩
        | identifier bs =>
          left
          rintro (h | h | h)
          · exact absurd h (by decide)
          · exact absurd h (by decide)
          · have : ∀ o ∈ openings, ch '\n' ∉ o := by decide
            exact this _ h (by simp)
        | ppNumber bs =>
          left
          rintro (h | h | h | ⟨h, -⟩)
          · exact absurd h (by decide)
          · exact absurd h (by decide)
          · exact absurd h (by decide)
          · exact absurd h (by decide)
        | punct p =>
          left
          rintro (⟨q, h⟩ | ⟨-, h⟩ | ⟨-, h⟩)
          · have : ch '\n' ∈ q.spelling := h.subset (by simp)
            exact absurd (punct_solid q _ this).1 (by decide)
          · exact absurd h (by decide)
          · exact absurd h (by decide)
        | _ => exact Or.inl id
    · exact ⟨Or.inl hs.1, (opens_facts (hp τ' List.mem_cons_self) hn).2.1⟩

structure TextOf (ts : List Token) (out : List UInt8) : Prop where
  bytes : ∀ b ∈ out, 1 ≤ b.toNat ∧ b.toNat < 128
  splice : splice (chars out) = chars out
  begins : Begins ts (chars out)
  solid : (∀ nl τs, ts ≠ .ppWhitespace nl :: τs) →
    (∀ r, ¬ Blank (chars out) r) ∧ ¬ Unterminated (chars out)

theorem graphic_bytes {bs : List UInt8} (h : ∀ x ∈ chars bs, Graphic x) :
    ∀ b ∈ bs, 1 ≤ b.toNat ∧ b.toNat < 128 := by
  intro b hb
  have := h b.toNat (List.mem_map_of_mem hb)
  unfold Graphic at this
  omega

theorem text_of {sc : StrCodec} (hg : GoodCodec sc) {l : Locale} (hl : GoodLocale l) (ws : WsFormat)
    {ts : List Token} (hp : ∀ τ ∈ ts, Printable l τ) (hs : Separated ts) :
    ∃ out, format l ws ts = .ok out ∧ TextOf ts out := by
  induction ts with
  | nil =>
    refine ⟨[], rfl, ⟨by simp, rfl, rfl, fun _ => ⟨nofun, ?_⟩⟩⟩
    rintro ⟨body, hb, -⟩
    cases hb
  | cons τ τs ih =>
    have hs' : Separated τs := by
      cases τs with
      | nil => trivial
      | cons τ' τs => exact hs.2
    have hp' : ∀ τ' ∈ τs, Printable l τ' := fun τ' h => hp τ' (List.mem_cons_of_mem _ h)
    obtain ⟨out, h1, h2⟩ := ih hp' hs'
    obtain ⟨bs, hf, hshape⟩ := printed hg hl ws (hp τ List.mem_cons_self)
    have hrest := begins_rest hp' hs h2.begins
    refine ⟨bs ++ out, by rw [format, hf, h1], ?_⟩
    rcases hshape with ⟨nl, rfl, hbs⟩ | ⟨hnw, hsol, r, hbs⟩
    · generalize hx : (if nl = true ∧ ws = WsFormat.original then ch '\n' else ch ' ') = x at hbs
      have hx' : x = ch ' ' ∨ x = ch '\n' := by
        rw [← hx]; split
        · exact Or.inr rfl
        · exact Or.inl rfl
      refine ⟨?_, ?_, ?_, ?_⟩
      · intro b hb
        rcases List.mem_append.1 hb with hb | hb
        · have : b.toNat ∈ chars bs := List.mem_map_of_mem hb
          rw [hbs, List.mem_singleton] at this
          rw [this]
          rcases hx' with rfl | rfl <;> decide
        · exact h2.bytes b hb
      · rw [chars_append, hbs, List.singleton_append, splice_cons, h2.splice]
        rintro r ⟨h, -⟩
        rw [h] at hx'
        exact absurd hx' (by decide)
      · rw [chars_append, hbs]
        exact ⟨x, _, rfl, Or.inl ⟨nl, rfl, hx'⟩⟩
      · intro h
        exact absurd rfl (h nl τs)
    · obtain ⟨ho1, ho2, ho3⟩ := opens_facts (hp τ List.mem_cons_self) hnw
      refine ⟨?_, ?_, ?_, ?_⟩
      · intro b hb
        rcases List.mem_append.1 hb with hb | hb
        · exact graphic_bytes hsol.graphic b hb
        · exact h2.bytes b hb
      · rw [chars_append, splice_solid hsol, h2.splice]
      · rw [chars_append, hbs]
        exact ⟨_, _, rfl, Or.inr ⟨hnw, rfl⟩⟩
      · intro _
        rw [chars_append]
        by_cases hsl : opens τ = ch '/'
        · have hsecond : ∃ y, (∀ z w, chars bs ++ chars out = ch '/' :: z :: w → z = y) ∧
              y ≠ ch '/' ∧ y ≠ ch '*' := by
            rcases ho3 hsl with rfl | rfl
            · have hb' : chars bs = [ch '/'] := by
                injection hf with hf
                rw [← hf]; rfl
              cases hc : chars out with
              | nil =>
                refine ⟨0, ?_, by decide, by decide⟩
                intro z w h
                rw [hb'] at h
                cases h
              | cons y r' =>
                refine ⟨y, ?_, ?_⟩
                · intro z w h
                  rw [hb'] at h
                  injection h with _ h
                  injection h with h _
                  exact h.symm
                · have h3 := (hrest y r' hc).1
                  rcases h3 with h3 | ⟨nl, h, -⟩
                  · constructor
                    · rintro rfl
                      exact h3 (Or.inr (Or.inr ⟨rfl, by decide⟩))
                    · rintro rfl
                      exact h3 (Or.inr (Or.inr ⟨rfl, by decide⟩))
                  · cases h
            · have hb' : chars bs = [ch '/', ch '='] := by
                injection hf with hf
                rw [← hf]; rfl
              refine ⟨ch '=', ?_, by decide, by decide⟩
              intro z w h
              rw [hb'] at h
              injection h with _ h
              injection h with h _
              exact h.symm
          obtain ⟨y, hy, hy1, hy2⟩ := hsecond
          constructor
          · refine no_blank ?_ ?_ ?_
            · rintro ⟨z, w, h, hz⟩
              rw [hbs] at h
              injection h with h _
              exact ho1 (h ▸ hz)
            · rintro ⟨w, h⟩
              exact hy2 (hy (ch '*') w h.symm).symm
            · rintro ⟨w, h⟩
              exact hy1 (hy (ch '/') w h.symm).symm
          · rintro ⟨w, h, -⟩
            exact hy2 (hy (ch '*') w h).symm
        · rw [hbs]
          exact no_blank_cons ho1 hsl

theorem reads_text {sc : StrCodec} (hg : GoodCodec sc) {l : Locale} (hl : GoodLocale l) (ws : WsFormat)
    {t : Tries} (htr : PunctTrie t) {ts : List Token} (hp : ∀ τ ∈ ts, Printable l τ) (hs : Separated ts)
    {out : List UInt8} (hf : format l ws ts = .ok out) {c : Cursor} (h0 : 0 ∉ c.text)
    (ht : c.text = chars out) : Reads sc t c (ts.map (normalise ws)) := by
  induction ts generalizing out c with
  | nil =>
    injection hf with hf
    subst hf
    exact .stop (C78_end sc t c ht)
  | cons τ τs ih =>
    have hs' : Separated τs := by
      cases τs with
      | nil => trivial
      | cons τ' τs => exact hs.2
    have hp' : ∀ τ' ∈ τs, Printable l τ' := fun τ' h => hp τ' (List.mem_cons_of_mem _ h)
    obtain ⟨out', h1, h2⟩ := text_of hg hl ws hp' hs'
    obtain ⟨out2, h3, h4⟩ := text_of hg hl ws hp hs
    obtain ⟨bs, hfb, hshape⟩ := printed hg hl ws (hp τ List.mem_cons_self)
    have hrest := begins_rest hp' hs h2.begins
    rw [hf] at h3
    injection h3 with h3
    subst h3
    have hout : out = bs ++ out' := by
      rw [format, hfb, h1] at hf
      injection hf with hf
      exact hf.symm
    subst hout
    rw [chars_append] at ht
    have hnext : (c.adv bs.length).text = chars out' := by
      rw [Cursor.text_adv, ht, ← chars_length bs]; simp
    have h0' : 0 ∉ (c.adv bs.length).text := by
      intro h
      rw [hnext] at h
      exact h0 (by rw [ht]; exact List.mem_append_right _ h)
    have ih := ih hp' hs' h1 h0' hnext
    rcases hshape with ⟨nl, rfl, hbs⟩ | ⟨hnw, hsol, r, hbs⟩
    · generalize hx : (if nl = true ∧ ws = WsFormat.original then ch '\n' else ch ' ') = x at hbs
      have hx' : x = ch ' ' ∨ x = ch '\n' := by
        rw [← hx]; split
        · exact Or.inr rfl
        · exact Or.inl rfl
      have hnot : ∀ nl' τs', τs ≠ .ppWhitespace nl' :: τs' := by
        rintro nl' τs' rfl
        exact hs.1 rfl
      obtain ⟨g1, g2⟩ := h2.solid hnot
      have hr := read_whitespace (sc := sc) (t := t) h0 hx' (rest := chars out') (by rw [ht, hbs]; rfl) g1 g2
      have hlen : bs.length = 1 := by rw [← chars_length, hbs]; rfl
      have hnl : (nl && decide (ws = .original)) = decide (x = ch '\n') := by
        rw [← hx]
        cases nl <;> cases ws <;> rfl
      rw [hlen] at ih
      refine .next (by simp [normalise]) ?_ ih (i := c.line) (j := c.col)
      rw [normalise, hnl]
      exact hr
    · have hr := read_token hg hl ws htr (hp τ List.mem_cons_self) hnw hfb h0 ht (fun x r hx => by
        obtain ⟨g1, g2⟩ := hrest x r hx
        refine ⟨?_, g2⟩
        rcases g1 with g1 | ⟨nl, g, -⟩
        · exact g1
        · exact absurd g (hnw nl))
      have hsl := h4.solid (by
        rintro nl τs' h
        injection h with h _
        exact hnw nl h)
      rw [chars_append, ← ht] at hsl
      refine .next ?_ (ppNext_of_token (whitespace_none h0 hsl.1 hsl.2) hr) ih
      cases hp τ List.mem_cons_self <;> simp [normalise]

theorem decode_ascii {cd : Codec} (ha : AsciiCodec cd) (out : List UInt8)
    (h : ∀ b ∈ out, 1 ≤ b.toNat ∧ b.toNat < 128) : (decodeAll cd out).1 = chars out := by
  induction out with
  | nil =>
    have : (decodeAll cd []) = ([], .bad) := decodeAll_bad cd.dec_nil
    rw [this]; rfl
  | cons b bs ih =>
    obtain ⟨h1, h2⟩ := h b List.mem_cons_self
    rw [decodeAll_chr (ha.chr b bs h1 h2)]
    simp only [List.drop_succ_cons, List.drop_zero]
    rw [ih (fun x hx => h x (List.mem_cons_of_mem _ hx))]
    rfl

end Kefir.PpToken
