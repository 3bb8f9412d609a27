import Verif.PpToken.Convert
import Verif.PpToken.ConvertSpec
import Verif.PpToken.FormatProps
/-!
# The scan of floating constants, in terms of the text
-/

namespace Kefir.PpToken

open Kefir.Lexer

/-! ## The scanner of floating constants -/

theorem text_at {c : Cursor} {t : List Chr} (h : c.text = t) : c.at 0 = t.head?.getD 0 := by
  rw [at_zero, h]

theorem head_class {p : Chr → Bool} (h0 : p 0 = false) {r : List Chr}
    (h : ∀ x s, r = x :: s → p x = false) : p (r.head?.getD 0) = false := by
  cases r with
  | nil => exact h0
  | cons x s => exact h x s rfl

theorem scan_digits {isd : Chr → Bool} (h0 : isd 0 = false) {c : Cursor} {ds r : List Chr}
    (ht : c.text = ds ++ r) (hd : ∀ x ∈ ds, isd x = true) (hr : ∀ x s, r = x :: s → isd x = false) :
    scanWhile isd push [] c = some (.ok ds, c.adv ds.length) := by
  rw [scanWhile_eq _ h0, ht, takeWhile_split _ _ _ hd hr, foldl_push]
  rfl

theorem text_after {c : Cursor} {p r : List Chr} (ht : c.text = p ++ r) :
    (c.adv p.length).text = r := by
  rw [Cursor.text_adv, ht, List.drop_left]

/-- Every text divides into the characters of a class and a rest that begins otherwise. -/
theorem split_class (p : Chr → Bool) (t : List Chr) :
    ∃ ds r, t = ds ++ r ∧ (∀ x ∈ ds, p x = true) ∧ ∀ x s, r = x :: s → p x = false := by
  refine ⟨t.takeWhile p, t.dropWhile p, List.takeWhile_append_dropWhile.symm, ?_, ?_⟩
  · exact fun x hx => List.all_eq_true.1 (List.all_takeWhile (p := p) (l := t)) x hx
  · intro x s h
    have := List.head?_dropWhile_not p t
    rw [h] at this
    simpa using this

section

variable {isd ise : Chr → Bool}

theorem frac_dot (h0 : isd 0 = false) (hp : isd (ch '.') = false) {c : Cursor} {a b r lit : List Chr}
    (ht : c.text = a ++ ch '.' :: (b ++ r)) (ha : ∀ x ∈ a, isd x = true) (hb : ∀ x ∈ b, isd x = true)
    (hr : ∀ x s, r = x :: s → isd x = false) :
    matchFractional isd ise lit c =
      some (if a ≠ [] ∨ b ≠ [] then .ok (lit ++ (a ++ ch '.' :: b)) else .error .noMatch,
        c.adv (a ++ ch '.' :: b).length) := by
  have h1 := scan_digits h0 ht ha (fun x s e => by injection e with e _; rw [← e]; exact hp)
  have ht1 := text_after ht
  have h2 : (c.adv a.length).at 0 = ch '.' := at_cons (x := ch '.') ht1
  have ht2 : ((c.adv a.length).adv 1).text = b ++ r := by rw [Cursor.text_adv, ht1]; rfl
  have h3 := scan_digits h0 ht2 hb hr
  have hl : 1 ≤ (c.adv a.length).text.length := by rw [ht1]; simp
  have hadv : ((c.adv a.length).adv 1).adv b.length = c.adv (a ++ ch '.' :: b).length := by
    rw [Cursor.adv_adv, Cursor.adv_adv]
    congr 1
    simp only [List.length_append, List.length_cons]
    omega
  unfold matchFractional
  rw [bind_some h1, peek_bind, h2, if_pos rfl, skip_bind hl, bind_some h3, hadv]
  by_cases hn : a ≠ [] ∨ b ≠ []
  · rw [if_pos hn, if_pos (by
      rcases hn with hn | hn
      · exact Or.inl (List.length_pos_iff.2 hn)
      · exact Or.inr (List.length_pos_iff.2 hn)), pure_apply]
    simp
  · rw [if_neg hn, if_neg (by
      intro h
      apply hn
      rcases h with h | h
      · exact Or.inl (List.length_pos_iff.1 h)
      · exact Or.inr (List.length_pos_iff.1 h)), fail_eq]

theorem frac_whole (h0 : isd 0 = false) {c : Cursor} {a r lit : List Chr}
    (ht : c.text = a ++ r) (ha : ∀ x ∈ a, isd x = true) (hr : ∀ x s, r = x :: s → isd x = false)
    (hp : ∀ s, r ≠ ch '.' :: s) :
    matchFractional isd ise lit c =
      some (if a ≠ [] ∧ ise (r.head?.getD 0) then .ok (lit ++ a) else .error .noMatch,
        c.adv a.length) := by
  have h1 := scan_digits h0 ht ha hr
  have h2 := text_at (text_after ht)
  have h3 : r.head?.getD 0 ≠ ch '.' := by
    cases r with
    | nil => decide
    | cons x s => exact fun e => hp s (by rw [show x = ch '.' from e])
  unfold matchFractional
  rw [bind_some h1, peek_bind, h2, if_neg h3]
  by_cases hn : a ≠ [] ∧ ise (r.head?.getD 0) = true
  · rw [if_pos hn, if_pos ⟨List.length_pos_iff.2 hn.1, hn.2⟩, pure_apply]
  · rw [if_neg hn, if_neg (fun h => hn ⟨List.length_pos_iff.1 h.1, h.2⟩), fail_eq]

variable {letters : List Chr}

theorem exp_none {c : Cursor} {lit : List Chr} (h : ise (c.at 0) = false) :
    matchExponent ise lit c = some (.ok lit, c) := by
  unfold matchExponent
  rw [peek_bind, if_neg (by rw [h]; exact Bool.false_ne_true), pure_apply]

theorem exp_after {ds r lit : List Chr} {c : Cursor} (hd : ∀ x ∈ ds, IsDigit 10 x)
    (ht : c.text = ds ++ r) (hr : ∀ x s, r = x :: s → ¬ IsDigit 10 x) :
    (do let ds ← scanWhile isdigit push []
        if ds.length > 0 then pure (lit ++ ds) else fail .lexerError : Lex (List Chr)) c =
      some (if ds ≠ [] then .ok (lit ++ ds) else .error .lexerError, c.adv ds.length) := by
  have h1 := scan_digits isdigit_zero ht (fun x hx => (digit10_iff x).1 (hd x hx)) (fun x s e => by
    have := hr x s e
    rw [digit10_iff] at this
    simpa using this)
  rw [bind_some h1]
  by_cases hn : ds ≠ []
  · rw [if_pos hn, if_pos (List.length_pos_iff.2 hn), pure_apply]
  · rw [if_neg hn, if_neg (fun h => hn (List.length_pos_iff.1 h)), fail_eq]

theorem sign_digit {x : Nat} (h : IsDigit 10 x) : x ≠ ch '+' ∧ x ≠ ch '-' := by
  have := (isdigit_iff x).1 ((digit10_iff x).1 h)
  constructor <;> rintro rfl <;> revert this <;> decide

theorem signs {x : Chr} : x ∈ str "+-" ↔ x = ch '+' ∨ x = ch '-' := by
  have : str "+-" = [ch '+', ch '-'] := by decide
  rw [this]
  simp

theorem exp_yes (hi : ∀ x, x ∈ letters ↔ ise x = true) {c : Cursor} {e r lit : List Chr}
    (he : Exponent letters e) (ht : c.text = e ++ r) (hr : ∀ x s, r = x :: s → ¬ IsDigit 10 x) :
    matchExponent ise lit c = some (.ok (lit ++ e), c.adv e.length) := by
  unfold matchExponent
  cases he with
  | @plain l ds hl hn hd =>
    have h0 : c.at 0 = l := at_cons (r := ds ++ r) (by rw [ht]; rfl)
    have hlen : 1 ≤ c.text.length := by rw [ht]; simp
    have ht1 : (c.adv 1).text = ds ++ r := by rw [Cursor.text_adv, ht]; rfl
    have hs : ¬ ((c.adv 1).at 0 = ch '+' ∨ (c.adv 1).at 0 = ch '-') := by
      rw [text_at ht1]
      cases ds with
      | nil => exact absurd rfl hn
      | cons x s =>
        have := sign_digit (hd x (List.mem_cons_self ..))
        rintro (h | h)
        · exact this.1 h
        · exact this.2 h
    rw [peek_bind, h0, if_pos ((hi l).1 hl), skip_bind hlen, peek_bind]
    rw [if_neg hs, bind_some (pure_apply _ _), exp_after hd ht1 hr, if_pos hn, Cursor.adv_adv]
    simp [Nat.add_comm]
  | @signed l sg ds hl hsg hn hd =>
    have h0 : c.at 0 = l := at_cons (r := sg :: (ds ++ r)) (by rw [ht]; rfl)
    have hlen : 1 ≤ c.text.length := by rw [ht]; simp
    have ht1 : (c.adv 1).text = sg :: (ds ++ r) := by rw [Cursor.text_adv, ht]; rfl
    have hlen1 : 1 ≤ (c.adv 1).text.length := by rw [ht1]; simp
    have ht2 : ((c.adv 1).adv 1).text = ds ++ r := by rw [Cursor.text_adv, ht1]; rfl
    rw [peek_bind, h0, if_pos ((hi l).1 hl), skip_bind hlen, peek_bind, at_cons ht1]
    rw [if_pos (signs.1 hsg), bind_some (c' := (c.adv 1).adv 1) (a := lit ++ [l] ++ [sg])
      (by rw [skip_bind hlen1, pure_apply]), exp_after hd ht2 hr, if_pos hn, Cursor.adv_adv, Cursor.adv_adv]
    simp [Nat.add_comm]

/-- What an exponent part that was read looks like. -/
theorem exp_inv (h0 : ise 0 = false) (hi : ∀ x, x ∈ letters ↔ ise x = true) {c c' : Cursor}
    {lit lit' : List Chr} (h : matchExponent ise lit c = some (.ok lit', c')) :
    ∃ e, lit' = lit ++ e ∧ c' = c.adv e.length ∧ (∃ r, c.text = e ++ r) ∧
      (e = [] ∧ ise (c.at 0) = false ∨ Exponent letters e) := by
  cases he : ise (c.at 0) with
  | false =>
    rw [exp_none he] at h
    injection h with h
    injection h with h1 h2
    injection h1 with h1
    exact ⟨[], by rw [← h1]; simp, by rw [← h2]; exact (Cursor.adv_zero c).symm, ⟨_, rfl⟩, Or.inl ⟨rfl, rfl⟩⟩
  | true =>
    obtain ⟨t, ht⟩ := text_cons (c := c) (by intro e; rw [e, h0] at he; cases he)
    generalize hl : c.at 0 = l at *
    have hlen : 1 ≤ c.text.length := by rw [ht]; simp
    have ht1 : (c.adv 1).text = t := by rw [Cursor.text_adv, ht]; rfl
    unfold matchExponent at h
    rw [peek_bind, hl, if_pos he, skip_bind hlen, peek_bind] at h
    by_cases hs : (c.adv 1).at 0 = ch '+' ∨ (c.adv 1).at 0 = ch '-'
    · obtain ⟨t2, ht2⟩ := text_cons (c := c.adv 1) (by
        rcases hs with hs | hs <;> rw [hs] <;> decide)
      generalize hsg : (c.adv 1).at 0 = sg at *
      have hlen1 : 1 ≤ (c.adv 1).text.length := by rw [ht2]; simp
      have ht3 : ((c.adv 1).adv 1).text = t2 := by rw [Cursor.text_adv, ht2]; rfl
      obtain ⟨ds, r, hdr, hd, hr⟩ := split_class isdigit t2
      rw [if_pos hs, bind_some (c' := (c.adv 1).adv 1) (a := lit ++ [l] ++ [sg])
        (by rw [skip_bind hlen1, pure_apply]),
        exp_after (r := r) (fun x hx => (digit10_iff x).2 (hd x hx)) (by rw [ht3, hdr]) (fun x s e => by
          rw [digit10_iff, hr x s e]; exact Bool.false_ne_true)] at h
      by_cases hn : ds ≠ []
      · rw [if_pos hn] at h
        injection h with h
        injection h with h1 h2
        injection h1 with h1
        refine ⟨l :: sg :: ds, by rw [← h1]; simp, ?_, ⟨r, ?_⟩, Or.inr (.signed ((hi l).2 he) (signs.2 hs) hn
          (fun x hx => (digit10_iff x).2 (hd x hx)))⟩
        · rw [← h2, Cursor.adv_adv, Cursor.adv_adv]
          congr 1
          simp only [List.length_cons]
          omega
        · rw [ht, ← ht1, ht2, hdr]; rfl
      · rw [if_neg hn] at h
        cases h
    · obtain ⟨ds, r, hdr, hd, hr⟩ := split_class isdigit t
      rw [if_neg hs, bind_some (pure_apply _ _),
        exp_after (r := r) (fun x hx => (digit10_iff x).2 (hd x hx)) (by rw [ht1, hdr]) (fun x s e => by
          rw [digit10_iff, hr x s e]; exact Bool.false_ne_true)] at h
      by_cases hn : ds ≠ []
      · rw [if_pos hn] at h
        injection h with h
        injection h with h1 h2
        injection h1 with h1
        refine ⟨l :: ds, by rw [← h1]; simp, ?_, ⟨r, ?_⟩, Or.inr (.plain ((hi l).2 he) hn
          (fun x hx => (digit10_iff x).2 (hd x hx)))⟩
        · rw [← h2, Cursor.adv_adv]
          congr 1
          simp only [List.length_cons]
          omega
        · rw [ht, hdr]; rfl
      · rw [if_neg hn] at h
        cases h

end

/-! ## Suffixes -/

theorem suffix_ok {c : Cursor} {x : List Chr × FloatTy} (hx : x ∈ floatSuffixes) (ht : c.text = x.1) :
    matchFloatSuffix c = some (.ok x.2, c.adv x.1.length) := by
  have hf : floatSuffixes = [([], .double), ([ch 'f'], .float), ([ch 'F'], .float), ([ch 'l'], .ldouble),
    ([ch 'L'], .ldouble)] := by decide
  rw [hf] at hx
  have h0 := text_at ht
  have hl : ∀ y, x.1 = [y] → 1 ≤ c.text.length := by intro y h; rw [ht, h]; simp
  unfold matchFloatSuffix
  simp only [List.mem_cons, List.not_mem_nil, or_false] at hx
  rw [peek_bind, h0]
  rcases hx with rfl | rfl | rfl | rfl | rfl
  · rw [if_neg (by decide), if_neg (by decide), pure_apply]
    exact congrArg _ (congrArg _ (Cursor.adv_zero c).symm)
  all_goals first
    | rw [if_pos (by decide), skip_bind (hl _ rfl), pure_apply]; rfl
    | rw [if_neg (by decide), if_pos (by decide), skip_bind (hl _ rfl), pure_apply]; rfl

theorem suffix_inv (c : Cursor) : ∃ x r, x ∈ floatSuffixes ∧ c.text = x.1 ++ r ∧
    matchFloatSuffix c = some (.ok x.2, c.adv x.1.length) := by
  have hf : floatSuffixes = [([], .double), ([ch 'f'], .float), ([ch 'F'], .float), ([ch 'l'], .ldouble),
    ([ch 'L'], .ldouble)] := by decide
  have one : ∀ y, y ≠ 0 → c.at 0 = y → ∃ r, c.text = [y] ++ r := by
    intro y hy h
    obtain ⟨r, hr⟩ := text_cons (c := c) (by rw [h]; exact hy)
    exact ⟨r, by rw [hr, h]; rfl⟩
  unfold matchFloatSuffix
  rw [peek_bind]
  have go : ∀ (y : Chr) (t : FloatTy), y ≠ 0 → ([y], t) ∈ floatSuffixes → c.at 0 = y →
      ∃ x r, x ∈ floatSuffixes ∧ c.text = x.1 ++ r ∧
        (do skip 1; pure t : Lex FloatTy) c = some (.ok x.2, c.adv x.1.length) := by
    intro y t hy hm h
    obtain ⟨r, hr⟩ := one y hy h
    exact ⟨([y], t), r, hm, hr, by rw [skip_bind (by rw [hr]; simp), pure_apply]; rfl⟩
  by_cases h1 : c.at 0 = ch 'l' ∨ c.at 0 = ch 'L'
  · rw [if_pos h1]
    rcases h1 with h1 | h1
    · exact go _ _ (by decide) (by decide) h1
    · exact go _ _ (by decide) (by decide) h1
  · rw [if_neg h1]
    by_cases h2 : c.at 0 = ch 'f' ∨ c.at 0 = ch 'F'
    · rw [if_pos h2]
      rcases h2 with h2 | h2
      · exact go _ _ (by decide) (by decide) h2
      · exact go _ _ (by decide) (by decide) h2
    · rw [if_neg h2, pure_apply]
      exact ⟨([], .double), c.text, by decide, rfl, congrArg _ (congrArg _ (Cursor.adv_zero c).symm)⟩

/-! ## Constants as a whole -/

/-- The part that decimal and hexadecimal constants have in common. -/
def floatBody (isd ise : Chr → Bool) (lit : List Chr) : Lex Token := do
  let lit ← matchFractional isd ise lit
  let lit ← matchExponent ise lit
  let t ← matchFloatSuffix
  pure (.floatConst t lit)

theorem decimal_body : matchDecimalFloat = floatBody isdigit isDecExp [] := rfl

theorem suffix_head {x : List Chr × FloatTy} (hx : x ∈ floatSuffixes) {y : Chr} {s : List Chr}
    (h : x.1 = y :: s) : ¬ IsDigit 10 y ∧ y ∉ str "eE" ∧ y ∉ str "pP" ∧ y ≠ ch '.' ∧ y ≠ 0 := by
  have : ∀ x ∈ floatSuffixes, ∀ y ∈ x.1, ¬ IsDigit 10 y ∧ y ∉ str "eE" ∧ y ∉ str "pP" ∧ y ≠ ch '.' ∧ y ≠ 0 := by
    decide
  exact this x hx y (by rw [h]; exact List.mem_cons_self ..)

theorem exp_head {letters e : List Chr} (he : Exponent letters e) : ∃ l s, e = l :: s ∧ l ∈ letters := by
  cases he with
  | plain h _ _ => exact ⟨_, _, rfl, h⟩
  | signed h _ _ _ => exact ⟨_, _, rfl, h⟩

section

variable {isd ise : Chr → Bool} {letters : List Chr}

/-- What the exponent and the suffix give when nothing follows. -/
theorem tail_ok (h0 : ise 0 = false) (hi : ∀ x, x ∈ letters ↔ ise x = true)
    (hsuf : ∀ x ∈ floatSuffixes, ∀ y ∈ x.1, y ∉ letters) {c : Cursor}
    {e lit : List Chr} {x : List Chr × FloatTy} (he : e = [] ∨ Exponent letters e)
    (hx : x ∈ floatSuffixes) (ht : c.text = e ++ x.1) :
    (do let lit ← matchExponent ise lit
        let t ← matchFloatSuffix
        pure (.floatConst t lit) : Lex Token) c =
      some (.ok (.floatConst x.2 (lit ++ e)), c.adv (e ++ x.1).length) := by
  have h1 : matchExponent ise lit c = some (.ok (lit ++ e), c.adv e.length) := by
    rcases he with rfl | he
    · rw [exp_none, List.append_nil]
      · exact congrArg _ (congrArg _ (Cursor.adv_zero c).symm)
      · rw [text_at ht]
        refine head_class h0 ?_
        intro y s hy
        have := hsuf x hx y (by rw [show x.1 = y :: s from hy]; exact List.mem_cons_self ..)
        rw [hi] at this
        simpa using this
    · exact exp_yes hi he ht (fun y s h => (suffix_head hx h).1)
  rw [bind_some h1, bind_some (suffix_ok hx (text_after ht)), pure_apply, Cursor.adv_adv, List.length_append]

theorem tail_inv (h0 : ise 0 = false) (hi : ∀ x, x ∈ letters ↔ ise x = true) {c c' : Cursor}
    {lit : List Chr} {τ : Token}
    (h : (do let lit ← matchExponent ise lit
             let t ← matchFloatSuffix
             pure (.floatConst t lit) : Lex Token) c = some (.ok τ, c')) :
    ∃ e x r, (e = [] ∧ ise (c.at 0) = false ∨ Exponent letters e) ∧ x ∈ floatSuffixes ∧
      c.text = e ++ (x.1 ++ r) ∧ τ = .floatConst x.2 (lit ++ e) ∧ c' = c.adv (e ++ x.1).length := by
  rw [bind_apply] at h
  generalize hm : matchExponent ise lit c = m at h
  rcases m with _ | ⟨_ | lit', c1⟩
  · cases h
  · cases h
  · obtain ⟨e, rfl, rfl, ⟨r, hr⟩, he⟩ := exp_inv h0 hi hm
    obtain ⟨x, r2, hx, hr2, hs⟩ := suffix_inv (c.adv e.length)
    simp only at h
    rw [bind_some hs, pure_apply] at h
    injection h with h
    injection h with h1 h2
    injection h1 with h1
    refine ⟨e, x, r2, he, hx, ?_, h1.symm, ?_⟩
    · rw [text_after hr] at hr2
      rw [hr, hr2]
    · rw [← h2, Cursor.adv_adv, List.length_append]

end

end Kefir.PpToken
