import Verif.Preproc.Subst
import Verif.Preproc.ExpandSpec

/-!
# Lemmas for the correctness of first-order macro expansion
-/

namespace Kefir.Preproc.Spec

open Kefir.Preproc Kefir.Lexer

/-- Without white space. -/
def strip (l : List Tok) : List Tok := l.filter (fun t => !t.isWs)

@[simp] theorem strip_nil : strip [] = [] := rfl
@[simp] theorem strip_append (a b : List Tok) : strip (a ++ b) = strip a ++ strip b := by
  simp [strip]
theorem strip_cons (t : Tok) (l : List Tok) :
    strip (t :: l) = if t.isWs then strip l else t :: strip l := by
  cases h : t.isWs <;> simp [strip, h]
theorem strip_all_ws {l : List Tok} (h : ∀ t ∈ l, t.isWs = true) : strip l = [] := by
  simpa [strip] using h
theorem strip_eq_nil {l : List Tok} (h : strip l = []) : ∀ t ∈ l, t.isWs = true := by
  simpa [strip] using h
theorem strip_dropWhile (l : List Tok) : strip (l.dropWhile Tok.isWs) = strip l := by
  induction l with
  | nil => rfl
  | cons t l ih =>
    cases h : t.isWs with
    | true => simp [h, strip_cons, ih]
    | false => simp [h]
theorem strip_reverse (l : List Tok) : strip l.reverse = (strip l).reverse := by simp [strip]
theorem strip_dropTrailing (l : List Tok) : strip (dropTrailingWs l) = strip l := by
  rw [dropTrailingWs, strip_reverse, strip_dropWhile, strip_reverse, List.reverse_reverse]
theorem dropTrailing_mem {l : List Tok} {t : Tok} (h : t ∈ dropTrailingWs l) : t ∈ l := by
  rw [dropTrailingWs, List.mem_reverse] at h
  simpa using (List.dropWhile_sublist _).subset h
theorem strip_mem {l : List Tok} {t : Tok} : t ∈ strip l ↔ t ∈ l ∧ t.isWs = false := by
  simp [strip]

theorem split_append {l a b : List Tok} (h : strip l = a ++ b) :
    ∃ la lb, l = la ++ lb ∧ strip la = a ∧ strip lb = b := List.filter_eq_append_iff.1 h

theorem split_cons {l : List Tok} {t : Tok} {b : List Tok} (h : strip l = t :: b) :
    ∃ w lb, l = w ++ t :: lb ∧ (∀ x ∈ w, x.isWs = true) ∧ t.isWs = false ∧ strip lb = b := by
  obtain ⟨w, lb, h1, h2, h3, h4⟩ := List.filter_eq_cons_iff.1 h
  exact ⟨w, lb, h1, fun x hx => by simpa using h2 x hx, by simpa using h3, h4⟩

theorem dropWhile_append_head (a : List Tok) (t : Tok) (rest : List Tok) (h : t.isWs = false) :
    (a ++ t :: rest).dropWhile Tok.isWs = a.dropWhile Tok.isWs ++ t :: rest := by
  induction a with
  | nil => simp [h]
  | cons x a ih => cases hx : x.isWs <;> simp [hx, ih]

/-! ## Closed texts -/

/-- `Closed` for tokens. -/
def TClosed (commas : Bool) : Nat → List Tok → Prop
  | depth, [] => depth = 0
  | depth, t :: rest =>
    if t = .punct .leftParenthese then TClosed commas (depth + 1) rest
    else if t = .punct .rightParenthese then 0 < depth ∧ TClosed commas (depth - 1) rest
    else if t = .punct .comma then (0 < depth ∨ commas = true) ∧ TClosed commas depth rest
    else TClosed commas depth rest

theorem closed_map (commas : Bool) : ∀ (l : List Tok) (d : Nat),
    Closed false commas d (l.map .plain) ↔ TClosed commas d l
  | [], d => by simp [Closed, TClosed]
  | t :: l, d => by
    rw [List.map_cons, Closed, TClosed, closed_map commas l, closed_map commas l,
      closed_map commas l]
    simp

theorem tclosed_append {c' c : Bool} {d : Nat} (hc : c' = true → 0 < d ∨ c = true) :
    ∀ (a : List Tok) (e : Nat) (b : List Tok), TClosed c' e a → TClosed c d b →
      TClosed c (d + e) (a ++ b)
  | [], e, b, ha, hb => by simp only [TClosed] at ha; subst ha; simpa using hb
  | t :: a, e, b, ha, hb => by
    rw [TClosed] at ha
    rw [List.cons_append, TClosed]
    by_cases h1 : t = .punct .leftParenthese
    · rw [if_pos h1] at ha ⊢
      have := tclosed_append hc a (e + 1) b ha hb
      rwa [← Nat.add_assoc] at this
    · rw [if_neg h1] at ha ⊢
      by_cases h2 : t = .punct .rightParenthese
      · rw [if_pos h2] at ha ⊢
        have := tclosed_append hc a (e - 1) b ha.2 hb
        refine ⟨by omega, ?_⟩
        rwa [show d + e - 1 = d + (e - 1) by omega]
      · rw [if_neg h2] at ha ⊢
        by_cases h3 : t = .punct .comma
        · rw [if_pos h3] at ha ⊢
          refine ⟨?_, tclosed_append hc a e b ha.2 hb⟩
          rcases ha.1 with h | h
          · left; omega
          · rcases hc h with h | h
            · left; omega
            · right; exact h
        · rw [if_neg h3] at ha ⊢
          exact tclosed_append hc a e b ha hb

theorem tclosed_strip (c : Bool) : ∀ (l : List Tok) (d : Nat), TClosed c d (strip l) ↔ TClosed c d l
  | [], d => by simp
  | t :: l, d => by
    rw [strip_cons]
    cases h : t.isWs with
    | true =>
      cases t <;> simp [Tok.isWs] at h
      simp [TClosed, tclosed_strip c l]
    | false =>
      simp only [Bool.false_eq_true, if_false]
      rw [TClosed, TClosed, tclosed_strip c l, tclosed_strip c l, tclosed_strip c l]

theorem tclosed_mono {c c' : Bool} (hc : c = true → c' = true) :
    ∀ (l : List Tok) (d : Nat), TClosed c d l → TClosed c' d l
  | [], _, h => h
  | t :: l, d, h => by
    rw [TClosed] at h ⊢
    by_cases h1 : t = .punct .leftParenthese
    · rw [if_pos h1] at h ⊢; exact tclosed_mono hc l _ h
    · rw [if_neg h1] at h ⊢
      by_cases h2 : t = .punct .rightParenthese
      · rw [if_pos h2] at h ⊢; exact ⟨h.1, tclosed_mono hc l _ h.2⟩
      · rw [if_neg h2] at h ⊢
        by_cases h3 : t = .punct .comma
        · rw [if_pos h3] at h ⊢
          exact ⟨h.1.imp id hc, tclosed_mono hc l _ h.2⟩
        · rw [if_neg h3] at h ⊢; exact tclosed_mono hc l _ h

/-- Lists of closed tokens joined by commas, in parentheses. -/
theorem tclosed_join : ∀ (L : List (List Tok)), (∀ a ∈ L, TClosed true 0 a) → ∀ (c : Bool) (d : Nat)
    (rest : List Tok), TClosed c d rest →
    TClosed c (d + 1) (joinCommas L ++ .punct .rightParenthese :: rest)
  | [], _, c, d, rest, h => by simpa [joinCommas, TClosed] using h
  | [a], ha, c, d, rest, h => by
    have := tclosed_append (c' := true) (c := c) (d := d + 1) (by simp) a 0
      (.punct .rightParenthese :: rest) (ha a (by simp)) (by simpa [TClosed] using h)
    simpa [joinCommas] using this
  | a :: b :: L, ha, c, d, rest, h => by
    have ih := tclosed_join (b :: L) (fun x hx => ha x (by simp [hx])) c d rest h
    have := tclosed_append (c' := true) (c := c) (d := d + 1) (by simp) a 0
      (.punct .comma :: (joinCommas (b :: L) ++ .punct .rightParenthese :: rest)) (ha a (by simp))
      (by simpa [TClosed] using ih)
    simpa [joinCommas] using this

theorem joinCommas_flatMap (f : Tok → List Tok) (hf : f (.punct .comma) = [.punct .comma]) :
    ∀ L : List (List Tok), (joinCommas L).flatMap f = joinCommas (L.map (·.flatMap f))
  | [] => rfl
  | [a] => rfl
  | a :: b :: L => by
    have ih := joinCommas_flatMap f hf (b :: L)
    simp only [joinCommas, List.flatMap_append, List.flatMap_cons, hf, List.map_cons] at ih ⊢
    simp [ih]

theorem joinCommas_strip : ∀ L : List (List Tok), strip (joinCommas L) = joinCommas (L.map strip)
  | [] => rfl
  | [a] => rfl
  | a :: b :: L => by
    have ih := joinCommas_strip (b :: L)
    simp only [joinCommas, strip_append, strip_cons, List.map_cons, Tok.isWs] at ih ⊢
    simp [ih]

theorem writeArgs_eq (H : List Name) : ∀ as, writeArgs H as = as.map (writeText H)
  | [] => rfl
  | a :: as => by simp [writeArgs, writeArgs_eq H as]

theorem instArgs_eq (σ : Name → Option (List Tok)) : ∀ as, instArgs σ as = as.map (instText σ)
  | [] => rfl
  | a :: as => by simp [instArgs, instArgs_eq σ as]

theorem writeText_append (H : List Name) : ∀ a b, writeText H (a ++ b) = writeText H a ++ writeText H b
  | [], b => rfl
  | i :: a, b => by simp [writeText, writeText_append H a b]

theorem writeText_plain (H : List Name) : ∀ l : List Tok, writeText H (l.map .plain) = l
  | [] => rfl
  | t :: l => by simp [writeText, writeItem, writeText_plain H l]

theorem firstOrderText_append {defs P v nm} : ∀ {a b}, FirstOrderText defs P v nm a →
    FirstOrderText defs P v nm b → FirstOrderText defs P v nm (a ++ b)
  | [], b, _, h => h
  | i :: a, b, h1, h2 => by
    rw [List.cons_append, FirstOrderText]
    rw [FirstOrderText] at h1
    exact ⟨h1.1, firstOrderText_append h1.2 h2⟩

theorem firstOrderText_plain {defs P v nm} : ∀ {l : List Tok}, (∀ t ∈ l, Inert defs P t) →
    FirstOrderText defs P v nm (l.map .plain)
  | [], _ => by simp [FirstOrderText]
  | t :: l, h => by
    rw [List.map_cons, FirstOrderText, FirstOrderItem]
    exact ⟨h t (by simp), firstOrderText_plain fun x hx => h x (by simp [hx])⟩

/-! ## The written form of a closed text is closed -/

mutual
theorem closed_write {defs nm} (H : List Name) : ∀ (items : List Item), 
    FirstOrderText defs [] false nm items → ∀ c d, Closed false c d items → 
    TClosed c d (writeText H items)
  | [], _, c, d, h => by simpa [Closed, writeText, TClosed] using h
  | .plain t :: rest, fo, c, d, h => by
    rw [FirstOrderText] at fo
    rw [writeText, writeItem, List.singleton_append, TClosed]
    rw [Closed] at h
    have ih := closed_write H rest fo.2 c
    by_cases h1 : t = .punct .leftParenthese
    · rw [if_pos h1] at h ⊢; exact ih _ h
    · rw [if_neg h1] at h ⊢
      by_cases h2 : t = .punct .rightParenthese
      · rw [if_pos h2] at h ⊢; exact ⟨h.1, ih _ h.2⟩
      · rw [if_neg h2] at h ⊢
        by_cases h3 : t = .punct .comma
        · rw [if_pos (Or.inl h3)] at h; rw [if_pos h3]; exact ⟨h.1, ih _ h.2⟩
        · rw [if_neg h3]; rw [if_neg (by simp [h3])] at h; exact ih _ h
  | .object n :: rest, fo, c, d, h => by
    rw [FirstOrderText] at fo
    rw [Closed] at h
    rw [writeText, writeItem, List.singleton_append, TClosed]
    simpa using closed_write H rest fo.2 c d h
  | .call n args :: rest, fo, c, d, h => by
    rw [FirstOrderText, FirstOrderItem] at fo
    rw [Closed] at h
    obtain ⟨⟨_, _, dd, ps, v, _, _, _, hargs⟩, hrest⟩ := fo
    have ih := closed_write H rest hrest c d h
    rw [writeText, writeItem]
    have := tclosed_join (writeArgs H args) (closed_writeArgs H args v hargs) c d
      (writeText H rest) ih
    simpa [TClosed] using this
theorem closed_writeArgs {defs nm} (H : List Name) : ∀ (args : List (List Item)) (v : Bool),
    FirstOrderArgs defs [] false nm v args → ∀ a ∈ writeArgs H args, TClosed true 0 a
  | [], _, _ => by simp [writeArgs]
  | a :: as, v, h => by
    rw [FirstOrderArgs] at h
    intro x hx
    rw [writeArgs, List.mem_cons] at hx
    rcases hx with rfl | hx
    · exact tclosed_mono (by simp) _ _ (closed_write H a h.1 _ _ h.2.1)
    · exact closed_writeArgs H as v h.2.2 x hx
end

theorem mem_joinCommas {t : Tok} : ∀ {L : List (List Tok)}, t ∈ joinCommas L →
    t = .punct .comma ∨ ∃ a ∈ L, t ∈ a
  | [], h => by simp [joinCommas] at h
  | [a], h => by simp only [joinCommas] at h; exact .inr ⟨a, by simp, h⟩
  | a :: b :: L, h => by
    simp only [joinCommas, List.mem_append, List.mem_cons] at h
    rcases h with h | h | h
    · exact .inr ⟨a, by simp, h⟩
    · exact .inl h
    · rcases mem_joinCommas (L := b :: L) h with h | ⟨x, hx, h⟩
      · exact .inl h
      · exact .inr ⟨x, List.mem_cons_of_mem _ hx, h⟩

/-- Not white space or an internal marker. -/
def Solid (t : Tok) : Prop := t.isWs = false ∧ t ≠ .sentinel ∧ t ≠ .placemaker

theorem inert_solid {defs P t} (h : Inert defs P t) : Solid t := by
  cases t <;> simp [Inert, Solid, Tok.isWs] at h ⊢

mutual
/-- A first-order text contains no white space and no internal markers. -/
theorem write_solid {defs P v nm} (H : List Name) : ∀ (items : List Item), 
    FirstOrderText defs P v nm items → ∀ t ∈ writeText H items, Solid t
  | [], _ => by simp [writeText]
  | .plain t :: rest, fo => by
    rw [FirstOrderText, FirstOrderItem] at fo
    intro x hx
    rw [writeText, writeItem, List.singleton_append, List.mem_cons] at hx
    rcases hx with rfl | hx
    · exact inert_solid fo.1
    · exact write_solid H rest fo.2 x hx
  | .object n :: rest, fo => by
    rw [FirstOrderText] at fo
    intro x hx
    rw [writeText, writeItem, List.singleton_append, List.mem_cons] at hx
    rcases hx with rfl | hx
    · simp [Solid, Tok.isWs]
    · exact write_solid H rest fo.2 x hx
  | .call n args :: rest, fo => by
    rw [FirstOrderText, FirstOrderItem] at fo
    obtain ⟨⟨_, _, dd, ps, w, _, _, _, hargs⟩, hrest⟩ := fo
    have h1 := write_solid H rest hrest
    have h2 := write_solidArgs H args w hargs
    intro x h
    simp only [writeText, writeItem, List.mem_append, List.mem_cons, List.not_mem_nil, or_false] at h
    rcases h with ((h | h | h) | h) | h
    · subst h; simp [Solid, Tok.isWs]
    · subst h; simp [Solid, Tok.isWs]
    · rcases mem_joinCommas h with h | ⟨a, ha, h⟩
      · subst h; simp [Solid, Tok.isWs]
      · exact h2 a ha x h
    · subst h; simp [Solid, Tok.isWs]
    · exact h1 x h
theorem write_solidArgs {defs P v nm} (H : List Name) : ∀ (args : List (List Item)) (w : Bool),
    FirstOrderArgs defs P v nm w args → ∀ a ∈ writeArgs H args, ∀ t ∈ a, Solid t
  | [], _, _ => by simp [writeArgs]
  | a :: as, w, h => by
    rw [FirstOrderArgs] at h
    intro x hx
    rw [writeArgs, List.mem_cons] at hx
    rcases hx with rfl | hx
    · exact write_solid H a h.1
    · exact write_solidArgs H as w h.2.2 x hx
end

/-! ## Instantiating a body -/

/-- What is known about the argument values. -/
structure Values (defs : Name → Option Def) (P : List Name) (v : Bool)
    (σ : Name → Option (List Tok)) : Prop where
  dom : ∀ n, (σ n).isSome ↔ n ∈ P
  inert : ∀ n x, σ n = some x → ∀ t ∈ x, Inert defs [] t
  closed : ∀ n x, σ n = some x → TClosed (v && decide (n = vaArgs)) 0 x

theorem closed_append_map {v c : Bool} : ∀ (l : List Tok) (d e : Nat) (rest : List Item) (c' : Bool),
    (c' = true → 0 < d ∨ c = true) → TClosed c' e l → Closed false c d rest →
    Closed false c (d + e) (l.map .plain ++ rest)
  | [], d, e, rest, c', _, h, hr => by simp only [TClosed] at h; subst h; simpa using hr
  | t :: l, d, e, rest, c', hc, h, hr => by
    rw [TClosed] at h
    rw [List.map_cons, List.cons_append, Closed]
    by_cases h1 : t = .punct .leftParenthese
    · rw [if_pos h1] at h ⊢
      have := closed_append_map (v := v) l d (e + 1) rest c' hc h hr
      rwa [← Nat.add_assoc] at this
    · rw [if_neg h1] at h ⊢
      by_cases h2 : t = .punct .rightParenthese
      · rw [if_pos h2] at h ⊢
        have := closed_append_map (v := v) l d (e - 1) rest c' hc h.2 hr
        refine ⟨by omega, ?_⟩
        rwa [show d + e - 1 = d + (e - 1) by omega]
      · rw [if_neg h2] at h ⊢
        by_cases h3 : t = .punct .comma
        · rw [if_pos h3] at h; rw [if_pos (Or.inl h3)]
          refine ⟨?_, closed_append_map (v := v) l d e rest c' hc h.2 hr⟩
          rcases h.1 with g | g
          · left; omega
          · rcases hc g with g | g
            · left; omega
            · right; exact g
        · rw [if_neg h3] at h; rw [if_neg (by simp [h3])]
          exact closed_append_map (v := v) l d e rest c' hc h hr

/-- Instantiating keeps a text closed. -/
theorem closed_inst {defs P v σ} (hv : Values defs P v σ) (hva : v = true → vaArgs ∈ P) (c : Bool) :
    ∀ (items : List Item) (d : Nat), Closed v c d items → Closed false c d (instText σ items)
  | [], d, h => by simpa [instText, Closed] using h
  | .object n :: rest, d, h => by
    rw [Closed] at h
    simpa [instText, instItem, Closed] using closed_inst hv hva c rest d h
  | .call n args :: rest, d, h => by
    rw [Closed] at h
    simpa [instText, instItem, Closed] using closed_inst hv hva c rest d h
  | .plain t :: rest, d, h => by
    have ih := closed_inst hv hva c rest
    rw [Closed] at h
    rw [instText]
    by_cases hi : ∃ n s, t = .ident n s
    · obtain ⟨n, s, rfl⟩ := hi
      rw [if_neg (by simp), if_neg (by simp)] at h
      rw [instItem]
      cases hs : σ n with
      | some x =>
        have hcl := hv.closed n x hs
        simp only
        have key : ((v && decide (n = vaArgs)) = true → 0 < d ∨ c = true) ∧
            Closed v c d rest := by
          by_cases hc : v = true ∧ n = vaArgs
          · rw [if_pos (by right; exact ⟨hc.1, s, by rw [hc.2]; rfl⟩)] at h
            exact ⟨fun _ => h.1, h.2⟩
          · rw [if_neg (by
              rintro (h' | ⟨h1, s', h2⟩)
              · cases h'
              · simp only [Tok.ident.injEq] at h2
                exact hc ⟨h1, h2.1⟩)] at h
            refine ⟨fun hx => ?_, h⟩
            simp at hx
            exact absurd hx hc
        have := closed_append_map (v := v) x d 0 (instText σ rest) _ key.1 hcl (ih d key.2)
        simpa using this
      | none =>
        have hn : n ∉ P := by rw [← hv.dom, hs]; simp
        simp only [List.singleton_append]
        have h' : Closed v c d rest := by
          rw [if_neg] at h
          · exact h
          · rintro (h' | ⟨h1, s', h2⟩)
            · cases h'
            · simp only [Tok.ident.injEq] at h2
              exact hn (by rw [h2.1]; exact hva h1)
        rw [Closed, if_neg (by simp), if_neg (by simp), if_neg (by simp)]
        exact ih d h'
    · have hit : instItem σ (.plain t) = [.plain t] := by
        cases t <;> simp [instItem] at hi ⊢
      rw [hit, List.singleton_append, Closed]
      by_cases h1 : t = .punct .leftParenthese
      · rw [if_pos h1] at h ⊢; exact ih _ h
      · rw [if_neg h1] at h ⊢
        by_cases h2 : t = .punct .rightParenthese
        · rw [if_pos h2] at h ⊢; exact ⟨h.1, ih _ h.2⟩
        · rw [if_neg h2] at h ⊢
          by_cases h3 : t = .punct .comma
          · rw [if_pos (Or.inl h3)] at h; rw [if_pos (Or.inl h3)]; exact ⟨h.1, ih _ h.2⟩
          · rw [if_neg (by
              rintro (h' | ⟨_, s', h2⟩)
              · exact h3 h'
              · exact hi ⟨_, _, h2⟩)] at h
            rw [if_neg (by simp [h3])]
            exact ih _ h

theorem inert_of_not_mem {defs P t} (h : Inert defs P t) (hn : ∀ n s, t = .ident n s → n ∉ P) :
    Inert defs [] t := by
  cases t <;> simp [Inert] at h ⊢
  rcases h with h | h
  · exact absurd h (hn _ _ rfl)
  · exact h

mutual
/-- Instantiating a first-order body gives a first-order text. -/
theorem firstOrder_inst {defs P v σ} (hv : Values defs P v σ) (hva : v = true → vaArgs ∈ P)
    {nm nm' : Name → Prop} (hnm : ∀ k, nm k → nm' k) :
    ∀ (items : List Item), FirstOrderText defs P v nm items →
    FirstOrderText defs [] false nm' (instText σ items)
  | [], _ => by simp [instText, FirstOrderText]
  | .plain t :: rest, fo => by
    rw [FirstOrderText, FirstOrderItem] at fo
    rw [instText]
    refine firstOrderText_append ?_ (firstOrder_inst hv hva hnm rest fo.2)
    cases t with
    | ident n s =>
      rw [instItem]
      cases hs : σ n with
      | some x => exact firstOrderText_plain (hv.inert n x hs)
      | none =>
        have hn : n ∉ P := by rw [← hv.dom, hs]; simp
        have hin := inert_of_not_mem fo.1 (by rintro _ _ ⟨⟩; exact hn)
        simpa [FirstOrderText, FirstOrderItem] using hin
    | _ =>
      have hin := inert_of_not_mem fo.1 (by rintro _ _ ⟨⟩)
      simpa [instItem, FirstOrderText, FirstOrderItem] using hin
  | .object n :: rest, fo => by
    rw [FirstOrderText, FirstOrderItem] at fo
    rw [instText, instItem, List.singleton_append, FirstOrderText, FirstOrderItem]
    exact ⟨⟨hnm _ fo.1.1, by simp, fo.1.2.2⟩, firstOrder_inst hv hva hnm rest fo.2⟩
  | .call n args :: rest, fo => by
    rw [FirstOrderText, FirstOrderItem] at fo
    obtain ⟨⟨h1, _, d, ps, w, h2, h3, h4, h5⟩, hr⟩ := fo
    rw [instText, instItem, List.singleton_append, FirstOrderText, FirstOrderItem]
    refine ⟨⟨hnm _ h1, by simp, d, ps, w, h2, h3, by simp [instArgs_eq, h4],
      firstOrder_instArgs hv hva hnm w args h5⟩, firstOrder_inst hv hva hnm rest hr⟩
theorem firstOrder_instArgs {defs P v σ} (hv : Values defs P v σ) (hva : v = true → vaArgs ∈ P)
    {nm nm' : Name → Prop} (hnm : ∀ k, nm k → nm' k) (w : Bool) :
    ∀ (args : List (List Item)), FirstOrderArgs defs P v nm w args →
    FirstOrderArgs defs [] false nm' w (instArgs σ args)
  | [], _ => by simp [instArgs, FirstOrderArgs]
  | a :: as, h => by
    rw [FirstOrderArgs] at h
    rw [instArgs, FirstOrderArgs]
    refine ⟨firstOrder_inst hv hva hnm a h.1, ?_, firstOrder_instArgs hv hva hnm w as h.2.2⟩
    have he : (instArgs σ as).isEmpty = as.isEmpty := by cases as <;> rfl
    rw [he]
    exact closed_inst hv hva _ a 0 h.2.1
end

/-- What substitution and marking make of a body token. -/
def substPaint (σ : Name → Option (List Tok)) (n : Name) (t : Tok) : List Tok :=
  match t with
  | .ident k s =>
    match σ k with
    | some x => x
    | none => [paint n (.ident k s)]
  | t => [t]

mutual
/-- The written form of an instantiated body. -/
theorem write_inst {defs P v σ} (hv : Values defs P v σ) {n : Name} {H : List Name}
    {nm : Name → Prop} (hn : ∀ k, nm k → k ≠ n → k ∉ H) (hd : defs n ≠ none) :
    ∀ (items : List Item), FirstOrderText defs P v nm items →
    writeText (n :: H) (instText σ items) = (writeText [] items).flatMap (substPaint σ n)
  | [], _ => by simp [instText, writeText]
  | .plain t :: rest, fo => by
    rw [FirstOrderText, FirstOrderItem] at fo
    rw [instText, writeText_append, writeText, List.flatMap_append,
      write_inst hv hn hd rest fo.2]
    congr 1
    cases t with
    | ident k s =>
      rw [instItem, writeItem, List.flatMap_singleton, substPaint]
      cases hs : σ k with
      | some x => simp [writeText_plain]
      | none =>
        have hk : k ∉ P := by rw [← hv.dom, hs]; simp
        simp only [writeText, writeItem, List.append_nil, paint]
        by_cases hkn : k = n
        · subst hkn
          have := inert_of_not_mem fo.1 (by rintro _ _ ⟨⟩; exact hk)
          simp only [Inert, List.not_mem_nil, false_or] at this
          rcases this.2 with h | h
          · simp [h]
          · exact absurd h hd
        · rw [if_neg hkn]
    | _ => simp [instItem, writeText, writeItem, substPaint]
  | .object k :: rest, fo => by
    rw [FirstOrderText, FirstOrderItem] at fo
    rw [instText, writeText_append, writeText, List.flatMap_append,
      write_inst hv hn hd rest fo.2]
    congr 1
    exact write_name hv hn k fo.1.1 fo.1.2.1 
  | .call k args :: rest, fo => by
    rw [FirstOrderText, FirstOrderItem] at fo
    obtain ⟨⟨h1, h1', d, ps, w, h2, h3, h4, h5⟩, hr⟩ := fo
    rw [instText, writeText_append, writeText, List.flatMap_append,
      write_inst hv hn hd rest hr]
    congr 1
    have hname := write_name hv hn k h1 h1'
    simp only [instItem, writeText, writeItem, List.flatMap_singleton, List.append_nil] at hname ⊢
    rw [List.flatMap_append, List.flatMap_cons, ← hname, List.flatMap_cons,
      joinCommas_flatMap _ (by rfl), write_instArgs hv hn hd w args h5]
    simp [substPaint]
theorem write_name {defs P v σ} (hv : Values defs P v σ) {n : Name} {H : List Name}
    {nm : Name → Prop} (hn : ∀ k, nm k → k ≠ n → k ∉ H) (k : Name) (h : nm k) (hk : k ∉ P) :
    writeText (n :: H) (instItem σ (.object k)) =
      (writeItem [] (.object k)).flatMap (substPaint σ n) := by
  have hs : σ k = none := by
    cases hs : σ k with
    | none => rfl
    | some x => exact absurd ((hv.dom k).1 (by simp [hs])) hk
  simp only [instItem, writeText, writeItem, List.append_nil, List.flatMap_singleton, substPaint, hs,
    paint]
  by_cases hkn : k = n
  · subst hkn; simp
  · simp [hkn, hn k h hkn]
theorem write_instArgs {defs P v σ} (hv : Values defs P v σ) {n : Name} {H : List Name}
    {nm : Name → Prop} (hn : ∀ k, nm k → k ≠ n → k ∉ H) (hd : defs n ≠ none) (w : Bool) :
    ∀ (args : List (List Item)), FirstOrderArgs defs P v nm w args →
    writeArgs (n :: H) (instArgs σ args) =
      (writeArgs [] args).map (·.flatMap (substPaint σ n))
  | [], _ => rfl
  | a :: as, h => by
    rw [FirstOrderArgs] at h
    rw [instArgs, writeArgs, writeArgs, List.map_cons, write_inst hv hn hd a h.1,
      write_instArgs hv hn hd w as h.2.2]
end

end Kefir.Preproc.Spec
