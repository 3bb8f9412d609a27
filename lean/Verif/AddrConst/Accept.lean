import Verif.AddrConst.Sound
/-!
# Address constants: the forms that are accepted
-/
namespace Verif.AddrConst

theorem numeric_accepted (w : World) (junk : W64) : ∀ e : Expr, e.numeric = true →
    constantFlag w e = true ∧ ∃ n, evaluate w junk e = some (.int n) := by
  intro e
  induction e with
  | num t v => intro _; exact ⟨rfl, v, rfl⟩
  | cast t e ih =>
    intro hn
    simp only [Expr.numeric, Bool.and_eq_true] at hn
    obtain ⟨hf, n, he⟩ := ih hn.2
    exact ⟨by simpa only [constantFlag] using hf, castIntegral t n, by simp only [evaluate, he, castValue, hn.1, if_true]⟩
  | add a b iha ihb =>
    intro hn
    simp only [Expr.numeric, Bool.and_eq_true] at hn
    obtain ⟨fa, m, ha⟩ := iha hn.1
    obtain ⟨fb, n, hb⟩ := ihb hn.2
    exact ⟨by simp only [constantFlag, fa, fb, Bool.and_self], m + n, by simp only [evaluate, ha, hb]⟩
  | minus a b iha ihb =>
    intro hn
    simp only [Expr.numeric, Bool.and_eq_true] at hn
    obtain ⟨fa, m, ha⟩ := iha hn.1
    obtain ⟨fb, n, hb⟩ := ihb hn.2
    exact ⟨by simp only [constantFlag, fa, fb, Bool.and_self], m - n, by simp only [evaluate, ha, hb, KVal.integer]⟩
  | cond c a b ihc iha ihb =>
    intro hn
    simp only [Expr.numeric, Bool.and_eq_true] at hn
    obtain ⟨fc, k, hc⟩ := ihc hn.1.1
    obtain ⟨fa, m, ha⟩ := iha hn.1.2
    obtain ⟨fb, n, hb⟩ := ihb hn.2
    refine ⟨by simp only [constantFlag, fc, fa, fb, Bool.and_self], if truth (.int k) then m else n, ?_⟩
    simp only [evaluate, fc, fa, fb, Bool.and_self, if_true, hc, ha, hb]
    split <;> rfl
  | _ => intro hn; cases hn

theorem element_accepted {w : World} {t : Ty} {s : Nat} (hs : w.size t = some s) (p : KPtr) (n : W64) :
    ∃ q, element w t (some p) (some (.int n)) = some q := by
  simp only [element, hs]; exact ⟨_, rfl⟩

theorem index_size {w : World} {a i : Expr} {T : Ty} (hT : typeOf w (.index a i) = some T) :
    ∃ s, w.size T = some s := by
  simp only [typeOf] at hT
  split at hT
  · split at hT
    · rename_i h; injection hT with hT; subst hT; exact Option.isSome_iff_exists.mp h.2
    · cases hT
  · split at hT
    · rename_i h; injection hT with hT; subst hT; exact Option.isSome_iff_exists.mp h.2
    · cases hT
  · cases hT

theorem accepted (w : World) (junk : W64) : ∀ e : Expr,
    (takenAddress w e = true → (typeOf w e).isSome = true →
      constantFlag w e = true ∧ ∃ p, evaluate w junk e = some (.address p)) ∧
    (takenPlace w e = true → (typeOf w e).isSome = true →
      lvalueConstant w e = true ∧ ∃ p, evaluateLvalue w junk e = some p) := by
  intro e
  induction e with
  | num t v => exact ⟨fun h => (by cases h), fun h => by cases h⟩
  | str k n => exact ⟨fun _ _ => ⟨rfl, _, rfl⟩, fun h => by cases h⟩
  | id x =>
    refine ⟨fun h _ => ?_, fun h _ => ?_⟩
    · simp only [takenAddress] at h
      have hc : identConstant w x = true := by
        unfold identConstant
        split at h
        · rename_i hd; rw [hd]; simpa using h
        · rename_i hd; rw [hd]
        · cases h
      exact ⟨hc, ⟨.identifier x, 0⟩, by simp only [evaluate, hc, if_true]⟩
    · simp only [takenPlace] at h
      split at h
      · rename_i hd; subst h
        exact ⟨by simp only [lvalueConstant, hd], ⟨.identifier x, 0⟩, by simp only [evaluateLvalue, hd]⟩
      · rename_i hd
        exact ⟨by simp only [lvalueConstant, hd], ⟨.identifier x, 0⟩, by simp only [evaluateLvalue, hd]⟩
      · cases h
  | member e m ih =>
    refine ⟨fun h => by (cases h), fun h ht => ?_⟩
    simp only [takenPlace] at h
    obtain ⟨T, ht⟩ := Option.isSome_iff_exists.mp ht
    simp only [typeOf] at ht
    split at ht
    · rename_i s hs
      obtain ⟨f, p, hp⟩ := ih.2 h (by rw [hs]; rfl)
      cases hm : w.member s m with
      | none => simp [hm] at ht
      | some ot => exact ⟨f, _, by simp only [evaluateLvalue, hp, hs, hm]; rfl⟩
    · cases ht
  | arrow e m ih =>
    refine ⟨fun h => by (cases h), fun h ht => ?_⟩
    simp only [takenPlace, Bool.and_eq_true] at h
    obtain ⟨T, ht⟩ := Option.isSome_iff_exists.mp ht
    simp only [typeOf] at ht
    cases hte : typeOf w e with
    | none => simp [hte] at ht
    | some te =>
      rw [hte] at h ht
      cases te with
      | ptr t =>
        simp only [Option.map_some, Ty.decay] at ht
        split at ht
        · rename_i s hs
          injection hs with hs; injection hs with hs; subst hs
          obtain ⟨f, p, hp⟩ := ih.1 h.1 (by rw [hte]; rfl)
          cases hm : w.member s m with
          | none => simp [hm] at ht
          | some ot => exact ⟨f, _, by simp only [evaluateLvalue, hp, hte, hm]; rfl⟩
        · cases ht
      | _ => cases h.2
  | index a i iha ihi =>
    refine ⟨fun h => by (cases h), fun h ht => ?_⟩
    obtain ⟨T, ht⟩ := Option.isSome_iff_exists.mp ht
    obtain ⟨s, hs⟩ := index_size ht
    cases hta : typeOf w a with
    | none => simp [typeOf, hta] at ht
    | some ta =>
      cases hti : typeOf w i with
      | none => simp [typeOf, hta, hti] at ht
      | some ti =>
        have htypes := index_types hta hti ht
        simp only [takenPlace, hta, hti] at h
        simp only [lvalueConstant, evaluateLvalue, hta, hti]
        split at h
        · rename_i t l h1
          injection h1 with h1; subst h1
          simp only [Bool.and_eq_true] at h
          obtain ⟨f1, p, hp⟩ := iha.2 h.1 (by rw [hta]; rfl)
          obtain ⟨f2, n, hn⟩ := numeric_accepted w junk i h.2
          have hT : t = T := by
            rcases htypes with hd | ⟨hd, _⟩
            · injection hd
            · cases hd
          subst hT
          exact ⟨by simp only [f1, f2, Bool.and_self], by simp only [hp, hn]; exact element_accepted hs p n⟩
        · rename_i t h1
          injection h1 with h1; subst h1
          simp only [Bool.and_eq_true] at h
          obtain ⟨f1, p, hp⟩ := iha.1 h.1 (by rw [hta]; rfl)
          obtain ⟨f2, n, hn⟩ := numeric_accepted w junk i h.2
          have hT : t = T := by
            rcases htypes with hd | ⟨hd, _⟩
            · injection hd
            · cases hd
          subst hT
          exact ⟨by simp only [f1, f2, Bool.and_self], by simp only [hp, hn, asPointer]; exact element_accepted hs p n⟩
        · rename_i t l h2 _ _
          injection h2 with h2; subst h2
          simp only [Bool.and_eq_true] at h
          obtain ⟨f1, p, hp⟩ := ihi.2 h.1 (by rw [hti]; rfl)
          obtain ⟨f2, n, hn⟩ := numeric_accepted w junk a h.2
          have hai := numeric_type w a ta h.2 hta
          have hT : t = T := by
            rcases htypes with hd | ⟨_, hd⟩
            · exact (integral_not_ptr hai hd).elim
            · injection hd
          subst hT
          cases ta <;> first | (cases hai; done) | skip
          all_goals
            exact ⟨by simp only [f1, f2, Bool.and_self], by simp only [hp, hn]; exact element_accepted hs p n⟩
        · rename_i t h2 _ _
          injection h2 with h2; subst h2
          simp only [Bool.and_eq_true] at h
          obtain ⟨f1, p, hp⟩ := ihi.1 h.1 (by rw [hti]; rfl)
          obtain ⟨f2, n, hn⟩ := numeric_accepted w junk a h.2
          have hai := numeric_type w a ta h.2 hta
          have hT : t = T := by
            rcases htypes with hd | ⟨_, hd⟩
            · exact (integral_not_ptr hai hd).elim
            · injection hd
          subst hT
          cases ta <;> first | (cases hai; done) | skip
          all_goals
            exact ⟨by simp only [f1, f2, Bool.and_self], by simp only [hp, hn, asPointer]; exact element_accepted hs p n⟩
        · cases h
  | addr e ih =>
    refine ⟨fun h ht => ?_, fun h => by cases h⟩
    simp only [takenAddress] at h
    have hte : (typeOf w e).isSome = true := by
      simp only [typeOf] at ht
      split at ht
      · simpa using ht
      · cases ht
    obtain ⟨f, p, hp⟩ := ih.2 h hte
    exact ⟨by simpa only [constantFlag] using f, p, by simp only [evaluate, f, if_true, hp, Option.map_some]⟩
  | deref e ih => exact ⟨fun h => by (cases h), fun h => by cases h⟩
  | add a b iha ihb =>
    refine ⟨fun h ht => ?_, fun h => by cases h⟩
    simp only [takenAddress, Bool.or_eq_true, Bool.and_eq_true] at h
    obtain ⟨T, ht⟩ := Option.isSome_iff_exists.mp ht
    cases hta : typeOf w a with
    | none => simp [typeOf, hta] at ht
    | some ta =>
      cases htb : typeOf w b with
      | none => simp [typeOf, hta, htb] at ht
      | some tb =>
        rcases h with ⟨h1, h2⟩ | ⟨h1, h2⟩
        · obtain ⟨f1, p, hp⟩ := iha.1 h1 (by rw [hta]; rfl)
          obtain ⟨f2, n, hn⟩ := numeric_accepted w junk b h2
          refine ⟨by simp only [constantFlag, f1, f2, Bool.and_self], ?_⟩
          have hbi := numeric_type w b tb h2 htb
          simp only [evaluate, hp, hn, ht]
          rcases add_types_left hta htb hbi ht with ⟨t, s, hd, hs, rfl⟩ | hai
          · exact ⟨_, ptr_offset hs _ _⟩
          · have hT : T.integral = true := by
              simp only [typeOf, hta, htb, Option.map_some, integral_scalar hai, integral_scalar hbi] at ht
              split at ht
              · rename_i h _; injection h with h; subst h; cases hai
              · rename_i h; injection h with h; subst h; cases hbi
              · split at ht
                · injection ht with ht; subst ht; exact common_integral _ _
                · cases ht
              · cases ht
            exact ⟨_, integral_wide_offset hT _ _⟩
        · obtain ⟨f2, n, hn⟩ := numeric_accepted w junk a h1
          obtain ⟨f1, p, hp⟩ := ihb.1 h2 (by rw [htb]; rfl)
          refine ⟨by simp only [constantFlag, f1, f2, Bool.and_self], ?_⟩
          have hai := numeric_type w a ta h1 hta
          simp only [evaluate, hp, hn, ht]
          rcases add_types_right hta htb hai ht with ⟨t, s, hd, hs, rfl⟩ | hbi
          · exact ⟨_, ptr_offset hs _ _⟩
          · have hT : T.integral = true := by
              simp only [typeOf, hta, htb, Option.map_some, integral_scalar hai, integral_scalar hbi] at ht
              split at ht
              · rename_i h _; injection h with h; subst h; cases hai
              · rename_i h; injection h with h; subst h; cases hbi
              · split at ht
                · injection ht with ht; subst ht; exact common_integral _ _
                · cases ht
              · cases ht
            exact ⟨_, integral_wide_offset hT _ _⟩
  | minus a b iha ihb =>
    refine ⟨fun h ht => ?_, fun h => by cases h⟩
    simp only [takenAddress, Bool.and_eq_true] at h
    obtain ⟨T, ht⟩ := Option.isSome_iff_exists.mp ht
    cases hta : typeOf w a with
    | none => simp [typeOf, hta] at ht
    | some ta =>
      cases htb : typeOf w b with
      | none => simp [typeOf, hta, htb] at ht
      | some tb =>
        obtain ⟨f1, p, hp⟩ := iha.1 h.1 (by rw [hta]; rfl)
        obtain ⟨f2, n, hn⟩ := numeric_accepted w junk b h.2
        refine ⟨by simp only [constantFlag, f1, f2, Bool.and_self], ?_⟩
        have hbi := numeric_type w b tb h.2 htb
        simp only [evaluate, hp, hn, ht]
        rcases minus_types hta htb hbi ht with ⟨t, s, hd, hs, rfl⟩ | hai
        · exact ⟨_, ptr_offset hs _ _⟩
        · have hT : T.integral = true := by
            simp only [typeOf, hta, htb, Option.map_some, integral_scalar hai, integral_scalar hbi] at ht
            split at ht
            · rename_i h; injection h with h; subst h; cases hbi
            · rename_i h _; injection h with h; subst h; cases hai
            · split at ht
              · injection ht with ht; subst ht; exact common_integral _ _
              · cases ht
            · cases ht
          exact ⟨_, integral_wide_offset hT _ _⟩
  | cast t e ih =>
    refine ⟨fun h ht => ?_, fun h => by cases h⟩
    cases t with
    | ptr t =>
      simp only [takenAddress, Bool.or_eq_true] at h
      have hte : (typeOf w e).isSome = true := by
        simp only [typeOf] at ht
        cases hx : typeOf w e with
        | none => simp [hx] at ht
        | some _ => rfl
      by_cases hn : e.numeric = true
      · obtain ⟨f, n, he⟩ := numeric_accepted w junk e hn
        exact ⟨by simpa only [constantFlag] using f, ⟨.integer n, 0⟩, by simp [evaluate, he, castValue, Ty.integral]⟩
      · obtain ⟨f, p, hp⟩ := ih.1 (h.resolve_left hn) hte
        exact ⟨by simpa only [constantFlag] using f, p, by simp [evaluate, hp, castValue, Ty.integral]⟩
    | _ => cases h
  | cond c a b _ _ _ => exact ⟨fun h => by (cases h), fun h => by cases h⟩

/-- The forms that are accepted are address constants of the standard. -/
theorem taken_form (w : World) : ∀ e : Expr, (typeOf w e).isSome = true →
    (takenAddress w e = true → constantForm.isAddress w e (constantForm w e) = true) ∧
    (takenPlace w e = true → constantForm w e = some true) := by
  have dec : ∀ {e : Expr} {t : Ty}, typeOf w e = some t → t.decays = true → constantForm w e = some true →
      constantForm.isAddress w e (constantForm w e) = true := by
    intro e t ht hd hf
    simp only [constantForm.isAddress, hf, ht, Option.map_some, hd]; rfl
  have fls : ∀ {e : Expr}, constantForm w e = some false →
      constantForm.isAddress w e (constantForm w e) = true := by
    intro e hf
    simp only [constantForm.isAddress, hf]; rfl
  intro e
  induction e with
  | num t v => exact fun _ => ⟨fun h => (by cases h), fun h => (by cases h)⟩
  | str k n => exact fun _ => ⟨fun _ => dec (t := .arr (.int 1 true) (some n)) rfl rfl rfl, fun h => (by cases h)⟩
  | id x =>
    refine fun _ => ⟨fun h => ?_, fun h => ?_⟩
    · simp only [takenAddress] at h
      split at h
      · rename_i t l st hd; subst h
        exact dec (t := .arr t l) (by simp only [typeOf, hd]) rfl (by simp only [constantForm, hd])
      · rename_i hd
        exact dec (t := .fn) (by simp only [typeOf, hd]) rfl (by simp only [constantForm, hd])
      · cases h
    · simp only [takenPlace] at h
      split at h
      · rename_i hd; subst h; simp only [constantForm, hd]
      · rename_i hd; simp only [constantForm, hd]
      · cases h
  | member e m ih =>
    refine fun ht => ⟨fun h => (by cases h), fun h => ?_⟩
    simp only [takenPlace] at h
    have hte : (typeOf w e).isSome = true := by
      simp only [typeOf] at ht
      cases hx : typeOf w e with
      | none => simp [hx] at ht
      | some _ => rfl
    simp only [constantForm, (ih hte).2 h, if_true]
  | arrow e m ih =>
    refine fun ht => ⟨fun h => (by cases h), fun h => ?_⟩
    simp only [takenPlace, Bool.and_eq_true] at h
    have hte : (typeOf w e).isSome = true := by
      simp only [typeOf] at ht
      cases hx : typeOf w e with
      | none => simp [hx] at ht
      | some _ => rfl
    simp only [constantForm, (ih hte).1 h.1, if_true]
  | index a i iha ihi =>
    refine fun ht => ⟨fun h => (by cases h), fun h => ?_⟩
    obtain ⟨T, ht⟩ := Option.isSome_iff_exists.mp ht
    cases hta : typeOf w a with
    | none => simp [typeOf, hta] at ht
    | some ta =>
      cases hti : typeOf w i with
      | none => simp [typeOf, hta, hti] at ht
      | some ti =>
        simp only [takenPlace, hta, hti] at h
        have L : constantForm.isAddress w a (constantForm w a) = true → i.numeric = true →
            constantForm w (.index a i) = some true := by
          intro h1 h2; simp only [constantForm, h1, h2, and_self, if_true]
        have R : constantForm.isAddress w i (constantForm w i) = true → a.numeric = true →
            constantForm w (.index a i) = some true := by
          intro h1 h2; simp only [constantForm, h1, h2, and_self, if_true]; split <;> rfl
        split at h
        · rename_i t l h1
          injection h1 with h1; subst h1
          simp only [Bool.and_eq_true] at h
          exact L (dec hta rfl ((iha (by rw [hta]; rfl)).2 h.1)) h.2
        · simp only [Bool.and_eq_true] at h
          exact L ((iha (by rw [hta]; rfl)).1 h.1) h.2
        · rename_i t l h2 _ _
          injection h2 with h2; subst h2
          simp only [Bool.and_eq_true] at h
          exact R (dec hti rfl ((ihi (by rw [hti]; rfl)).2 h.1)) h.2
        · simp only [Bool.and_eq_true] at h
          exact R ((ihi (by rw [hti]; rfl)).1 h.1) h.2
        · cases h
  | addr e ih =>
    refine fun ht => ⟨fun h => ?_, fun h => (by cases h)⟩
    simp only [takenAddress] at h
    have hte : (typeOf w e).isSome = true := by
      simp only [typeOf] at ht
      split at ht
      · simpa using ht
      · cases ht
    exact fls (by simp only [constantForm, (ih hte).2 h, if_true])
  | deref e ih => exact fun _ => ⟨fun h => (by cases h), fun h => (by cases h)⟩
  | add a b iha ihb =>
    refine fun ht => ⟨fun h => ?_, fun h => (by cases h)⟩
    simp only [takenAddress, Bool.or_eq_true, Bool.and_eq_true] at h
    obtain ⟨T, ht⟩ := Option.isSome_iff_exists.mp ht
    cases hta : typeOf w a with
    | none => simp [typeOf, hta] at ht
    | some ta =>
      cases htb : typeOf w b with
      | none => simp [typeOf, hta, htb] at ht
      | some tb =>
        rcases h with ⟨h1, h2⟩ | ⟨h1, h2⟩
        · exact fls (by simp only [constantForm, (iha (by rw [hta]; rfl)).1 h1, h2, and_self, if_true])
        · apply fls
          simp only [constantForm, (ihb (by rw [htb]; rfl)).1 h2, h1, and_self, if_true]
          split <;> rfl
  | minus a b iha ihb =>
    refine fun ht => ⟨fun h => ?_, fun h => (by cases h)⟩
    simp only [takenAddress, Bool.and_eq_true] at h
    obtain ⟨T, ht⟩ := Option.isSome_iff_exists.mp ht
    cases hta : typeOf w a with
    | none => simp [typeOf, hta] at ht
    | some ta => exact fls (by simp only [constantForm, (iha (by rw [hta]; rfl)).1 h.1, h.2, and_self, if_true])
  | cast t e ih =>
    refine fun ht => ⟨fun h => ?_, fun h => (by cases h)⟩
    cases t with
    | ptr t =>
      simp only [takenAddress, Bool.or_eq_true] at h
      have hte : (typeOf w e).isSome = true := by
        simp only [typeOf] at ht
        cases hx : typeOf w e with
        | none => simp [hx] at ht
        | some _ => rfl
      apply fls
      simp only [constantForm]
      rw [if_pos (h.imp id (fun h => (ih hte).1 h))]
    | _ => cases h
  | cond c a b _ _ _ => exact fun _ => ⟨fun h => (by cases h), fun h => (by cases h)⟩

end Verif.AddrConst
