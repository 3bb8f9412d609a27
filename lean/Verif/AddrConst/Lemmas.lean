import Verif.AddrConst.Cover
import Verif.AddrConst.Model
/-!
# Address constants: lemmas
-/
namespace Verif.AddrConst

theorem common_integral (a b : Ty) : (a.common b).integral = true := by
  unfold Ty.common
  cases a <;> cases b <;> simp only [Ty.promote] <;> (repeat' split) <;> rfl

theorem integral_decay {t : Ty} (h : t.decay.integral = true) : t.integral = true := by
  cases t <;> first | exact h | cases h

theorem integral_scalar {t : Ty} (h : t.integral = true) : t.decay = t := by
  cases t <;> first | rfl | cases h

theorem numeric_type (w : World) : ∀ (e : Expr) (t : Ty), e.numeric = true → typeOf w e = some t →
    t.integral = true := by
  intro e
  induction e with
  | num t v =>
    intro t' _ ht; simp only [typeOf] at ht; split at ht
    · rename_i h; injection ht with ht; subst ht; exact h
    · cases ht
  | cast t e ih =>
    intro t' hn ht
    simp only [Expr.numeric, Bool.and_eq_true] at hn
    simp only [typeOf] at ht
    split at ht
    · split at ht
      · injection ht with ht; subst ht; exact hn.1
      · cases ht
    · cases ht
  | add a b iha ihb =>
    intro t' hn ht
    simp only [Expr.numeric, Bool.and_eq_true] at hn
    simp only [typeOf] at ht
    cases hta : typeOf w a with
    | none => simp [hta] at ht
    | some ta =>
      cases htb : typeOf w b with
      | none => simp [hta, htb] at ht
      | some tb =>
        have ha := iha ta hn.1 hta
        have hb := ihb tb hn.2 htb
        simp only [hta, htb, Option.map_some, integral_scalar ha, integral_scalar hb] at ht
        split at ht
        · rename_i heq _; injection heq with heq; subst heq; cases ha
        · rename_i heq; injection heq with heq; subst heq; cases hb
        · split at ht
          · injection ht with ht; subst ht; exact common_integral _ _
          · cases ht
        · cases ht
  | minus a b iha ihb =>
    intro t' hn ht
    simp only [Expr.numeric, Bool.and_eq_true] at hn
    simp only [typeOf] at ht
    cases hta : typeOf w a with
    | none => simp [hta] at ht
    | some ta =>
      cases htb : typeOf w b with
      | none => simp [hta, htb] at ht
      | some tb =>
        have ha := iha ta hn.1 hta
        have hb := ihb tb hn.2 htb
        simp only [hta, htb, Option.map_some, integral_scalar ha, integral_scalar hb] at ht
        split at ht
        · rename_i heq; injection heq with heq; subst heq; cases hb
        · rename_i heq _; injection heq with heq; subst heq; cases ha
        · split at ht
          · injection ht with ht; subst ht; exact common_integral _ _
          · cases ht
        · cases ht
  | cond c a b ihc iha ihb =>
    intro t' hn ht
    simp only [Expr.numeric, Bool.and_eq_true] at hn
    simp only [typeOf] at ht
    split at ht
    · rename_i tc ta tb hc ha hb
      split at ht
      · injection ht with ht; subst ht
        cases hta : typeOf w a with
        | none => simp [hta] at ha
        | some ta' =>
          have h := iha ta' hn.1.2 hta
          simp only [hta, Option.map_some, integral_scalar h] at ha
          injection ha with ha; subst ha; exact h
      · cases ht
    · cases ht
  | _ => intro t hn; cases hn

theorem numeric_int (w : World) (junk : W64) : ∀ (e : Expr) (v : KVal), e.numeric = true →
    evaluate w junk e = some v → ∃ n, v = .int n := by
  intro e
  induction e with
  | num t v =>
    intro v' _ h; simp only [evaluate] at h; injection h with h; exact ⟨_, h.symm⟩
  | cast t e ih =>
    intro v hn h
    simp only [Expr.numeric, Bool.and_eq_true] at hn
    simp only [evaluate] at h
    split at h
    · rename_i u hu
      obtain ⟨n, rfl⟩ := ih u hn.2 hu
      simp only [castValue, hn.1, if_true] at h
      injection h with h; exact ⟨_, h.symm⟩
    · cases h
  | add a b iha ihb =>
    intro v hn h
    simp only [Expr.numeric, Bool.and_eq_true] at hn
    simp only [evaluate] at h
    split at h
    · rename_i h1 h2; obtain ⟨n, hx⟩ := iha _ hn.1 h1; cases hx
    · rename_i h1 h2; obtain ⟨n, hx⟩ := ihb _ hn.2 h2; cases hx
    · injection h with h; exact ⟨_, h.symm⟩
    · cases h
  | minus a b iha ihb =>
    intro v hn h
    simp only [Expr.numeric, Bool.and_eq_true] at hn
    simp only [evaluate] at h
    split at h
    · rename_i h1 h2; obtain ⟨n, hx⟩ := iha _ hn.1 h1; cases hx
    · rename_i h1 h2; obtain ⟨n, hx⟩ := iha _ hn.1 h1; cases hx
    · injection h with h; exact ⟨_, h.symm⟩
    · cases h
  | cond c a b ihc iha ihb =>
    intro v hn h
    simp only [Expr.numeric, Bool.and_eq_true] at hn
    simp only [evaluate] at h
    split at h
    · split at h
      · split at h
        · exact iha _ hn.1.2 h
        · exact ihb _ hn.2 h
      · cases h
    · cases h
  | _ => intro v hn; cases hn

/-- An integer value has an integer type. -/
theorem int_type (w : World) (junk : W64) : ∀ (e : Expr) (n : W64) (t : Ty), tame w e = true →
    evaluate w junk e = some (.int n) → typeOf w e = some t → t.integral = true := by
  intro e
  induction e with
  | num t v => intro n t' _ _ ht; exact numeric_type w _ t' (by
      simp only [typeOf] at ht; split at ht
      · assumption
      · cases ht) ht
  | str k l => intro n t _ h _; simp [evaluate] at h
  | id x => intro n t _ h _; simp only [evaluate] at h; split at h <;> cases h
  | member _ _ _ => intro n t _ h _; cases h
  | arrow _ _ _ => intro n t _ h _; cases h
  | index _ _ _ _ => intro n t _ h _; cases h
  | deref _ _ => intro n t _ h _; cases h
  | addr e _ =>
    intro n t _ h _; simp only [evaluate] at h
    split at h
    · cases hx : evaluateLvalue w junk e <;> simp [hx] at h
    · cases h
  | add a b iha ihb =>
    intro n t htm h ht
    simp only [tame, Bool.and_eq_true] at htm
    simp only [evaluate] at h
    have key : ∀ (T : Option Ty) (p : KPtr) (i : W64), pointerOffset w T p i ≠ some (.int n) := by
      intro T p i hx; simp only [pointerOffset] at hx
      (repeat' split at hx) <;> first | cases hx | (injection hx with hx; cases hx)
    split at h
    · exact absurd h (key _ _ _)
    · exact absurd h (key _ _ _)
    · rename_i m n' h1 h2
      simp only [typeOf] at ht
      cases hta : typeOf w a with
      | none => simp [hta] at ht
      | some ta =>
        cases htb : typeOf w b with
        | none => simp [hta, htb] at ht
        | some tb =>
          have ha := iha _ ta htm.1.1.1 h1 hta
          have hb := ihb _ tb htm.1.1.2 h2 htb
          simp only [hta, htb, Option.map_some, integral_scalar ha, integral_scalar hb] at ht
          split at ht
          · rename_i heq _; injection heq with heq; subst heq; cases ha
          · rename_i heq; injection heq with heq; subst heq; cases hb
          · split at ht
            · injection ht with ht; subst ht; exact common_integral _ _
            · cases ht
          · cases ht
    · cases h
  | minus a b iha ihb =>
    intro n t htm h ht
    simp only [tame, Bool.and_eq_true] at htm
    simp only [evaluate] at h
    have key : ∀ (T : Option Ty) (p : KPtr) (i : W64), pointerOffset w T p i ≠ some (.int n) := by
      intro T p i hx; simp only [pointerOffset] at hx
      (repeat' split at hx) <;> first | cases hx | (injection hx with hx; cases hx)
    split at h
    · rename_i h1 h2; obtain ⟨_, hx⟩ := numeric_int w junk _ _ htm.1.2 h2; cases hx
    · exact absurd h (key _ _ _)
    · rename_i m y h1 h2
      simp only [typeOf] at ht
      cases hta : typeOf w a with
      | none => simp [hta] at ht
      | some ta =>
        cases htb : typeOf w b with
        | none => simp [hta, htb] at ht
        | some tb =>
          have ha := iha _ ta htm.1.1.1 h1 hta
          have hb := numeric_type w b tb htm.1.2 htb
          simp only [hta, htb, Option.map_some, integral_scalar ha, integral_scalar hb] at ht
          split at ht
          · rename_i heq; injection heq with heq; subst heq; cases hb
          · rename_i heq _; injection heq with heq; subst heq; cases ha
          · split at ht
            · injection ht with ht; subst ht; exact common_integral _ _
            · cases ht
          · cases ht
    · cases h
  | cast t e ih =>
    intro n t' htm h ht
    simp only [evaluate] at h
    simp only [typeOf] at ht
    split at ht
    · split at ht
      · injection ht with ht; subst ht
        split at h
        · simp only [castValue] at h
          split at h
          · assumption
          · split at h
            · split at h <;> (injection h with h; cases h)
            · cases h
        · cases h
      · cases ht
    · cases ht
  | cond c a b ihc iha ihb =>
    intro n t htm h ht
    simp only [tame, Bool.and_eq_true] at htm
    simp only [evaluate] at h
    simp only [typeOf] at ht
    split at ht
    · rename_i tc ta tb hc ha hb
      split at ht
      · rename_i hs
        injection ht with ht; subst ht
        split at h
        · split at h
          · split at h
            · cases hta : typeOf w a with
              | none => simp [hta] at ha
              | some ta' =>
                have hi := iha n ta' htm.1.1.2 h hta
                simp only [hta, Option.map_some, integral_scalar hi] at ha
                injection ha with ha; subst ha; exact hi
            · cases htb : typeOf w b with
              | none => simp [htb] at hb
              | some tb' =>
                have hi := ihb n tb' htm.1.2 h htb
                simp only [htb, Option.map_some, integral_scalar hi] at hb
                injection hb with hb; subst hb; rw [hs.2.2]; exact hi
          · cases h
        · cases h
      · cases ht
    · cases ht

end Verif.AddrConst
