import Verif.AddrConst.Lemmas
/-!
# Address constants: the value is right
-/
namespace Verif.AddrConst

theorem castIntegral_convert {t : Ty} (hu : t.usual = true) (hi : t.integral = true) (v : W64) :
    castIntegral t v = convert t v := by
  cases t with
  | bool => rfl
  | int s sg =>
    simp only [Ty.usual, Bool.or_eq_true, beq_iff_eq] at hu
    rcases hu with ((rfl | rfl) | rfl) | rfl <;> cases sg <;>
      simp [castIntegral, convert]
  | _ => cases hi

theorem convert_wide {t : Ty} (h : t.wide = true) (v : W64) : convert t v = v := by
  cases t with
  | ptr _ => rfl
  | int s sg =>
    have : s = 8 := by
      unfold Ty.wide at h
      split at h
      · rename_i heq; cases heq
      · rename_i heq; injection heq
      · cases h
    subst this
    cases sg <;> simp [convert]
  | _ => cases h

theorem integral_not_ptr {t t' : Ty} (h : t.integral = true) (e : t.decay = .ptr t') : False := by
  cases t <;> first | (cases e; done) | (cases h; done)

theorem index_left {w : World} {P : Placement} {a i : Expr} {ta t : Ty} {x y : W64} {s : Nat}
    (hta : typeOf w a = some ta) (hd : ta.decay = .ptr t) (hx : valueOf w P a = some x)
    (hy : valueOf w P i = some y) (hs : w.size t = some s) :
    meaning w P (.index a i) = some (.obj (x + y * BitVec.ofNat 64 s) t) := by
  simp only [valueOf] at hx hy
  simp only [meaning, hta, Option.map_some, hd, hx, hy, hs]

theorem index_right {w : World} {P : Placement} {a i : Expr} {ta ti t : Ty} {x y : W64} {s : Nat}
    (hta : typeOf w a = some ta) (hi : ta.integral = true) (hti : typeOf w i = some ti)
    (hd : ti.decay = .ptr t) (hx : valueOf w P i = some x)
    (hy : valueOf w P a = some y) (hs : w.size t = some s) :
    meaning w P (.index a i) = some (.obj (x + y * BitVec.ofNat 64 s) t) := by
  simp only [valueOf] at hx hy
  simp only [meaning, hta, hti, Option.map_some, hd, hx, hy, integral_scalar hi]
  cases ta <;> first | (cases hi; done) | (simp only [hs]; rfl)

theorem add_left {w : World} {P : Placement} {a i : Expr} {ta t : Ty} {x y : W64} {s : Nat}
    (hta : typeOf w a = some ta) (hd : ta.decay = .ptr t) (hx : valueOf w P a = some x)
    (hy : valueOf w P i = some y) (hs : w.size t = some s) :
    valueOf w P (.add a i) = some (x + y * BitVec.ofNat 64 s) := by
  simp only [valueOf] at hx hy
  simp only [valueOf, meaning, hta, Option.map_some, hd, hx, hy, hs]; rfl

theorem add_right {w : World} {P : Placement} {a i : Expr} {ta ti t : Ty} {x y : W64} {s : Nat}
    (hta : typeOf w a = some ta) (hi : ta.integral = true) (hti : typeOf w i = some ti)
    (hd : ti.decay = .ptr t) (hx : valueOf w P i = some x)
    (hy : valueOf w P a = some y) (hs : w.size t = some s) :
    valueOf w P (.add a i) = some (x + y * BitVec.ofNat 64 s) := by
  simp only [valueOf] at hx hy
  simp only [valueOf, meaning, hta, hti, Option.map_some, hd, hx, hy, integral_scalar hi]
  cases ta <;> first | (cases hi; done) | (simp only [hs]; rfl)

theorem add_int {w : World} {P : Placement} {a b : Expr} {ta tb : Ty} {x y : W64}
    (hta : typeOf w a = some ta) (ha : ta.integral = true) (htb : typeOf w b = some tb)
    (hb : tb.integral = true) (hx : valueOf w P a = some x) (hy : valueOf w P b = some y) :
    valueOf w P (.add a b) = some (convert (ta.common tb) (x + y)) ∧
      typeOf w (.add a b) = some (ta.common tb) := by
  simp only [valueOf] at hx hy
  simp only [valueOf, meaning, typeOf, hta, htb, Option.map_some, hx, hy, integral_scalar ha, integral_scalar hb]
  cases ta <;> first | (cases ha; done) | skip
  all_goals cases tb <;> first | (cases hb; done) | exact ⟨rfl, rfl⟩

theorem minus_left {w : World} {P : Placement} {a i : Expr} {ta ti t : Ty} {x y : W64} {s : Nat}
    (hta : typeOf w a = some ta) (hd : ta.decay = .ptr t) (hti : typeOf w i = some ti)
    (hi : ti.integral = true) (hx : valueOf w P a = some x)
    (hy : valueOf w P i = some y) (hs : w.size t = some s) :
    valueOf w P (.minus a i) = some (x - y * BitVec.ofNat 64 s) := by
  simp only [valueOf] at hx hy
  simp only [valueOf, meaning, hta, hti, Option.map_some, hd, hx, hy, integral_scalar hi]
  cases ti <;> first | (cases hi; done) | (simp only [hs]; rfl)

theorem minus_int {w : World} {P : Placement} {a b : Expr} {ta tb : Ty} {x y : W64}
    (hta : typeOf w a = some ta) (ha : ta.integral = true) (htb : typeOf w b = some tb)
    (hb : tb.integral = true) (hx : valueOf w P a = some x) (hy : valueOf w P b = some y) :
    valueOf w P (.minus a b) = some (convert (ta.common tb) (x - y)) ∧
      typeOf w (.minus a b) = some (ta.common tb) := by
  simp only [valueOf] at hx hy
  simp only [valueOf, meaning, typeOf, hta, htb, Option.map_some, hx, hy, integral_scalar ha, integral_scalar hb]
  cases ta <;> first | (cases ha; done) | skip
  all_goals cases tb <;> first | (cases hb; done) | exact ⟨rfl, rfl⟩

/-- The types of the operands of `+` when the right one is an integer. -/
theorem add_types_left {w : World} {a b : Expr} {ta tb T : Ty} (hta : typeOf w a = some ta)
    (htb : typeOf w b = some tb) (hb : tb.integral = true) (hT : typeOf w (.add a b) = some T) :
    (∃ t s, ta.decay = .ptr t ∧ w.size t = some s ∧ T = .ptr t) ∨ ta.integral = true := by
  simp only [typeOf, hta, htb, Option.map_some, integral_scalar hb] at hT
  split at hT
  · rename_i t tb' h1 h2
    injection h1 with h1
    split at hT
    · rename_i hs
      injection hT with hT
      obtain ⟨s, hs⟩ := Option.isSome_iff_exists.mp hs.2
      exact .inl ⟨_, s, h1, hs, hT.symm⟩
    · cases hT
  · rename_i h2; injection h2 with h2; subst h2; cases hb
  · rename_i h1 h2; injection h1 with h1
    split at hT
    · rename_i hs; exact .inr (integral_decay (h1 ▸ hs.1))
    · cases hT
  · cases hT

theorem add_types_right {w : World} {a b : Expr} {ta tb T : Ty} (hta : typeOf w a = some ta)
    (htb : typeOf w b = some tb) (ha : ta.integral = true) (hT : typeOf w (.add a b) = some T) :
    (∃ t s, tb.decay = .ptr t ∧ w.size t = some s ∧ T = .ptr t) ∨ tb.integral = true := by
  simp only [typeOf, hta, htb, Option.map_some, integral_scalar ha] at hT
  split at hT
  · rename_i h1 h2; injection h1 with h1; subst h1; cases ha
  · rename_i h2; injection h2 with h2
    split at hT
    · rename_i hs
      injection hT with hT
      obtain ⟨s, hs⟩ := Option.isSome_iff_exists.mp hs.2
      exact .inl ⟨_, s, h2, hs, hT.symm⟩
    · cases hT
  · rename_i h1 h2; injection h2 with h2
    split at hT
    · rename_i hs; exact .inr (integral_decay (h2 ▸ hs.2))
    · cases hT
  · cases hT

theorem minus_types {w : World} {a b : Expr} {ta tb T : Ty} (hta : typeOf w a = some ta)
    (htb : typeOf w b = some tb) (hb : tb.integral = true) (hT : typeOf w (.minus a b) = some T) :
    (∃ t s, ta.decay = .ptr t ∧ w.size t = some s ∧ T = .ptr t) ∨ ta.integral = true := by
  simp only [typeOf, hta, htb, Option.map_some, integral_scalar hb] at hT
  split at hT
  · rename_i h2; injection h2 with h2; subst h2; cases hb
  · rename_i t tb' h1 h2
    injection h1 with h1
    split at hT
    · rename_i hs
      injection hT with hT
      obtain ⟨s, hs⟩ := Option.isSome_iff_exists.mp hs.2
      exact .inl ⟨_, s, h1, hs, hT.symm⟩
    · cases hT
  · rename_i h1 h2; injection h1 with h1
    split at hT
    · rename_i hs; exact .inr (integral_decay (h1 ▸ hs.1))
    · cases hT
  · cases hT

theorem integral_wide_offset {w : World} {T : Ty} (h : T.integral = true) (p : KPtr) (i : W64) :
    pointerOffset w (some T) p i = some (.address { p with offset := p.offset + i }) := by
  cases T <;> first | rfl | cases h

theorem ptr_offset {w : World} {t : Ty} {s : Nat} (hs : w.size t = some s) (p : KPtr) (i : W64) :
    pointerOffset w (some (.ptr t)) p i =
      some (.address { p with offset := p.offset + i * BitVec.ofNat 64 s }) := by
  simp only [pointerOffset, hs]

theorem at_offset (P : Placement) (p : KPtr) (i : W64) :
    ({ p with offset := p.offset + i } : KPtr).at P = p.at P + i := by
  simp only [KPtr.at, BitVec.add_assoc]

theorem element_some {w : World} {t : Ty} {q : Option KPtr} {y : Option KVal} {p : KPtr}
    (h : element w t q y = some p) : ∃ q' n s, q = some q' ∧ y = some (.int n) ∧ w.size t = some s ∧
      p = { q' with offset := q'.offset + n * BitVec.ofNat 64 s } := by
  unfold element at h
  split at h
  · rename_i q' n
    split at h
    · rename_i s hs; injection h with h; exact ⟨q', n, s, rfl, rfl, hs, h.symm⟩
    · cases h
  · cases h

theorem asPointer_some {v : Option KVal} {p : KPtr} (h : asPointer v = some p) : v = some (.address p) := by
  unfold asPointer at h
  split at h
  · injection h with h; rw [h]
  · cases h

/-- The types of a subscript expression. -/
theorem index_types {w : World} {a i : Expr} {ta ti T : Ty} (hta : typeOf w a = some ta)
    (hti : typeOf w i = some ti) (hT : typeOf w (.index a i) = some T) :
    ta.decay = .ptr T ∨ (ta.integral = true ∧ ti.decay = .ptr T) := by
  simp only [typeOf, hta, hti, Option.map_some] at hT
  split at hT
  · rename_i h1 h2; injection h1 with h1
    split at hT
    · injection hT with hT; exact .inl (hT ▸ h1)
    · cases hT
  · rename_i h1 h2; injection h1 with h1; injection h2 with h2
    split at hT
    · rename_i hs; injection hT with hT; exact .inr ⟨integral_decay (h1 ▸ hs.1), hT ▸ h2⟩
    · cases hT
  · cases hT

theorem place_value {w : World} {P : Placement} {e : Expr} {a : W64} {t : Ty}
    (h : meaning w P e = some (.obj a t)) (hd : t.decays = true) : valueOf w P e = some a := by
  simp only [valueOf, h, Option.bind_some, Meaning.value, hd, if_true]

theorem sound (w : World) (P : Placement) (junk : W64) (hP : ∀ b, P b ≠ 0) : ∀ e : Expr, tame w e = true →
    (∀ v T, evaluate w junk e = some v → typeOf w e = some T → valueOf w P e = some (v.at P)) ∧
    (∀ p T, evaluateLvalue w junk e = some p → typeOf w e = some T →
      meaning w P e = some (.obj (p.at P) T)) := by
  intro e
  induction e with
  | num t v =>
    intro _
    refine ⟨fun v' T h ht => ?_, fun p T h => (by cases h)⟩
    simp only [evaluate] at h
    injection h with h; subst h
    simp only [typeOf] at ht
    split at ht
    · rename_i hi; simp only [valueOf, meaning, hi, if_true]; rfl
    · cases ht
  | str k n =>
    intro _
    refine ⟨fun v' T h ht => ?_, fun p T h => (by cases h)⟩
    simp only [evaluate] at h
    injection h with h; subst h
    simp [valueOf, meaning, Meaning.value, Ty.decays, KVal.at, KPtr.at, KBase.at]
  | id x =>
    intro _
    refine ⟨fun v' T h ht => ?_, fun p T h ht => ?_⟩
    · simp only [evaluate] at h
      split at h
      · injection h with h; subst h
        rename_i hc
        unfold identConstant at hc
        split at hc
        · rename_i t st hd
          simp only [Bool.and_eq_true] at hc
          obtain ⟨hc1, rfl⟩ := hc
          have hdec : t.decays = true := by cases t <;> first | rfl | cases hc1
          simp [valueOf, meaning, hd, Meaning.value, hdec, KVal.at, KPtr.at, KBase.at]
        · rename_i hd
          simp [valueOf, meaning, hd, Meaning.value, Ty.decays, KVal.at, KPtr.at, KBase.at]
        · cases hc
      · cases h
    · simp only [evaluateLvalue] at h
      simp only [typeOf] at ht
      split at h
      · rename_i hd; injection h with h; subst h
        simp only [hd] at ht; injection ht with ht; subst ht
        simp [meaning, hd, KPtr.at, KBase.at]
      · rename_i hd; injection h with h; subst h
        simp only [hd] at ht; injection ht with ht; subst ht
        simp [meaning, hd, KPtr.at, KBase.at]
      · cases h
  | member e m ih =>
    intro htm
    refine ⟨fun v' T h => (by cases h), fun p T h ht => ?_⟩
    simp only [evaluateLvalue] at h
    split at h
    · rename_i p' s h1 h2
      have hm := (ih htm).2 _ _ h1 h2
      split at h
      · rename_i o t hmem
        injection h with h; subst h
        simp only [typeOf, h2, hmem, Option.map_some] at ht
        injection ht with ht; subst ht
        simp only [meaning, hm, hmem, Option.map_some, KPtr.at, BitVec.add_assoc]
      · cases h
    · cases h
  | arrow e m ih =>
    intro htm
    refine ⟨fun v' T h => (by cases h), fun p T h ht => ?_⟩
    simp only [evaluateLvalue] at h
    split at h
    · rename_i p' s h1 h2
      have hm := (ih htm).1 _ _ h1 h2
      simp only [valueOf] at hm
      split at h
      · rename_i o t hmem
        injection h with h; subst h
        simp only [typeOf, h2, Option.map_some, Ty.decay, hmem] at ht
        injection ht with ht; subst ht
        simp only [meaning, h2, hm, Option.map_some, Ty.decay, hmem, KVal.at, KPtr.at, BitVec.add_assoc]
      · cases h
    · cases h
  | index a i iha ihi =>
    intro htm
    simp only [tame, Bool.and_eq_true] at htm
    refine ⟨fun v' T h => (by cases h), fun p T h ht => ?_⟩
    cases hta : typeOf w a with
    | none => simp [typeOf, hta] at ht
    | some ta =>
      cases hti : typeOf w i with
      | none => simp [typeOf, hta, hti] at ht
      | some ti =>
        simp only [evaluateLvalue, hta, hti] at h
        have right : ∀ (t : Ty) (n : W64) (q : KPtr) (s : Nat), ta.integral = true → ti.decay = .ptr t → T = t →
            evaluate w junk a = some (.int n) → valueOf w P i = some (q.at P) → w.size t = some s →
            p = { q with offset := q.offset + n * BitVec.ofNat 64 s } →
            meaning w P (.index a i) = some (.obj (p.at P) T) := by
          intro t n q s hai hd hTt hn hv hs hp
          subst hTt hp
          rw [at_offset]
          exact index_right hta hai hti hd hv ((iha htm.1).1 _ _ hn hta) hs
        split at h
        · rename_i t l h1
          injection h1 with h1; subst h1
          obtain ⟨q, n, s, hq, hn, hs, rfl⟩ := element_some h
          have hT : T = t := by
            rcases index_types hta hti ht with hd | ⟨hd, _⟩
            · injection hd with hd; exact hd.symm
            · cases hd
          subst hT
          rw [at_offset]
          exact index_left hta rfl (place_value ((iha htm.1).2 _ _ hq hta) rfl) ((ihi htm.2).1 _ _ hn hti) hs
        · rename_i t h1
          injection h1 with h1; subst h1
          obtain ⟨q, n, s, hq, hn, hs, rfl⟩ := element_some h
          have hT : T = t := by
            rcases index_types hta hti ht with hd | ⟨hd, _⟩
            · injection hd with hd; exact hd.symm
            · cases hd
          subst hT
          rw [at_offset]
          exact index_left hta rfl ((iha htm.1).1 _ _ (asPointer_some hq) hta) ((ihi htm.2).1 _ _ hn hti) hs
        · rename_i t l h2 hna hnp
          injection h2 with h2; subst h2
          obtain ⟨q, n, s, hq, hn, hs, hp⟩ := element_some h
          rcases index_types hta hti ht with hd | ⟨hai, hd⟩
          · exact absurd (int_type w junk a n ta htm.1 hn hta) (fun hi => integral_not_ptr hi hd)
          · injection hd with hd
            exact right t n q s hai (hd ▸ rfl) hd.symm hn (place_value ((ihi htm.2).2 _ _ hq hti) rfl) hs hp
        · rename_i t h2 hna hnp
          injection h2 with h2; subst h2
          obtain ⟨q, n, s, hq, hn, hs, hp⟩ := element_some h
          rcases index_types hta hti ht with hd | ⟨hai, hd⟩
          · exact absurd (int_type w junk a n ta htm.1 hn hta) (fun hi => integral_not_ptr hi hd)
          · injection hd with hd
            exact right t n q s hai (hd ▸ rfl) hd.symm hn ((ihi htm.2).1 _ _ (asPointer_some hq) hti) hs hp
        · cases h
  | addr e ih =>
    intro htm
    refine ⟨fun v' T h ht => ?_, fun p T h => (by cases h)⟩
    simp only [evaluate] at h
    split at h
    · cases hx : evaluateLvalue w junk e with
      | none => simp [hx] at h
      | some p =>
        simp only [hx, Option.map_some] at h
        injection h with h; subst h
        simp only [typeOf] at ht
        split at ht
        · cases hte : typeOf w e with
          | none => simp [hte] at ht
          | some t =>
            have hm := (ih htm).2 _ _ hx hte
            simp only [valueOf, meaning, hm]; rfl
        · cases ht
    · cases h
  | deref e ih =>
    intro htm
    exact ⟨fun v' T h => (by cases h), fun p T h => (by cases h)⟩
  | add a b iha ihb =>
    intro htm
    have hwide : ∀ T, typeOf w (.add a b) = some T → T.wide = true := by
      intro T hT
      simp only [tame, Bool.and_eq_true] at htm
      have := htm.2
      rw [hT] at this; simpa using this
    simp only [tame, Bool.and_eq_true, Bool.or_eq_true] at htm
    refine ⟨fun v' T h ht => ?_, fun p T h => (by cases h)⟩
    cases hta : typeOf w a with
    | none => simp [typeOf, hta] at ht
    | some ta =>
      cases htb : typeOf w b with
      | none => simp [typeOf, hta, htb] at ht
      | some tb =>
        simp only [evaluate, ht] at h
        split at h
        · rename_i p y h1 h2
          have hnb : b.numeric = true := by
            rcases htm.1.2 with hn | hn
            · obtain ⟨_, hx⟩ := numeric_int w junk _ _ hn h1; cases hx
            · exact hn
          obtain ⟨n, rfl⟩ := numeric_int w junk _ _ hnb h2
          have hbi := numeric_type w b tb hnb htb
          have va := (iha htm.1.1.1).1 _ _ h1 hta
          have vb := (ihb htm.1.1.2).1 _ _ h2 htb
          rcases add_types_left hta htb hbi ht with ⟨t, s, hd, hs, rfl⟩ | hai
          · rw [ptr_offset hs] at h
            injection h with h; subst h
            rw [add_left hta hd va vb hs]
            simp only [KVal.at, at_offset]; rfl
          · obtain ⟨e1, e2⟩ := add_int hta hai htb hbi va vb
            rw [e2] at ht; injection ht with ht
            rw [e1, convert_wide (hwide _ e2)]
            rw [← ht, integral_wide_offset (common_integral ta tb)] at h
            injection h with h; subst h
            simp only [KVal.at, at_offset]; rfl
        · rename_i x p hna h1 h2
          have hnb : a.numeric = true := by
            rcases htm.1.2 with hn | hn
            · exact hn
            · obtain ⟨_, hx⟩ := numeric_int w junk _ _ hn h2; cases hx
          obtain ⟨n, rfl⟩ := numeric_int w junk _ _ hnb h1
          have hai := numeric_type w a ta hnb hta
          have va := (iha htm.1.1.1).1 _ _ h1 hta
          have vb := (ihb htm.1.1.2).1 _ _ h2 htb
          rcases add_types_right hta htb hai ht with ⟨t, s, hd, hs, rfl⟩ | hbi
          · rw [ptr_offset hs] at h
            injection h with h; subst h
            rw [add_right hta hai htb hd vb va hs]
            simp only [KVal.at, at_offset]; rfl
          · obtain ⟨e1, e2⟩ := add_int hta hai htb hbi va vb
            rw [e2] at ht; injection ht with ht
            rw [e1, convert_wide (hwide _ e2)]
            rw [← ht, integral_wide_offset (common_integral ta tb)] at h
            injection h with h; subst h
            simp only [KVal.at, at_offset]; rw [BitVec.add_comm]; rfl
        · rename_i m n h1 h2
          injection h with h; subst h
          have hai := int_type w junk a m ta htm.1.1.1 h1 hta
          have hbi := int_type w junk b n tb htm.1.1.2 h2 htb
          obtain ⟨e1, e2⟩ := add_int hta hai htb hbi ((iha htm.1.1.1).1 _ _ h1 hta) ((ihb htm.1.1.2).1 _ _ h2 htb)
          rw [e1, convert_wide (hwide _ e2)]; rfl
        · cases h
  | minus a b iha ihb =>
    intro htm
    have hwide : ∀ T, typeOf w (.minus a b) = some T → T.wide = true := by
      intro T hT
      simp only [tame, Bool.and_eq_true] at htm
      have := htm.2
      rw [hT] at this; simpa using this
    simp only [tame, Bool.and_eq_true] at htm
    refine ⟨fun v' T h ht => ?_, fun p T h => (by cases h)⟩
    cases hta : typeOf w a with
    | none => simp [typeOf, hta] at ht
    | some ta =>
      cases htb : typeOf w b with
      | none => simp [typeOf, hta, htb] at ht
      | some tb =>
        have hbi := numeric_type w b tb htm.1.2 htb
        simp only [evaluate, ht] at h
        split at h
        · rename_i p q h1 h2
          obtain ⟨_, hx⟩ := numeric_int w junk _ _ htm.1.2 h2; cases hx
        · rename_i p n h1 h2
          have va := (iha htm.1.1.1).1 _ _ h1 hta
          have vb := (ihb htm.1.1.2).1 _ _ h2 htb
          rcases minus_types hta htb hbi ht with ⟨t, s, hd, hs, rfl⟩ | hai
          · rw [ptr_offset hs] at h
            injection h with h; subst h
            rw [minus_left hta hd htb hbi va vb hs]
            simp only [KVal.at, at_offset]
            rw [BitVec.neg_mul, ← BitVec.sub_eq_add_neg]
          · obtain ⟨e1, e2⟩ := minus_int hta hai htb hbi va vb
            rw [e2] at ht; injection ht with ht
            rw [e1, convert_wide (hwide _ e2)]
            rw [← ht, integral_wide_offset (common_integral ta tb)] at h
            injection h with h; subst h
            simp only [KVal.at, at_offset]; rw [← BitVec.sub_eq_add_neg]
        · rename_i m y h1 h2
          obtain ⟨n, rfl⟩ := numeric_int w junk _ _ htm.1.2 h2
          injection h with h; subst h
          have hai := int_type w junk a m ta htm.1.1.1 h1 hta
          obtain ⟨e1, e2⟩ := minus_int hta hai htb hbi ((iha htm.1.1.1).1 _ _ h1 hta) ((ihb htm.1.1.2).1 _ _ h2 htb)
          rw [e1, convert_wide (hwide _ e2)]; rfl
        · cases h
  | cast t e ih =>
    intro htm
    simp only [tame, Bool.and_eq_true, Bool.or_eq_true] at htm
    refine ⟨fun v' T h ht => ?_, fun p T h => (by cases h)⟩
    simp only [evaluate] at h
    split at h
    · rename_i v hv
      cases hte : typeOf w e with
      | none => simp [typeOf, hte] at ht
      | some te =>
        have hm := (ih htm.1.1).1 _ _ hv hte
        simp only [valueOf] at hm
        simp only [valueOf, meaning, hm, Option.map_some]
        simp only [Option.bind_some, Meaning.value]
        congr 1
        unfold castValue at h
        split at h
        · rename_i hi
          cases v with
          | int n => simp only at h; injection h with h; subst h; exact (castIntegral_convert htm.1.2 hi n).symm
          | address p =>
            simp only at h; injection h with h; subst h
            rcases htm.2 with hw | hn
            · exact convert_wide hw _
            · obtain ⟨_, hx⟩ := numeric_int w junk _ _ hn hv; cases hx
        · split at h
          · cases v with
            | int n => simp only at h; injection h with h; subst h; simp [convert, KVal.at, KPtr.at, KBase.at]
            | address p => simp only at h; injection h with h; subst h; rfl
          · cases h
    · cases h
  | cond c a b ihc iha ihb =>
    intro htm
    simp only [tame, Bool.and_eq_true, Bool.or_eq_true] at htm
    refine ⟨fun v' T h ht => ?_, fun p T h => (by cases h)⟩
    cases htc : typeOf w c with
    | none => simp [typeOf, htc] at ht
    | some tc =>
      cases hta : typeOf w a with
      | none => simp [typeOf, htc, hta] at ht
      | some ta =>
        cases htb : typeOf w b with
        | none => simp [typeOf, htc, hta, htb] at ht
        | some tb =>
          simp only [evaluate] at h
          split at h
          · split at h
            · rename_i v hv
              have hc := (ihc htm.1.1.1).1 _ _ hv htc
              have htruth : truth v = true ↔ v.at P ≠ 0 := by
                rcases htm.2 with hn | hp
                · obtain ⟨n, rfl⟩ := numeric_int w junk _ _ hn hv
                  simp [truth, KVal.at]
                · have hval : (∃ x, v = .address ⟨.identifier x, 0⟩) ∨ ∃ k, v = .address ⟨.literal k, 0⟩ := by
                    cases c with
                    | id x =>
                      simp only [evaluate] at hv; split at hv
                      · injection hv with hv; exact .inl ⟨x, hv.symm⟩
                      · cases hv
                    | str k n =>
                      simp only [evaluate] at hv; injection hv with hv; exact .inr ⟨k, hv.symm⟩
                    | addr e =>
                      cases e with
                      | id x =>
                        simp only [evaluate, evaluateLvalue] at hv
                        split at hv
                        · split at hv
                          · simp only [Option.map_some] at hv; injection hv with hv; exact .inl ⟨x, hv.symm⟩
                          · simp only [Option.map_some] at hv; injection hv with hv; exact .inl ⟨x, hv.symm⟩
                          · cases hv
                        · cases hv
                      | _ => cases hp
                    | _ => cases hp
                  rcases hval with ⟨x, rfl⟩ | ⟨k, rfl⟩
                  · simpa [truth, KVal.at, KPtr.at, KBase.at] using hP _
                  · simpa [truth, KVal.at, KPtr.at, KBase.at] using hP _
              simp only [valueOf] at hc
              simp only [valueOf, meaning, hc]
              split at h
              · rename_i ht'
                rw [if_neg (htruth.mp ht')]
                have hm := (iha htm.1.1.2).1 _ _ h hta
                simp only [valueOf] at hm
                simp only [hm, Option.map_some]; rfl
              · rename_i ht'
                have : v.at P = 0 := Classical.byContradiction fun hn => ht' (htruth.mpr hn)
                rw [if_pos this]
                have hm := (ihb htm.1.2).1 _ _ h htb
                simp only [valueOf] at hm
                simp only [hm, Option.map_some]; rfl
            · cases h
          · cases h

end Verif.AddrConst
