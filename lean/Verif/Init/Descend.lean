import Verif.Init.Navigate

/-!
# From the next subobject to the one that an expression initialises
-/

namespace Kefir.Init

open Model

variable {E : Type}

/-! ### Where the specification puts an expression -/

theorem placeFields : ∀ (fs : Fields) (env : Env E) (e : E) (i : Nat) (q : Path),
    fs.place env e i = some q →
    ∃ j v q', fs.fromPos 0 = some j ∧ fs.at? j = some v ∧ q = (i + j) :: q' ∧ v.place env e = some q'
  | .nil, _, _, _, _, h => by simp [Fields.place] at h
  | .cons name bits t r, env, e, i, q, h => by
    simp only [Fields.place] at h
    split at h
    · rename_i hn
      obtain ⟨j, v, q', h1, h2, rfl, h4⟩ := placeFields r env e (i + 1) q h
      refine ⟨j + 1, v, q', ?_, h2, ?_, h4⟩
      · simp [Fields.fromPos, hn, h1]
      · rw [Nat.add_right_comm i 1 j, Nat.add_assoc i j 1]
    · rename_i hn
      obtain ⟨q', h1, rfl⟩ := Option.map_eq_some_iff.mp h
      exact ⟨0, t, q', by simp [Fields.fromPos, hn], rfl, rfl, h1⟩

/-- One step of `Ty.place`. -/
theorem place_cases {u : Ty} {env : Env E} {e : E} {q : Path} (hg : u.good = true)
    (h : u.place env e = some q) (hcl : u.clear q = true) :
    (q = [] ∧ (env.assign e u.bare = true ∨
        ∃ n el, u = .array n el ∧ env.isString e = true ∧ env.elemOf e el.bare = true)) ∨
    (∃ j q' v, q = j :: q' ∧ u.plain = true ∧ isAggregateTy u = true ∧ u.first = some j ∧
      u.child j = some v ∧ v.place env e = some q' ∧
      (∀ b tag fs, u = .record b tag fs → env.assign e u = false) ∧
      (∀ n el, u = .array n el → env.isString e = true → env.elemOf e el.bare = false)) := by
  cases u with
  | scalar c =>
    simp only [Ty.place] at h
    split at h
    · rename_i ha
      cases h
      exact Or.inl ⟨rfl, Or.inl ha⟩
    · cases h
  | qualified t =>
    simp only [Ty.good, Bool.and_eq_true] at hg
    cases q with
    | cons j q => simp [Ty.clear, Ty.plain] at hcl
    | nil =>
      refine Or.inl ⟨rfl, ?_⟩
      simp only [Ty.place] at h
      cases t with
      | scalar c =>
        simp only [Ty.place] at h
        split at h
        · rename_i ha
          exact Or.inl ha
        · cases h
      | record b tag fs =>
        simp only [Ty.place] at h
        split at h
        · rename_i ha
          exact Or.inl ha
        · obtain ⟨j, v, q', _, _, h3, _⟩ := placeFields fs env e 0 [] h
          cases h3
      | array n el => simp at hg
      | qualified s => simp at hg
  | array n el =>
    simp only [Ty.place] at h
    split at h
    · rename_i hs
      simp only [Bool.and_eq_true] at hs
      cases h
      exact Or.inl ⟨rfl, Or.inr ⟨n, el, rfl, hs⟩⟩
    · rename_i hs
      split at h
      · cases h
      · rename_i hn
        obtain ⟨q', h1, rfl⟩ := Option.map_eq_some_iff.mp h
        refine Or.inr ⟨0, q', el, rfl, rfl, rfl, ?_, ?_, h1, by simp, ?_⟩
        · cases n with
          | none => rfl
          | some n =>
            cases n with
            | zero => simp at hn
            | succ n => rfl
        · cases n with
          | none => rfl
          | some n =>
            cases n with
            | zero => simp at hn
            | succ n => simp [Ty.child, Ty.bare]
        · intro n' el' he hstr
          cases he
          simpa [hstr] using hs
  | record b tag fs =>
    simp only [Ty.place] at h
    split at h
    · rename_i ha
      cases h
      exact Or.inl ⟨rfl, Or.inl ha⟩
    · rename_i ha
      obtain ⟨j, v, q', h1, h2, rfl, h4⟩ := placeFields fs env e 0 q h
      refine Or.inr ⟨j, q', v, by simp, rfl, rfl, ?_, ?_, h4, ?_, by simp⟩
      · simpa only [Ty.first, Ty.bare] using h1
      · simpa only [Ty.child, Ty.bare] using h2
      · intro b' tag' fs' he
        simpa using ha

theorem place_named : ∀ (q : Path) (u : Ty) (env : Env E) (e : E), u.good = true →
    u.place env e = some q → u.clear q = true → Named u q
  | [], _, _, _, _, _, _ => trivial
  | j :: q, u, env, e, hg, h, hcl => by
    rcases place_cases hg h hcl with ⟨h0, _⟩ | ⟨j', q', v, heq, hp, _, hfirst, hc, hpl, _, _⟩
    · cases h0
    · cases heq
      have hcl' : v.clear q = true := by
        simp only [Ty.clear, hc, Bool.and_eq_true] at hcl
        exact hcl.2
      refine ⟨?_, v, hc, place_named q v env e (fine_child (fine_of_good hg) hc) hpl hcl'⟩
      cases u with
      | record b tag fs =>
        simp only [Ty.good, Bool.and_eq_true] at hg
        exact fromPos_named fs b [] 0 j hg.2 (by simpa only [Ty.first, Ty.bare] using hfirst)
      | _ => trivial

/-! ### Depths -/

theorem depth_at? : ∀ (fs : Fields) (i : Nat) (t : Ty), fs.at? i = some t → t.depth ≤ fs.depth
  | .nil, _, _, h => by simp [Fields.at?] at h
  | .cons _ _ t r, 0, u, h => by
    simp only [Fields.at?] at h
    cases h
    simp only [Fields.depth]
    exact Nat.le_max_left _ _
  | .cons _ _ t r, i + 1, u, h => by
    have := depth_at? r i u h
    simp only [Fields.depth]
    exact Nat.le_trans this (Nat.le_max_right _ _)

theorem depth_bare : ∀ t : Ty, t.bare.depth = t.depth
  | .scalar _ => rfl
  | .array _ _ => rfl
  | .record _ _ _ => rfl
  | .qualified t => by
    simp only [Ty.bare, Ty.depth]
    exact depth_bare t

theorem depth_child {t u : Ty} {i : Nat} (h : t.child i = some u) : u.depth < t.depth := by
  rw [← depth_bare t]
  rw [Ty.child] at h
  split at h
  · rename_i el hb
    cases h
    rw [hb]
    simp [Ty.depth]
  · rename_i n el hb
    split at h
    · cases h
      rw [hb]
      simp [Ty.depth]
    · cases h
  · rename_i b tag fs hb
    rw [hb]
    have := depth_at? fs i u h
    simp only [Ty.depth]
    omega
  · cases h

theorem depth_sub : ∀ (p : Path) (t u : Ty), t.sub p = some u → u.depth + p.length ≤ t.depth
  | [], t, u, h => by
    simp only [Ty.sub] at h
    cases h
    simp
  | i :: p, t, u, h => by
    simp only [Ty.sub] at h
    cases hc : t.child i with
    | none => simp [hc] at h
    | some v =>
      rw [hc] at h
      have h1 := depth_sub p v u h
      have h2 := depth_child hc
      simp only [List.length_cons]
      omega

/-! ### Arriving -/

/-- From these layers the next subobject is the one at path `p`. -/
def Arrives (t : Ty) (st : Stack) (p : Path) : Prop :=
  p ≠ [] ∧ ∃ v, t.sub p = some v ∧
    ∀ len, next len st = .ok (lenAt len p [], frames t p [], some v)

/-- A walk to the first subobject, and on to its first subobject, until a subobject that is not
descended into. -/
def Leads (stop : Ty → Bool) : Ty → Path → Prop
  | u, [] => isAggregateTy u = false ∨ stop u = true
  | u, j :: q => isAggregateTy u = true ∧ stop u = false ∧ u.plain = true ∧ u.first = some j ∧
      ∃ v, u.child j = some v ∧ Leads stop v q

theorem lenAt_long (len : Nat) (p : Path) (j : Nat) (hp : p ≠ []) : lenAt len (p ++ [j]) [] = len := by
  cases p with
  | nil => exact absurd rfl hp
  | cons a p =>
    cases p with
    | nil => rfl
    | cons b p => rfl

/-- One step into a subobject. -/
theorem arrives_push {t u : Ty} {p : Path} {j : Nat} (hf : t.fine = true)
    (hp : p ≠ []) (hs : t.sub p = some u) (hg : u.good = true) (hpl : u.plain = true)
    (hj : u.first = some j) :
    Arrives t (pushLayer u (frames t p [])) (p ++ [j]) := by
  have hne : ∀ (p : Path) (t u : Ty) (below : Stack), t.sub p = some u → p ≠ [] →
      frames t p below ≠ [] := by
    intro p
    induction p with
    | nil => intro t u below _ h; exact absurd rfl h
    | cons i p ih =>
      intro t u below h _
      simp only [Ty.sub] at h
      cases hc : t.child i with
      | none => simp [hc] at h
      | some v =>
        rw [hc] at h
        simp only [frames, hc]
        cases p with
        | nil => simp [frames]
        | cons k p => exact ih v u _ h (by simp)
  have hnz : (frames t p []).isEmpty = false := by
    have := hne p t u [] hs hp
    cases hx : frames t p [] with
    | nil => exact absurd hx this
    | cons a b => rfl
  obtain ⟨v0, hc0, _⟩ := next_fresh hpl (fine_of_good hg) hj 0 (frames t p [])
  refine ⟨by simp, v0, ?_, ?_⟩
  · rw [sub_append_some hs]
    simp only [Ty.sub, hc0]
  · intro len
    obtain ⟨v, hc, hn⟩ := next_fresh hpl (fine_of_good hg) hj len (frames t p [])
    rw [hc0] at hc
    cases hc
    have hlay : layerNext len ⟨u, j, false⟩ (frames t p []) = len := by
      simp only [layerNext, hnz, Bool.false_eq_true, if_false]
    rw [push_of_child hpl hc0, hn, hlay, lenAt_long len p j hp, frames_append p [j] t u [] hs]
    simp only [frames, hc0]

/-- `next_recursive` follows such a walk. -/
theorem nextRec_leads (stop : Ty → Bool) : ∀ (q : Path) (t u : Ty) (p : Path) (st : Stack)
    (fuel len : Nat), t.fine = true → Arrives t st p → t.sub p = some u →
    u.good = true → Leads stop u q → q.length < fuel →
    ∃ w, u.sub q = some w ∧
      nextRec stop fuel len st = .ok (lenAt len p [], frames t (p ++ q) [], some w)
  | q, t, u, p, st, 0, len, _, _, _, _, _, hq => by omega
  | [], t, u, p, st, fuel + 1, len, hf, harr, hs, hg, hl, _ => by
    obtain ⟨hp, v, hv, hn⟩ := harr
    rw [hs] at hv
    cases hv
    refine ⟨u, rfl, ?_⟩
    rw [nextRec, hn]
    simp only [Res.bind, List.append_nil]
    have hc : (isAggregateTy u && !stop u) = false := by
      rcases hl with h | h <;> simp [h]
    rw [hc]
    rfl
  | j :: q, t, u, p, st, fuel + 1, len, hf, harr, hs, hg, hl, hq => by
    obtain ⟨hp, v, hv, hn⟩ := harr
    rw [hs] at hv
    cases hv
    obtain ⟨ha, hst, hpl, hj, w, hc, hl⟩ := hl
    have hs' : t.sub (p ++ [j]) = some w := by
      rw [sub_append_some hs]
      simp only [Ty.sub, hc]
    obtain ⟨z, hz, hrec⟩ := nextRec_leads stop q t w (p ++ [j]) (pushLayer u (frames t p [])) fuel
      (lenAt len p []) hf (arrives_push hf hp hs hg hpl hj) hs'
      (fine_child (fine_of_good hg) hc) hl (by simp at hq; omega)
    refine ⟨z, by simp only [Ty.sub, hc, hz], ?_⟩
    rw [nextRec, hn]
    simp only [Res.bind, ha, hst, Bool.not_false, Bool.and_self, if_true]
    rw [hrec, lenAt_long _ _ _ hp, List.append_assoc]
    rfl

/-! ### Expressions of scalar type -/

theorem bare_isScalar {env : Env E} (hl : env.Lawful) {e : E} {u : Ty} (hg : u.good = true)
    (hsc : env.isScalar e = true ∨ env.isString e = true) (ha : env.assign e u.bare = true) :
    isScalarTy (unqual u) = true ∧ isAggregateTy u = false := by
  cases u with
  | scalar c => exact ⟨rfl, rfl⟩
  | array n el =>
    rw [Ty.bare, hl.array] at ha
    cases ha
    simp
  | record b tag fs =>
    have := hl.record e b tag fs ha
    rcases hsc with h | h
    · rw [this.2.1] at h; cases h
    · rw [this.1] at h; cases h
  | qualified s =>
    simp only [Ty.good, Bool.and_eq_true] at hg
    cases s with
    | scalar c => exact ⟨rfl, rfl⟩
    | record b tag fs =>
      have := hl.record e b tag fs ha
      rcases hsc with h | h
      · rw [this.2.1] at h; cases h
      · rw [this.1] at h; cases h
    | array n el => simp at hg
    | qualified s => simp at hg

theorem leads_scalar {env : Env E} (hl : env.Lawful) {e : E} (hstr : env.isString e = false)
    (hsc : env.isScalar e = true) : ∀ (q : Path) (u : Ty), u.good = true → u.place env e = some q →
    u.clear q = true →
    Leads (fun _ => false) u q ∧ ∃ w, u.sub q = some w ∧ env.assign e (unqual w) = true ∧
      w.good = true ∧ isScalarTy (unqual w) = true
  | q, u, hg, h, hcl => by
    rcases place_cases hg h hcl with ⟨rfl, ha | ⟨n, el, _, hs, _⟩⟩ |
      ⟨j, q', v, rfl, hp, hagg, hfirst, hc, hpl, _, _⟩
    · have hb := bare_isScalar hl hg (Or.inl hsc) ha
      refine ⟨Or.inl hb.2, u, rfl, ?_, hg, hb.1⟩
      rw [← bare_eq_unqual hg]
      exact ha
    · rw [hstr] at hs
      cases hs
    · have hcl' : v.clear q' = true := by
        simp only [Ty.clear, hc, Bool.and_eq_true] at hcl
        exact hcl.2
      obtain ⟨h1, w, h2, h3⟩ := leads_scalar hl hstr hsc q' v (fine_child (fine_of_good hg) hc) hpl hcl'
      exact ⟨⟨hagg, rfl, hp, hfirst, v, hc, h1⟩, w, by simp only [Ty.sub, hc, h2], h3⟩
termination_by q => q.length

theorem leads_string {env : Env E} (hl : env.Lawful) {e : E} (hstr : env.isString e = true) :
    ∀ (q : Path) (u : Ty), u.good = true → u.place env e = some q → u.clear q = true →
    Leads (stringStop env e) u q ∧ ∃ w, u.sub q = some w ∧ w.good = true ∧
      ((∃ n el, w = .array (some n) el ∧ stringStop env e w = true ∧ env.elemOf e el.bare = true) ∨
       (isScalarTy (unqual w) = true ∧ isAggregateTy w = false ∧ env.assign e (unqual w) = true))
  | q, u, hg, h, hcl => by
    rcases place_cases hg h hcl with ⟨rfl, ha | ⟨n, el, rfl, hs, hel⟩⟩ |
      ⟨j, q', v, rfl, hp, hagg, hfirst, hc, hpl, _, hne⟩
    · have hb := bare_isScalar hl hg (Or.inr hstr) ha
      refine ⟨Or.inl hb.2, u, rfl, hg, Or.inr ⟨hb.1, hb.2, ?_⟩⟩
      rw [← bare_eq_unqual hg]
      exact ha
    · cases n with
      | none => simp [Ty.good] at hg
      | some n =>
        have hgel : el.good = true := by
          simp only [Ty.good, Bool.and_eq_true] at hg
          exact hg.2
        have hst : stringStop env e (.array (some n) el) = true := by
          simp only [stringStop]
          rw [← bare_eq_unqual hgel]
          exact hel
        exact ⟨Or.inr hst, _, rfl, hg, Or.inl ⟨n, el, rfl, hst, hel⟩⟩
    · have hcl' : v.clear q' = true := by
        simp only [Ty.clear, hc, Bool.and_eq_true] at hcl
        exact hcl.2
      obtain ⟨h1, w, h2, h3⟩ := leads_string hl hstr q' v (fine_child (fine_of_good hg) hc) hpl hcl'
      refine ⟨⟨hagg, ?_, hp, hfirst, v, hc, h1⟩, w, by simp only [Ty.sub, hc, h2], h3⟩
      cases u with
      | scalar c => rfl
      | record b tag fs => rfl
      | qualified s => rfl
      | array n el =>
        have hgel : el.good = true := by
          cases n with
          | none => simp [Ty.good] at hg
          | some n =>
            simp only [Ty.good, Bool.and_eq_true] at hg
            exact hg.2
        simp only [stringStop]
        rw [← bare_eq_unqual hgel]
        exact hne n el rfl hstr
termination_by q => q.length

/-! ### Other expressions -/

theorem step_frames : ∀ (p : Path) (t u : Ty) (below : Stack), t.clear p = true → t.sub p = some u →
    p ≠ [] → step (frames t p below) = .ok (pushLayer u (frames t p below))
  | [], _, _, _, _, _, h => absurd rfl h
  | i :: p, t, u, below, hcl, hs, _ => by
    simp only [Ty.clear, Bool.and_eq_true] at hcl
    obtain ⟨hp, hcl⟩ := hcl
    cases hc : t.child i with
    | none => simp [hc] at hcl
    | some v =>
      simp only [hc] at hcl
      simp only [Ty.sub, hc] at hs
      simp only [frames, hc]
      cases p with
      | cons k p => exact step_frames (k :: p) v u _ hcl hs (by simp)
      | nil =>
        simp only [Ty.sub] at hs
        cases hs
        simp only [frames]
        cases t with
        | scalar c => simp [Ty.child, Ty.bare] at hc
        | qualified s => simp [Ty.plain] at hp
        | record b tag fs =>
          have hc' : fs.at? i = some u := by simpa only [Ty.child, Ty.bare] using hc
          simp only [step, hc']
        | array n el =>
          have he : el = u := by
            simp only [Ty.child, Ty.bare] at hc
            cases n with
            | none => simpa using hc
            | some n =>
              simp only at hc
              split at hc
              · simpa using hc
              · cases hc
          subst he
          simp only [step]

theorem other_cases {env : Env E} (hl : env.Lawful) {e : E} (hstr : env.isString e = false) {u : Ty}
    {q : Path} (hg : u.good = true) (h : u.place env e = some q) (hcl : u.clear q = true)
    (hq : q.length ≤ 1) :
    (q = [] ∧ env.assign e (unqual u) = true) ∨
    (∃ j v, q = [j] ∧ u.plain = true ∧ u.first = some j ∧ u.child j = some v ∧
      env.assign e (unqual u) = false ∧ env.assign e (unqual v) = true) := by
  rcases place_cases hg h hcl with ⟨rfl, ha | ⟨n, el, _, hs, _⟩⟩ |
      ⟨j, q', v, rfl, hp, hagg, hfirst, hc, hpl, hrec, _⟩
  · refine Or.inl ⟨rfl, ?_⟩
    rw [← bare_eq_unqual hg]
    exact ha
  · rw [hstr] at hs
    cases hs
  · have hq' : q' = [] := by
      cases q' with
      | nil => rfl
      | cons a b => simp at hq
    subst hq'
    have hgv := fine_child (fine_of_good hg) hc
    refine Or.inr ⟨j, v, rfl, hp, hfirst, hc, ?_, ?_⟩
    · rw [unqual_of_plain hp]
      cases u with
      | scalar c => simp [isAggregateTy] at hagg
      | qualified s => simp [isAggregateTy] at hagg
      | array n el => exact hl.array e n el
      | record b tag fs => exact hrec b tag fs rfl
    · rcases place_cases hgv hpl rfl with ⟨_, ha | ⟨n, el, _, hs, _⟩⟩ | ⟨j', q', v', h0, _⟩
      · rw [← bare_eq_unqual hgv]
        exact ha
      · rw [hstr] at hs
        cases hs
      · cases h0

end Kefir.Init
