import Verif.Init.Walk

/-!
# Designations

Navigating to the subobject that a designation describes, and back from a subobject to the designators
that lead to it.
-/

namespace Kefir.Init

open Model

variable {E : Type}

theorem sub_append : ∀ (p q : Path) (t : Ty), t.sub (p ++ q) = match t.sub p with
    | some u => u.sub q
    | none => none
  | [], q, t => rfl
  | i :: p, q, t => by
    simp only [List.cons_append, Ty.sub]
    cases t.child i with
    | none => rfl
    | some u => exact sub_append p q u

theorem sub_append_some {p q : Path} {t u : Ty} (h : t.sub p = some u) : t.sub (p ++ q) = u.sub q := by
  rw [sub_append, h]

theorem clear_append : ∀ (p q : Path) (t : Ty), t.clear (p ++ q) = true →
    t.clear p = true ∧ ∃ u, t.sub p = some u ∧ u.clear q = true
  | [], q, t, h => ⟨rfl, t, rfl, h⟩
  | i :: p, q, t, h => by
    simp only [List.cons_append, Ty.clear, Bool.and_eq_true] at h
    obtain ⟨hp, h⟩ := h
    cases hc : t.child i with
    | none => simp [hc] at h
    | some u =>
      rw [hc] at h
      obtain ⟨h1, v, hv, h2⟩ := clear_append p q u h
      refine ⟨?_, v, ?_, h2⟩
      · simp only [Ty.clear, hc, hp, h1, Bool.and_self]
      · simp only [Ty.sub, hc, hv]

theorem clear_sub : ∀ (p : Path) (t : Ty), t.clear p = true → ∃ u, t.sub p = some u
  | p, t, h => by
    have h' : t.clear (p ++ []) = true := by rw [List.append_nil]; exact h
    obtain ⟨_, u, hu, _⟩ := clear_append p [] t h'
    exact ⟨u, hu⟩

theorem frames_append : ∀ (p q : Path) (t u : Ty) (below : Stack), t.sub p = some u →
    frames t (p ++ q) below = frames u q (frames t p below)
  | [], q, t, u, below, h => by
    simp only [Ty.sub] at h
    cases h
    rfl
  | i :: p, q, t, u, below, h => by
    simp only [Ty.sub] at h
    simp only [List.cons_append, frames]
    cases hc : t.child i with
    | none => simp [hc] at h
    | some v =>
      rw [hc] at h
      exact frames_append p q v u _ h

theorem named_append : ∀ (p q : Path) (t u : Ty), t.sub p = some u → Named t p → Named u q →
    Named t (p ++ q)
  | [], q, t, u, h, _, hq => by
    simp only [Ty.sub] at h
    cases h
    exact hq
  | i :: p, q, t, u, h, hn, hq => by
    simp only [Ty.sub] at h
    obtain ⟨hm, v, hv, hn⟩ := hn
    rw [hv] at h
    exact ⟨hm, v, hv, named_append p q v u h hn hq⟩

/-! ### Names -/

theorem find_good : ∀ (fs : Fields) (b : Bool) (seen : List Name) (m k : Nat) (p : Path),
    fs.good b seen = true → fs.find m k = some p →
    ∃ i t, p = [k + i] ∧ nameAt fs i = some m ∧ fs.at? i = some t ∧
      (∀ push whole below, navFields m push b whole fs k below =
        .found
          (if push then pushLayer t (⟨whole, k + i, false⟩ :: below)
           else if b then ⟨whole, k + i, true⟩ :: below
           else if k + i = 0 then ⟨whole, 0, true⟩ :: below
           else ⟨whole, k + i - 1, false⟩ :: below))
  | .nil, _, _, _, _, _, _, h => by simp [Fields.find] at h
  | .cons (some m') bits t r, b, seen, m, k, p, hg, h => by
    simp only [Fields.find] at h
    simp only [Fields.good, Bool.and_eq_true] at hg
    by_cases hm : m' = m
    · rw [if_pos hm] at h
      cases h
      refine ⟨0, t, rfl, by simp [nameAt, hm], rfl, ?_⟩
      intro push whole below
      simp only [navFields, if_pos hm]
      rfl
    · rw [if_neg hm] at h
      obtain ⟨i, u, rfl, hn, ha, hnav⟩ := find_good r b _ m (k + 1) p hg.2 h
      refine ⟨i + 1, u, by simp; omega, hn, ha, ?_⟩
      intro push whole below
      simp only [navFields, if_neg hm]
      rw [hnav, Nat.add_right_comm k 1 i, Nat.add_assoc k i 1]
  | .cons none bits t r, b, seen, m, k, p, hg, h => by
    simp only [Fields.good, Bool.and_eq_true] at hg
    obtain ⟨⟨⟨hb, _⟩, ht⟩, hr⟩ := hg
    cases t with
    | scalar c =>
      simp only [Fields.find, Ty.find] at h
      obtain ⟨i, u, rfl, hn, ha, hnav⟩ := find_good r b _ m (k + 1) p hr h
      refine ⟨i + 1, u, by simp; omega, hn, ha, ?_⟩
      intro push whole below
      simp only [navFields, hb, isScalarTy, Bool.and_self, if_true]
      rw [hnav, Nat.add_right_comm k 1 i, Nat.add_assoc k i 1]
    | _ => simp at ht

theorem not_seen : ∀ (fs : Fields) (b : Bool) (seen : List Name) (i m : Nat),
    fs.good b seen = true → nameAt fs i = some m → seen.contains m = false
  | .nil, _, _, _, _, _, h => by simp [nameAt] at h
  | .cons n bits t r, b, seen, 0, m, hg, h => by
    simp only [nameAt] at h
    subst h
    simp only [Fields.good, Bool.and_eq_true] at hg
    simpa using hg.1.1
  | .cons n bits t r, b, seen, i + 1, m, hg, h => by
    cases n with
    | none =>
      simp only [Fields.good, Bool.and_eq_true] at hg
      exact not_seen r b _ i m hg.2 h
    | some m' =>
      simp only [Fields.good, Bool.and_eq_true] at hg
      have := not_seen r b _ i m hg.2 h
      simp at this
      simpa using this.2

theorem namedAt_good : ∀ (fs : Fields) (b : Bool) (seen : List Name) (i k m : Nat) (t : Ty),
    fs.good b seen = true → nameAt fs i = some m → fs.at? i = some t →
    namedAt m fs k = some (k + i, t)
  | .nil, _, _, _, _, _, _, _, h, _ => by simp [nameAt] at h
  | .cons n bits t r, b, seen, 0, k, m, t', hg, h, ha => by
    simp only [nameAt] at h
    simp only [Fields.at?] at ha
    cases ha
    subst h
    simp [namedAt]
  | .cons n bits t r, b, seen, i + 1, k, m, t', hg, h, ha => by
    cases n with
    | none =>
      simp only [Fields.good, Bool.and_eq_true] at hg
      have ih := namedAt_good r b _ i (k + 1) m t' hg.2 h ha
      simp only [namedAt, ih]
      rw [Nat.add_right_comm k 1 i, Nat.add_assoc k i 1]
    | some m' =>
      simp only [Fields.good, Bool.and_eq_true] at hg
      have hne : m' ≠ m := by
        intro e
        subst e
        have := not_seen r b _ i m' hg.2 h
        simp at this
      have ih := namedAt_good r b _ i (k + 1) m t' hg.2 h ha
      simp only [namedAt, if_neg hne, ih]
      rw [Nat.add_right_comm k 1 i, Nat.add_assoc k i 1]

/-! ### The designators of a path -/

/-- The designator of a direct subobject. -/
def stepDesig : Ty → Nat → Desig
  | .record _ _ fs, i => .field ((nameAt fs i).getD 0)
  | .scalar _, i => .index i
  | .array _ _, i => .index i
  | .qualified _, i => .index i

/-- The layer that makes `next` arrive at a direct subobject. -/
def navLayer : Ty → Nat → Layer
  | .record true tag fs, i => ⟨.record true tag fs, i, true⟩
  | .record false tag fs, i =>
    if i = 0 then ⟨.record false tag fs, 0, true⟩ else ⟨.record false tag fs, i - 1, false⟩
  | .scalar c, _ => ⟨.scalar c, 0, true⟩
  | .qualified t, _ => ⟨.qualified t, 0, true⟩
  | .array n el, i => if i = 0 then ⟨.array n el, 0, true⟩ else ⟨.array n el, i - 1, false⟩

/-- The designators that lead to the subobject at a path. -/
def desigs : Ty → Path → List Desig
  | _, [] => []
  | t, i :: p =>
    stepDesig t i ::
      match t.child i with
      | some u => desigs u p
      | none => []

theorem desigs_append : ∀ (p q : Path) (t u : Ty), t.sub p = some u →
    desigs t (p ++ q) = desigs t p ++ desigs u q
  | [], q, t, u, h => by
    simp only [Ty.sub] at h
    cases h
    rfl
  | i :: p, q, t, u, h => by
    simp only [Ty.sub] at h
    cases hc : t.child i with
    | none => simp [hc] at h
    | some v =>
      rw [hc] at h
      simp only [List.cons_append, desigs, hc, desigs_append p q v u h]

/-- The designators that kefir derives from the layers. -/
theorem layerDesig_frames : ∀ (p : Path) (t : Ty) (below : Stack), t.fine = true → t.clear p = true →
    Named t p → p ≠ [] →
    layerDesig (frames t p below) = some ((layerDesig below).getD [] ++ desigs t p)
  | [], _, _, _, _, _, h => absurd rfl h
  | i :: p, t, below, hf, hcl, hn, _ => by
    simp only [Ty.clear, Bool.and_eq_true] at hcl
    obtain ⟨hp, hcl⟩ := hcl
    obtain ⟨hm, u, hc, hn⟩ := hn
    rw [hc] at hcl
    have hbase : layerDesig (⟨t, i, false⟩ :: below) =
        some ((layerDesig below).getD [] ++ [stepDesig t i]) := by
      cases t with
      | scalar c => simp [Ty.child, Ty.bare] at hc
      | qualified s => simp [Ty.plain] at hp
      | array n el => rfl
      | record b tag fs =>
        obtain ⟨m, hm⟩ := hm
        simp only [layerDesig, hm, stepDesig, Option.getD]
    cases p with
    | nil =>
      simp only [frames, hc, desigs, hbase]
    | cons k p =>
      have ih := layerDesig_frames (k :: p) u (⟨t, i, false⟩ :: below) (fine_of_good (fine_child hf hc))
        hcl hn (by simp)
      rw [frames]
      simp only [hc]
      have hd : desigs t (i :: k :: p) = stepDesig t i :: desigs u (k :: p) := by
        rw [desigs]
        simp only [hc]
      rw [ih, hbase, hd]
      simp only [Option.getD_some, List.append_assoc, List.singleton_append]

/-- The layout resolves the designators of a path to this path. -/
theorem layoutResolve_desigs : ∀ (p : Path) (t u : Ty), t.fine = true → t.clear p = true →
    Named t p → p ≠ [] → t.sub p = some u → layoutResolve (desigs t p) t = .ok (p, unqual u)
  | [], _, _, _, _, _, h, _ => absurd rfl h
  | i :: p, t, w, hf, hcl, hn, _, hs => by
    simp only [Ty.clear, Bool.and_eq_true] at hcl
    obtain ⟨hp, hcl⟩ := hcl
    obtain ⟨hm, u, hc, hn⟩ := hn
    rw [hc] at hcl
    simp only [Ty.sub, hc] at hs
    have hgu := fine_child hf hc
    have rest : layoutResolve (desigs u p) (unqual u) = .ok (p, unqual w) := by
      cases p with
      | nil =>
        simp only [Ty.sub] at hs
        cases hs
        rfl
      | cons k p =>
        have hpu : u.plain = true := by
          simp only [Ty.clear, Bool.and_eq_true] at hcl
          exact hcl.1
        rw [unqual_of_plain hpu]
        exact layoutResolve_desigs (k :: p) u w (fine_of_good hgu) hcl hn (by simp) hs
    cases t with
    | scalar c => simp [Ty.child, Ty.bare] at hc
    | qualified s => simp [Ty.plain] at hp
    | array n el =>
      have he : el = u := by
        simp only [Ty.child, Ty.bare] at hc
        cases n with
        | none => simpa using hc
        | some n =>
          simp only at hc
          split at hc
          · simpa using hc
          · cases hc
      subst he
      rw [desigs]
      simp only [hc, stepDesig, layoutResolve, rest, Res.bind]
    | record b tag fs =>
      obtain ⟨m, hm⟩ := hm
      simp only [Ty.fine, Ty.good, Bool.and_eq_true] at hf
      have hc' : fs.at? i = some u := by simpa only [Ty.child, Ty.bare] using hc
      have hl := namedAt_good fs b [] i 0 m u hf.2 hm hc'
      rw [desigs]
      simp only [hc, hm, stepDesig, Option.getD, layoutResolve, lookMember, hl, Nat.zero_add, rest, Res.bind,
        List.singleton_append]

/-! ### Navigation -/

mutual
theorem find_ne_nil (m : Name) : ∀ (t : Ty) (p : Path), t.find m = some p → p ≠ []
  | .scalar _, _, h => by simp [Ty.find] at h
  | .array _ _, _, h => by simp [Ty.find] at h
  | .qualified t, p, h => find_ne_nil m t p (by simpa only [Ty.find] using h)
  | .record _ _ fs, p, h => findFields_ne_nil m fs 0 p (by simpa only [Ty.find] using h)
theorem findFields_ne_nil (m : Name) : ∀ (fs : Fields) (k : Nat) (p : Path), fs.find m k = some p → p ≠ []
  | .nil, _, _, h => by simp [Fields.find] at h
  | .cons (some m') _ t r, k, p, h => by
    simp only [Fields.find] at h
    split at h
    · cases h
      simp
    · exact findFields_ne_nil m r (k + 1) p h
  | .cons none _ t r, k, p, h => by
    simp only [Fields.find] at h
    split at h
    · cases h
      simp
    · exact findFields_ne_nil m r (k + 1) p h
end

theorem resolve_ne_nil (d : Desig) (ds : List Desig) (t : Ty) (p : Path)
    (h : t.resolve (d :: ds) = some p) : p ≠ [] := by
  cases d with
  | field m =>
    simp only [Ty.resolve] at h
    split at h
    · cases h
    · rename_i q hq
      split at h
      · cases h
      · obtain ⟨r, _, rfl⟩ := Option.map_eq_some_iff.mp h
        have := find_ne_nil m t q hq
        simp [this]
  | index n =>
    simp only [Ty.resolve] at h
    split at h
    · split at h
      · cases h
      · obtain ⟨r, _, rfl⟩ := Option.map_eq_some_iff.mp h
        simp
    · cases h

theorem fromPos_of_name : ∀ (fs : Fields) (i m : Nat), nameAt fs i = some m → fs.fromPos i = some i
  | .nil, _, _, h => by simp [nameAt] at h
  | .cons n b t r, 0, m, h => by
    simp only [nameAt] at h
    subst h
    rfl
  | .cons n b t r, i + 1, m, h => by
    simp only [nameAt] at h
    simp [Fields.fromPos, fromPos_of_name r i m h]

/-- `next` after navigating to one direct subobject. -/
theorem next_navigated {t u : Ty} {i : Nat} (hp : t.plain = true) (hf : t.fine = true)
    (hc : t.child i = some u)
    (hm : Named t [i]) (below : Stack) :
    ∀ len, next len (navLayer t i :: below) =
      .ok (lenAt len [i] below, ⟨t, i, false⟩ :: below, some u) := by
  intro len
  cases t with
  | scalar c => simp [Ty.child, Ty.bare] at hc
  | qualified s => simp [Ty.plain] at hp
  | array n el =>
    have he : el = u ∧ finished n i = false := by
      simp only [Ty.child, Ty.bare] at hc
      cases n with
      | none => exact ⟨by simpa using hc, rfl⟩
      | some n =>
        simp only at hc
        split at hc
        · refine ⟨by simpa using hc, ?_⟩
          simp [finished]
          omega
        · cases hc
    obtain ⟨rfl, hfin⟩ := he
    by_cases h0 : i = 0
    · subst h0
      simp [navLayer, next, hfin, lenAt, layerNext]
    · have h1 : i - 1 + 1 = i := by omega
      simp only [navLayer, if_neg h0, next, Bool.false_eq_true, if_false, h1, hfin, lenAt, layerNext]
  | record b tag fs =>
    obtain ⟨⟨m, hm⟩, _⟩ := hm
    simp only [Ty.fine, Ty.good, Bool.and_eq_true] at hf
    have hc' : fs.at? i = some u := by simpa only [Ty.child, Ty.bare] using hc
    have hs := skip_eq fs i (Or.inr hf.1)
    have hfr : fs.fromPos i = some i := fromPos_of_name fs i m hm
    cases b with
    | false =>
      by_cases h0 : i = 0
      · subst h0
        simp only [navLayer, next, if_true, hs, hfr, Option.getD, Res.bind, hc', lenAt, layerNext]
      · have h1 : i - 1 + 1 = i := by omega
        simp only [navLayer, if_neg h0, next, Bool.false_eq_true, if_false, h1, hs, hfr, Option.getD, Res.bind, hc',
          lenAt, layerNext]
    | true =>
      simp only [navLayer, next, if_true, hs, hfr, Option.getD, Res.bind, hc', lenAt, layerNext]

theorem nav_one {t : Ty} {d : Desig} {ds : List Desig} {p : Path} (hp : t.plain = true)
    (hf : t.fine = true) (hr : t.resolve (d :: ds) = some p) (below : Stack) :
    ∃ i u p', p = i :: p' ∧ t.child i = some u ∧ u.resolve ds = some p' ∧
      Named t [i] ∧ d = stepDesig t i ∧
      (∀ init idx, navDesig d true (⟨t, idx, init⟩ :: below) =
        .found (pushLayer u (⟨t, i, false⟩ :: below))) ∧
      (∀ init idx, navDesig d false (⟨t, idx, init⟩ :: below) =
        .found (navLayer t i :: below)) := by
  cases d with
  | field m =>
    simp only [Ty.resolve] at hr
    split at hr
    · cases hr
    · rename_i q hq
      split at hr
      · cases hr
      · rename_i u hu
        obtain ⟨r, hr', rfl⟩ := Option.map_eq_some_iff.mp hr
        cases t with
        | scalar c => simp [Ty.find] at hq
        | qualified s => simp [Ty.plain] at hp
        | array n el => simp [Ty.find] at hq
        | record b tag fs =>
          simp only [Ty.fine, Ty.good, Bool.and_eq_true] at hf
          simp only [Ty.find] at hq
          obtain ⟨i, w, rfl, hn, ha, hnav⟩ := find_good fs b [] m 0 q hf.2 hq
          simp only [Nat.zero_add] at hu hnav ⊢
          have hcw : (Ty.record b tag fs).child i = some w := by simp only [Ty.child, Ty.bare, ha]
          have huw : w = u := by
            simp only [Ty.sub, hcw] at hu
            simpa using hu
          subst huw
          refine ⟨i, w, r, by simp, hcw, hr', ⟨⟨m, hn⟩, w, hcw, trivial⟩, by simp [hn, stepDesig], ?_, ?_⟩
          · intro init idx
            simp only [navDesig, navMember]
            rw [hnav]
            rfl
          · intro init idx
            simp only [navDesig, navMember]
            rw [hnav]
            cases b with
            | true => rfl
            | false =>
              simp only [navLayer, Bool.false_eq_true, if_false]
              split <;> rfl
  | index n =>
    simp only [Ty.resolve] at hr
    cases t with
    | scalar c => simp [Ty.bare] at hr
    | qualified s => simp [Ty.plain] at hp
    | record b tag fs => simp [Ty.bare] at hr
    | array len el =>
      simp only [Ty.bare] at hr
      split at hr
      · cases hr
      · rename_i u hu
        obtain ⟨r, hr', rfl⟩ := Option.map_eq_some_iff.mp hr
        have he : el = u ∧ ∀ k, len = some k → n < k := by
          simp only [Ty.child, Ty.bare] at hu
          cases len with
          | none => exact ⟨by simpa using hu, by simp⟩
          | some k =>
            simp only at hu
            split at hu
            · refine ⟨by simpa using hu, ?_⟩
              intro k' e
              cases e
              assumption
            · cases hu
        obtain ⟨rfl, hb⟩ := he
        refine ⟨n, el, r, rfl, hu, hr', ⟨trivial, el, hu, trivial⟩, rfl, ?_, ?_⟩
        · intro init idx
          cases len with
          | none => simp only [navDesig, navIndex, Bool.false_eq_true, if_false, if_true]
          | some k =>
            have hk := hb k rfl
            simp only [navDesig, navIndex, decide_eq_true_eq]
            rw [if_neg (by omega)]
            rfl
        · intro init idx
          have hcore : navDesig (.index n) false (⟨.array len el, idx, init⟩ :: below) =
              if 0 < n then .found (⟨.array len el, n - 1, false⟩ :: below)
              else .found (⟨.array len el, 0, true⟩ :: below) := by
            cases len with
            | none =>
              simp only [navDesig, navIndex, Bool.false_eq_true, if_false]
              split <;> rfl
            | some k =>
              have hk := hb k rfl
              simp only [navDesig, navIndex, decide_eq_true_eq]
              rw [if_neg (by omega)]
              simp only [Bool.false_eq_true, if_false]
              split <;> rfl
          rw [hcore]
          by_cases h0 : n = 0
          · subst h0
            rfl
          · simp only [navLayer]
            rw [if_pos (by omega : 0 < n), if_neg h0]

/-- Navigating along a designation. -/
theorem navAll_ok : ∀ (ds : List Desig) (t : Ty) (p : Path) (below : Stack) (idx : Nat) (init : Bool),
    ds ≠ [] → t.plain = true → t.fine = true → t.resolve ds = some p → t.clear p = true →
    Named t p ∧ ds = desigs t p ∧ ∃ st v, navAll ds (⟨t, idx, init⟩ :: below) = .found st ∧
      t.sub p = some v ∧ ∀ len, next len st = .ok (lenAt len p below, frames t p below, some v)
  | [], _, _, _, _, _, h, _, _, _, _ => absurd rfl h
  | d :: ds, t, p, below, idx, init, _, hp, hf, hr, hcl => by
    obtain ⟨i, u, p', rfl, hc, hr', hm, hd, hpush, hlast⟩ := nav_one hp hf hr below
    simp only [Ty.clear, hc, Bool.and_eq_true] at hcl
    have hgu := fine_child hf hc
    cases ds with
    | nil =>
      simp only [Ty.resolve] at hr'
      cases hr'
      refine ⟨hm, ?_, navLayer t i :: below, u, ?_, ?_, ?_⟩
      · rw [desigs]
        simp only [hc, desigs]
        rw [hd]
      · simp only [navAll]
        exact hlast init idx
      · simp only [Ty.sub, hc]
      · simp only [frames, hc]
        exact next_navigated hp hf hc hm below
    | cons d' ds' =>
      have hne := resolve_ne_nil d' ds' u p' hr'
      cases p' with
      | nil => exact absurd rfl hne
      | cons k p' =>
        have hpu : u.plain = true := by
          have := hcl.2
          simp only [Ty.clear, Bool.and_eq_true] at this
          exact this.1
        have hk : ∃ w, u.child k = some w := by
          have := hcl.2
          simp only [Ty.clear, Bool.and_eq_true] at this
          cases hx : u.child k with
          | none => simp [hx] at this
          | some w => exact ⟨w, rfl⟩
        obtain ⟨w, hw⟩ := hk
        obtain ⟨hn, hds, st, v, hnav, hsub, hnext⟩ := navAll_ok (d' :: ds') u (k :: p')
          (⟨t, i, false⟩ :: below) 0 true (by simp) hpu (fine_of_good hgu) hr' hcl.2
        refine ⟨⟨hm.1, u, hc, hn⟩, ?_, st, v, ?_, ?_, ?_⟩
        · have hx : desigs t (i :: k :: p') = stepDesig t i :: desigs u (k :: p') := by
            rw [desigs]
            simp only [hc]
          rw [hx, ← hds, hd]
        · rw [navAll]
          rw [hpush init idx, push_of_child hpu hw]
          exact hnav
        · rw [Ty.sub, hc]
          exact hsub
        · intro len
          have hfr : frames t (i :: k :: p') below = frames u (k :: p') (⟨t, i, false⟩ :: below) := by
            rw [frames]
            simp only [hc]
          rw [hnext len, hfr]
          cases p' with
          | nil => simp [lenAt]
          | cons a b => simp [lenAt]

/-- Navigating from the outermost object. -/
theorem navigate_ok {ds : List Desig} {t : Ty} {p : Path} (hne : ds ≠ []) (hp : t.plain = true)
    (hf : t.fine = true) (hr : t.resolve ds = some p) (hcl : t.clear p = true) :
    Named t p ∧ ds = desigs t p ∧ ∃ st v, navigate t ds = .ok st ∧
      t.sub p = some v ∧ ∀ len, next len st = .ok (lenAt len p [], frames t p [], some v) := by
  obtain ⟨hn, hd, st, v, hnav, hsub, hnext⟩ := navAll_ok ds t p [] 0 true hne hp hf hr hcl
  refine ⟨hn, hd, st, v, ?_, hsub, hnext⟩
  cases ds with
  | nil => exact absurd rfl hne
  | cons d ds =>
    have hpne := resolve_ne_nil d ds t p hr
    cases p with
    | nil => exact absurd rfl hpne
    | cons i p =>
      simp only [Ty.clear, Bool.and_eq_true] at hcl
      have hk : ∃ w, t.child i = some w := by
        cases hx : t.child i with
        | none => simp [hx] at hcl
        | some w => exact ⟨w, rfl⟩
      obtain ⟨w, hw⟩ := hk
      rw [navigate, push_of_child hp hw, hnav]

end Kefir.Init
