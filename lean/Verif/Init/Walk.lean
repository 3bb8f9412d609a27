import Verif.Init.Covered

/-!
# Layers and paths

The stack of layers that corresponds to a path, and what `next` and `empty` do with it.
-/

namespace Kefir.Init

open Model

variable {E : Type}

/-! ### Types -/

theorem bare_of_plain {t : Ty} (h : t.plain = true) : t.bare = t := by
  cases t <;> simp_all [Ty.plain, Ty.bare]

theorem unqual_of_plain {t : Ty} (h : t.plain = true) : unqual t = t := by
  cases t <;> simp_all [Ty.plain, unqual]

theorem bare_plain : ∀ t : Ty, t.bare.plain = true
  | .scalar _ => rfl
  | .array _ _ => rfl
  | .record _ _ _ => rfl
  | .qualified t => bare_plain t

theorem bare_eq_unqual {t : Ty} (h : t.good = true) : t.bare = unqual t := by
  cases t with
  | qualified t => cases t <;> simp_all [Ty.good, Ty.bare, unqual]
  | _ => rfl

theorem good_bare {t : Ty} (h : t.good = true) : t.bare.good = true := by
  cases t with
  | qualified t => cases t <;> simp_all [Ty.good, Ty.bare]
  | _ => exact h

theorem bare_bare (t : Ty) : t.bare.bare = t.bare := bare_of_plain (bare_plain t)

theorem child_bare (t : Ty) (i : Nat) : t.bare.child i = t.child i := by
  simp only [Ty.child, bare_bare]

theorem first_bare (t : Ty) : t.bare.first = t.first := by
  simp only [Ty.first, bare_bare]

/-- A type the outermost object may have: good, or an array of unknown size with good elements. -/
def Ty.fine (t : Ty) : Bool :=
  match t with
  | .array none el => el.good
  | t => t.good

theorem fine_of_good {t : Ty} (h : t.good = true) : t.fine = true := by
  cases t with
  | array n el => cases n <;> simp_all [Ty.good, Ty.fine]
  | _ => exact h

/-! ### Members -/

/-- Number of members. -/
def Fields.size : Fields → Nat
  | .nil => 0
  | .cons _ _ _ r => r.size + 1

theorem at?_size : ∀ fs : Fields, fs.at? fs.size = none
  | .nil => rfl
  | .cons _ _ _ r => at?_size r

theorem at?_isSome : ∀ (fs : Fields) (i : Nat), (fs.at? i).isSome = decide (i < fs.size)
  | .nil, _ => by simp [Fields.at?, Fields.size]
  | .cons _ _ _ r, 0 => by simp [Fields.at?, Fields.size]
  | .cons _ _ _ r, i + 1 => by simp [Fields.at?, Fields.size, at?_isSome r i]

theorem fromPos_at? : ∀ (fs : Fields) (i j : Nat), fs.fromPos i = some j →
    ∃ t, fs.at? j = some t
  | .nil, _, _, h => by simp [Fields.fromPos] at h
  | .cons n b t r, 0, j, h => by
    simp only [Fields.fromPos] at h
    split at h
    · obtain ⟨k, hk, rfl⟩ := Option.map_eq_some_iff.mp h
      exact fromPos_at? r 0 k hk
    · cases h
      exact ⟨t, rfl⟩
  | .cons n b t r, i + 1, j, h => by
    simp only [Fields.fromPos] at h
    obtain ⟨k, hk, rfl⟩ := Option.map_eq_some_iff.mp h
    exact fromPos_at? r i k hk

theorem lastNamed_tail {n : Option Name} {b : Bool} {t : Ty} {r : Fields}
    (h : (Fields.cons n b t r).lastNamed = true) : r = .nil ∨ r.lastNamed = true := by
  cases r with
  | nil => exact Or.inl rfl
  | cons n' b' t' r' =>
    refine Or.inr ?_
    simpa only [Fields.lastNamed] using h

theorem skip_eq : ∀ (fs : Fields) (i : Nat), fs = .nil ∨ fs.lastNamed = true →
    skip fs i = .ok ((fs.fromPos i).getD fs.size)
  | .nil, _, _ => rfl
  | .cons n b t r, 0, h => by
    have h' : (Fields.cons n b t r).lastNamed = true := by
      rcases h with h | h
      · cases h
      · exact h
    simp only [skip, Fields.fromPos]
    split
    · cases r with
      | nil => simp_all [Fields.lastNamed]
      | cons n' b' t' r' =>
        have hr := lastNamed_tail h'
        have ih := skip_eq (.cons n' b' t' r') 0 hr
        simp only [ih, Res.bind]
        cases (Fields.cons n' b' t' r').fromPos 0 <;> simp [Fields.size]
    · rfl
  | .cons n b t r, i + 1, h => by
    have h' : (Fields.cons n b t r).lastNamed = true := by
      rcases h with h | h
      · cases h
      · exact h
    have ih := skip_eq r i (lastNamed_tail h')
    simp only [skip, Fields.fromPos, ih, Res.bind]
    cases r.fromPos i <;> simp [Fields.size]

theorem fromPos_isSome : ∀ (fs : Fields) (i : Nat), fs = .nil ∨ fs.lastNamed = true →
    (fs.fromPos i).isSome = (fs.at? i).isSome
  | .nil, _, _ => rfl
  | .cons n b t r, 0, h => by
    have h' : (Fields.cons n b t r).lastNamed = true := by
      rcases h with h | h
      · cases h
      · exact h
    simp only [Fields.fromPos, Fields.at?]
    split
    · cases r with
      | nil => simp_all [Fields.lastNamed]
      | cons n' b' t' r' =>
        have ih := fromPos_isSome (.cons n' b' t' r') 0 (lastNamed_tail h')
        simp only [Fields.at?] at ih
        simpa using ih
    · rfl
  | .cons n b t r, i + 1, h => by
    have h' : (Fields.cons n b t r).lastNamed = true := by
      rcases h with h | h
      · cases h
      · exact h
    have ih := fromPos_isSome r i (lastNamed_tail h')
    simpa [Fields.fromPos, Fields.at?] using ih

/-- A union that is good has no unnamed bit-fields. -/
theorem fromPos_union : ∀ (fs : Fields) (seen : List Name) (i : Nat), fs.good true seen = true →
    ∀ t, fs.at? i = some t → fs.fromPos i = some i
  | .nil, _, _, _, _, h => by simp [Fields.at?] at h
  | .cons n b t r, seen, 0, hg, _, _ => by
    cases n with
    | none => simp [Fields.good] at hg
    | some m => simp [Fields.fromPos]
  | .cons n b t r, seen, i + 1, hg, u, h => by
    cases n with
    | none => simp [Fields.good] at hg
    | some m =>
      simp only [Fields.good, Bool.and_eq_true] at hg
      have ih := fromPos_union r _ i hg.2 u h
      simp [Fields.fromPos, ih]

theorem good_at? : ∀ (fs : Fields) (u : Bool) (seen : List Name) (i : Nat) (t : Ty),
    fs.good u seen = true → fs.at? i = some t → t.good = true
  | .nil, _, _, _, _, _, h => by simp [Fields.at?] at h
  | .cons n b t r, u, seen, 0, _, hg, h => by
    simp only [Fields.at?] at h
    cases h
    cases n with
    | none =>
      simp only [Fields.good, Bool.and_eq_true] at hg
      cases t <;> simp_all [Ty.good]
    | some m =>
      simp only [Fields.good, Bool.and_eq_true] at hg
      exact hg.1.2
  | .cons n b t r, u, seen, i + 1, t', hg, h => by
    cases n with
    | none =>
      simp only [Fields.good, Bool.and_eq_true] at hg
      exact good_at? r u _ i t' hg.2 h
    | some m =>
      simp only [Fields.good, Bool.and_eq_true] at hg
      exact good_at? r u _ i t' hg.2 h

/-- What takes part in initialisation has an identifier. -/
theorem fromPos_named : ∀ (fs : Fields) (u : Bool) (seen : List Name) (i j : Nat),
    fs.good u seen = true → fs.fromPos i = some j → ∃ m, nameAt fs j = some m
  | .nil, _, _, _, _, _, h => by simp [Fields.fromPos] at h
  | .cons n b t r, u, seen, 0, j, hg, h => by
    simp only [Fields.fromPos] at h
    cases n with
    | none =>
      simp only [Fields.good, Bool.and_eq_true] at hg
      have hb : b = true := hg.1.1.2
      rw [if_pos ⟨rfl, hb⟩] at h
      obtain ⟨k, hk, rfl⟩ := Option.map_eq_some_iff.mp h
      exact fromPos_named r u _ 0 k hg.2 hk
    | some m =>
      simp at h
      subst h
      exact ⟨m, rfl⟩
  | .cons n b t r, u, seen, i + 1, j, hg, h => by
    simp only [Fields.fromPos] at h
    obtain ⟨k, hk, rfl⟩ := Option.map_eq_some_iff.mp h
    cases n with
    | none =>
      simp only [Fields.good, Bool.and_eq_true] at hg
      exact fromPos_named r u _ i k hg.2 hk
    | some m =>
      simp only [Fields.good, Bool.and_eq_true] at hg
      exact fromPos_named r u _ i k hg.2 hk

theorem fine_child {t u : Ty} {i : Nat} (h : t.fine = true) (hc : t.child i = some u) :
    u.good = true := by
  have key : ∀ s : Ty, s.plain = true → s.fine = true → s.child i = some u → u.good = true := by
    intro s hp hs hsc
    cases s with
    | scalar c => simp [Ty.child, Ty.bare] at hsc
    | qualified s => simp [Ty.plain] at hp
    | array n el =>
      cases n with
      | none =>
        simp only [Ty.child, Ty.bare] at hsc
        cases hsc
        exact hs
      | some n =>
        simp only [Ty.child, Ty.bare] at hsc
        split at hsc
        · cases hsc
          simp only [Ty.fine, Ty.good, Bool.and_eq_true] at hs
          exact hs.2
        · cases hsc
    | record b tag fs =>
      simp only [Ty.child, Ty.bare] at hsc
      simp only [Ty.fine, Ty.good, Bool.and_eq_true] at hs
      exact good_at? fs b [] i u hs.2 hsc
  cases t with
  | qualified s =>
    have h1 : (Ty.qualified s).bare.good = true := good_bare h
    exact key _ (bare_plain _) (fine_of_good h1) (by rw [child_bare]; exact hc)
  | scalar c => exact key _ rfl h hc
  | array n el => exact key _ rfl h hc
  | record b tag fs => exact key _ rfl h hc

theorem fine_sub : ∀ (p : Path) (t u : Ty), t.fine = true → p ≠ [] → t.sub p = some u → u.good = true
  | [], _, _, _, h, _ => absurd rfl h
  | i :: p, t, u, hf, _, hs => by
    simp only [Ty.sub] at hs
    split at hs
    · rename_i v hv
      have hg := fine_child hf hv
      cases p with
      | nil =>
        simp only [Ty.sub] at hs
        cases hs
        exact hg
      | cons j q => exact fine_sub (j :: q) v u (fine_of_good hg) (by simp) hs
    · cases hs

/-! ### Stacks that correspond to paths -/

/-- The layers that lead from an object of type `t` to the subobject at a path, on top of `below`. -/
def frames : Ty → Path → Stack → Stack
  | _, [], below => below
  | t, i :: p, below =>
    match t.child i with
    | some u => frames u p (⟨t, i, false⟩ :: below)
    | none => below

/-- Every step of the path leads to an element or to a member with an identifier. -/
def Named : Ty → Path → Prop
  | _, [] => True
  | t, i :: p =>
    (match t with | .record _ _ fs => ∃ m, nameAt fs i = some m | _ => True) ∧
      ∃ u, t.child i = some u ∧ Named u p

/-- An object of this type has layers: an array, or a structure or union with members. -/
theorem push_of_child {t u : Ty} {i : Nat} (hp : t.plain = true) (hc : t.child i = some u) (st : Stack) :
    pushLayer t st = ⟨t, 0, true⟩ :: st := by
  cases t with
  | scalar c => rfl
  | qualified s => rfl
  | array n el => rfl
  | record b tag fs =>
    cases fs with
    | nil => simp [Ty.child, Ty.bare, Fields.at?] at hc
    | cons _ _ _ _ => rfl

/-- What `next` does in the middle of an object. -/
theorem next_layer {t u : Ty} {i : Nat} (hp : t.plain = true) (hf : t.fine = true)
    (hc : t.child i = some u) (len : Nat) (below : Stack) :
    match t.following i with
    | some j => ∃ v, t.child j = some v ∧
        next len (⟨t, i, false⟩ :: below) =
          .ok (layerNext len ⟨t, j, false⟩ below, ⟨t, j, false⟩ :: below, some v)
    | none => ∃ len', (below ≠ [] → len' = len) ∧
        next len (⟨t, i, false⟩ :: below) = next len' below := by
  have hlen : ∀ l : Layer, below ≠ [] → layerEnd len l below = len := by
    intro l hb
    simp [layerEnd, hb]
  cases t with
  | scalar c => simp [Ty.child, Ty.bare] at hc
  | qualified s => simp [Ty.plain] at hp
  | array n el =>
    cases n with
    | none =>
      simp only [Ty.following, Ty.bare]
      exact ⟨el, rfl, rfl⟩
    | some n =>
      simp only [Ty.child, Ty.bare] at hc
      split at hc
      · rename_i hi
        simp only [Ty.following, Ty.bare]
        by_cases h : i + 1 < n
        · have hfin : finished (some n) (i + 1) = false := by
            simp [finished]
            omega
          simp only [if_pos h]
          refine ⟨el, by simp [Ty.child, Ty.bare, h], ?_⟩
          simp only [next, Bool.false_eq_true, if_false, hfin]
        · have hfin : finished (some n) (i + 1) = true := by
            simp [finished]
            omega
          simp only [if_neg h]
          refine ⟨_, hlen ⟨.array (some n) el, i + 1, false⟩, ?_⟩
          simp only [next, Bool.false_eq_true, if_false, hfin, if_true]
      · cases hc
  | record b tag fs =>
    simp only [Ty.fine, Ty.good, Bool.and_eq_true] at hf
    obtain ⟨hl, hg⟩ := hf
    cases b with
    | false =>
      simp only [Ty.following, Ty.bare]
      have hs := skip_eq fs (i + 1) (Or.inr hl)
      cases hfr : fs.fromPos (i + 1) with
      | some j =>
        obtain ⟨v, hv⟩ := fromPos_at? fs _ _ hfr
        refine ⟨v, hv, ?_⟩
        simp only [next, Bool.false_eq_true, if_false, hs, hfr, Option.getD, Res.bind, hv]
      | none =>
        refine ⟨_, hlen ⟨.record false tag fs, fs.size, false⟩, ?_⟩
        simp only [next, Bool.false_eq_true, if_false, hs, hfr, Option.getD, Res.bind, at?_size]
    | true =>
      simp only [Ty.following, Ty.bare]
      simp only [Ty.child, Ty.bare] at hc
      have hs := skip_eq fs i (Or.inr hl)
      refine ⟨_, hlen ⟨.record true tag fs, (fs.fromPos i).getD fs.size, false⟩, ?_⟩
      simp only [next, Bool.false_eq_true, if_false, hs, Res.bind]

/-- What `next` does at the start of an object. -/
theorem next_fresh {t : Ty} {j : Nat} (hp : t.plain = true) (hf : t.fine = true)
    (hj : t.first = some j) (len : Nat) (below : Stack) :
    ∃ v, t.child j = some v ∧
      next len (⟨t, 0, true⟩ :: below) =
        .ok (layerNext len ⟨t, j, false⟩ below, ⟨t, j, false⟩ :: below, some v) := by
  cases t with
  | scalar c => simp [Ty.first, Ty.bare] at hj
  | qualified s => simp [Ty.plain] at hp
  | array n el =>
    cases n with
    | none =>
      simp only [Ty.first, Ty.bare] at hj
      cases hj
      exact ⟨el, rfl, rfl⟩
    | some n =>
      cases n with
      | zero => simp [Ty.first, Ty.bare] at hj
      | succ n =>
        simp only [Ty.first, Ty.bare] at hj
        cases hj
        refine ⟨el, by simp [Ty.child, Ty.bare], ?_⟩
        simp [next, finished]
  | record b tag fs =>
    simp only [Ty.fine, Ty.good, Bool.and_eq_true] at hf
    obtain ⟨hl, hg⟩ := hf
    simp only [Ty.first, Ty.bare] at hj
    have hs := skip_eq fs 0 (Or.inr hl)
    obtain ⟨v, hv⟩ := fromPos_at? fs _ _ hj
    refine ⟨v, hv, ?_⟩
    cases b with
    | false => simp only [next, if_true, hs, hj, Option.getD, Res.bind, hv]
    | true => simp only [next, if_true, hs, hj, Option.getD, Res.bind, hv]

/-- There is a first subobject if there are subobjects. -/
theorem first_of_child {t u : Ty} {i : Nat} (hf : t.fine = true) (hp : t.plain = true)
    (hc : t.child i = some u) : ∃ j, t.first = some j := by
  cases t with
  | scalar c => simp [Ty.child, Ty.bare] at hc
  | qualified s => simp [Ty.plain] at hp
  | array n el =>
    cases n with
    | none => exact ⟨0, rfl⟩
    | some n =>
      cases n with
      | zero => simp [Ty.child, Ty.bare] at hc
      | succ n => exact ⟨0, rfl⟩
  | record b tag fs =>
    simp only [Ty.fine, Ty.good, Bool.and_eq_true] at hf
    have h := fromPos_isSome fs 0 (Or.inr hf.1)
    simp only [Ty.child, Ty.bare] at hc
    have h2 := at?_isSome fs i
    rw [hc] at h2
    have h3 := at?_isSome fs 0
    have hlt : i < fs.size := by simpa using h2.symm
    rw [h3, decide_eq_true (by omega : 0 < fs.size)] at h
    simp only [Ty.first, Ty.bare]
    exact Option.isSome_iff_exists.mp h

/-- Listener calls of a step to a subobject of the outermost object. -/
def lenAt (len : Nat) (p : Path) (below : Stack) : Nat :=
  match p with
  | [j] => if below.isEmpty then max len (j + 1) else len
  | _ => len

/-- What `next` does after the subobject at a path. -/
theorem next_frames : ∀ (p : Path) (t : Ty) (below : Stack) (len : Nat), t.fine = true →
    t.clear p = true → p ≠ [] →
    match t.after p with
    | some q => ∃ v, t.sub q = some v ∧
        next len (frames t p below) = .ok (lenAt len q below, frames t q below, some v)
    | none => ∃ len', (below ≠ [] → len' = len) ∧ next len (frames t p below) = next len' below
  | [], _, _, _, _, _, h => absurd rfl h
  | i :: p, t, below, len, hf, hcl, _ => by
    simp only [Ty.clear, Bool.and_eq_true] at hcl
    obtain ⟨hp, hcl⟩ := hcl
    cases hc : t.child i with
    | none => simp [hc] at hcl
    | some u =>
      rw [hc] at hcl
      have hgu := fine_child hf hc
      have layer := next_layer hp hf hc len below
      -- what happens once the layers above are exhausted
      have fin : match (match t.following i with | some j => some [j] | none => (none : Option Path)) with
          | some q => ∃ v, t.sub q = some v ∧
              next len (⟨t, i, false⟩ :: below) = .ok (lenAt len q below, frames t q below, some v)
          | none => ∃ len', (below ≠ [] → len' = len) ∧
              next len (⟨t, i, false⟩ :: below) = next len' below := by
        cases hfo : t.following i with
        | none =>
          rw [hfo] at layer
          exact layer
        | some j =>
          rw [hfo] at layer
          obtain ⟨v, hv, hn⟩ := layer
          refine ⟨v, by simp [Ty.sub, hv], ?_⟩
          rw [hn]
          simp [frames, hv, lenAt, layerNext]
      cases p with
      | nil =>
        simp only [Ty.after, hc, frames]
        exact fin
      | cons k p =>
        have ih := next_frames (k :: p) u (⟨t, i, false⟩ :: below) len (fine_of_good hgu) hcl (by simp)
        simp only [frames, hc] at ih ⊢
        have hafter : t.after (i :: k :: p) = match u.after (k :: p) with
            | some p' => some (i :: p')
            | none => match t.following i with
              | some j => some [j]
              | none => none := by
          rw [Ty.after]
          simp only [hc]
          cases u.after (k :: p) with
          | some q => rfl
          | none => cases t.following i <;> rfl
        rw [hafter]
        cases hua : u.after (k :: p) with
        | some q =>
          rw [hua] at ih
          obtain ⟨v, hv, hn⟩ := ih
          refine ⟨v, by simp only [Ty.sub, hc]; exact hv, ?_⟩
          have hq : q ≠ [] := by
            intro h0
            subst h0
            simp only [Ty.after] at hua
            split at hua
            · cases hua
            · split at hua
              · cases hua
              · split at hua <;> cases hua
          rw [hn]
          simp only [frames, hc]
          cases q with
          | nil => exact absurd rfl hq
          | cons a q =>
            cases q with
            | nil => simp [lenAt]
            | cons b q => simp [lenAt]
        | none =>
          rw [hua] at ih
          obtain ⟨len', hlen', hn⟩ := ih
          have : len' = len := hlen' (by simp)
          subst this
          rw [hn]
          exact fin

theorem layerEmpty_mid {t u : Ty} {i : Nat} (hp : t.plain = true) (hf : t.fine = true)
    (hc : t.child i = some u) : layerEmpty ⟨t, i, false⟩ = (t.following i).isNone := by
  cases t with
  | scalar c => simp [Ty.child, Ty.bare] at hc
  | qualified s => simp [Ty.plain] at hp
  | array n el =>
    cases n with
    | none => rfl
    | some n =>
      simp only [Ty.child, Ty.bare] at hc
      split at hc
      · simp only [layerEmpty, Ty.following, Ty.bare, finished]
        by_cases h : i + 1 < n
        · rw [if_pos h]
          simp
          omega
        · rw [if_neg h]
          simp
          omega
      · cases hc
  | record b tag fs =>
    simp only [Ty.fine, Ty.good, Bool.and_eq_true] at hf
    simp only [Ty.child, Ty.bare] at hc
    cases b with
    | false =>
      have h := fromPos_isSome fs (i + 1) (Or.inr hf.1)
      simp only [layerEmpty, Ty.following, Ty.bare, hc]
      have e1 : ∀ {α : Type} (o : Option α), o.isNone = !o.isSome := by
        intro α o
        cases o <;> rfl
      rw [e1 (fs.fromPos (i + 1)), h, ← e1]
      simp
    | true => simp [layerEmpty, Ty.following, Ty.bare, hc]

theorem empty_frames : ∀ (p : Path) (t : Ty) (below : Stack), t.fine = true →
    t.clear p = true → p ≠ [] →
    empty (frames t p below) = ((t.after p).isNone && empty below)
  | [], _, _, _, _, h => absurd rfl h
  | i :: p, t, below, hf, hcl, _ => by
    simp only [Ty.clear, Bool.and_eq_true] at hcl
    obtain ⟨hp, hcl⟩ := hcl
    cases hc : t.child i with
    | none => simp [hc] at hcl
    | some u =>
      rw [hc] at hcl
      have hgu := fine_child hf hc
      have hm := layerEmpty_mid hp hf hc
      have hbase : empty (⟨t, i, false⟩ :: below) = ((t.following i).isNone && empty below) := by
        simp [empty, hm]
      cases p with
      | nil =>
        simp only [Ty.after, hc, frames, hbase]
        cases t.following i <;> rfl
      | cons k p =>
        have ih := empty_frames (k :: p) u (⟨t, i, false⟩ :: below) (fine_of_good hgu) hcl (by simp)
        simp only [frames, hc] at ih ⊢
        have hafter : t.after (i :: k :: p) = match u.after (k :: p) with
            | some p' => some (i :: p')
            | none => match t.following i with
              | some j => some [j]
              | none => none := by
          rw [Ty.after]
          simp only [hc]
          cases u.after (k :: p) with
          | some q => rfl
          | none => cases t.following i <;> rfl
        rw [ih, hafter, hbase]
        cases u.after (k :: p) with
        | some q => rfl
        | none => cases t.following i <;> rfl

theorem layerEmpty_fresh {t : Ty} {j : Nat} (hp : t.plain = true) (hf : t.fine = true)
    (hj : t.first = some j) : layerEmpty ⟨t, 0, true⟩ = false := by
  cases t with
  | scalar c => rfl
  | qualified s => rfl
  | array n el =>
    cases n with
    | none => rfl
    | some n =>
      cases n with
      | zero => simp [Ty.first, Ty.bare] at hj
      | succ n => simp [layerEmpty, finished]
  | record b tag fs =>
    simp only [Ty.fine, Ty.good, Bool.and_eq_true] at hf
    simp only [Ty.first, Ty.bare] at hj
    have h := fromPos_isSome fs 0 (Or.inr hf.1)
    rw [hj] at h
    have h0 : (fs.at? 0).isNone = false := by
      cases hx : fs.at? 0 with
      | none => simp [hx] at h
      | some v => rfl
    cases b <;> simp [layerEmpty, h0]

end Kefir.Init
