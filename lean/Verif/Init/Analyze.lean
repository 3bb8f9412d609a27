import Verif.Init.Descend

/-!
# The analysis of initialisers

The correspondence between the layers and what comes next, and the proof that the analysis accepts
what the specification accepts and determines the length of an array.
-/

namespace Kefir.Init

open Model

variable {E : Type}

/-- The layers `st` describe that `c` comes next. -/
def At (t : Ty) (st : Stack) : Option Path → Prop
  | some p => Arrives t st p ∧ Named t p ∧ empty st = false
  | none => empty st = true

theorem named_following {t : Ty} {i j : Nat} (hp : t.plain = true) (hf : t.fine = true) {v : Ty}
    (hj : t.following i = some j) (hv : t.child j = some v) : Named t [j] := by
  refine ⟨?_, v, hv, trivial⟩
  cases t with
  | record b tag fs =>
    simp only [Ty.fine, Ty.good, Bool.and_eq_true] at hf
    cases b with
    | false => exact fromPos_named fs false [] (i + 1) j hf.2 (by simpa only [Ty.following, Ty.bare] using hj)
    | true => simp [Ty.following, Ty.bare] at hj
  | _ => trivial

theorem named_first {t : Ty} {j : Nat} (hp : t.plain = true) (hf : t.fine = true) {v : Ty}
    (hj : t.first = some j) (hv : t.child j = some v) : Named t [j] := by
  refine ⟨?_, v, hv, trivial⟩
  cases t with
  | record b tag fs =>
    simp only [Ty.fine, Ty.good, Bool.and_eq_true] at hf
    exact fromPos_named fs b [] 0 j hf.2 (by simpa only [Ty.first, Ty.bare] using hj)
  | _ => trivial

theorem named_after : ∀ (p q : Path) (t : Ty), t.fine = true → t.clear p = true → Named t p →
    t.after p = some q → Named t q
  | [], _, _, _, _, _, h => by simp [Ty.after] at h
  | i :: p, q, t, hf, hcl, hn, h => by
    obtain ⟨hm, u, hc, hn⟩ := hn
    rw [Ty.after] at h
    simp only [hc] at h
    simp only [Ty.clear, hc, Bool.and_eq_true] at hcl
    have hgu := fine_child hf hc
    cases ha : u.after p with
    | some p' =>
      simp only [ha] at h
      cases h
      exact ⟨hm, u, hc, named_after p p' u (fine_of_good hgu) hcl.2 hn ha⟩
    | none =>
      simp only [ha] at h
      cases hj : t.following i with
      | none => simp [hj] at h
      | some j =>
        simp only [hj] at h
        cases h
        have hl := next_layer hcl.1 hf hc 0 []
        rw [hj] at hl
        obtain ⟨v, hv, _⟩ := hl
        exact named_following hcl.1 hf hj hv

theorem after_ne_nil : ∀ (p q : Path) (t : Ty), t.after p = some q → q ≠ []
  | [], _, _, h => by simp [Ty.after] at h
  | i :: p, q, t, h => by
    rw [Ty.after] at h
    split at h
    · cases h
    · split at h
      · cases h
        simp
      · split at h
        · cases h
          simp
        · cases h

/-- What the layers describe after the subobject at a path. -/
theorem at_after {t : Ty} {p : Path} (hf : t.fine = true) (hcl : t.clear p = true) (hn : Named t p)
    (hp : p ≠ []) : At t (frames t p []) (t.after p) := by
  have he := empty_frames p t [] hf hcl hp
  cases ha : t.after p with
  | none =>
    rw [ha] at he
    simpa [At, empty] using he
  | some q =>
    rw [ha] at he
    refine ⟨⟨after_ne_nil p q t ha, ?_⟩, named_after p q t hf hcl hn ha, by simpa using he⟩
    have h0 := next_frames p t [] 0 hf hcl hp
    rw [ha] at h0
    obtain ⟨v, hv, _⟩ := h0
    refine ⟨v, hv, ?_⟩
    intro len
    have h1 := next_frames p t [] len hf hcl hp
    rw [ha] at h1
    obtain ⟨v', hv', h1⟩ := h1
    rw [hv] at hv'
    cases hv'
    exact h1

theorem first_of_aggregate {t : Ty} (hf : t.fine = true) (ha : isAggregateTy t = true) :
    ∃ j, t.first = some j := by
  cases t with
  | scalar c => simp [isAggregateTy] at ha
  | qualified s => simp [isAggregateTy] at ha
  | array n el =>
    cases n with
    | none => exact ⟨0, rfl⟩
    | some n =>
      cases n with
      | zero => simp [Ty.fine, Ty.good] at hf
      | succ n => exact ⟨0, rfl⟩
  | record b tag fs =>
    simp only [Ty.fine, Ty.good, Bool.and_eq_true] at hf
    have h := fromPos_isSome fs 0 (Or.inr hf.1)
    cases fs with
    | nil => simp [Fields.lastNamed] at hf
    | cons n bits t r =>
      simp only [Fields.at?, Option.isSome_some] at h
      simp only [Ty.first, Ty.bare]
      exact Option.isSome_iff_exists.mp h

/-- What the layers describe at the beginning. -/
theorem at_first {t : Ty} (hf : t.fine = true) (ha : isAggregateTy t = true) :
    At t (pushLayer t []) (t.first.map fun j => [j]) := by
  obtain ⟨j, hj⟩ := first_of_aggregate hf ha
  have hp : t.plain = true := by cases t <;> first | rfl | simp [isAggregateTy] at ha
  obtain ⟨v, hv, _⟩ := next_fresh hp hf hj 0 []
  rw [hj]
  simp only [Option.map_some]
  refine ⟨⟨by simp, v, by simp only [Ty.sub, hv], ?_⟩, named_first hp hf hj hv, ?_⟩
  · intro len
    obtain ⟨v', hv', hn⟩ := next_fresh hp hf hj len []
    rw [hv] at hv'
    cases hv'
    rw [push_of_child hp hv, hn]
    simp only [frames, hv, lenAt, layerNext]
  · rw [push_of_child hp hv]
    simp [empty, layerEmpty_fresh hp hf hj]

/-! ### One item of the specification -/

theorem run_list {env : Env E} {d : List Desig} {its rest : Items E} {t : Ty} {base : Path}
    {c : Option Path} {s : List (Store E)} (h : run env (.cons d (.list its) rest) t base c = .ok s) :
    ∃ p u s1 s2, (if d = [] then c else t.resolve d) = some p ∧ t.sub p = some u ∧
      braces env u (base ++ p) its (run env its u.bare (base ++ p) (u.first.map fun j => [j])) = .ok s1 ∧
      run env rest t base (t.after p) = .ok s2 ∧ s = s1 ++ s2 := by
  rw [run] at h
  split at h
  · cases h
  · rename_i p hp
    split at h
    · cases h
    · rename_i u hu
      simp only at h
      split at h
      · cases h
      · rename_i s1 hs1
        split at h
        · cases h
        · rename_i s2 hs2
          cases h
          exact ⟨p, u, s1, s2, hp, hu, hs1, hs2, rfl⟩

theorem run_expr {env : Env E} {d : List Desig} {e : E} {rest : Items E} {t : Ty} {base : Path}
    {c : Option Path} {s : List (Store E)} (h : run env (.cons d (.expr e) rest) t base c = .ok s) :
    ∃ p u q w s1 s2, (if d = [] then c else t.resolve d) = some p ∧ t.sub p = some u ∧
      u.place env e = some q ∧ u.sub q = some w ∧ storeAt env w (base ++ p ++ q) e = .ok s1 ∧
      run env rest t base (t.after (p ++ q)) = .ok s2 ∧ s = s1 ++ s2 := by
  rw [run] at h
  split at h
  · cases h
  · rename_i p hp
    split at h
    · cases h
    · rename_i u hu
      simp only at h
      split at h
      · cases h
      · rename_i q hq
        split at h
        · cases h
        · rename_i w hw
          split at h
          · cases h
          · rename_i s1 hs1
            split at h
            · cases h
            · rename_i s2 hs2
              cases h
              exact ⟨p, u, q, w, s1, s2, hp, hu, hq, hw, hs1, hs2, rfl⟩

theorem start_ok {t : Ty} {d : List Desig} {st : Stack} {c : Option Path} {p : Path}
    (hp : t.plain = true) (hf : t.fine = true) (hat : At t st c)
    (h : (if d = [] then c else t.resolve d) = some p) (hcl : t.clear p = true) :
    ∃ st1, start t d st = .ok (some st1) ∧ Arrives t st1 p ∧ Named t p ∧
      (d ≠ [] → d = desigs t p) ∧ (d = [] → st1 = st) := by
  cases d with
  | nil =>
    simp only [if_true] at h
    subst h
    obtain ⟨h1, h2, h3⟩ := hat
    refine ⟨st, ?_, h1, h2, by simp, by simp⟩
    simp [start, h3]
  | cons a d =>
    rw [if_neg (by simp)] at h
    obtain ⟨hn, hd, st1, v, hnav, hv, hnext⟩ := navigate_ok (by simp) hp hf h hcl
    refine ⟨st1, ?_, ⟨resolve_ne_nil a d t p h, v, hv, hnext⟩, hn, fun _ => hd, by simp⟩
    simp only [start, hnav, Res.bind]

/-! ### Expressions -/

theorem assignLoop_step {env : Env E} {e : E} {fuel len : Nat} {st : Stack} {t : Ty}
    (h : env.assign e (unqual t) = false) :
    assignLoop env e (fuel + 1) len st (some t) =
      (step st).bind fun st' => (next len st').bind fun r => assignLoop env e fuel r.1 r.2.1 r.2.2 := by
  rw [assignLoop]
  simp [h]

theorem analyzeExpr_ok {env : Env E} (hl : env.Lawful) {t u : Ty} {st : Stack} {p q : Path} {e : E}
    {fuel : Nat} (hf : t.fine = true) (harr : Arrives t st p) (hs : t.sub p = some u)
    (hpl : u.place env e = some q) (hcl : t.clear (p ++ q) = true)
    (hq : env.isString e = true ∨ env.isScalar e = true ∨ q.length ≤ 1)
    (hfuel : t.depth < fuel) (len : Nat) :
    analyzeExpr env fuel e len st = .ok (lenAt len p [], frames t (p ++ q) []) := by
  have hp := harr.1
  have hg := fine_sub p t u hf hp hs
  obtain ⟨hclp, u', hu', hclq⟩ := clear_append p q t hcl
  rw [hs] at hu'
  cases hu'
  have hqlen : q.length < fuel := by
    obtain ⟨w, hw⟩ := clear_sub q u hclq
    have h1 := depth_sub q u w hw
    have h2 := depth_sub p t u hs
    omega
  cases hstr : env.isString e with
  | true =>
    obtain ⟨hlead, w, hw, hgw, hcase⟩ := leads_string hl hstr q u hg hpl hclq
    obtain ⟨w', hw', hrec⟩ := nextRec_leads _ q t u p st fuel len hf harr hs hg hlead hqlen
    rw [hw] at hw'
    cases hw'
    simp only [analyzeExpr, hstr, if_true, hrec, Res.bind]
    rcases hcase with ⟨n, el, _, hst, _⟩ | ⟨_, _, ha⟩
    · simp [hst]
    · simp [ha]
  | false =>
    cases hsc : env.isScalar e with
    | true =>
      obtain ⟨hlead, w, hw, ha, hgw, _⟩ := leads_scalar hl hstr hsc q u hg hpl hclq
      obtain ⟨w', hw', hrec⟩ := nextRec_leads _ q t u p st fuel len hf harr hs hg hlead hqlen
      rw [hw] at hw'
      cases hw'
      simp only [analyzeExpr, hstr, hsc, Bool.false_eq_true, if_false, if_true, hrec, Res.bind, ha]
    | false =>
      have hq1 : q.length ≤ 1 := by
        rcases hq with h | h | h
        · rw [hstr] at h; cases h
        · rw [hsc] at h; cases h
        · exact h
      obtain ⟨_, v, hv, hn⟩ := harr
      rw [hs] at hv
      cases hv
      simp only [analyzeExpr, hstr, hsc, Bool.false_eq_true, if_false, hn, Res.bind]
      rcases other_cases hl hstr hg hpl hclq hq1 with ⟨rfl, ha⟩ | ⟨j, v, rfl, hplain, hj, hc, hna, ha⟩
      · cases fuel with
        | zero => omega
        | succ fuel => simp only [assignLoop, ha, if_true, List.append_nil]
      · cases fuel with
        | zero => omega
        | succ fuel =>
          cases fuel with
          | zero =>
            simp only [List.length_singleton] at hqlen
            omega
          | succ fuel =>
            rw [assignLoop_step hna, step_frames p t u [] hclp hs hp]
            simp only [Res.bind]
            obtain ⟨_, v', hv', hn'⟩ := arrives_push hf hp hs hg hplain hj
            have : v' = v := by
              rw [sub_append_some hs] at hv'
              simp only [Ty.sub, hc] at hv'
              simpa using hv'.symm
            subst this
            rw [hn', lenAt_long _ _ _ hp]
            simp only [assignLoop, ha, if_true]

/-! ### Lists for a whole array -/

theorem wholeString_of_braced {env : Env E} {u el : Ty} {n : Option Nat} {its : Items E} {e : E}
    (hg : el.good = true) (hu : u.bare = .array n el) (h : bracedString env u its = some e) :
    wholeString env (.array n el) (headItems its) = some e ∧ env.isString e = true ∧
      env.elemOf e el.bare = true ∧ its = .cons [] (.expr e) .nil := by
  unfold bracedString at h
  split at h
  · rename_i e'
    rw [hu] at h
    simp only at h
    split at h
    · rename_i hs
      cases h
      simp only [Bool.and_eq_true] at hs
      refine ⟨?_, hs.1, hs.2, rfl⟩
      rw [bare_eq_unqual hg] at hs
      simp [wholeString, headItems, head, stringStop, hs]
    · cases h
  · cases h

theorem scalar_resolve {el : Ty} {c : Nat} (hg : el.good = true) (hb : el.bare = .scalar c)
    {d : List Desig} {p : Path} (h : el.resolve d = some p) : d = [] := by
  cases d with
  | nil => rfl
  | cons a d =>
    exfalso
    have hne := resolve_ne_nil a d el p h
    cases a with
    | index n => simp [Ty.resolve, hb] at h
    | field m =>
      have hf : el.find m = none := by
        cases el with
        | scalar c => rfl
        | array n t => rfl
        | record b tag fs => simp [Ty.bare] at hb
        | qualified s =>
          cases s with
          | scalar c => rfl
          | array n t => rfl
          | record b tag fs => simp [Ty.bare] at hb
          | qualified s => simp [Ty.good] at hg
      simp [Ty.resolve, hf] at h

theorem scalar_place {el : Ty} {c : Nat} {env : Env E} {e : E} (hg : el.good = true)
    (hb : el.bare = .scalar c) (ha : env.assign e (.scalar c) = false) : el.place env e = none := by
  cases el with
  | scalar c' =>
    cases hb
    simp [Ty.place, ha]
  | array n t => simp [Ty.bare] at hb
  | record b tag fs => simp [Ty.bare] at hb
  | qualified s =>
    cases s with
    | scalar c' =>
      simp only [Ty.bare] at hb
      cases hb
      simp [Ty.place, ha]
    | array n t => simp [Ty.good] at hg
    | record b tag fs => simp [Ty.bare] at hb
    | qualified s => simp [Ty.good] at hg

/-- A list that starts with a string literal for the whole array, but does not consist of it, is not
acceptable. -/
theorem no_string_head {env : Env E} (hl : env.Lawful) {n : Option Nat} {el : Ty} {d : List Desig}
    {i : Init E} {rest : Items E} {base : Path} {k : Nat} {s : List (Store E)} {e : E}
    (hg : el.good = true) (hh : head i = some e) (hstr : env.isString e = true)
    (hel : env.elemOf e el.bare = true) :
    run env (.cons d i rest) (.array n el) base (some [k]) ≠ .ok s := by
  intro h
  obtain ⟨⟨c, hb⟩, ha⟩ := hl.elem e el.bare hstr hel
  rw [hb] at ha
  have hpath : ∀ p u, (if d = [] then some [k] else (Ty.array n el).resolve d) = some p →
      (Ty.array n el).sub p = some u → u = el := by
    intro p u hp hu
    have one : ∀ m, (Ty.array n el).sub [m] = some u → u = el := by
      intro m hm
      simp only [Ty.sub, Ty.child, Ty.bare] at hm
      cases n with
      | none => simpa using hm.symm
      | some n =>
        simp only at hm
        split at hm
        · rename_i hx
          split at hx
          · cases hx
            simpa using hm.symm
          · cases hx
        · cases hm
    split at hp
    · cases hp
      exact one k hu
    · rename_i hd
      cases d with
      | nil => exact absurd rfl hd
      | cons a d =>
        cases a with
        | field m => simp [Ty.resolve, Ty.find] at hp
        | index m =>
          simp only [Ty.resolve, Ty.bare] at hp
          split at hp
          · cases hp
          · rename_i w hw
            obtain ⟨r, hr, rfl⟩ := Option.map_eq_some_iff.mp hp
            have hwel : w = el := by
              simp only [Ty.child, Ty.bare] at hw
              cases n with
              | none => simpa using hw.symm
              | some n =>
                simp only at hw
                split at hw
                · simpa using hw.symm
                · cases hw
            subst hwel
            have hd0 := scalar_resolve hg hb hr
            subst hd0
            simp only [Ty.resolve] at hr
            cases hr
            exact one m hu
  cases i with
  | expr e' =>
    simp only [head] at hh
    cases hh
    obtain ⟨p, u, q, w, s1, s2, hp, hu, hq, _⟩ := run_expr h
    have := hpath p u hp hu
    subst this
    rw [scalar_place hg hb ha] at hq
    cases hq
  | list its =>
    obtain ⟨p, u, s1, s2, hp, hu, hbr, _⟩ := run_list h
    have := hpath p u hp hu
    subst this
    simp only [braces, hb] at hbr
    split at hbr
    · cases hbr
    · rename_i e'
      simp only [head, headItems] at hh
      cases hh
      simp [storeAt, Ty.bare, ha] at hbr
    · cases hbr

theorem wholeString_none {env : Env E} (hl : env.Lawful) {n : Option Nat} {el : Ty} {its : Items E}
    {base : Path} {s : List (Store E)} {k : Nat} (hg : el.good = true)
    (h : run env its (.array n el) base (some [k]) = .ok s) :
    wholeString env (.array n el) (headItems its) = none := by
  cases its with
  | nil => rfl
  | cons d i rest =>
    simp only [headItems]
    cases hh : head i with
    | none => rfl
    | some e =>
      simp only [wholeString]
      by_cases hs : (env.isString e && stringStop env e (.array n el)) = true
      · simp only [Bool.and_eq_true, stringStop] at hs
        rw [← bare_eq_unqual hg] at hs
        exact absurd h (no_string_head hl hg hh hs.1 hs.2)
      · rw [if_neg hs]

theorem headItems_single (e : E) : headItems (.cons [] (.expr e) .nil) = some e := rfl

/-- A list for a subobject. -/
theorem analyze_braces {env : Env E} (hl : env.Lawful) {u : Ty} {p : Path} {its : Items E}
    {s : List (Store E)} {sub : Res (Nat × Stack)} (hg : u.good = true)
    (h : braces env u p its (run env its u.bare p (u.first.map fun j => [j])) = .ok s)
    (hsub : isAggregateTy u.bare = true → ∀ s', run env its u.bare p (u.first.map fun j => [j]) = .ok s' →
      ∃ r, sub = .ok r) :
    analyzeWith env u (headItems its) none sub = .ok (unqual u) := by
  have hgb := good_bare hg
  have hbu := bare_eq_unqual hg
  unfold analyzeWith
  rw [← hbu]
  cases hb : u.bare with
  | qualified t =>
    have := bare_plain u
    rw [hb] at this
    cases this
  | scalar c =>
    simp only [braces, hb] at h
    split at h
    · cases h
    · rename_i e
      rw [headItems_single]
      simp only [storeAt, Ty.bare] at h
      split at h
      · rename_i ha
        simp [ha]
      · cases h
    · cases h
  | array n el =>
    rw [hb] at hgb
    cases n with
    | none => simp [Ty.good] at hgb
    | some n =>
      have hgel : el.good = true := by
        simp only [Ty.good, Bool.and_eq_true] at hgb
        exact hgb.2
      simp only [braces, hb] at h
      cases hbs : bracedString env u its with
      | some e =>
        have := wholeString_of_braced hgel hb hbs
        simp only [this.1]
      | none =>
        rw [hbs] at h
        simp only at h
        split at h
        · rename_i s' hs'
          rw [hb] at hsub
          obtain ⟨r, hr⟩ := hsub rfl s' hs'
          have hfirst : u.first = some 0 := by
            rw [← first_bare, hb]
            have : 0 < n := by
              simp only [Ty.good, Bool.and_eq_true, decide_eq_true_eq] at hgb
              exact hgb.1
            cases n with
            | zero => omega
            | succ n => rfl
          rw [hfirst] at hs'
          have hw := wholeString_none hl hgel hs'
          simp only [hw, hr, Res.bind]
        · cases h
  | record b tag fs =>
    simp only [braces, hb] at h
    have hbs : bracedString env u its = none := by
      unfold bracedString
      split
      · rw [hb]
      · rfl
    rw [hbs] at h
    simp only at h
    split at h
    · rename_i s' hs'
      rw [hb] at hsub
      obtain ⟨r, hr⟩ := hsub rfl s' hs'
      simp only [hr, Res.bind]
    · cases h

/-! ### Lengths -/

/-- First step of a path. -/
def hd (p : Path) : Nat := p.headD 0

theorem freeLen_frames : ∀ (p : Path) (t : Ty) (below : Stack) (len : Nat), Named t p → below ≠ [] →
    freeLen len (frames t p below) = freeLen len below
  | [], _, _, _, _, _ => rfl
  | i :: p, t, below, len, hn, hb => by
    obtain ⟨_, u, hc, hn⟩ := hn
    simp only [frames, hc]
    rw [freeLen_frames p u _ len hn (by simp), freeLen]
    have : layerEnd len ⟨t, i, false⟩ below = len := by
      cases below with
      | nil => exact absurd rfl hb
      | cons a b => rfl
    rw [this]

theorem freeLen_path {p : Path} {t : Ty} (hn : Named t p) (hp : p ≠ []) (len : Nat) :
    freeLen len (frames t p []) = max len (hd p + 1) := by
  cases p with
  | nil => exact absurd rfl hp
  | cons i p =>
    obtain ⟨_, u, hc, hn⟩ := hn
    simp only [frames, hc]
    rw [freeLen_frames p u _ len hn (by simp)]
    simp [freeLen, layerEnd, hd]

theorem lenAt_cases (len : Nat) (p : Path) (hp : p ≠ []) :
    lenAt len p [] = if p.length = 1 then max len (hd p + 1) else len := by
  cases p with
  | nil => exact absurd rfl hp
  | cons a p =>
    cases p with
    | nil => rfl
    | cons b p => simp [lenAt]

theorem hd_append {p q : Path} (hp : p ≠ []) : hd (p ++ q) = hd p := by
  cases p with
  | nil => exact absurd rfl hp
  | cons a p => rfl

/-- What the length owes to the layers. -/
def LenInv (st : Stack) (c : Option Path) : Prop :=
  ∀ len, len ≤ freeLen len st ∧
    ∀ p, c = some p → freeLen len st ≤ max len (hd p + 1) ∧ (p.length ≠ 1 → hd p + 1 ≤ freeLen len st)

theorem hd_after : ∀ (p q : Path) (t : Ty), t.after p = some q →
    hd p ≤ hd q ∧ (q.length ≠ 1 → hd q = hd p)
  | [], _, _, h => by simp [Ty.after] at h
  | i :: p, q, t, h => by
    rw [Ty.after] at h
    split at h
    · cases h
    · split at h
      · cases h
        simp [hd]
      · split at h
        · rename_i j hj
          cases h
          refine ⟨?_, by simp⟩
          simp only [hd, List.headD_cons]
          rw [Ty.following] at hj
          split at hj
          · cases hj
            omega
          · split at hj
            · cases hj
              omega
            · cases hj
          · rename_i fs _
            have := fromPos_le fs (i + 1) j hj
            omega
          · cases hj
        · cases h
where
  fromPos_le : ∀ (fs : Fields) (i j : Nat), fs.fromPos i = some j → i ≤ j
    | .nil, _, _, h => by simp [Fields.fromPos] at h
    | .cons _ _ _ r, 0, j, _ => Nat.zero_le j
    | .cons _ _ _ r, i + 1, j, h => by
      simp only [Fields.fromPos] at h
      obtain ⟨k, hk, rfl⟩ := Option.map_eq_some_iff.mp h
      have := fromPos_le r i k hk
      omega

theorem lenInv_after {t : Ty} {p : Path} (hn : Named t p) (hp : p ≠ []) :
    LenInv (frames t p []) (t.after p) := by
  intro len
  rw [freeLen_path hn hp]
  refine ⟨by omega, ?_⟩
  intro q hq
  have := hd_after p q t hq
  refine ⟨by omega, ?_⟩
  intro h
  have := this.2 h
  omega

theorem lenInv_first {t : Ty} {j : Nat} (hp : t.plain = true) (hf : t.fine = true) (hj : t.first = some j) :
    LenInv (pushLayer t []) (t.first.map fun j => [j]) := by
  intro len
  obtain ⟨v, hv, _⟩ := next_fresh hp hf hj 0 []
  rw [push_of_child hp hv, hj]
  simp only [freeLen, layerEnd, List.isEmpty_nil, if_true, Nat.add_zero]
  refine ⟨by omega, ?_⟩
  intro p hp
  simp only [Option.map_some, Option.some.injEq] at hp
  subst hp
  refine ⟨by omega, by simp⟩

/-- Every effect concerns the element `i`. -/
def Within (i : Nat) (s : List (Store E)) : Prop := s ≠ [] ∧ ∀ x ∈ s, x.bound = i + 1

theorem arrayLength_within {i : Nat} : ∀ (s : List (Store E)), (∀ x ∈ s, x.bound = i + 1) → s ≠ [] →
    arrayLength s = i + 1
  | [], _, h => absurd rfl h
  | x :: s, hs, _ => by
    have h1 := hs x (by simp)
    simp only [arrayLength, h1]
    cases s with
    | nil => simp [arrayLength]
    | cons y s =>
      have := arrayLength_within (y :: s) (fun z hz => hs z (by simp [hz])) (by simp)
      rw [this]
      omega

theorem arrayLength_append : ∀ (s s' : List (Store E)),
    arrayLength (s ++ s') = max (arrayLength s) (arrayLength s')
  | [], s' => by simp [arrayLength]
  | x :: s, s' => by
    simp only [List.cons_append, arrayLength, arrayLength_append s s']
    omega

theorem storeAt_within {env : Env E} {t : Ty} {p : Path} {e : E} {s : List (Store E)} (hp : p ≠ [])
    (h : storeAt env t p e = .ok s) : Within (hd p) s := by
  cases p with
  | nil => exact absurd rfl hp
  | cons i p =>
    unfold storeAt at h
    split at h
    · split at h
      · split at h
        · cases h
          exact ⟨by simp, by simp [Store.bound, hd]⟩
        · split at h
          · cases h
            exact ⟨by simp, by simp [Store.bound, hd]⟩
          · cases h
      · cases h
    · split at h
      · cases h
        exact ⟨by simp, by simp [Store.bound, hd]⟩
      · cases h

theorem braces_within {env : Env E} {t : Ty} {p : Path} {its : Items E} {s : List (Store E)}
    {rest : Except Violation (List (Store E))} (hp : p ≠ [])
    (hr : ∀ s', rest = .ok s' → ∀ x ∈ s', x.bound = hd p + 1)
    (h : braces env t p its rest = .ok s) : Within (hd p) s := by
  unfold braces at h
  split at h
  · split at h
    · cases h
    · exact storeAt_within hp h
    · cases h
  · split at h
    · exact storeAt_within hp h
    · split at h
      · rename_i s'
        cases h
        refine ⟨by simp, ?_⟩
        intro x hx
        rcases List.mem_cons.mp hx with rfl | hx
        · cases p with
          | nil => exact absurd rfl hp
          | cons i p => rfl
        · exact hr s' rfl x hx
      · cases h

theorem run_within (env : Env E) : ∀ (its : Items E) (t : Ty) (base : Path) (c : Option Path)
    (s : List (Store E)), base ≠ [] → run env its t base c = .ok s → ∀ x ∈ s, x.bound = hd base + 1
  | .nil, _, _, _, s, _, h => by
    simp only [run] at h
    cases h
    simp
  | .cons d (.list its) rest, t, base, c, s, hb, h => by
    obtain ⟨p, u, s1, s2, _, _, hbr, hrun, rfl⟩ := run_list h
    have hne : base ++ p ≠ [] := by simp [hb]
    have h1 := braces_within hne (fun s' hs' => run_within env its _ _ _ s' hne hs') hbr
    rw [hd_append hb] at h1
    intro x hx
    rcases List.mem_append.mp hx with hx | hx
    · exact h1.2 x hx
    · exact run_within env rest t base _ s2 hb hrun x hx
  | .cons d (.expr e) rest, t, base, c, s, hb, h => by
    obtain ⟨p, u, q, w, s1, s2, _, _, _, _, hst, hrun, rfl⟩ := run_expr h
    have hne : base ++ p ++ q ≠ [] := by simp [hb]
    have h1 := storeAt_within hne hst
    rw [List.append_assoc, hd_append hb] at h1
    intro x hx
    rcases List.mem_append.mp hx with hx | hx
    · exact h1.2 x hx
    · exact run_within env rest t base _ s2 hb hrun x hx

/-- No item has a designation. -/
def noDesig : Items E → Bool
  | .nil => true
  | .cons d _ rest => d.isEmpty && noDesig rest

/-- A designation with more than one designator is not followed by another designation. -/
def shallow : Items E → Bool
  | .nil => true
  | .cons d _ rest => (decide (d.length ≤ 1) || noDesig rest) && shallow rest

theorem resolve_length : ∀ (d : List Desig) (t : Ty) (p : Path), t.fine = true → t.resolve d = some p →
    t.clear p = true → p.length = d.length
  | [], t, p, _, h, _ => by
    simp only [Ty.resolve] at h
    cases h
    rfl
  | a :: d, t, p, hf, h, hcl => by
    have hp : t.plain = true := by
      have := resolve_ne_nil a d t p h
      cases p with
      | nil => exact absurd rfl this
      | cons i p =>
        simp only [Ty.clear, Bool.and_eq_true] at hcl
        exact hcl.1
    obtain ⟨i, u, p', rfl, hc, hr, _⟩ := nav_one hp hf h []
    simp only [Ty.clear, hc, Bool.and_eq_true] at hcl
    have := resolve_length d u p' (fine_of_good (fine_child hf hc)) hr hcl.2
    simp [this]

/-! ### Lists -/

/-- The analysis of a list: it is accepted, and the length that is found is the one of the
specification. -/
theorem analyzeItems_ok {cfg : Cfg} {env : Env E} (hl : env.Lawful) : ∀ (its : Items E) (t : Ty)
    (base : Path) (c : Option Path) (s : List (Store E)) (st : Stack) (fuel len : Nat),
    t.fine = true → t.plain = true → At t st c → run env its t base c = .ok s →
    coveredItems cfg env its t c → t.depth < fuel →
    ∃ r, analyzeItems env fuel its t len st = .ok r ∧
      (base = [] → LenInv st c → shallow its = true → (freeLen len st = len ∨ noDesig its = true) →
        freeLen r.1 r.2 = max (freeLen len st) (arrayLength s))
  | .nil, t, base, c, s, st, fuel, len, _, _, _, h, _, _ => by
    simp only [run] at h
    cases h
    refine ⟨(len, st), rfl, ?_⟩
    intros
    simp [arrayLength]
  | .cons d (.list its) rest, t, base, c, s, st, fuel, len, hf, hp, hat, h, hcov, hfuel => by
    obtain ⟨p, u, s1, s2, hpath, hu, hbr, hrun, rfl⟩ := run_list h
    obtain ⟨hcl, _, hcov1, hcov2⟩ := hcov p u hpath hu
    obtain ⟨st1, hstart, harr, hn, hdes, hsame⟩ := start_ok hp hf hat hpath hcl
    have hpne := harr.1
    obtain ⟨_, u', hu', hnext⟩ := harr
    rw [hu] at hu'
    cases hu'
    have hg := fine_sub p t u hf hpne hu
    have hgb := good_bare hg
    have hdep : u.bare.depth < fuel := by
      have := depth_sub p t u hu
      rw [depth_bare]
      omega
    have hwith : analyzeWith env u (headItems its) none
        (analyzeItems env fuel its (unqual u) 0 (pushLayer (unqual u) [])) = .ok (unqual u) := by
      refine analyze_braces hl hg hbr ?_
      intro hagg s' hs'
      rw [← bare_eq_unqual hg]
      have hfst : u.first = u.bare.first := (first_bare u).symm
      obtain ⟨r, hr, _⟩ := analyzeItems_ok hl its u.bare (base ++ p) (u.first.map fun j => [j]) s'
        (pushLayer u.bare []) fuel 0 (fine_of_good hgb) (bare_plain u)
        (by rw [hfst]; exact at_first (fine_of_good hgb) hagg) hs' hcov1 hdep
      exact ⟨r, hr⟩
    obtain ⟨r, hr, hlen⟩ := analyzeItems_ok hl rest t base (t.after p) s2 (frames t p []) fuel
      (lenAt len p []) hf hp (at_after hf hcl hn hpne) hrun hcov2 hfuel
    refine ⟨r, ?_, ?_⟩
    · rw [analyzeItems]
      simp only [hstart, Res.bind, hnext, hwith]
      exact hr
    · intro hb hinv hsh hcnt
      subst hb
      simp only [shallow, Bool.and_eq_true, Bool.or_eq_true, decide_eq_true_eq] at hsh
      have h1 : arrayLength s1 = hd p + 1 := by
        simp only [List.nil_append] at hbr
        have hw := braces_within hpne (fun s' hs' => run_within env its _ _ _ s' hpne hs') hbr
        exact arrayLength_within s1 hw.2 hw.1
      rw [arrayLength_append, h1]
      exact len_step hf (by simpa using hn) hpne hpath hcl hsame hinv hsh.1 hcnt (q := [])
        (by simpa using hlen rfl (lenInv_after hn hpne) hsh.2)
  | .cons d (.expr e) rest, t, base, c, s, st, fuel, len, hf, hp, hat, h, hcov, hfuel => by
    obtain ⟨p, u, q, w, s1, s2, hpath, hu, hq, hw, hst, hrun, rfl⟩ := run_expr h
    obtain ⟨hclpq, _, hkind, hcov2⟩ := hcov p u hpath hu q hq
    obtain ⟨hcl, u', hu', hclq⟩ := clear_append p q t hclpq
    rw [hu] at hu'
    cases hu'
    obtain ⟨st1, hstart, harr, hn, hdes, hsame⟩ := start_ok hp hf hat hpath hcl
    have hpne := harr.1
    have hg := fine_sub p t u hf hpne hu
    have hnpq : Named t (p ++ q) := named_append p q t u hu hn (place_named q u env e hg hq hclq)
    have hpqne : p ++ q ≠ [] := by simp [hpne]
    have hexpr := analyzeExpr_ok hl hf harr hu hq hclpq hkind hfuel len
    obtain ⟨r, hr, hlen⟩ := analyzeItems_ok hl rest t base (t.after (p ++ q)) s2 (frames t (p ++ q) [])
      fuel (lenAt len p []) hf hp (at_after hf hclpq hnpq hpqne) hrun hcov2 hfuel
    refine ⟨r, ?_, ?_⟩
    · rw [analyzeItems]
      simp only [hstart, Res.bind, hexpr]
      exact hr
    · intro hb hinv hsh hcnt
      subst hb
      simp only [shallow, Bool.and_eq_true, Bool.or_eq_true, decide_eq_true_eq] at hsh
      have h1 : arrayLength s1 = hd p + 1 := by
        simp only [List.nil_append] at hst
        have hw := storeAt_within hpqne hst
        rw [hd_append hpne] at hw
        exact arrayLength_within s1 hw.2 hw.1
      rw [arrayLength_append, h1]
      exact len_step hf hnpq hpne hpath hcl hsame hinv hsh.1 hcnt
        (hlen rfl (lenInv_after hnpq hpqne) hsh.2)
where
  /-- One item and the length. -/
  len_step {t : Ty} {d : List Desig} {p q : Path} {c : Option Path} {st st1 : Stack} {len x : Nat}
      {i : Init E} {rest : Items E} {r : Nat × Stack} (hf : t.fine = true) (hn : Named t (p ++ q))
      (hpne : p ≠ []) (hpath : (if d = [] then c else t.resolve d) = some p) (hcl : t.clear p = true)
      (hsame : d = [] → st1 = st) (hinv : LenInv st c) (hsh : d.length ≤ 1 ∨ noDesig rest = true)
      (hcnt : freeLen len st = len ∨ noDesig (.cons d i rest) = true)
      (hlen : (freeLen (lenAt len p []) (frames t (p ++ q) []) = lenAt len p [] ∨ noDesig rest = true) →
        freeLen r.1 r.2 = max (freeLen (lenAt len p []) (frames t (p ++ q) [])) x) :
      freeLen r.1 r.2 = max (freeLen len st) (max (hd p + 1) x) := by
    have hpq : p ++ q ≠ [] := by simp [hpne]
    rw [freeLen_path hn hpq, hd_append hpne, lenAt_cases len p hpne] at hlen
    have hi := hinv len
    by_cases hd0 : d = []
    · rw [if_pos hd0] at hpath
      have hi2 := hi.2 p hpath
      by_cases h1 : p.length = 1
      · rw [if_pos h1] at hlen
        rw [hlen (Or.inl (by omega))]
        omega
      · rw [if_neg h1] at hlen
        have hi3 := hi2.2 h1
        have : len = max len (hd p + 1) ∨ noDesig rest = true := by
          rcases hcnt with h | h
          · left; omega
          · right
            simp only [noDesig, Bool.and_eq_true] at h
            exact h.2
        rw [hlen (by rcases this with h | h; exact Or.inl h.symm; exact Or.inr h)]
        omega
    · rw [if_neg hd0] at hpath
      have hcnt' : freeLen len st = len := by
        rcases hcnt with h | h
        · exact h
        · cases d with
          | nil => exact absurd rfl hd0
          | cons a b => simp [noDesig] at h
      have hlp := resolve_length d t p hf hpath hcl
      by_cases h1 : p.length = 1
      · rw [if_pos h1] at hlen
        rw [hlen (Or.inl (by omega))]
        omega
      · rw [if_neg h1] at hlen
        have hnd : noDesig rest = true := by
          rcases hsh with h | h
          · exfalso
            have := List.length_pos_iff.mpr hpne
            omega
          · exact h
        rw [hlen (Or.inr hnd)]
        omega

end Kefir.Init
