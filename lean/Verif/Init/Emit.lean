import Verif.Init.Analyze

/-!
# The translation of initialisers

The proof that the translation produces the effects of the specification.
-/

namespace Kefir.Init

open Model

variable {E : Type}

/-- Is the effect implicit? -/
def Store.isZero : Store E → Bool
  | .zero _ => true
  | _ => false

/-- The effects that the translation has to produce: objects of static storage duration are zero
before anything is stored. -/
def keep (cfg : Cfg) (s : List (Store E)) : List (Store E) :=
  if cfg.isStatic then s.filter fun x => !x.isZero else s

theorem keep_append (cfg : Cfg) (s s' : List (Store E)) : keep cfg (s ++ s') = keep cfg s ++ keep cfg s' := by
  unfold keep
  split
  · exact List.filter_append ..
  · rfl

theorem keep_zero (cfg : Cfg) (p : Path) (s : List (Store E)) (b : List Path) (hb : top b = p) :
    keep cfg (.zero p :: s) = begin' cfg b ++ keep cfg s := by
  unfold keep begin'
  split
  · simp [Store.isZero]
  · simp [hb]

theorem keep_value (cfg : Cfg) (p : Path) (e : E) : keep cfg [.value p e] = [.value p e] := by
  unfold keep
  split
  · simp [Store.isZero]
  · rfl

theorem keep_text (cfg : Cfg) (p : Path) (e : E) (n : Nat) : keep cfg [.text p e n] = [.text p e n] := by
  unfold keep
  split
  · simp [Store.isZero]
  · rfl

/-- No structure or union can be initialised by an expression, if the object has static storage
duration: such an expression is not a constant expression (6.7.9p4). -/
def Constant (cfg : Cfg) (env : Env E) : Prop :=
  cfg.isStatic = true → ∀ e b tag fs, env.assign e (.record b tag fs) = false

/-! ### Values -/

theorem storeAt_cases {env : Env E} {t : Ty} {p : Path} {e : E} {s : List (Store E)}
    (h : storeAt env t p e = .ok s) :
    (∃ n el, t.bare = .array n el ∧ env.isString e = true ∧ env.elemOf e el.bare = true ∧
      (match n with
       | none => s = [.text p e (env.len e)]
       | some n => env.len e ≤ n + 1 ∧ s = [.text p e (min n (env.len e))])) ∨
    (env.assign e t.bare = true ∧ (∀ n el, t.bare ≠ .array n el) ∧ s = [.value p e]) := by
  unfold storeAt at h
  split at h
  · rename_i n el hb
    split at h
    · rename_i hs
      simp only [Bool.and_eq_true] at hs
      refine Or.inl ⟨n, el, hb, hs.1, hs.2, ?_⟩
      cases n with
      | none =>
        simp only at h
        cases h
        rfl
      | some n =>
        simp only at h
        split at h
        · rename_i hn
          cases h
          exact ⟨hn, rfl⟩
        · cases h
    · cases h
  · rename_i hna
    split at h
    · rename_i ha
      cases h
      exact Or.inr ⟨ha, hna, rfl⟩
    · cases h

theorem visitValue_ok {cfg : Cfg} {env : Env E} (hl : env.Lawful) (hk : Constant cfg env)
    {virt : Ty → E → List Path → Emit E} {root : Ty} {ds : Option (List Desig)} {e : E}
    {b : List Path} {p : Path} {w : Ty} (ht : target root ds = .ok (p, w)) (hw : w.plain = true)
    (ha : env.assign e w = true) :
    visitValue cfg env virt root ds e b = .ok ([.value (top b ++ p) e], b) := by
  unfold visitValue
  simp only [ht, Res.bind]
  cases w with
  | scalar c => cases hs : cfg.isStatic <;> simp [isScalarTy]
  | qualified s => simp [Ty.plain] at hw
  | array n el =>
    rw [hl.array] at ha
    cases ha
  | record u tag fs =>
    cases hs : cfg.isStatic with
    | true =>
      rw [hk hs] at ha
      cases ha
    | false =>
      have := (hl.record e u tag fs ha).2.2
      simp [this]

/-! ### Expressions -/

theorem frames_ne_nil {p : Path} {t : Ty} {below : Stack} (hn : Named t p) (hp : p ≠ []) :
    frames t p below ≠ [] := by
  induction p generalizing t below with
  | nil => exact absurd rfl hp
  | cons i p ih =>
    obtain ⟨_, u, hc, hn⟩ := hn
    simp only [frames, hc]
    cases p with
    | nil => simp [frames]
    | cons k p => exact ih hn (by simp)

theorem anonymousField_frames : ∀ (p : Path) (t : Ty) (below : Stack), t.clear p = true → Named t p →
    p ≠ [] → anonymousField (frames t p below) = false
  | [], _, _, _, _, h => absurd rfl h
  | i :: p, t, below, hcl, hn, _ => by
    obtain ⟨hm, u, hc, hn⟩ := hn
    simp only [Ty.clear, hc, Bool.and_eq_true] at hcl
    simp only [frames, hc]
    cases p with
    | cons k p => exact anonymousField_frames (k :: p) u _ hcl.2 hn (by simp)
    | nil =>
      simp only [frames]
      cases t with
      | scalar c => rfl
      | qualified s => rfl
      | array n el => rfl
      | record b tag fs =>
        obtain ⟨m, hm⟩ := hm
        simp [anonymousField, hm]

theorem entryDesig_ok {t : Ty} {d : List Desig} {p : Path} (hf : t.fine = true) (hcl : t.clear p = true)
    (hn : Named t p) (hp : p ≠ []) (hd : d ≠ [] → d = desigs t p) :
    entryDesig d (frames t p []) = .ok (desigs t p) := by
  cases d with
  | nil =>
    have := layerDesig_frames p t [] hf hcl hn hp
    simp only [entryDesig, this, layerDesig, Option.getD_none, List.nil_append]
  | cons a d => simp only [entryDesig, hd (by simp)]

theorem emitExpr_ok {cfg : Cfg} {env : Env E} (hl : env.Lawful) (hk : Constant cfg env)
    {virt : Ty → E → List Path → Emit E} {t u w : Ty} {st : Stack} {p q : Path} {e : E} {d : List Desig}
    {fuel : Nat} {b : List Path} {s : List (Store E)}
    (hf : t.fine = true) (hplain : t.plain = true) (harr : Arrives t st p) (hn : Named t (p ++ q))
    (hs : t.sub p = some u) (hpl : u.place env e = some q) (hw : u.sub q = some w)
    (hcl : t.clear (p ++ q) = true)
    (hq : env.isString e = true ∨ env.isScalar e = true ∨ q.length ≤ 1)
    (hd : d ≠ [] → d = desigs t (p ++ q))
    (hst : storeAt env w (top b ++ p ++ q) e = .ok s)
    (hfuel : t.depth < fuel) :
    emitExpr cfg env fuel virt t d e st b = .ok (frames t (p ++ q) [], keep cfg s, b) := by
  have hp := harr.1
  have hpq : p ++ q ≠ [] := by simp [hp]
  have hg := fine_sub p t u hf hp hs
  obtain ⟨hclp, u', hu', hclq⟩ := clear_append p q t hcl
  rw [hs] at hu'
  cases hu'
  have hqlen : q.length < fuel := by
    have h1 := depth_sub q u w hw
    have h2 := depth_sub p t u hs
    omega
  have hsw : t.sub (p ++ q) = some w := by rw [sub_append_some hs, hw]
  have hgw := fine_sub (p ++ q) t w hf hpq hsw
  have hent := entryDesig_ok hf hcl hn hpq hd
  have htgt : target t (some (desigs t (p ++ q))) = .ok (p ++ q, unqual w) := by
    simp only [target, unqual_of_plain hplain]
    exact layoutResolve_desigs (p ++ q) t w hf hcl hn hpq hsw
  have hwp : (unqual w).plain = true := by
    rw [← bare_eq_unqual hgw]
    exact bare_plain w
  have value : env.assign e (unqual w) = true →
      visitValue cfg env virt t (some (desigs t (p ++ q))) e b = .ok (keep cfg s, b) := by
    intro ha
    rw [visitValue_ok hl hk htgt hwp ha]
    have : s = [.value (top b ++ p ++ q) e] := by
      rcases storeAt_cases hst with ⟨n, el, hb, _⟩ | ⟨_, _, h⟩
      · rw [← bare_eq_unqual hgw, hb, hl.array] at ha
        cases ha
      · exact h
    rw [this, keep_value, List.append_assoc]
  cases hstr : env.isString e with
  | true =>
    obtain ⟨hlead, w', hw', _, hcase⟩ := leads_string hl hstr q u hg hpl hclq
    obtain ⟨w'', hw'', hrec⟩ := nextRec_leads _ q t u p st fuel 0 hf harr hs hg hlead hqlen
    rw [hw] at hw' hw''
    cases hw'
    cases hw''
    rcases hcase with ⟨n, el, rfl, hstop, hel⟩ | ⟨_, hna, ha⟩
    · simp only [emitExpr, hstr, if_true, hrec, Res.bind, hent, hstop, visitString, htgt, unqual]
      have : s = [.text (top b ++ p ++ q) e (min n (env.len e))] := by
        rcases storeAt_cases hst with ⟨n', el', hb, _, _, h⟩ | ⟨_, h, _⟩
        · simp only [Ty.bare] at hb
          cases hb
          exact h.2
        · exact absurd rfl (h (some n) el)
      rw [this, keep_text]
      have hmin : (if cfg.isStatic = true then min (min n (env.len e)) n else min n (env.len e)) =
          min n (env.len e) := by
        split
        · omega
        · rfl
      rw [hmin, List.append_assoc]
    · simp only [emitExpr, hstr, if_true, hrec, Res.bind, hent]
      have hv := value ha
      cases w with
      | array n el => simp [isAggregateTy] at hna
      | record b tag fs => simp [isAggregateTy] at hna
      | scalar c => simp only [hv]
      | qualified s => simp only [hv]
  | false =>
    cases hsc : env.isScalar e with
    | true =>
      obtain ⟨hlead, w', hw', ha, _, _⟩ := leads_scalar hl hstr hsc q u hg hpl hclq
      obtain ⟨w'', hw'', hrec⟩ := nextRec_leads _ q t u p st fuel 0 hf harr hs hg hlead hqlen
      rw [hw] at hw' hw''
      cases hw'
      cases hw''
      simp only [emitExpr, hstr, hsc, Bool.false_eq_true, if_false, if_true, hrec, Res.bind, hent, value ha]
    | false =>
      have hq1 : q.length ≤ 1 := by
        rcases hq with h | h | h
        · rw [hstr] at h; cases h
        · rw [hsc] at h; cases h
        · exact h
      obtain ⟨_, v, hv, hnext⟩ := harr
      rw [hs] at hv
      cases hv
      simp only [emitExpr, hstr, hsc, Bool.false_eq_true, if_false, hnext, Res.bind]
      rcases other_cases hl hstr hg hpl hclq hq1 with ⟨rfl, ha⟩ | ⟨j, v, rfl, hplu, hj, hc, hna, ha⟩
      · simp only [Ty.sub] at hw
        cases hw
        simp only [ha, if_true]
        simp only [List.append_nil] at hent value ⊢
        simp only [hent, value ha]
      · have hvw : v = w := by
          simp only [Ty.sub, hc] at hw
          simpa using hw
        subst hvw
        obtain ⟨_, v', hv', hn'⟩ := arrives_push hf hp hs hg hplu hj
        have : v' = v := by
          rw [hsw] at hv'
          simpa using hv'.symm
        subst this
        simp only [hna, Bool.false_eq_true, if_false, step_frames p t u [] hclp hs hp, hn', ha, if_true, hent,
          value ha]

/-! ### Lists -/

theorem emit_braces {cfg : Cfg} {env : Env E} (hl : env.Lawful) (hk : Constant cfg env)
    {virt : Ty → E → List Path → Emit E} {u v : Ty} {p : Path} {its : Items E}
    {s : List (Store E)} {sub : Res (Stack × List (Store E) × List Path)} {b : List Path}
    (hg : u.good = true) (hv : unqual v = u.bare) (hb : top b = p)
    (hfit : fitsBraced cfg env u its = true)
    (h : braces env u p its (run env its u.bare p (u.first.map fun j => [j])) = .ok s)
    (hsub : isAggregateTy u.bare = true → ∀ s', run env its u.bare p (u.first.map fun j => [j]) = .ok s' →
      ∃ st, sub = .ok (st, keep cfg s', b)) :
    emitWith cfg env virt v (headItems its) none sub b = .ok (keep cfg s, b) := by
  have hgb := good_bare hg
  have hpb := bare_plain u
  unfold emitWith
  rw [hv]
  cases hbare : u.bare with
  | qualified t =>
    rw [hbare] at hpb
    cases hpb
  | scalar c =>
    simp only [braces, hbare] at h
    split at h
    · cases h
    · rename_i e
      rw [headItems_single]
      simp only [storeAt, Ty.bare] at h
      split at h
      · rename_i ha
        cases h
        have ht : target v none = .ok ([], .scalar c) := by simp only [target, hv, hbare]
        simp only [visitValue_ok hl hk ht rfl ha, keep_value, List.append_nil, hb]
      · cases h
    · cases h
  | array n el =>
    rw [hbare] at hgb
    cases n with
    | none => simp [Ty.good] at hgb
    | some n =>
      have hgel : el.good = true := by
        simp only [Ty.good, Bool.and_eq_true] at hgb
        exact hgb.2
      simp only [braces, hbare] at h
      cases hbs : bracedString env u its with
      | some e =>
        rw [hbs] at h
        simp only at h
        have hwhole := wholeString_of_braced hgel hbare hbs
        simp only [hwhole.1]
        simp only [fitsBraced, hbs, fits, hbare, Bool.or_eq_true, decide_eq_true_eq] at hfit
        rcases storeAt_cases h with ⟨n', el', hb', _, _, h⟩ | ⟨_, h, _⟩
        · rw [hbare] at hb'
          cases hb'
          obtain ⟨_, rfl⟩ := h
          simp only [visitString, target, hv, hbare, Res.bind, List.append_nil, hb, keep_text]
          cases hstat : cfg.isStatic with
          | true => simp [Nat.min_comm]
          | false =>
            rw [hstat] at hfit
            simp only [Bool.false_eq_true, false_or] at hfit
            simp only [Bool.false_eq_true, if_false]
            rw [Nat.min_eq_right hfit]
        · exact absurd hbare (h (some n) el)
      | none =>
        rw [hbs] at h
        simp only at h
        split at h
        · rename_i s' hs'
          cases h
          rw [hbare] at hsub
          obtain ⟨st, hr⟩ := hsub rfl s' hs'
          have hfirst : u.first = some 0 := by
            rw [← first_bare, hbare]
            have : 0 < n := by
              simp only [Ty.good, Bool.and_eq_true, decide_eq_true_eq] at hgb
              exact hgb.1
            cases n with
            | zero => omega
            | succ n => rfl
          rw [hfirst] at hs'
          have hw := wholeString_none hl hgel hs'
          simp only [hw, hr, Res.bind, keep_zero cfg p s' b hb]
        · cases h
  | record isU tag fs =>
    simp only [braces, hbare] at h
    have hbs : bracedString env u its = none := by
      unfold bracedString
      split
      · rw [hbare]
      · rfl
    rw [hbs] at h
    simp only at h
    split at h
    · rename_i s' hs'
      cases h
      rw [hbare] at hsub
      obtain ⟨st, hr⟩ := hsub rfl s' hs'
      simp only [hr, Res.bind, keep_zero cfg p s' b hb]
    · cases h

/-- The translation of a list. -/
theorem emitItems_ok {cfg : Cfg} {env : Env E} (hl : env.Lawful) (hk : Constant cfg env) :
    ∀ (its : Items E) (t : Ty) (base : Path) (c : Option Path) (s : List (Store E)) (st : Stack)
    (fuel : Nat) (b : List Path),
    t.fine = true → t.plain = true → At t st c → run env its t base c = .ok s →
    coveredItems cfg env its t c → t.depth < fuel → top b = base →
    ∃ st', emitItems cfg env fuel its t st b = .ok (st', keep cfg s, b)
  | .nil, t, base, c, s, st, fuel, b, _, _, _, h, _, _, _ => by
    simp only [run] at h
    cases h
    refine ⟨st, ?_⟩
    rw [emitItems]
    simp [keep]
  | .cons d (.list its) rest, t, base, c, s, st, fuel, b, hf, hp, hat, h, hcov, hfuel, hbase => by
    obtain ⟨p, u, s1, s2, hpath, hu, hbr, hrun, rfl⟩ := run_list h
    obtain ⟨hcl, hfit, hcov1, hcov2⟩ := hcov p u hpath hu
    obtain ⟨st1, hstart, harr, hn, hdes, hsame⟩ := start_ok hp hf hat hpath hcl
    have hpne := harr.1
    obtain ⟨_, u', hu', hnext⟩ := harr
    rw [hu] at hu'
    cases hu'
    have hg := fine_sub p t u hf hpne hu
    have hgb := good_bare hg
    have hdep : u.bare.depth < fuel := by
      have := depth_sub p t u hu
      rw [depth_bare]
      omega
    have huu : unqual (unqual u) = u.bare := by
      rw [← bare_eq_unqual hg]
      exact unqual_of_plain (bare_plain u)
    have htop : top ((base ++ p) :: b) = base ++ p := rfl
    have hwith : emitWith cfg env (virtual cfg env fuel fuel) (unqual u) (headItems its) none
        (emitItems cfg env fuel its u.bare (pushLayer u.bare []) ((base ++ p) :: b))
        ((base ++ p) :: b) = .ok (keep cfg s1, (base ++ p) :: b) := by
      refine emit_braces hl hk hg huu htop hfit hbr ?_
      intro hagg s' hs'
      have hfst : u.first = u.bare.first := (first_bare u).symm
      exact emitItems_ok hl hk its u.bare (base ++ p) (u.first.map fun j => [j]) s'
        (pushLayer u.bare []) fuel ((base ++ p) :: b) (fine_of_good hgb) (bare_plain u)
        (by rw [hfst]; exact at_first (fine_of_good hgb) hagg) hs' hcov1 hdep htop
    obtain ⟨st', hr⟩ := emitItems_ok hl hk rest t base (t.after p) s2 (frames t p []) fuel b
      hf hp (at_after hf hcl hn hpne) hrun hcov2 hfuel hbase
    refine ⟨st', ?_⟩
    have hlay : layoutResolve (desigs t p) (unqual t) = .ok (p, unqual u) := by
      rw [unqual_of_plain hp]
      exact layoutResolve_desigs p t u hf hcl hn hpne hu
    have hent := entryDesig_ok hf hcl hn hpne hdes
    rw [emitItems]
    simp only [hstart, Res.bind, hnext]
    have hfr := frames_ne_nil (below := []) hn hpne
    have hanon := anonymousField_frames p t [] hcl hn hpne
    cases hx : frames t p [] with
    | nil => exact absurd hx hfr
    | cons l ls =>
      rw [hx] at hent hanon hr
      simp only [hanon, Bool.false_eq_true, if_false, hent, hlay, hbase, huu, hwith, hr, List.tail_cons,
        keep_append]
  | .cons d (.expr e) rest, t, base, c, s, st, fuel, b, hf, hp, hat, h, hcov, hfuel, hbase => by
    obtain ⟨p, u, q, w, s1, s2, hpath, hu, hq, hw, hst, hrun, rfl⟩ := run_expr h
    obtain ⟨hclpq, hdq, hkind, hcov2⟩ := hcov p u hpath hu q hq
    obtain ⟨hcl, u', hu', hclq⟩ := clear_append p q t hclpq
    rw [hu] at hu'
    cases hu'
    obtain ⟨st1, hstart, harr, hn, hdes, hsame⟩ := start_ok hp hf hat hpath hcl
    have hpne := harr.1
    have hg := fine_sub p t u hf hpne hu
    have hnpq : Named t (p ++ q) := named_append p q t u hu hn (place_named q u env e hg hq hclq)
    have hpqne : p ++ q ≠ [] := by simp [hpne]
    have hdes' : d ≠ [] → d = desigs t (p ++ q) := by
      intro hd0
      rcases hdq with h | h
      · exact absurd h hd0
      · rw [h, List.append_nil]
        exact hdes hd0
    rw [← hbase] at hst
    have hexpr := emitExpr_ok hl hk (virt := virtual cfg env fuel fuel) hf hp harr hnpq hu hq hw hclpq hkind
      hdes' hst hfuel
    obtain ⟨st', hr⟩ := emitItems_ok hl hk rest t base (t.after (p ++ q)) s2 (frames t (p ++ q) [])
      fuel b hf hp (at_after hf hclpq hnpq hpqne) hrun hcov2 hfuel hbase
    refine ⟨st', ?_⟩
    rw [emitItems]
    simp only [hstart, Res.bind, hexpr, hr, keep_append]

/-! ### Whole objects -/

theorem analyze_ok {cfg : Cfg} {env : Env E} (hl : env.Lawful) {t : Ty} {i : Init E}
    {s : List (Store E)} {fuel : Nat} (hg : t.good = true) (h : initialise env t i = .ok s)
    (hcov : covered cfg env t i) (hfuel : t.depth < fuel) :
    analyze env fuel t i = .ok (unqual t) := by
  have hgb := good_bare hg
  have hbu := bare_eq_unqual hg
  cases i with
  | expr e =>
    simp only [initialise] at h
    simp only [analyze, analyzeWith]
    rw [← hbu]
    rcases storeAt_cases h with ⟨n, el, hb, hstr, hel, _⟩ | ⟨ha, hna, _⟩
    · rw [hb] at hgb ⊢
      cases n with
      | none => simp [Ty.good] at hgb
      | some n =>
        have hgel : el.good = true := by
          simp only [Ty.good, Bool.and_eq_true] at hgb
          exact hgb.2
        rw [bare_eq_unqual hgel] at hel
        simp [wholeString, stringStop, hstr, hel]
    · have hpb := bare_plain t
      cases hb : t.bare with
      | scalar c =>
        rw [hb] at ha
        simp [ha]
      | array n el => exact absurd hb (hna n el)
      | record u tag fs =>
        rw [hb] at ha
        simp [ha]
      | qualified t' =>
        rw [hb] at hpb
        cases hpb
  | list its =>
    simp only [initialise] at h
    simp only [analyze]
    refine analyze_braces hl hg h ?_
    intro hagg s' hs'
    rw [← hbu]
    have hfst : t.first = t.bare.first := (first_bare t).symm
    obtain ⟨r, hr, _⟩ := analyzeItems_ok hl its t.bare [] (t.first.map fun j => [j]) s'
      (pushLayer t.bare []) fuel 0 (fine_of_good hgb) (bare_plain t)
      (by rw [hfst]; exact at_first (fine_of_good hgb) hagg) hs' hcov.2 (by rw [depth_bare]; exact hfuel)
    exact ⟨r, hr⟩

theorem emit_ok {cfg : Cfg} {env : Env E} (hl : env.Lawful) (hk : Constant cfg env) {t v : Ty} {i : Init E}
    {s : List (Store E)} {fuel : Nat} (hg : t.good = true) (hv : unqual v = t.bare)
    (h : initialise env t i = .ok s)
    (hcov : covered cfg env t i) (hfuel : t.depth < fuel) :
    emit cfg env fuel v i = .ok (keep cfg s, [[]]) := by
  have hgb := good_bare hg
  have hpb := bare_plain t
  cases i with
  | expr e =>
    simp only [initialise] at h
    simp only [emit, emitWith, hv]
    rcases storeAt_cases h with ⟨n, el, hb, hstr, hel, hs⟩ | ⟨ha, hna, rfl⟩
    · rw [hb] at hgb ⊢
      cases n with
      | none => simp [Ty.good] at hgb
      | some n =>
        have hgel : el.good = true := by
          simp only [Ty.good, Bool.and_eq_true] at hgb
          exact hgb.2
        rw [bare_eq_unqual hgel] at hel
        have hwhole : wholeString env (.array (some n) el) (some e) = some e := by
          simp [wholeString, stringStop, hstr, hel]
        obtain ⟨_, rfl⟩ := hs
        simp only [covered, fits, hb, Bool.or_eq_true, decide_eq_true_eq] at hcov
        simp only [hwhole, visitString, target, hv, hb, Res.bind, List.append_nil, keep_text, top,
          List.headD_cons]
        cases hstat : cfg.isStatic with
        | true => simp [Nat.min_comm]
        | false =>
          rw [hstat] at hcov
          simp only [Bool.false_eq_true, false_or] at hcov
          simp only [Bool.false_eq_true, if_false]
          rw [Nat.min_eq_right hcov]
    · have ht : target v none = .ok ([], t.bare) := by simp only [target, hv]
      have hvis := visitValue_ok (virt := virtual cfg env fuel fuel) hl hk (b := [[]]) ht hpb ha
      cases hb : t.bare with
      | scalar c => simp only [hvis, keep_value, top, List.headD_cons, List.append_nil]
      | array n el => exact absurd hb (hna n el)
      | record u tag fs => simp only [hvis, keep_value, top, List.headD_cons, List.append_nil]
      | qualified t' =>
        rw [hb] at hpb
        cases hpb
  | list its =>
    simp only [initialise] at h
    simp only [emit]
    refine emit_braces hl hk hg hv rfl hcov.1 h ?_
    intro hagg s' hs'
    rw [hv]
    have hfst : t.first = t.bare.first := (first_bare t).symm
    exact emitItems_ok hl hk its t.bare [] (t.first.map fun j => [j]) s'
      (pushLayer t.bare []) fuel [[]] (fine_of_good hgb) (bare_plain t)
      (by rw [hfst]; exact at_first (fine_of_good hgb) hagg) hs' hcov.2 (by rw [depth_bare]; exact hfuel) rfl

end Kefir.Init
