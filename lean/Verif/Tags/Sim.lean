import Verif.Tags.Rel

/- The analysis of a specifier and what it denotes. -/
namespace Verif.Tags

/-- What Kefir does to its scopes: tags are added or completed, in the current scope only. -/
structure Keeps (c c' : Ctx) : Prop where
  outer : c'.outer = c.outer
  objs : c'.cur.objs = c.cur.objs
  kinds : ∀ t ty, c.cur.tags t = some ty → ∃ ty', c'.cur.tags t = some ty' ∧ ty'.kind = ty.kind

theorem Keeps.refl (c : Ctx) : Keeps c c := ⟨rfl, rfl, fun _ ty h => ⟨ty, h, rfl⟩⟩

theorem Keeps.trans {a b c : Ctx} (h : Keeps a b) (h' : Keeps b c) : Keeps a c where
  outer := h'.outer.trans h.outer
  objs := h'.objs.trans h.objs
  kinds t ty ht := by
    obtain ⟨ty1, h1, k1⟩ := h.kinds t ty ht
    obtain ⟨ty2, h2, k2⟩ := h'.kinds t ty1 h1
    exact ⟨ty2, h2, k2.trans k1⟩

theorem Keeps.doomed {P c c'} (h : Keeps c c') : Doomed P c → Doomed P c'
  | ⟨t, k, ty, hP, ht, hk⟩ => by
    obtain ⟨ty', h', hk'⟩ := h.kinds t ty ht
    exact ⟨t, k, ty', hP, h', by rw [hk']; exact hk⟩

theorem set_self {α : Type} (m : Map α) (t : String) (a : α) : m.set t a t = some a := by simp [Map.set]

theorem set_other {α : Type} (m : Map α) {t u : String} (a : α) (h : u ≠ t) : m.set t a u = m u := by
  simp [Map.set, h]

/-- `kefir_ast_context_define_tag` on a tag the current scope does not have. -/
theorem defineTag_new {c : Ctx} {ty : Ty} {t : String} (ht : ty.tag = some t) (h : c.cur.tags t = none) :
    c.defineTag ty = some { c with cur := { c.cur with tags := c.cur.tags.set t ty } } := by
  simp only [Ctx.defineTag, ht, h]

theorem defineTag_kind {c : Ctx} {ty old : Ty} {t : String} (ht : ty.tag = some t) (h : c.cur.tags t = some old)
    (hk : old.kind ≠ ty.kind) : c.defineTag ty = none := by
  simp only [Ctx.defineTag, ht, h, updateTag, if_pos hk]

theorem defineTag_complete {c : Ctx} {ty old : Ty} {t : String} (ht : ty.tag = some t) (h : c.cur.tags t = some old)
    (hb : ty.body.isSome = true) (ho : old.body.isSome = true) : c.defineTag ty = none := by
  simp only [Ctx.defineTag, ht, h, updateTag]
  by_cases hk : old.kind ≠ ty.kind
  · rw [if_pos hk]
  · rw [if_neg hk, if_pos hb, if_pos ho]

theorem defineTag_update {c : Ctx} {ty old : Ty} {t : String} (ht : ty.tag = some t) (h : c.cur.tags t = some old)
    (hk : old.kind = ty.kind) (hb : ty.body.isSome = true) (ho : old.body.isSome = false) :
    c.defineTag ty = some { c with cur := { c.cur with tags := c.cur.tags.set t ty } } := by
  simp only [Ctx.defineTag, ht, h, updateTag]
  rw [if_neg (by simp [hk]), if_pos hb, if_neg (by simp [ho])]

theorem defineTag_keeps {c c' : Ctx} {ty : Ty} (h : c.defineTag ty = some c') : Keeps c c' := by
  unfold Ctx.defineTag at h
  cases ht : ty.tag with
  | none => rw [ht] at h; cases h
  | some t =>
    rw [ht] at h
    simp only at h
    cases ho : c.cur.tags t with
    | none =>
      rw [ho] at h
      simp only [Option.some.injEq] at h
      subst h
      refine ⟨rfl, rfl, fun u ty' hu => ?_⟩
      by_cases hut : u = t
      · subst hut; rw [ho] at hu; cases hu
      · exact ⟨ty', by simp only [set_other _ _ hut, hu], rfl⟩
    | some old =>
      rw [ho] at h
      simp only at h
      cases hup : updateTag old ty with
      | none => rw [hup] at h; cases h
      | some ty' =>
        rw [hup] at h
        simp only [Option.some.injEq] at h
        subst h
        refine ⟨rfl, rfl, fun u ty0 hu => ?_⟩
        by_cases hut : u = t
        · subst hut
          rw [ho] at hu
          cases hu
          refine ⟨ty', by simp only [set_self], ?_⟩
          unfold updateTag at hup
          split at hup
          · cases hup
          · rename_i hk
            split at hup
            · split at hup
              · cases hup
              · cases hup
                simpa using (Decidable.not_not.mp hk).symm
            · cases hup; rfl
        · exact ⟨ty0, by simp only [set_other _ _ hut, hu], rfl⟩

theorem defineOpt_keeps {c c' : Ctx} {ty ty' : Ty} (h : c.defineOpt ty = some (c', ty')) : Keeps c c' := by
  unfold Ctx.defineOpt at h
  split at h
  · cases h; exact .refl c
  · cases hd : c.defineTag ty with
    | none => rw [hd] at h; cases h
    | some c1 => rw [hd] at h; cases h; exact defineTag_keeps hd

theorem refer_keeps {c c' : Ctx} {k : Kind} {t : String} {ty : Ty} (h : c.refer k t = some (c', ty)) : Keeps c c' := by
  unfold Ctx.refer at h
  split at h
  · split at h
    · cases h; exact .refl c
    · cases h
  · cases hd : c.defineTag (.mk k (some t) none) with
    | none => rw [hd] at h; cases h
    | some c1 => rw [hd] at h; cases h; exact defineTag_keeps hd

mutual
theorem analyze_keeps : ∀ (sp : Spec) {c c' : Ctx} {ty : Ty}, sp.analyze c = some (c', ty) → Keeps c c'
  | .ref k t, c, c', ty, h => refer_keeps (by rw [Spec.analyze] at h; exact h)
  | .define u t pos body, c, c', ty, h => by
    rw [Spec.analyze] at h
    cases hb : body.analyze c [] with
    | none => rw [hb] at h; cases h
    | some p =>
      rw [hb] at h
      exact (members_keeps body hb).trans (defineOpt_keeps h)
  | .enumerate t pos, c, c', ty, h => defineOpt_keeps (by rw [Spec.analyze] at h; exact h)
theorem members_keeps : ∀ (b : Members) {c c' : Ctx} {fs fs' : List (String × Ty)},
    b.analyze c fs = some (c', fs') → Keeps c c'
  | .nil, c, c', fs, fs', h => by rw [Members.analyze] at h; cases h; exact .refl c
  | .cons m sp rest, c, c', fs, fs', h => by
    rw [Members.analyze] at h
    cases hs : sp.analyze c with
    | none => rw [hs] at h; cases h
    | some p =>
      rw [hs] at h
      change (if _ then _ else _) = _ at h
      split at h
      · cases h
      · exact (analyze_keeps sp hs).trans (members_keeps rest h)
end

/-- A new type is in no scope. -/
theorem fresh_ents {s : St} {k : Kind} {o : Option String} {e : Nat} (he : e < s.next) :
    (s.fresh k o).ents e = s.ents e := by
  simp only [St.fresh]
  rw [if_neg (by omega)]

theorem fresh_grows (s : St) (k : Kind) (o : Option String) : Grows s (s.fresh k o) where
  next := Nat.le_succ _
  kind e he := by rw [fresh_ents he]
  tag e he := by rw [fresh_ents he]
  body e he b hb := by rw [fresh_ents he]; exact hb
  anon e he _ := by rw [fresh_ents he]

theorem fresh_complete {s : St} {k : Kind} {o : Option String} {e : Nat} (he : e < s.next) :
    (s.fresh k o).complete e = s.complete e := by simp only [St.complete, fresh_ents he]

theorem fresh_self (s : St) (k : Kind) (o : Option String) : (s.fresh k o).ents s.next = ⟨k, o, none⟩ := by
  simp [St.fresh]

theorem fresh_self_complete (s : St) (k : Kind) (o : Option String) : (s.fresh k o).complete s.next = false := by
  simp only [St.complete, fresh_self]; rfl

theorem fresh_tags (s : St) (k : Kind) (t : String) : (s.fresh k (some t)).cur.tags = s.cur.tags.set t s.next := rfl

theorem Pending.grows {P s s'} (g : Grows s s') {t : String} {o : Option Nat} {o' : Option Ty}
    (hc : ∀ e, o = some e → s'.complete e = s.complete e) (h : Pending P s t o o') : Pending P s' t o o' := by
  obtain ⟨h0, e, k, hP, ho, hl, hk, ht, hb⟩ := h
  refine ⟨h0, e, k, hP, ho, Nat.lt_of_lt_of_le hl g.next, ?_, ?_, ?_⟩
  · rw [g.kind e hl]; exact hk
  · rw [g.tag e hl]; exact ht
  · have := hc e ho
    simp only [St.complete, hb, Option.isSome_none] at this
    cases hb' : (s'.ents e).body with
    | none => rfl
    | some b => rw [hb'] at this; cases this

/-- A new type with a tag, which Kefir may or may not know. -/
theorem R.fresh {P s c} (h : R P s c) {k : Kind} {t : String} (ht : s.cur.tags t = none) (c' : Ctx)
    (houter : c'.outer = c.outer) (hobjs : c'.cur.objs = c.cur.objs)
    (htags : ∀ u, u ≠ t → c'.cur.tags u = c.cur.tags u)
    (hself : c'.cur.tags t = some (.mk k (some t) none) ∨ (c'.cur.tags t = none ∧ (t, k) ∈ P)) :
    R P (s.fresh k (some t)) c' where
  tags u := by
    rw [fresh_tags]
    by_cases hu : u = t
    · subst hu
      rw [set_self]
      rcases hself with hs | ⟨hs, hP⟩
      · left
        rw [hs]
        refine ⟨?_, by rw [fresh_self]⟩
        rw [fresh_self_complete]
        have := RT.inc (n := (s.fresh k (some u)).next) (ents := (s.fresh k (some u)).ents) s.next (Nat.lt_succ_self _)
        rw [fresh_self] at this
        exact this
      · right
        exact ⟨hs, s.next, k, hP, rfl, Nat.lt_succ_self _, by rw [fresh_self], by rw [fresh_self], by rw [fresh_self]⟩
    · rw [set_other _ _ hu, htags u hu]
      have hc : ∀ e, s.cur.tags u = some e → (s.fresh k (some t)).complete e = s.complete e :=
        fun e he => fresh_complete (h.lt he).1
      exact (h.tags u).imp (fun h => h.grows (fresh_grows ..) hc) (fun h => h.grows (fresh_grows ..) hc)
  objs x := by
    rw [hobjs]
    exact (h.objs x).grows (fresh_grows ..)
  outer := by
    rw [houter]
    exact forall2_grows (fresh_grows ..)
      (fun f hf t e he => fresh_complete (forall2_lt h.outer f hf t e he).1) h.outer
  uniq := by
    have hu := h.uniq
    have hl := forall2_lt h.outer
    simp only [Uniq, List.pairwise_cons] at hu ⊢
    refine ⟨fun g hg u e he => ?_, hu.2⟩
    rw [fresh_tags] at he
    by_cases hut : u = t
    · subst hut
      rw [set_self] at he
      cases he
      intro hge
      exact absurd (hl g hg u _ hge).1 (Nat.lt_irrefl _)
    · rw [set_other _ _ hut] at he
      exact hu.1 g hg u e he

/-- A new type without a tag. -/
theorem R.freshAnon {P s c} (h : R P s c) (k : Kind) : R P (s.fresh k none) c where
  tags u := by
    have hc : ∀ e, s.cur.tags u = some e → (s.fresh k none).complete e = s.complete e :=
      fun e he => fresh_complete (h.lt he).1
    exact (h.tags u).imp (fun h => h.grows (fresh_grows ..) hc) (fun h => h.grows (fresh_grows ..) hc)
  objs x := (h.objs x).grows (fresh_grows ..)
  outer := forall2_grows (fresh_grows ..)
      (fun f hf t e he => fresh_complete (forall2_lt h.outer f hf t e he).1) h.outer
  uniq := h.uniq

theorem finish_some {s s' : St} {e pos : Nat} {ms : List (String × Use)} (h : s.finish e pos ms = some s') :
    s.complete e = false ∧
    s' = { s with ents := fun i => if i = e then { s.ents e with body := some (pos, ms) } else s.ents i } := by
  unfold St.finish at h
  split at h
  · cases h
  · rename_i hc
    cases h
    exact ⟨by simpa using hc, rfl⟩

theorem finish_grows {s s' : St} {e pos : Nat} {ms : List (String × Use)} (h : s.finish e pos ms = some s')
    (ht : (s.ents e).tag ≠ none) : Grows s s' := by
  obtain ⟨hc, rfl⟩ := finish_some h
  refine ⟨Nat.le_refl _, fun i _ => ?_, fun i _ => ?_, fun i _ b hb => ?_, fun i _ hn => ?_⟩
  · simp only; split
    · subst_vars; rfl
    · rfl
  · simp only; split
    · subst_vars; rfl
    · rfl
  · simp only; split
    · subst_vars
      simp [St.complete, hb] at hc
    · exact hb
  · simp only; split
    · subst_vars; exact absurd hn ht
    · rfl

theorem finish_complete_other {s s' : St} {e pos i : Nat} {ms : List (String × Use)}
    (h : s.finish e pos ms = some s') (hi : i ≠ e) : s'.complete i = s.complete i := by
  obtain ⟨_, rfl⟩ := finish_some h
  simp only [St.complete]
  rw [if_neg hi]

theorem finish_self {s s' : St} {e pos : Nat} {ms : List (String × Use)} (h : s.finish e pos ms = some s') :
    s'.ents e = { s.ents e with body := some (pos, ms) } := by
  obtain ⟨_, rfl⟩ := finish_some h
  simp

/-- The end of the definition of a tagged type. -/
theorem finish_sim {P P' s c} (h : R P' s c) {t : String} {e pos : Nat} {k : Kind} {ms : List (String × Use)}
    {fs : List (String × Ty)} (hP : ∀ x ∈ P', x.1 ≠ t → x ∈ P) (ht : s.cur.tags t = some e)
    (hk : (s.ents e).kind = k) (hr : s.RTs ms fs) :
    (s.finish e pos ms = none ∧ c.defineTag (.mk k (some t) (some (pos, fs))) = none) ∨
    ∃ s' c', s.finish e pos ms = some s' ∧ c.defineTag (.mk k (some t) (some (pos, fs))) = some c' ∧
      R P s' c' ∧ Grows s s' ∧ s'.RT (e, true) (.mk k (some t) (some (pos, fs))) ∧ s'.cur = s.cur ∧ s'.outer = s.outer := by
  obtain ⟨hlt, htag⟩ := h.lt ht
  -- the two ways in which Kefir accepts
  have accept : s.complete e = false →
      c.defineTag (.mk k (some t) (some (pos, fs))) =
        some { c with cur := { c.cur with tags := c.cur.tags.set t (.mk k (some t) (some (pos, fs))) } } →
      ∃ s' c', s.finish e pos ms = some s' ∧ c.defineTag (.mk k (some t) (some (pos, fs))) = some c' ∧
        R P s' c' ∧ Grows s s' ∧ s'.RT (e, true) (.mk k (some t) (some (pos, fs))) ∧ s'.cur = s.cur ∧
        s'.outer = s.outer := by
    intro hc hd
    obtain ⟨s', hs'⟩ : ∃ s', s.finish e pos ms = some s' := by
      unfold St.finish; rw [if_neg (by simp [hc])]; exact ⟨_, rfl⟩
    have hg := finish_grows hs' (by rw [htag]; simp)
    have hself := finish_self hs'
    obtain ⟨_, hs''⟩ := finish_some hs'
    have hcur : s'.cur = s.cur := by rw [hs'']
    have houter : s'.outer = s.outer := by rw [hs'']
    have hnext : s'.next = s.next := by rw [hs'']
    have hrt : s'.RT (e, true) (.mk k (some t) (some (pos, fs))) := by
      have := RT.com (n := s'.next) (ents := s'.ents) e pos ms fs (by rw [hnext]; exact hlt) (by rw [hself])
        (hr.grows hg)
      rw [hself] at this
      simp only [hk, htag] at this
      exact this
    refine ⟨s', _, hs', hd, ?_, hg, hrt, hcur, houter⟩
    refine ⟨fun u => ?_, fun x => ?_, ?_, ?_⟩
    · rw [hcur]
      by_cases hu : u = t
      · subst hu
        left
        simp only [set_self, ht]
        refine ⟨?_, by rw [hself]; exact htag⟩
        have : s'.complete e = true := by simp only [St.complete, hself, Option.isSome_some]
        rw [this]; exact hrt
      · simp only [set_other _ _ hu]
        have hne : ∀ i, s.cur.tags u = some i → i ≠ e := by
          intro i hi hie
          subst hie
          rw [(h.lt hi).2] at htag
          cases htag
          exact hu rfl
        rcases h.tags u with hT | hT
        · exact .inl (hT.grows hg fun i hi => finish_complete_other hs' (hne i hi))
        · right
          obtain ⟨h0, i, k', hp, rest⟩ := hT.grows hg fun i hi => finish_complete_other hs' (hne i hi)
          exact ⟨h0, i, k', hP _ hp hu, rest⟩
    · rw [hcur]; exact (h.objs x).grows hg
    · rw [houter]
      refine forall2_grows hg (fun f hf u i hi => ?_) h.outer
      refine finish_complete_other hs' fun hie => ?_
      subst hie
      have := (forall2_lt h.outer f hf u i hi).2
      rw [this] at htag
      cases htag
      have hun := h.uniq
      simp only [Uniq, List.pairwise_cons] at hun
      exact hun.1 f hf t i ht hi
    · rw [hcur, houter]; exact h.uniq
  rcases h.tags t with hT | ⟨hn, e', k', hp, he', hl', hk', htag', hb'⟩
  · rw [ht] at hT
    cases hct : c.cur.tags t with
    | none => rw [hct] at hT; exact hT.elim
    | some ty =>
      rw [hct] at hT
      have hkind := hT.1.kind
      simp only [hk] at hkind
      have hbody := hT.1.body
      simp only at hbody
      cases hc : s.complete e with
      | true =>
        left
        refine ⟨by unfold St.finish; rw [if_pos hc], defineTag_complete rfl hct rfl (by rw [hbody, hc])⟩
      | false =>
        right
        exact accept hc (defineTag_update rfl hct hkind rfl (by rw [hbody, hc]))
  · rw [ht] at he'
    cases he'
    right
    exact accept (by simp [St.complete, hb']) (defineTag_new rfl hn)

/-- The end of the definition of a type without a tag. -/
theorem finish_anon {P s c} (h : R P s c) {e pos : Nat} {k : Kind} {ms : List (String × Use)} {fs : List (String × Ty)}
    (he : e < s.next) (hk : (s.ents e).kind = k) (ht : (s.ents e).tag = none) (hb : (s.ents e).body = none)
    (hr : s.RTs ms fs) :
    ∃ s', s.finish e pos ms = some s' ∧ R P s' c ∧ s'.RT (e, true) (.mk k none (some (pos, fs))) ∧ s'.cur = s.cur ∧
      s'.outer = s.outer ∧ s'.next = s.next ∧ (∀ i, i ≠ e → s'.ents i = s.ents i) := by
  obtain ⟨s', hs'⟩ : ∃ s', s.finish e pos ms = some s' := by
    unfold St.finish; rw [if_neg (by simp [St.complete, hb])]; exact ⟨_, rfl⟩
  have hself := finish_self hs'
  obtain ⟨_, hs''⟩ := finish_some hs'
  have hcur : s'.cur = s.cur := by rw [hs'']
  have houter : s'.outer = s.outer := by rw [hs'']
  have hnext : s'.next = s.next := by rw [hs'']
  have hother : ∀ i, i ≠ e → s'.ents i = s.ents i := fun i hi => by rw [hs'']; simp [hi]
  -- everything but `anon` of `Grows`
  have hkinds : ∀ i, (s'.ents i).kind = (s.ents i).kind := fun i => by
    by_cases hi : i = e
    · subst hi; rw [hself]
    · rw [hother i hi]
  have htags : ∀ i, (s'.ents i).tag = (s.ents i).tag := fun i => by
    by_cases hi : i = e
    · subst hi; rw [hself]
    · rw [hother i hi]
  have hbodies : ∀ i b, (s.ents i).body = some b → (s'.ents i).body = some b := fun i b h => by
    by_cases hi : i = e
    · subst hi; rw [hb] at h; cases h
    · rw [hother i hi]; exact h
  have rt : ∀ {u ty}, s.RT u ty → s'.RT u ty := fun h =>
    rt_grows (Nat.le_of_eq hnext.symm) (fun i _ => hkinds i) (fun i _ => htags i) (fun i _ => hbodies i) h
  have rts : ∀ {u ty}, s.RTs u ty → s'.RTs u ty := fun h =>
    rts_grows (Nat.le_of_eq hnext.symm) (fun i _ => hkinds i) (fun i _ => htags i) (fun i _ => hbodies i) h
  have hne : ∀ {i : Nat} {u : String}, (s.ents i).tag = some u → i ≠ e := by
    intro i u hi hie; subst hie; rw [ht] at hi; cases hi
  have rtag : ∀ {u o o'}, RTag s u o o' → RTag s' u o o' := by
    intro u o o' hT
    cases o with
    | none => cases o' <;> exact hT
    | some i =>
      cases o' with
      | none => exact hT.elim
      | some ty =>
        refine ⟨?_, by rw [htags]; exact hT.2⟩
        rw [finish_complete_other hs' (hne hT.2)]
        exact rt hT.1
  have robj : ∀ {o o'}, RObj s o o' → RObj s' o o' := by
    intro o o' hT
    cases o <;> cases o' <;> first | exact hT | exact hT.elim | exact rt hT
  have rframes : ∀ {fs ks}, RFrames s fs ks → RFrames s' fs ks := by
    intro fs ks hF
    induction hF with
    | nil => exact .nil
    | cons h _ ih => exact .cons ⟨fun t => rtag (h.tags t), fun x => robj (h.objs x)⟩ ih
  refine ⟨s', hs', ⟨fun u => ?_, fun x => ?_, ?_, ?_⟩, ?_, hcur, houter, hnext, hother⟩
  · rw [hcur]
    rcases h.tags u with hT | ⟨h0, i, k', hp, ho, hl, hk', ht', hb'⟩
    · exact .inl (rtag hT)
    · right
      refine ⟨h0, i, k', hp, ho, by rw [hnext]; exact hl, by rw [hkinds]; exact hk', by rw [htags]; exact ht', ?_⟩
      rw [hother i (hne ht')]; exact hb'
  · rw [hcur]; exact robj (h.objs x)
  · rw [houter]; exact rframes h.outer
  · rw [hcur, houter]; exact h.uniq
  · have := RT.com (n := s'.next) (ents := s'.ents) e pos ms fs (by rw [hnext]; exact he) (by rw [hself]) (rts hr)
    rw [hself] at this
    simp only [hk, ht] at this
    exact this

end Verif.Tags
