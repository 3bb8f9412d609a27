import Verif.Tags.Denote

/- Declarations, accesses, blocks, functions and translation units. -/
namespace Verif.Tags

theorem Grows.same {s s' : St} (he : s'.ents = s.ents) (hn : s'.next = s.next) : Grows s s' :=
  ⟨by rw [hn]; exact Nat.le_refl _, fun _ _ => by rw [he], fun _ _ => by rw [he], fun _ _ _ h => by rw [he]; exact h,
    fun _ _ _ => by rw [he]⟩

theorem RFrames.same {s s' : St} (he : s'.ents = s.ents) (hn : s'.next = s.next) {fs : List (Frame Nat Use)}
    {ks : List (Frame Ty Ty)} (h : RFrames s fs ks) : RFrames s' fs ks :=
  forall2_grows (s := s) (s' := s') (.same he hn) (fun _ _ _ _ _ => by unfold St.complete; rw [he]) h

/-- What a sequence of items does to the declarations, in related ways. -/
structure Runs (s s' : St) (c' : Ctx) : Prop where
  rel : R [] s' c'
  grows : Grows s s'
  outer : s'.outer = s.outer

theorem Runs.trans {a b d : St} {c c' : Ctx} (h : Runs a b c) (h' : Runs b d c') : Runs a d c' :=
  ⟨h'.rel, h.grows.trans h'.grows, h'.outer.trans h.outer⟩

theorem clear_nil (s : St) (c : Ctx) (m : String → Bool) : Clear [] s c m := by intro x hx; cases hx

theorem doomed_nil {c : Ctx} : ¬ Doomed [] c := by rintro ⟨_, _, _, h, _⟩; cases h

theorem R.tag {s c} (h : R [] s c) (t : String) : RTag s t (s.cur.tags t) (c.cur.tags t) := by
  rcases h.tags t with hT | ⟨_, _, _, hP, _⟩
  · exact hT
  · cases hP

theorem R.frame {s c} (h : R [] s c) : RFrame s s.cur c.cur := ⟨h.tag, h.objs⟩

theorem R.frames {s c} (h : R [] s c) : RFrames s (s.cur :: s.outer) (c.cur :: c.outer) := .cons h.frame h.outer

/-- Specifiers, outside of definitions. -/
theorem spec_sim {s c} (h : R [] s c) {sp : Spec} (hcalm : sp.calm s = true) :
    (sp.denote s = none ∧ sp.analyze c = none) ∨
    ∃ s' e c' ty, sp.denote s = some (s', e) ∧ sp.analyze c = some (c', ty) ∧ Runs s s' c' ∧
      s'.RT (e, s'.complete e) ty ∧ s'.cur.objs = s.cur.objs ∧ c'.cur.objs = c.cur.objs := by
  have hS := denote_sim sp h (clear_nil _ _ _) hcalm
  cases hd : sp.denote s with
  | none =>
    cases ha : sp.analyze c with
    | none => exact .inl ⟨rfl, rfl⟩
    | some p => rw [hd, ha] at hS; exact (doomed_nil hS).elim
  | some q =>
    cases ha : sp.analyze c with
    | none => rw [hd, ha] at hS; exact hS.elim
    | some p =>
      rw [hd, ha] at hS
      exact .inr ⟨q.1, q.2, p.1, p.2, rfl, rfl, ⟨hS.1.rel, hS.1.grows, hS.1.outer⟩, hS.2, hS.1.objs,
        (analyze_keeps sp ha).objs⟩

def SimD (s : St) : Option St → Option Ctx → Prop
  | none, none => True
  | some s', some c' => Runs s s' c'
  | _, _ => False

theorem alone_sim {s c} (h : R [] s c) {sp : Spec} (hcalm : sp.calm s = true) :
    SimD s ((sp.denote s).map (·.1)) ((sp.analyze c).map (·.1)) := by
  rcases spec_sim h hcalm with ⟨hd, ha⟩ | ⟨s', e, c', ty, hd, ha, hr, _⟩
  · rw [hd, ha]; trivial
  · rw [hd, ha]; exact hr

/-- `struct T;` -/
theorem aloneRef_sim {s c} (h : R [] s c) {k : Kind} {t : String} (hcalm : (Decl.alone (.ref k t)).calm s = true) :
    SimD s ((s.referAlone k t).map (·.1)) ((c.refer k t).map (·.1)) := by
  simp only [Decl.calm, Bool.and_eq_true, bne_iff_ne, ne_eq] at hcalm
  obtain ⟨hk, hcalm⟩ := hcalm
  simp only [St.referAlone, if_neg hk, St.begin, Ctx.refer]
  have hT := h.tag t
  cases hs : s.cur.tags t with
  | some e =>
    rw [hs] at hT
    cases hc : c.cur.tags t with
    | none => rw [hc] at hT; exact hT.elim
    | some ty =>
      rw [hc] at hT
      have hkind := hT.1.kind
      simp only at hkind
      have : c.resolveTag t = some ty := by rw [resolveTag_eq, hc]; rfl
      rw [this]
      simp only [hkind]
      by_cases hkk : (s.ents e).kind = k
      · rw [if_pos hkk, if_pos hkk]
        exact ⟨h, .refl s, rfl⟩
      · rw [if_neg hkk, if_neg hkk]
        trivial
  | none =>
    rw [hs] at hT hcalm
    cases hc : c.cur.tags t with
    | some ty => rw [hc] at hT; exact hT.elim
    | none =>
      have ho : s.outerTag? t = none := by simpa using hcalm
      have hO : RTag s t (s.outerTag? t) (c.outer.findSome? (·.tags t)) := forall2_tag t h.outer
      have : c.resolveTag t = none := by
        rw [resolveTag_eq, hc]
        rw [ho] at hO
        cases hco : c.outer.findSome? (·.tags t) with
        | none => rfl
        | some ty => rw [hco] at hO; exact hO.elim
      rw [this]
      simp only
      rw [defineTag_new (t := t) rfl hc]
      exact ⟨h.fresh hs _ rfl rfl (fun u hu => by simp only [set_other _ _ hu]) (.inl (by simp only [set_self])),
        fresh_grows s k (some t), rfl⟩

theorem decl_sim {s c} (h : R [] s c) (d : Decl) (hcalm : d.calm s = true) : SimD s (d.means s) (d.analyze c) := by
  cases d with
  | alone sp =>
    cases sp with
    | ref k t => exact aloneRef_sim h hcalm
    | define u t pos body => exact alone_sim h (sp := .define u t pos body) hcalm
    | enumerate t pos => exact alone_sim h (sp := .enumerate t pos) hcalm
  | object x sp =>
    rcases spec_sim (sp := sp) h hcalm with ⟨hd, ha⟩ | ⟨s', e, c', ty, hd, ha, hr, hrt, hso, hco⟩
    · simp only [Decl.means, Decl.analyze, hd, ha]; trivial
    · simp only [Decl.means, Decl.analyze, hd, ha, Option.bind_eq_bind, Option.bind_some]
      have hO := hr.rel.objs x
      cases hx : s'.cur.objs x with
      | some u =>
        rw [hx] at hO
        cases hy : c'.cur.objs x with
        | none => rw [hy] at hO; exact hO.elim
        | some ty' => trivial
      | none =>
        rw [hx] at hO
        cases hy : c'.cur.objs x with
        | some ty' => rw [hy] at hO; exact hO.elim
        | none =>
          refine ⟨⟨hr.rel.tags, fun y => ?_, by exact RFrames.same (s := s') (by rfl) (by rfl) hr.rel.outer, ?_⟩,
            hr.grows.trans (.same rfl rfl), hr.outer⟩
          by_cases hyx : y = x
          · subst hyx
            simp only [set_self]
            exact hrt
          · simp only [set_other _ _ hyx]
            exact hr.rel.objs y
          · have hu := List.pairwise_cons.mp hr.rel.uniq
            exact List.pairwise_cons.mpr ⟨hu.1, hu.2⟩

/-- Completing a type whose tag names it. -/
theorem completion_rt {s c} (h : R [] s c) {u : Use} {ty : Ty} (hrt : s.RT u ty) (hk : (s.ents u.1).kind ≠ .enum)
    (hn : s.named s.tag? u = true) : s.RT (u.1, s.complete u.1) (c.completion ty) := by
  have hk' : ty.kind ≠ .enum := by rw [hrt.kind]; exact hk
  cases hrt with
  | com e pos ms fs he hb hr =>
    have : c.completion (.mk (s.ents e).kind (s.ents e).tag (some (pos, fs))) =
        .mk (s.ents e).kind (s.ents e).tag (some (pos, fs)) := by
      simp only [Ctx.completion, Ty.kind, Ty.body, Ty.tag]
    rw [this]
    have hc : s.complete e = true := by simp [St.complete, hb]
    simp only [hc]
    exact RT.com e pos ms fs he hb hr
  | inc e he =>
    simp only [St.named, Bool.false_or] at hn
    cases ht : (s.ents e).tag with
    | none => rw [ht] at hn; cases hn
    | some t =>
      rw [ht] at hn
      simp only [beq_iff_eq] at hn
      have hT : RTag s t (s.tag? t) (c.resolveTag t) := forall2_tag t h.frames
      rw [hn] at hT
      cases hc : c.resolveTag t with
      | none => rw [hc] at hT; exact hT.elim
      | some ty' =>
        rw [hc] at hT
        have hcomp : c.completion (.mk (s.ents e).kind (some t) none) =
            if ty'.kind ≠ .enum ∧ ty'.body.isSome then ty' else .mk (s.ents e).kind (some t) none := by
          simp only [Ctx.completion, Ty.kind, Ty.body, Ty.tag]
          cases hkk : (s.ents e).kind with
          | enum => exact absurd hkk hk
          | struct => simp only [hc]
          | union => simp only [hc]
        rw [hcomp]
        have hb := hT.1.body
        simp only at hb
        cases hce : s.complete e with
        | true =>
          rw [hce] at hb
          have hT1 := hT.1
          rw [hce] at hT1
          rw [if_pos ⟨by rw [hT.1.kind]; exact hk, hb⟩]
          exact hT1
        | false =>
          rw [hce] at hb
          rw [if_neg (fun hh => by rw [hb] at hh; exact absurd hh.2 (by simp))]
          have := RT.inc (n := s.next) (ents := s.ents) e he
          rw [ht] at this
          exact this

theorem reach_use (s : St) (u u' : Use) (h : u.1 = u'.1) (path : List String) : s.reach u path = s.reach u' path := by
  cases path <;> (conv => lhs; unfold St.reach) <;> (conv => rhs; unfold St.reach) <;> rw [h]

theorem calmPath_use {s : St} {u : Use} {ty : Ty} (hrt : s.RT u ty) {path : List String} (h : s.calmPath u path = true) :
    s.calmPath (u.1, s.complete u.1) path = true := by
  unfold St.calmPath at h ⊢
  rw [Bool.and_eq_true] at h ⊢
  refine ⟨?_, h.2⟩
  cases hc : s.complete u.1 with
  | true => rfl
  | false =>
    cases hrt with
    | com e pos ms fs he hb hr => simp [St.complete, hb] at hc
    | inc e he => exact h.1

/-- Translating an arrow whose type is complete. -/
theorem translate_complete (C : Ctx) {s : St} {e : Nat} {ty : Ty} (h : s.RT (e, true) ty) (hk : (s.ents e).kind ≠ .enum) :
    ∀ {pos ms}, (s.ents e).body = some (pos, ms) → translateArrow C ty = some pos := by
  intro pos ms hb
  cases h with
  | com _ pos' ms' fs he hb' hr =>
    rw [hb] at hb'
    cases hb'
    have : C.completion (.mk (s.ents e).kind (s.ents e).tag (some (pos, fs))) =
        .mk (s.ents e).kind (s.ents e).tag (some (pos, fs)) := by
      simp only [Ctx.completion, Ty.kind, Ty.body, Ty.tag]
    unfold translateArrow
    rw [this, if_neg (show ¬ Ty.kind (.mk _ _ _) = .enum from hk)]
    rfl

/-- A path of arrows.  The type recorded at the first one is the one of the object, the others are complete. -/
theorem reach_sim {s c} (h : R [] s c) : ∀ (path : List String) {u : Use} {ty : Ty}, s.RT u ty →
    s.calmPath u path = true →
    (s.reach u path = none ∧ c.reach ty path = none) ∨
    ∃ o os tys ms, s.reach u path = some (o :: os) ∧ c.reach ty path = some (ty :: tys) ∧
      (s.ents u.1).kind ≠ .enum ∧ (s.ents u.1).body = some (o, ms) ∧ ∀ C, tys.mapM (translateArrow C) = some os := by
  intro path
  induction path with
  | nil =>
    intro u ty hrt hcalm
    unfold St.calmPath at hcalm
    rw [Bool.and_eq_true] at hcalm
    unfold St.reach Ctx.reach
    by_cases hk : (s.ents u.1).kind = .enum
    · left
      rw [if_pos (by rw [hrt.kind]; exact hk)]
      simp only [hk, and_self]
    · have hC := completion_rt h hrt hk hcalm.1
      rw [if_neg (by rw [hrt.kind]; exact hk)]
      have hCk : (c.completion ty).kind = (s.ents u.1).kind := hC.kind
      have hCb := hC.body
      simp only [hCk] at hCb ⊢
      cases hb : (s.ents u.1).body with
      | none =>
        left
        have : (c.completion ty).body = none := by
          simpa [St.complete, hb] using hCb
        rw [this]
        revert hk
        cases (s.ents u.1).kind <;> simp
      | some p =>
        right
        obtain ⟨q, hq⟩ : ∃ q, (c.completion ty).body = some q := by
          simpa [St.complete, hb, Option.isSome_iff_exists] using hCb
        rw [hq]
        refine ⟨p.1, [], [], p.2, ?_, ?_, hk, rfl, fun _ => rfl⟩
        · revert hk; cases (s.ents u.1).kind <;> simp
        · revert hk; cases (s.ents u.1).kind <;> simp
  | cons m rest ih =>
    intro u ty hrt hcalm
    unfold St.calmPath at hcalm
    rw [Bool.and_eq_true] at hcalm
    unfold St.reach Ctx.reach
    by_cases hk : (s.ents u.1).kind = .enum
    · left
      rw [if_pos (by rw [hrt.kind]; exact hk)]
      simp only [hk, and_self]
    · have hC := completion_rt h hrt hk hcalm.1
      rw [if_neg (by rw [hrt.kind]; exact hk)]
      have hCk : (c.completion ty).kind = (s.ents u.1).kind := hC.kind
      simp only [hCk]
      cases hb : (s.ents u.1).body with
      | none =>
        left
        have : (c.completion ty).body = none := by
          simpa [St.complete, hb] using hC.body
        rw [this]
        revert hk
        cases (s.ents u.1).kind <;> simp
      | some p =>
        obtain ⟨pos, ms⟩ := p
        have hcomp : s.complete u.1 = true := by simp [St.complete, hb]
        rw [hcomp] at hC
        obtain ⟨fs, hfs, hrts⟩ : ∃ fs, (c.completion ty).body = some (pos, fs) ∧ s.RTs ms fs := by
          generalize c.completion ty = T at hC
          cases hC with
          | com _ pos' ms' fs he hb' hr => rw [hb] at hb'; cases hb'; exact ⟨fs, rfl, hr⟩
        have hc2 := hcalm.2
        simp only [hb] at hc2
        rw [hfs]
        have key : (match ms.find? (·.1 == m) with
              | none => none
              | some (_, u') => (s.reach u' rest).map (pos :: ·)) = none ∧
            (match fs.find? (·.1 == m) with
              | none => none
              | some (_, ty') => (c.reach (c.completion ty') rest).map (ty :: ·)) = none ∨
            ∃ os tys, (match ms.find? (·.1 == m) with
              | none => none
              | some (_, u') => (s.reach u' rest).map (pos :: ·)) = some (pos :: os) ∧
              (match fs.find? (·.1 == m) with
              | none => none
              | some (_, ty') => (c.reach (c.completion ty') rest).map (ty :: ·)) = some (ty :: tys) ∧
              ∀ C, tys.mapM (translateArrow C) = some os := by
          rcases hrts.find m with ⟨h1, h2⟩ | ⟨k, u', ty', h1, h2, hrt'⟩
          · left; rw [h1, h2]; exact ⟨rfl, rfl⟩
          · rw [h1, h2]
            rw [h1] at hc2
            simp only at hc2
            by_cases hk' : (s.ents u'.1).kind = .enum
            · left
              have : c.completion ty' = ty' := by
                have hk2 : ty'.kind = .enum := by rw [hrt'.kind]; exact hk'
                unfold Ctx.completion
                rw [hk2]
              simp only
              rw [this]
              rcases ih hrt' hc2 with ⟨h3, h4⟩ | ⟨_, _, _, _, _, _, h5, _⟩
              · rw [h3, h4]; exact ⟨rfl, rfl⟩
              · exact absurd hk' h5
            · have hnm : s.named s.tag? u' = true := by
                unfold St.calmPath at hc2
                rw [Bool.and_eq_true] at hc2
                exact hc2.1
              have hC' := completion_rt h hrt' hk' hnm
              have := ih hC' (calmPath_use hrt' hc2)
              rw [reach_use s (u'.1, s.complete u'.1) u' rfl] at this
              rcases this with ⟨h3, h4⟩ | ⟨o, os, tys, ms', h3, h4, h5, h6, h7⟩
              · left; simp only [h3, h4]; exact ⟨rfl, rfl⟩
              · right
                refine ⟨o :: os, c.completion ty' :: tys, by simp only [h3]; rfl, by simp only [h4]; rfl, fun C => ?_⟩
                have hcomp' : s.complete u'.1 = true := by simp [St.complete, h6]
                rw [hcomp'] at hC'
                simp only [List.mapM_cons, translate_complete C hC' hk' h6, h7 C]
                rfl
        rcases key with ⟨h1, h2⟩ | ⟨os, tys, h1, h2, h3⟩
        · left
          revert hk
          cases (s.ents u.1).kind <;> intro hk <;> first | exact absurd rfl hk | exact ⟨h1, h2⟩
        · right
          refine ⟨pos, os, tys, ms, ?_, ?_, hk, rfl, h3⟩
          · revert hk
            cases (s.ents u.1).kind <;> intro hk <;> first | exact absurd rfl hk | exact h1
          · revert hk
            cases (s.ents u.1).kind <;> intro hk <;> first | exact absurd rfl hk | exact h2

/-- The tags that a context finds when a function is translated. -/
def FinOK (fin : String → Option Nat) (C : Ctx) (sE sF : St) : Prop :=
  ∀ t e, e < sE.next → sE.complete e = true → fin t = some e → ∃ ty, C.resolveTag t = some ty ∧ sF.RT (e, true) ty

theorem R.push {s c} (h : R [] s c) : R [] s.push c.push := by
  refine ⟨fun t => .inl trivial, fun x => trivial, ?_, ?_⟩
  · exact RFrames.same (s := s) (s' := s.push) rfl rfl h.frames
  · exact List.pairwise_cons.mpr ⟨fun _ _ _ _ he => (nomatch he), h.uniq⟩

/-- Scopes end in both worlds. -/
theorem R.pop {s s' : St} {c' : Ctx} (h : Runs s.push s' c') :
    ∃ s'' c'', s'.pop = some s'' ∧ c'.pop = some c'' ∧ Runs s s'' c'' ∧ Grows s' s'' := by
  have ho : s'.outer = s.cur :: s.outer := h.outer
  have hf := h.rel.outer
  have hu := h.rel.uniq
  rw [ho] at hf hu
  cases hco : c'.outer with
  | nil => rw [hco] at hf; cases hf
  | cons g gs =>
    rw [hco] at hf
    cases hf with
    | cons hfr hrest =>
      refine ⟨{ s' with cur := s.cur, outer := s.outer }, { c' with cur := g, outer := gs }, ?_, ?_, ⟨⟨fun t => ?_, fun x => ?_, ?_, ?_⟩, ?_, rfl⟩, ?_⟩
      · unfold St.pop; rw [ho]
      · unfold Ctx.pop; rw [hco]
      · exact .inl ((hfr.tags t).grows (.same rfl rfl) (fun _ _ => rfl))
      · exact (hfr.objs x).grows (.same rfl rfl)
      · exact RFrames.same (s := s') (s' := { s' with cur := s.cur, outer := s.outer }) rfl rfl hrest
      · exact (List.pairwise_cons.mp hu).2
      · exact (Grows.same (s := s) (s' := s.push) rfl rfl).trans (h.grows.trans (.same rfl rfl))
      · exact .same rfl rfl

theorem R.obj {s c} (h : R [] s c) (x : String) : RObj s (s.obj? x) (c.resolveObj x) := forall2_obj x h.frames

/-- The first arrow of an access, when it is translated. -/
theorem first_arrow {s sE sF : St} {u : Use} {ty : Ty} {o ms} {fin C} (hrt : s.RT u ty) (hk : (s.ents u.1).kind ≠ .enum)
    (hb : (s.ents u.1).body = some (o, ms)) (hE : Grows s sE) (hF : Grows sE sF) (hfin : FinOK fin C sE sF)
    (hn : s.named fin u = true) : translateArrow C ty = some o := by
  have hlt : u.1 < s.next := hrt.lt
  have hcomp : s.complete u.1 = true := by simp [St.complete, hb]
  obtain ⟨e, w⟩ := u
  cases w with
  | true => exact translate_complete C hrt hk hb
  | false =>
    simp only [St.named, Bool.false_or] at hn
    simp only at hlt hcomp hb hk
    cases ht : (s.ents e).tag with
    | none => rw [ht] at hn; cases hn
    | some t =>
      rw [ht] at hn
      simp only [beq_iff_eq] at hn
      obtain ⟨ty', h1, h2⟩ := hfin t e (Nat.lt_of_lt_of_le hlt hE.next) (hE.complete hlt hcomp) hn
      have g := hE.trans hF
      have hk' : (sF.ents e).kind ≠ .enum := by rw [g.kind e hlt]; exact hk
      have hb' := g.body e hlt _ hb
      have hT := translate_complete C h2 hk' hb'
      have hc : C.completion ty = C.completion ty' := by
        have e1 : ty.kind = (s.ents e).kind := hrt.kind
        have e2 : ty.tag = some t := by rw [hrt.tag]; exact ht
        have e3 : ty.body = none := by
          have := hrt.body
          simpa using this
        have f1 : ty'.kind ≠ .enum := by rw [h2.kind]; exact hk'
        have f3 : ty'.body.isSome = true := h2.body
        have l : C.completion ty = ty' := by
          unfold Ctx.completion
          rw [e1, e2, e3]
          cases hkk : (s.ents e).kind with
          | enum => exact absurd hkk hk
          | struct => simp only [h1]; rw [if_pos ⟨f1, f3⟩]
          | union => simp only [h1]; rw [if_pos ⟨f1, f3⟩]
        have r : C.completion ty' = ty' := by
          obtain ⟨b, hb3⟩ := Option.isSome_iff_exists.mp f3
          unfold Ctx.completion
          rw [hb3]
          split <;> simp_all
        rw [l, r]
      unfold translateArrow at hT ⊢
      rw [hc]
      exact hT

def SimB (s : St) (b : Body) : Option (St × List Nat) → Option (Ctx × List Ty) → Prop
  | none, none => True
  | some (s', os), some (c', tys) => Runs s s' c' ∧
    ∀ sE sF fin C, Grows s' sE → Grows sE sF → FinOK fin C sE sF → b.settled fin s = true →
      tys.mapM (translateArrow C) = some os
  | _, _ => False

theorem mapM_append_some {α β : Type} (f : α → Option β) {xs ys : List α} {us vs : List β} (h : xs.mapM f = some us)
    (h' : ys.mapM f = some vs) : (xs ++ ys).mapM f = some (us ++ vs) := by
  rw [List.mapM_append, h, h']; rfl

theorem body_sim : ∀ (b : Body) {s c}, R [] s c → b.calm s = true → SimB s b (b.means s) (b.analyze c) := by
  intro b
  induction b with
  | nil => intro s c h _; exact ⟨⟨h, .refl s, rfl⟩, fun _ _ _ _ _ _ _ _ => rfl⟩
  | decl d rest ih =>
    intro s c h hcalm
    simp only [Body.calm, Bool.and_eq_true] at hcalm
    have hD := decl_sim h d hcalm.1
    simp only [Body.means, Body.analyze]
    cases hm : d.means s with
    | none =>
      cases ha : d.analyze c with
      | none => trivial
      | some c' => rw [hm, ha] at hD; exact hD.elim
    | some s' =>
      cases ha : d.analyze c with
      | none => rw [hm, ha] at hD; exact hD.elim
      | some c' =>
        rw [hm, ha] at hD
        have hc2 := hcalm.2
        rw [hm] at hc2
        have hB := ih hD.rel hc2
        simp only [Option.bind_eq_bind, Option.bind_some]
        cases hm2 : rest.means s' with
        | none =>
          cases ha2 : rest.analyze c' with
          | none => trivial
          | some p => rw [hm2, ha2] at hB; exact hB.elim
        | some q =>
          cases ha2 : rest.analyze c' with
          | none => rw [hm2, ha2] at hB; exact hB.elim
          | some p =>
            rw [hm2, ha2] at hB
            refine ⟨hD.trans hB.1, fun sE sF fin C hE hF hfin hset => hB.2 sE sF fin C hE hF hfin ?_⟩
            simp only [Body.settled, hm] at hset
            exact hset
  | access x path rest ih =>
    intro s c h hcalm
    simp only [Body.calm, Bool.and_eq_true] at hcalm
    have hO := h.obj x
    simp only [Body.means, Body.analyze]
    cases hx : s.obj? x with
    | none =>
      rw [hx] at hO
      cases hy : c.resolveObj x with
      | none => trivial
      | some ty => rw [hy] at hO; exact hO.elim
    | some u =>
      rw [hx] at hO
      cases hy : c.resolveObj x with
      | none => rw [hy] at hO; exact hO.elim
      | some ty =>
        rw [hy] at hO
        have hc1 := hcalm.1
        rw [hx] at hc1
        simp only [Option.bind_eq_bind, Option.bind_some]
        rcases reach_sim h path hO hc1 with ⟨h1, h2⟩ | ⟨o, os, tys, ms, h1, h2, hk, hb, htr⟩
        · rw [h1, h2]; trivial
        · rw [h1, h2]
          have hB := ih h hcalm.2
          simp only [Option.bind_some]
          cases hm2 : rest.means s with
          | none =>
            cases ha2 : rest.analyze c with
            | none => trivial
            | some p => rw [hm2, ha2] at hB; exact hB.elim
          | some q =>
            cases ha2 : rest.analyze c with
            | none => rw [hm2, ha2] at hB; exact hB.elim
            | some p =>
              rw [hm2, ha2] at hB
              refine ⟨hB.1, fun sE sF fin C hE hF hfin hset => ?_⟩
              simp only [Body.settled, hx, Bool.and_eq_true] at hset
              refine mapM_append_some _ ?_ (hB.2 sE sF fin C hE hF hfin hset.2)
              rw [List.mapM_cons, first_arrow hO hk hb (hB.1.grows.trans hE) hF hfin hset.1, htr C]
              rfl
  | block inner rest ihi ihr =>
    intro s c h hcalm
    simp only [Body.calm, Bool.and_eq_true] at hcalm
    have hI := ihi h.push hcalm.1
    simp only [Body.means, Body.analyze]
    cases hm : inner.means s.push with
    | none =>
      cases ha : inner.analyze c.push with
      | none => trivial
      | some c' => rw [hm, ha] at hI; exact hI.elim
    | some q =>
      cases ha : inner.analyze c.push with
      | none => rw [hm, ha] at hI; exact hI.elim
      | some p =>
        rw [hm, ha] at hI
        obtain ⟨s'', c'', hp1, hp2, hr, hg⟩ := R.pop hI.1
        have hc2 := hcalm.2
        rw [hm] at hc2
        simp only [hp1] at hc2
        have hB := ihr hr.rel hc2
        simp only [Option.bind_eq_bind, Option.bind_some, hp1, hp2]
        cases hm2 : rest.means s'' with
        | none =>
          cases ha2 : rest.analyze c'' with
          | none => trivial
          | some p => rw [hm2, ha2] at hB; exact hB.elim
        | some q2 =>
          cases ha2 : rest.analyze c'' with
          | none => rw [hm2, ha2] at hB; exact hB.elim
          | some p2 =>
            rw [hm2, ha2] at hB
            refine ⟨hr.trans hB.1, fun sE sF fin C hE hF hfin hset => ?_⟩
            simp only [Body.settled, hm, hp1, Bool.and_eq_true] at hset
            exact mapM_append_some _ (hI.2 sE sF fin C (hg.trans (hB.1.grows.trans hE)) hF hfin hset.1)
              (hB.2 sE sF fin C hE hF hfin hset.2)

def SimU (s : St) (xs : List Ext) : Option (St × List Nat) → Option (Ctx × List Fn) → Prop
  | none, none => True
  | some (s', os), some (c', fs) => Runs s s' c' ∧
    ∀ sF cF, R [] sF cF → Grows s' sF → settledUnit sF.cur.tags s xs = true →
      (fs.mapM (translateFn cF)).map List.flatten = some os
  | _, _ => False

/-- Where a function is translated. -/
theorem finOK {s' sF : St} {c' cF : Ctx} (h : R [] s' c') (hF : R [] sF cF) (g : Grows s' sF) :
    FinOK (fun t => (s'.cur.tags t).or (sF.cur.tags t)) { cur := c'.cur, outer := cF.cur :: cF.outer } s' sF := by
  intro t e hlt hcomp he
  replace he : (s'.cur.tags t).or (sF.cur.tags t) = some e := he
  have h1 := h.tag t
  have h2 := hF.tag t
  cases hs : s'.cur.tags t with
  | some e' =>
    rw [hs] at he h1
    cases he
    cases hc : c'.cur.tags t with
    | none => rw [hc] at h1; exact h1.elim
    | some ty =>
      rw [hc] at h1
      have hrt := h1.1
      rw [hcomp] at hrt
      exact ⟨ty, by simp only [Ctx.resolveTag, List.findSome?_cons, hc], hrt.grows g⟩
  | none =>
    rw [hs] at he h1
    simp only [Option.none_or] at he
    rw [he] at h2
    cases hc : c'.cur.tags t with
    | some ty => rw [hc] at h1; exact h1.elim
    | none =>
      cases hcF : cF.cur.tags t with
      | none => rw [hcF] at h2; exact h2.elim
      | some ty =>
        rw [hcF] at h2
        have hrt := h2.1
        rw [g.complete hlt hcomp] at hrt
        exact ⟨ty, by simp only [Ctx.resolveTag, List.findSome?_cons, hc, hcF], hrt⟩

theorem unit_sim : ∀ (xs : List Ext) {s c}, R [] s c → calmUnit s xs = true → SimU s xs (means s xs) (analyzeUnit c xs) := by
  intro xs
  induction xs with
  | nil => intro s c h _; exact ⟨⟨h, .refl s, rfl⟩, fun _ _ _ _ _ => rfl⟩
  | cons x xs ih =>
    intro s c h hcalm
    cases x with
    | decl d =>
      simp only [calmUnit, Bool.and_eq_true] at hcalm
      have hD := decl_sim h d hcalm.1
      simp only [means, analyzeUnit, Ext.means, Ext.analyze]
      cases hm : d.means s with
      | none =>
        cases ha : d.analyze c with
        | none => trivial
        | some c' => rw [hm, ha] at hD; exact hD.elim
      | some s' =>
        cases ha : d.analyze c with
        | none => rw [hm, ha] at hD; exact hD.elim
        | some c' =>
          rw [hm, ha] at hD
          have hc2 := hcalm.2
          rw [hm] at hc2
          have hB := ih hD.rel hc2
          simp only [Option.map_some, Option.bind_eq_bind, Option.bind_some]
          cases hm2 : means s' xs with
          | none =>
            cases ha2 : analyzeUnit c' xs with
            | none => trivial
            | some p => rw [hm2, ha2] at hB; exact hB.elim
          | some q =>
            cases ha2 : analyzeUnit c' xs with
            | none => rw [hm2, ha2] at hB; exact hB.elim
            | some p =>
              rw [hm2, ha2] at hB
              refine ⟨hD.trans hB.1, fun sF cF hR hG hset => ?_⟩
              simp only [settledUnit, hm] at hset
              exact hB.2 sF cF hR hG hset
    | function body =>
      simp only [calmUnit, Bool.and_eq_true] at hcalm
      have hI := body_sim body h.push hcalm.1
      simp only [means, analyzeUnit, Ext.means, Ext.analyze]
      cases hm : body.means s.push with
      | none =>
        cases ha : body.analyze c.push with
        | none => trivial
        | some c' => rw [hm, ha] at hI; exact hI.elim
      | some q =>
        cases ha : body.analyze c.push with
        | none => rw [hm, ha] at hI; exact hI.elim
        | some p =>
          rw [hm, ha] at hI
          obtain ⟨s'', c'', hp1, hp2, hr, hg⟩ := R.pop hI.1
          have hc2 := hcalm.2
          rw [hm] at hc2
          simp only [hp1] at hc2
          have hB := ih hr.rel hc2
          simp only [Option.bind_eq_bind, Option.bind_some, hp1, hp2]
          cases hm2 : means s'' xs with
          | none =>
            cases ha2 : analyzeUnit c'' xs with
            | none => trivial
            | some p => rw [hm2, ha2] at hB; exact hB.elim
          | some q2 =>
            cases ha2 : analyzeUnit c'' xs with
            | none => rw [hm2, ha2] at hB; exact hB.elim
            | some p2 =>
              rw [hm2, ha2] at hB
              refine ⟨hr.trans hB.1, fun sF cF hR hG hset => ?_⟩
              simp only [settledUnit, hm, hp1, Bool.and_eq_true] at hset
              have g := hg.trans (hB.1.grows.trans hG)
              have h1 := hI.2 q.1 sF _ _ (.refl _) g (finOK hI.1.rel hR g) hset.1
              have h2 := hB.2 sF cF hR hG hset.2
              obtain ⟨oss, h3, h4⟩ := Option.map_eq_some_iff.mp h2
              have h5 : ([(p.1.cur, p.2)] : List Fn).mapM (translateFn cF) = some [q.2] := by
                simp only [List.mapM_cons, List.mapM_nil, translateFn, h1]
                rfl
              rw [mapM_append_some _ h5 h3]
              simp only [Option.map_some, List.singleton_append, List.flatten_cons, h4]

theorem empty_rel : R [] .empty .empty :=
  ⟨fun _ => .inl trivial, fun _ => trivial, .nil, List.pairwise_singleton _ _⟩

theorem compile_eq {xs : List Ext} (h : covered xs = true) : compile xs = (means .empty xs).map (·.2) := by
  simp only [covered, Bool.and_eq_true] at h
  have hU := unit_sim xs empty_rel h.1
  unfold compile
  cases hm : means .empty xs with
  | none =>
    cases ha : analyzeUnit .empty xs with
    | none => rfl
    | some p => rw [hm, ha] at hU; exact hU.elim
  | some q =>
    cases ha : analyzeUnit .empty xs with
    | none => rw [hm, ha] at hU; exact hU.elim
    | some p =>
      rw [hm, ha] at hU
      have h2 := h.2
      rw [hm] at h2
      obtain ⟨oss, h3, h4⟩ := Option.map_eq_some_iff.mp (hU.2 q.1 p.1 hU.1.rel (.refl _) h2)
      simp only [Option.bind_eq_bind, Option.bind_some, h3, h4, Option.map_some]

end Verif.Tags
