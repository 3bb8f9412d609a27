import Verif.Tags.Sim

/- Specifiers: the analysis agrees with the specification. -/
namespace Verif.Tags

structure Goes (P : List (String × Kind)) (s s' : St) (c' : Ctx) : Prop where
  rel : R P s' c'
  grows : Grows s s'
  outer : s'.outer = s.outer
  tags : ∀ t e, s.cur.tags t = some e → s'.cur.tags t = some e
  objs : s'.cur.objs = s.cur.objs

theorem Goes.trans {P P' : List (String × Kind)} {a b d : St} {c c' : Ctx} (h : Goes P a b c) (h' : Goes P' b d c') :
    Goes P' a d c' where
  rel := h'.rel
  grows := h.grows.trans h'.grows
  outer := h'.outer.trans h.outer
  tags t e ht := h'.tags t e (h.tags t e ht)
  objs := h'.objs.trans h.objs

def SimS (P : List (String × Kind)) (s : St) : Option (St × Nat) → Option (Ctx × Ty) → Prop
  | none, none => True
  | none, some (c', _) => Doomed P c'
  | some _, none => False
  | some (s', e), some (c', ty) => Goes P s s' c' ∧ s'.RT (e, s'.complete e) ty

def SimM (P : List (String × Kind)) (s : St) :
    Option (St × List (String × Use)) → Option (Ctx × List (String × Ty)) → Prop
  | none, none => True
  | none, some (c', _) => Doomed P c'
  | some _, none => False
  | some (s', ms), some (c', fs) => Goes P s s' c' ∧ s'.RTs ms fs

/-- The tags whose definitions are being read are not in sight: no outer scope has them, or the rest does not
mention them. -/
def Clear (P : List (String × Kind)) (s : St) (c : Ctx) (mentions : String → Bool) : Prop :=
  ∀ x ∈ P, c.cur.tags x.1 = none → s.outerTag? x.1 = none ∨ mentions x.1 = false

theorem tag?_eq (s : St) (t : String) : s.tag? t = (s.cur.tags t).or (s.outerTag? t) := by
  simp only [St.tag?, St.outerTag?, List.findSome?_cons]
  cases s.cur.tags t <;> rfl

theorem resolveTag_eq (c : Ctx) (t : String) : c.resolveTag t = (c.cur.tags t).or (c.outer.findSome? (·.tags t)) := by
  simp only [Ctx.resolveTag, List.findSome?_cons]
  cases c.cur.tags t <;> rfl

/-- `struct T` without a body. -/
theorem refer_sim {P s c} (h : R P s c) {k : Kind} {t : String} (hcl : Clear P s c (fun u => (Spec.ref k t).mentions u))
    (hcalm : (Spec.ref k t).calm s = true) : SimS P s (s.refer k t) (c.refer k t) := by
  have houter : RTag s t (s.outerTag? t) (c.outer.findSome? (·.tags t)) := forall2_tag t h.outer
  rw [Spec.calm] at hcalm
  -- a visible declaration that both have
  have both : ∀ e ty, s.tag? t = some e → c.resolveTag t = some ty → RTag s t (some e) (some ty) →
      SimS P s (s.refer k t) (c.refer k t) := by
    intro e ty hs hc hT
    have hk := hT.1.kind
    simp only at hk
    simp only [St.refer, Ctx.refer, hs, hc, hk]
    rw [hs] at hcalm
    by_cases hkk : (s.ents e).kind = k
    · have hc : k = .enum → s.complete e = true := by
        intro hke
        subst hke
        simpa [hkk] using hcalm
      rw [if_pos ⟨hkk, hc⟩, if_pos hkk]
      exact ⟨⟨h, .refl s, rfl, fun _ _ h => h, rfl⟩, hT.1⟩
    · rw [if_neg (fun hh => hkk hh.1), if_neg hkk]
      trivial
  rcases h.tags t with hT | ⟨hn, e, k0, hP, he, hlt, hk0, htag, hb⟩
  · cases hcur : s.cur.tags t with
    | some e =>
      rw [hcur] at hT
      cases hcc : c.cur.tags t with
      | none => rw [hcc] at hT; exact hT.elim
      | some ty =>
        rw [hcc] at hT
        exact both e ty (by rw [tag?_eq, hcur]; rfl) (by rw [resolveTag_eq, hcc]; rfl) hT
    | none =>
      rw [hcur] at hT
      cases hcc : c.cur.tags t with
      | some ty => rw [hcc] at hT; exact hT.elim
      | none =>
        have hs : s.tag? t = s.outerTag? t := by rw [tag?_eq, hcur]; rfl
        have hc : c.resolveTag t = c.outer.findSome? (·.tags t) := by rw [resolveTag_eq, hcc]; rfl
        cases ho : s.outerTag? t with
        | some e =>
          cases ho' : c.outer.findSome? (·.tags t) with
          | none => rw [ho, ho'] at houter; exact houter.elim
          | some ty =>
            rw [ho, ho'] at houter
            exact both e ty (hs.trans ho) (hc.trans ho') houter
        | none =>
          cases ho' : c.outer.findSome? (·.tags t) with
          | some ty => rw [ho, ho'] at houter; exact houter.elim
          | none =>
            rw [hs, ho] at hcalm
            have hke : k ≠ .enum := by simpa using hcalm
            simp only [St.refer, Ctx.refer, hs, hc, ho, ho']
            rw [if_neg hke, defineTag_new (t := t) rfl hcc]
            refine ⟨⟨h.fresh hcur _ rfl rfl (fun u hu => ?_) (.inl ?_), fresh_grows .., rfl, fun u e he => ?_, rfl⟩, ?_⟩
            · simp only [set_other _ _ hu]
            · simp only [set_self]
            · rw [fresh_tags, set_other]
              · exact he
              · intro hu; subst hu; rw [hcur] at he; cases he
            · rw [fresh_self_complete]
              have := RT.inc (n := (s.fresh k (some t)).next) (ents := (s.fresh k (some t)).ents) s.next
                (Nat.lt_succ_self _)
              rw [fresh_self] at this
              exact this
  · have hout : s.outerTag? t = none := by
      rcases hcl _ hP hn with h1 | h1
      · exact h1
      · simp [Spec.mentions] at h1
    have hs : s.tag? t = some e := by rw [tag?_eq, he]; rfl
    rw [hout] at houter
    have hc : c.resolveTag t = none := by
      rw [resolveTag_eq, hn]
      cases ho' : c.outer.findSome? (·.tags t) with
      | none => rfl
      | some ty => rw [ho'] at houter; exact houter.elim
    rw [hs] at hcalm
    have hcomp : s.complete e = false := by simp [St.complete, hb]
    simp only [St.refer, Ctx.refer, hs, hc]
    rw [defineTag_new (t := t) rfl hn]
    by_cases hkk : k0 = k
    · subst hkk
      have hke : k0 ≠ .enum := by
        intro hke
        simp [hke, hcomp, hk0] at hcalm
      rw [if_pos ⟨hk0, fun h => absurd h hke⟩]
      have hrt : s.RT (e, s.complete e) (.mk k0 (some t) none) := by
        rw [hcomp]
        have := RT.inc (n := s.next) (ents := s.ents) e hlt
        rw [hk0, htag] at this
        exact this
      refine ⟨⟨⟨fun u => ?_, h.objs, h.outer, h.uniq⟩, .refl s, rfl, fun _ _ h => h, rfl⟩, hrt⟩
      by_cases hu : u = t
      · subst hu
        left
        simp only [set_self, he]
        exact ⟨hrt, htag⟩
      · simp only [set_other _ _ hu]
        exact h.tags u
    · rw [if_neg (fun hh => hkk (hk0.symm.trans hh.1))]
      exact ⟨t, k0, .mk k (some t) none, hP, set_self .., fun hh => hkk hh.symm⟩

/-- The beginning of a definition with a tag. -/
theorem begin_some {P s c} (h : R P s c) {k : Kind} {t : String} {s1 : St} {e : Nat}
    (hb : s.begin k (some t) = some (s1, e)) :
    Goes ((t, k) :: P) s s1 c ∧ s1.cur.tags t = some e ∧ (s1.ents e).kind = k ∧
    (s.cur.tags t ≠ none → s1 = s) := by
  simp only [St.begin] at hb
  cases ht : s.cur.tags t with
  | some e0 =>
    rw [ht] at hb
    simp only at hb
    split at hb
    · rename_i hk
      cases hb
      exact ⟨⟨h.weaken fun x hx => List.mem_cons_of_mem _ hx, .refl _, rfl, fun _ _ h => h, rfl⟩, ht, hk, fun _ => rfl⟩
    · cases hb
  | none =>
    rw [ht] at hb
    cases hb
    have hct : c.cur.tags t = none := by
      rcases h.tags t with hT | ⟨hn, _⟩
      · rw [ht] at hT
        cases hc : c.cur.tags t with
        | none => rfl
        | some ty => rw [hc] at hT; exact hT.elim
      · exact hn
    refine ⟨⟨(h.weaken fun x hx => List.mem_cons_of_mem _ hx).fresh ht c rfl rfl (fun _ _ => rfl)
      (.inr ⟨hct, List.mem_cons_self ..⟩), fresh_grows .., rfl, fun u e he => ?_, rfl⟩, ?_, ?_, fun h => absurd rfl h⟩
    · rw [fresh_tags, set_other]
      · exact he
      · intro hu; subst hu; rw [ht] at he; cases he
    · rw [fresh_tags, set_self]
    · rw [fresh_self]

/-- A definition whose tag is one of another kind: Kefir finds out at the end of it. -/
theorem begin_none {P s c} (h : R P s c) {k : Kind} {t : String} (hb : s.begin k (some t) = none) {c1 : Ctx}
    (hc1 : Keeps c c1) {b} :
    match c1.defineTag (.mk k (some t) b) with
    | none => True
    | some c2 => Doomed P c2 := by
  simp only [St.begin] at hb
  cases ht : s.cur.tags t with
  | none => rw [ht] at hb; cases hb
  | some e =>
    rw [ht] at hb
    simp only at hb
    split at hb
    · cases hb
    · rename_i hk
      rcases h.tags t with hT | ⟨hn, e', k0, hP, he', hlt, hk0, htag, hbody⟩
      · rw [ht] at hT
        cases hct : c.cur.tags t with
        | none => rw [hct] at hT; exact hT.elim
        | some ty =>
          rw [hct] at hT
          obtain ⟨ty', hty', hkind⟩ := hc1.kinds t ty hct
          rw [defineTag_kind (t := t) rfl hty' (by rw [hkind, hT.1.kind]; exact hk)]
          trivial
      · rw [ht] at he'
        cases he'
        split
        · trivial
        · rename_i c2 hd
          cases hct : c1.cur.tags t with
          | none =>
            rw [defineTag_new (t := t) rfl hct] at hd
            cases hd
            exact ⟨t, k0, .mk k (some t) b, hP, set_self .., fun hh => hk (hk0.trans hh.symm)⟩
          | some old =>
            by_cases hold : old.kind = k
            · obtain ⟨ty', h', hk'⟩ := (defineTag_keeps hd).kinds t old hct
              exact ⟨t, k0, ty', hP, h', by rw [hk', hold]; exact fun hh => hk (hk0.trans hh.symm)⟩
            · rw [defineTag_kind (ty := .mk k (some t) b) (t := t) rfl hct hold] at hd
              cases hd

theorem Clear.sub {P s c} {m m' : String → Bool} (h : Clear P s c m) (hm : ∀ t, m t = false → m' t = false) :
    Clear P s c m' := fun x hx hn => (h x hx hn).imp id (hm _)

theorem Clear.outer {P} {s s' : St} {c c' : Ctx} {m : String → Bool} (h : Clear P s c m) (ho : s'.outer = s.outer)
    (hc : Keeps c c') : Clear P s' c' m := by
  intro x hx hn
  simp only [St.outerTag?, ho]
  refine h x hx ?_
  cases ht : c.cur.tags x.1 with
  | none => rfl
  | some ty =>
    obtain ⟨ty', h', _⟩ := hc.kinds _ _ ht
    rw [hn] at h'
    cases h'

/-- A definition with a tag: `mid` and `mid'` are what the body does. -/
theorem define_sim {P s c} (h : R P s c) {k : Kind} {t : String} {pos : Nat}
    (mid : St → Option (St × List (String × Use))) (mid' : Option (Ctx × List (String × Ty)))
    (hkeep : ∀ c1 fs, mid' = some (c1, fs) → Keeps c c1)
    (hmid : ∀ s1 e, s.begin k (some t) = some (s1, e) → SimM ((t, k) :: P) s1 (mid s1) mid') :
    SimS P s
      (do let (s, e) ← s.begin k (some t)
          let (s, ms) ← mid s
          let s ← s.finish e pos ms
          some (s, e))
      (do let (c, fs) ← mid'
          c.defineOpt (.mk k (some t) (some (pos, fs)))) := by
  cases hb : s.begin k (some t) with
  | none =>
    cases hm : mid' with
    | none => trivial
    | some p =>
      obtain ⟨c1, fs⟩ := p
      have := begin_none h hb (hkeep c1 fs hm) (b := some (pos, fs))
      show SimS P s none (c1.defineOpt (.mk k (some t) (some (pos, fs))))
      have hopt : c1.defineOpt (.mk k (some t) (some (pos, fs))) =
        (c1.defineTag (.mk k (some t) (some (pos, fs)))).map fun c => (c, .mk k (some t) (some (pos, fs))) := rfl
      rw [hopt]
      cases hd : c1.defineTag (.mk k (some t) (some (pos, fs))) with
      | none => trivial
      | some c2 => rw [hd] at this; exact this
  | some p =>
    obtain ⟨s1, e⟩ := p
    obtain ⟨g1, ht1, hk1, _⟩ := begin_some h hb
    have hM := hmid s1 e hb
    cases hm : mid' with
    | none =>
      rw [hm] at hM
      cases hm1 : mid s1 with
      | none => simp only [Option.bind_eq_bind, Option.bind_some, hm1, Option.bind_none]; trivial
      | some q => rw [hm1] at hM; exact hM.elim
    | some p' =>
      obtain ⟨c1, fs⟩ := p'
      rw [hm] at hM
      have hopt : c1.defineOpt (.mk k (some t) (some (pos, fs))) =
        (c1.defineTag (.mk k (some t) (some (pos, fs)))).map fun c => (c, .mk k (some t) (some (pos, fs))) := rfl
      cases hm1 : mid s1 with
      | none =>
        rw [hm1] at hM
        simp only [Option.bind_eq_bind, Option.bind_some, hm1, Option.bind_none]
        rw [hopt]
        cases hd : c1.defineTag (.mk k (some t) (some (pos, fs))) with
        | none => trivial
        | some c2 =>
          -- the tag is not the one that is wrong
          obtain ⟨t', k', ty, hP, hty, hkind⟩ := (hM : Doomed ((t, k) :: P) c1)
          rcases List.mem_cons.mp hP with heq | hP
          · cases heq
            rw [defineTag_kind (ty := .mk k (some t) (some (pos, fs))) (t := t) rfl hty hkind] at hd
            cases hd
          · exact (defineTag_keeps hd).doomed ⟨t', k', ty, hP, hty, hkind⟩
      | some q =>
        obtain ⟨s2, ms⟩ := q
        rw [hm1] at hM
        obtain ⟨g2, hrts⟩ := hM
        simp only [Option.bind_eq_bind, Option.bind_some, hm1]
        rw [hopt]
        have ht2 := g2.tags t e ht1
        have hlt1 := (g1.rel.lt ht1).1
        rcases finish_sim (P := P) (pos := pos) g2.rel (fun x hx hne => by
          rcases List.mem_cons.mp hx with rfl | hx
          · exact absurd rfl hne
          · exact hx) ht2 ((g2.grows.kind e hlt1).trans hk1) hrts with ⟨hf, hd⟩ | ⟨s3, c3, hf, hd, hR, hg, hrt, hcur, hout⟩
        · rw [hf, hd]; trivial
        · rw [hf, hd]
          refine ⟨?_, ?_⟩
          · have g3 : Goes P s2 s3 c3 := ⟨hR, hg, hout, fun u i hi => by rw [hcur]; exact hi, by rw [hcur]⟩
            exact (g1.trans g2).trans g3
          · have : s3.complete e = true := by
              simp only [St.complete, finish_self hf, Option.isSome_some]
            rw [this]
            exact hrt

mutual
theorem denote_sim : ∀ (sp : Spec) {P s c}, R P s c → Clear P s c (fun u => sp.mentions u) → sp.calm s = true →
    SimS P s (sp.denote s) (sp.analyze c)
  | .ref k t, P, s, c, h, hcl, hcalm => by
    rw [Spec.denote, Spec.analyze]
    exact refer_sim h hcl hcalm
  | .enumerate none pos, P, s, c, h, hcl, hcalm => by
    rw [Spec.denote, Spec.analyze]
    obtain ⟨s', hf, hR, hrt, hcur, hout, hnext, hother⟩ :=
      finish_anon (pos := pos) (k := .enum) (ms := []) (fs := []) (h.freshAnon .enum) (e := s.next) (Nat.lt_succ_self _)
        (by rw [fresh_self]) (by rw [fresh_self]) (by rw [fresh_self]) .nil
    have : (do let (s, e) ← s.begin .enum none
               let s ← s.finish e pos []
               some (s, e)) = some (s', s.next) := by
      simp only [St.begin, Option.bind_eq_bind, Option.bind_some, hf]
    rw [this]
    have hc : s'.complete s.next = true := by simp only [St.complete, finish_self hf, Option.isSome_some]
    refine ⟨⟨hR, ?_, hout.trans rfl, fun u e he => by rw [hcur]; exact he, by rw [hcur]; rfl⟩, by rw [hc]; exact hrt⟩
    refine ⟨by rw [hnext]; exact Nat.le_succ _, fun e he => ?_, fun e he => ?_, fun e he b hb => ?_, fun e he _ => ?_⟩ <;>
      rw [hother e (by omega), fresh_ents he]
    exact hb
  | .enumerate (some t) pos, P, s, c, h, hcl, hcalm => by
    rw [Spec.denote, Spec.analyze]
    have := define_sim (pos := pos) h (k := .enum) (t := t) (fun s => some (s, [])) (some (c, []))
      (fun c1 fs hc1 => by cases hc1; exact .refl c)
      (fun s1 e hb => by
        obtain ⟨g1, _, _, _⟩ := begin_some h hb
        exact ⟨⟨g1.rel, .refl _, rfl, fun _ _ h => h, rfl⟩, .nil⟩)
    simpa only [Option.bind_eq_bind, Option.bind_some] using this
  | .define u none pos body, P, s, c, h, hcl, hcalm => by
    rw [Spec.denote, Spec.analyze]
    simp only [Spec.calm, St.begin, Bool.true_and] at hcalm
    have hM := members_sim body (h.freshAnon (kindOf u)) (ms := []) (fs := []) .nil
      ((hcl.sub fun t ht => by simpa [Spec.mentions] using ht).outer rfl (.refl c)) hcalm
    simp only [St.begin, Option.bind_eq_bind, Option.bind_some]
    cases hma : body.analyze c [] with
    | none =>
      rw [hma] at hM
      cases hmd : body.denote (s.fresh (kindOf u) none) [] with
      | none => trivial
      | some q => rw [hmd] at hM; exact hM.elim
    | some p' =>
      obtain ⟨c1, fs⟩ := p'
      rw [hma] at hM
      cases hmd : body.denote (s.fresh (kindOf u) none) [] with
      | none => rw [hmd] at hM; exact hM
      | some q =>
        obtain ⟨s2, ms⟩ := q
        rw [hmd] at hM
        obtain ⟨g2, hrts⟩ := hM
        simp only [Option.bind_some]
        have hlt : s.next < (s.fresh (kindOf u) none).next := Nat.lt_succ_self _
        have hk := g2.grows.kind s.next hlt
        have htg := g2.grows.tag s.next hlt
        rw [fresh_self] at hk htg
        have hbd := g2.grows.anon s.next hlt (by rw [fresh_self])
        rw [fresh_self] at hbd
        obtain ⟨s', hf, hR, hrt, hcur, hout, hnext, hother⟩ :=
          finish_anon (pos := pos) g2.rel (Nat.lt_of_lt_of_le hlt g2.grows.next) hk htg hbd hrts
        rw [hf]
        have hc : s'.complete s.next = true := by simp only [St.complete, finish_self hf, Option.isSome_some]
        refine ⟨⟨hR, ?_, hout.trans g2.outer, fun u e he => by rw [hcur]; exact g2.tags u e he,
          by rw [hcur]; exact g2.objs⟩, by show s'.RT (s.next, s'.complete s.next) _; rw [hc]; exact hrt⟩
        have gg := (fresh_grows s (kindOf u) none).trans g2.grows
        refine ⟨by rw [hnext]; exact gg.next, fun e he => ?_, fun e he => ?_, fun e he b hb => ?_, fun e he ht => ?_⟩ <;>
          rw [hother e (by omega)]
        · exact gg.kind e he
        · exact gg.tag e he
        · exact gg.body e he b hb
        · exact gg.anon e he ht
  | .define u (some t) pos body, P, s, c, h, hcl, hcalm => by
    rw [Spec.denote, Spec.analyze]
    rw [Spec.calm, Bool.and_eq_true] at hcalm
    refine define_sim h (fun s => body.denote s []) (body.analyze c []) (fun c1 fs hc1 => members_keeps body hc1)
      (fun s1 e hb => ?_)
    obtain ⟨g1, ht1, hk1, hex⟩ := begin_some h hb
    have hcalm2 := hcalm.2
    rw [hb] at hcalm2
    refine members_sim body g1.rel .nil ?_ hcalm2
    intro x hx hxn
    have hmono : ∀ v, (Spec.define u (some t) pos body).mentions v = false → body.mentions v = false := by
      intro v hv
      simp only [Spec.mentions, Bool.or_eq_false_iff] at hv
      exact hv.2
    have hcl1 := (hcl.sub hmono).outer g1.outer (.refl c)
    rcases List.mem_cons.mp hx with rfl | hx
    · -- the tag of this definition
      have h1 := hcalm.1
      simp only [Bool.or_eq_true, Bool.not_eq_true', Option.isSome_iff_exists, Option.isNone_iff_eq_none] at h1
      rcases h1 with (⟨e0, he0⟩ | h1) | h1
      · -- it was there already, so Kefir knows it or it is pending
        rcases h.tags t with hT | ⟨_, e', k', hP, _⟩
        · rw [he0, hxn] at hT; exact hT.elim
        · exact hcl1 (t, k') hP hxn
      · left; rw [St.outerTag?, g1.outer]; exact h1
      · exact .inr h1
    · exact hcl1 x hx hxn
theorem members_sim : ∀ (b : Members) {P s c}, R P s c → ∀ {ms fs}, s.RTs ms fs → Clear P s c (fun u => b.mentions u) → b.calm s = true →
    SimM P s (b.denote s ms) (b.analyze c fs)
  | .nil, P, s, c, h, ms, fs, hr, hcl, hcalm => by
    rw [Members.denote, Members.analyze]
    exact ⟨⟨h, .refl s, rfl, fun _ _ h => h, rfl⟩, hr⟩
  | .cons m sp rest, P, s, c, h, ms, fs, hr, hcl, hcalm => by
    rw [Members.denote, Members.analyze]
    rw [Members.calm, Bool.and_eq_true] at hcalm
    have hS := denote_sim sp h (hcl.sub fun t ht => by
      simp only [Members.mentions, Bool.or_eq_false_iff] at ht; exact ht.1) hcalm.1
    cases ha : sp.analyze c with
    | none =>
      rw [ha] at hS
      cases hd : sp.denote s with
      | none => trivial
      | some q => rw [hd] at hS; exact hS.elim
    | some p =>
      obtain ⟨c1, ty⟩ := p
      rw [ha] at hS
      cases hd : sp.denote s with
      | none =>
        rw [hd] at hS
        show SimM P s none (if _ then _ else _)
        split
        · trivial
        · cases hm : rest.analyze c1 (fs ++ [(m, ty)]) with
          | none => trivial
          | some q => exact (members_keeps rest hm).doomed hS
      | some q =>
        obtain ⟨s1, e⟩ := q
        rw [hd] at hS
        obtain ⟨g1, hrt⟩ := hS
        have hc2 := hcalm.2
        rw [hd] at hc2
        have hr1 := hr.grows g1.grows
        show SimM P s (if _ then _ else _) (if _ then _ else _)
        rw [hr1.any m]
        by_cases hany : ms.any (·.1 == m) = true
        · rw [if_pos hany, if_pos hany]; trivial
        · rw [if_neg hany, if_neg hany]
          have hM := members_sim rest g1.rel (hr1.append (m := m) hrt) ((hcl.sub fun t ht => by
            simp only [Members.mentions, Bool.or_eq_false_iff] at ht; exact ht.2).outer g1.outer (analyze_keeps sp ha)) hc2
          revert hM
          cases rest.denote s1 (ms ++ [(m, (e, s1.complete e))]) with
          | none => cases rest.analyze c1 (fs ++ [(m, ty)]) <;> exact id
          | some q =>
            cases rest.analyze c1 (fs ++ [(m, ty)]) with
            | none => exact id
            | some q' => exact fun hM => ⟨g1.trans hM.1, hM.2⟩
end

end Verif.Tags
