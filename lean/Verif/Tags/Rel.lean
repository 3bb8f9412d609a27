import Verif.Tags.Model
import Verif.Tags.Cover

/- The relation between the declarations of the specification and the contexts of Kefir. -/
namespace Verif.Tags

mutual
/-- A use of a type and the type Kefir has for it. -/
inductive RT (n : Nat) (ents : Nat → Ent) : Use → Ty → Prop
  | inc (e : Nat) : e < n → RT n ents (e, false) (.mk (ents e).kind (ents e).tag none)
  | com (e pos : Nat) (ms : List (String × Use)) (fs : List (String × Ty)) : e < n →
      (ents e).body = some (pos, ms) → RTs n ents ms fs →
      RT n ents (e, true) (.mk (ents e).kind (ents e).tag (some (pos, fs)))
inductive RTs (n : Nat) (ents : Nat → Ent) : List (String × Use) → List (String × Ty) → Prop
  | nil : RTs n ents [] []
  | cons (m : String) {u ty ms fs} : RT n ents u ty → RTs n ents ms fs → RTs n ents ((m, u) :: ms) ((m, ty) :: fs)
end

def St.RT (s : St) (u : Use) (ty : Ty) : Prop := Tags.RT s.next s.ents u ty
def St.RTs (s : St) (ms : List (String × Use)) (fs : List (String × Ty)) : Prop := Tags.RTs s.next s.ents ms fs

/-- What the specification does to the types: new ones are added, tagged ones completed. -/
structure Grows (s s' : St) : Prop where
  next : s.next ≤ s'.next
  kind : ∀ e, e < s.next → (s'.ents e).kind = (s.ents e).kind
  tag : ∀ e, e < s.next → (s'.ents e).tag = (s.ents e).tag
  body : ∀ e, e < s.next → ∀ b, (s.ents e).body = some b → (s'.ents e).body = some b
  anon : ∀ e, e < s.next → (s.ents e).tag = none → (s'.ents e).body = (s.ents e).body

theorem Grows.refl (s : St) : Grows s s := ⟨Nat.le_refl _, fun _ _ => rfl, fun _ _ => rfl, fun _ _ _ h => h, fun _ _ _ => rfl⟩

theorem Grows.trans {a b c : St} (h : Grows a b) (h' : Grows b c) : Grows a c where
  next := Nat.le_trans h.next h'.next
  kind e he := by rw [h'.kind e (Nat.lt_of_lt_of_le he h.next), h.kind e he]
  tag e he := by rw [h'.tag e (Nat.lt_of_lt_of_le he h.next), h.tag e he]
  body e he b hb := h'.body e (Nat.lt_of_lt_of_le he h.next) b (h.body e he b hb)
  anon e he ht := by
    rw [h'.anon e (Nat.lt_of_lt_of_le he h.next) (by rw [h.tag e he, ht]), h.anon e he ht]

theorem Grows.complete {s s' : St} (g : Grows s s') {e : Nat} (he : e < s.next) (h : s.complete e = true) :
    s'.complete e = true := by
  simp only [St.complete, Option.isSome_iff_exists] at h ⊢
  obtain ⟨b, hb⟩ := h
  exact ⟨b, g.body e he b hb⟩

mutual
theorem rt_grows {n n' : Nat} {ents ents' : Nat → Ent} (hn : n ≤ n') (hk : ∀ e, e < n → (ents' e).kind = (ents e).kind)
    (ht : ∀ e, e < n → (ents' e).tag = (ents e).tag)
    (hb : ∀ e, e < n → ∀ b, (ents e).body = some b → (ents' e).body = some b) :
    ∀ {u ty}, RT n ents u ty → RT n' ents' u ty
  | _, _, .inc e he => by
    have := RT.inc (n := n') (ents := ents') e (Nat.lt_of_lt_of_le he hn)
    rwa [hk e he, ht e he] at this
  | _, _, .com e pos ms fs he hbe hr => by
    have := RT.com (n := n') (ents := ents') e pos ms fs (Nat.lt_of_lt_of_le he hn) (hb e he _ hbe)
      (rts_grows hn hk ht hb hr)
    rwa [hk e he, ht e he] at this
theorem rts_grows {n n' : Nat} {ents ents' : Nat → Ent} (hn : n ≤ n') (hk : ∀ e, e < n → (ents' e).kind = (ents e).kind)
    (ht : ∀ e, e < n → (ents' e).tag = (ents e).tag)
    (hb : ∀ e, e < n → ∀ b, (ents e).body = some b → (ents' e).body = some b) :
    ∀ {ms fs}, RTs n ents ms fs → RTs n' ents' ms fs
  | _, _, .nil => .nil
  | _, _, .cons m h hr => .cons m (rt_grows hn hk ht hb h) (rts_grows hn hk ht hb hr)
end

theorem St.RT.grows {s s' : St} (g : Grows s s') {u ty} (h : s.RT u ty) : s'.RT u ty :=
  rt_grows g.next g.kind g.tag g.body h

theorem St.RTs.grows {s s' : St} (g : Grows s s') {u ty} (h : s.RTs u ty) : s'.RTs u ty :=
  rts_grows g.next g.kind g.tag g.body h

theorem St.RT.lt {s : St} {u ty} (h : s.RT u ty) : u.1 < s.next := by cases h <;> assumption

theorem St.RT.kind {s : St} {u ty} (h : s.RT u ty) : ty.kind = (s.ents u.1).kind := by cases h <;> rfl

theorem St.RT.tag {s : St} {u ty} (h : s.RT u ty) : ty.tag = (s.ents u.1).tag := by cases h <;> rfl

theorem St.RT.body {s : St} {u ty} (h : s.RT u ty) : ty.body.isSome = u.2 := by cases h <;> rfl

theorem St.RTs.any {s : St} (m : String) : ∀ {ms fs}, s.RTs ms fs → fs.any (·.1 == m) = ms.any (·.1 == m)
  | _, _, .nil => rfl
  | _, _, .cons _ _ h => by simp only [List.any_cons]; rw [St.RTs.any m h]

theorem St.RTs.append {s : St} {m : String} {u ty} (hu : s.RT u ty) :
    ∀ {ms fs}, s.RTs ms fs → s.RTs (ms ++ [(m, u)]) (fs ++ [(m, ty)])
  | _, _, .nil => .cons m hu .nil
  | _, _, .cons _ h hr => .cons _ h (St.RTs.append hu hr)

theorem St.RTs.find {s : St} (m : String) : ∀ {ms fs}, s.RTs ms fs →
    (ms.find? (·.1 == m) = none ∧ fs.find? (·.1 == m) = none) ∨
    ∃ k u ty, ms.find? (·.1 == m) = some (k, u) ∧ fs.find? (·.1 == m) = some (k, ty) ∧ s.RT u ty
  | _, _, .nil => .inl ⟨rfl, rfl⟩
  | _, _, .cons k (u := u) (ty := ty) h hr => by
    simp only [List.find?_cons]
    cases hk : (k == m) with
    | true => exact .inr ⟨k, u, ty, rfl, rfl, h⟩
    | false => exact St.RTs.find m hr

/-- A tag in a scope. -/
def RTag (s : St) (t : String) : Option Nat → Option Ty → Prop
  | none, none => True
  | some e, some ty => s.RT (e, s.complete e) ty ∧ (s.ents e).tag = some t
  | _, _ => False

def RObj (s : St) : Option Use → Option Ty → Prop
  | none, none => True
  | some u, some ty => s.RT u ty
  | _, _ => False

structure RFrame (s : St) (f : Frame Nat Use) (g : Frame Ty Ty) : Prop where
  tags : ∀ t, RTag s t (f.tags t) (g.tags t)
  objs : ∀ x, RObj s (f.objs x) (g.objs x)

inductive RFrames (s : St) : List (Frame Nat Use) → List (Frame Ty Ty) → Prop
  | nil : RFrames s [] []
  | cons {f g fs gs} : RFrame s f g → RFrames s fs gs → RFrames s (f :: fs) (g :: gs)

/-- A tag that is declared, whose definition is being read: Kefir does not know it yet. -/
def Pending (P : List (String × Kind)) (s : St) (t : String) (o : Option Nat) (o' : Option Ty) : Prop :=
  o' = none ∧ ∃ e k, (t, k) ∈ P ∧ o = some e ∧ e < s.next ∧ (s.ents e).kind = k ∧ (s.ents e).tag = some t ∧
    (s.ents e).body = none

/-- No type is declared in two scopes. -/
def Uniq : List (Frame Nat Use) → Prop :=
  List.Pairwise fun f g => ∀ t e, f.tags t = some e → g.tags t ≠ some e

structure R (P : List (String × Kind)) (s : St) (c : Ctx) : Prop where
  tags : ∀ t, RTag s t (s.cur.tags t) (c.cur.tags t) ∨ Pending P s t (s.cur.tags t) (c.cur.tags t)
  objs : ∀ x, RObj s (s.cur.objs x) (c.cur.objs x)
  outer : RFrames s s.outer c.outer
  uniq : Uniq (s.cur :: s.outer)

/-- Kefir has taken a tag for one of another kind than the definition being read. -/
def Doomed (P : List (String × Kind)) (c : Ctx) : Prop :=
  ∃ t k ty, (t, k) ∈ P ∧ c.cur.tags t = some ty ∧ ty.kind ≠ k

theorem RTag.lt {s : St} {t : String} {e : Nat} {o : Option Ty} (h : RTag s t (some e) o) : e < s.next := by
  cases o with
  | none => exact h.elim
  | some ty => exact h.1.lt

theorem RTag.tag {s : St} {t : String} {e : Nat} {o : Option Ty} (h : RTag s t (some e) o) :
    (s.ents e).tag = some t := by
  cases o with
  | none => exact h.elim
  | some ty => exact h.2

theorem RTag.grows {s s' : St} (g : Grows s s') {t : String} {o : Option Nat} {o' : Option Ty}
    (hc : ∀ e, o = some e → s'.complete e = s.complete e) (h : RTag s t o o') : RTag s' t o o' := by
  cases o with
  | none => cases o' <;> exact h
  | some e =>
    cases o' with
    | none => exact h.elim
    | some ty =>
      refine ⟨?_, ?_⟩
      · rw [hc e rfl]; exact h.1.grows g
      · rw [g.tag e h.1.lt]; exact h.2

theorem RObj.grows {s s' : St} (g : Grows s s') {o : Option Use} {o' : Option Ty} (h : RObj s o o') :
    RObj s' o o' := by
  cases o <;> cases o' <;> first | exact h | exact h.elim | exact St.RT.grows g h

theorem RFrame.grows {s s' : St} (g : Grows s s') {f : Frame Nat Use} {k : Frame Ty Ty}
    (hc : ∀ t e, f.tags t = some e → s'.complete e = s.complete e) (h : RFrame s f k) : RFrame s' f k :=
  ⟨fun t => (h.tags t).grows g (hc t), fun x => (h.objs x).grows g⟩

theorem forall2_grows {s s' : St} (g : Grows s s') : ∀ {fs : List (Frame Nat Use)} {ks : List (Frame Ty Ty)},
    (∀ f ∈ fs, ∀ t e, f.tags t = some e → s'.complete e = s.complete e) →
    RFrames s fs ks → RFrames s' fs ks
  | _, _, _, .nil => .nil
  | _, _, hc, .cons h hr =>
    .cons (h.grows g (hc _ (List.mem_cons_self ..))) (forall2_grows g (fun f hf => hc f (List.mem_cons_of_mem _ hf)) hr)

/-- Looking a tag up in related scopes. -/
theorem forall2_tag {s : St} (t : String) : ∀ {fs : List (Frame Nat Use)} {ks : List (Frame Ty Ty)},
    RFrames s fs ks → RTag s t (fs.findSome? (·.tags t)) (ks.findSome? (·.tags t))
  | _, _, .nil => trivial
  | _, _, .cons (f := f) (g := k) h hr => by
    have hT := h.tags t
    have := forall2_tag t hr
    simp only [List.findSome?_cons]
    cases hf : f.tags t with
    | none =>
      cases hk : k.tags t with
      | none => exact this
      | some ty => rw [hf, hk] at hT; exact hT.elim
    | some e =>
      cases hk : k.tags t with
      | none => rw [hf, hk] at hT; exact hT.elim
      | some ty => rw [hf, hk] at hT; exact hT

theorem forall2_obj {s : St} (x : String) : ∀ {fs : List (Frame Nat Use)} {ks : List (Frame Ty Ty)},
    RFrames s fs ks → RObj s (fs.findSome? (·.objs x)) (ks.findSome? (·.objs x))
  | _, _, .nil => trivial
  | _, _, .cons (f := f) (g := k) h hr => by
    have hT := h.objs x
    have := forall2_obj x hr
    simp only [List.findSome?_cons]
    cases hf : f.objs x with
    | none =>
      cases hk : k.objs x with
      | none => exact this
      | some ty => rw [hf, hk] at hT; exact hT.elim
    | some e =>
      cases hk : k.objs x with
      | none => rw [hf, hk] at hT; exact hT.elim
      | some ty => rw [hf, hk] at hT; exact hT

/-- Every type that a scope declares is known. -/
theorem R.lt {P s c} (h : R P s c) {t : String} {e : Nat} (he : s.cur.tags t = some e) :
    e < s.next ∧ (s.ents e).tag = some t := by
  rcases h.tags t with hT | ⟨_, e', k, _, h', hl, _, ht, _⟩
  · rw [he] at hT; exact ⟨hT.lt, hT.tag⟩
  · rw [he] at h'; cases h'; exact ⟨hl, ht⟩

theorem forall2_lt {s : St} : ∀ {fs : List (Frame Nat Use)} {ks : List (Frame Ty Ty)},
    RFrames s fs ks → ∀ f ∈ fs, ∀ t e, f.tags t = some e → e < s.next ∧ (s.ents e).tag = some t
  | _, _, .nil, f, hf, _, _, _ => by cases hf
  | _, _, .cons h hr, f, hf, t, e, he => by
    rcases List.mem_cons.mp hf with rfl | hf
    · have := h.tags t
      rw [he] at this
      exact ⟨this.lt, this.tag⟩
    · exact forall2_lt hr f hf t e he

theorem R.weaken {P P' s c} (h : R P s c) (hP : ∀ x ∈ P, x ∈ P') : R P' s c where
  tags t := (h.tags t).imp id fun ⟨h0, e, k, hk, h1⟩ => ⟨h0, e, k, hP _ hk, h1⟩
  objs := h.objs
  outer := h.outer
  uniq := h.uniq

end Verif.Tags
