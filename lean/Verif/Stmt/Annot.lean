import Verif.Stmt.Layout

/-! What analysis guarantees about the annotated tree: every jump is annotated with the point of its target. -/
namespace Kefir.Stmt
open Kefir.Types (Basic)
open Kefir.Expr
open Kefir.IR

/-- Forget the annotations. -/
def erase : A → Stmt
  | .skip => .skip
  | .expr e => .expr e
  | .decl ds => .decl ds
  | .seq a b => .seq (erase a) (erase b)
  | .cond _ c a => .cond c (erase a)
  | .condElse _ _ c a b => .condElse c (erase a) (erase b)
  | .loop _ _ c b => .loop c (erase b)
  | .doWhile _ _ b c => .doWhile (erase b) c
  | .for_ _ _ i c t b => .for_ i c t (erase b)
  | .switch _ _ _ e b => .switch e (erase b)
  | .case _ v s => .case v (erase s)
  | .dflt _ s => .dflt (erase s)
  | .label _ l s => .label l (erase s)
  | .goto _ l => .goto l
  | .brk _ => .brk
  | .cont _ => .cont
  | .ret e q => .ret e q

/-- The labels in a statement with their points; `into`: also those inside nested `switch` statements. -/
def marks (into : Bool) : A → List (Mark × Nat)
  | .seq a b => marks into a ++ marks into b
  | .cond _ _ a => marks into a
  | .condElse _ _ _ a b => marks into a ++ marks into b
  | .loop _ _ _ b => marks into b
  | .doWhile _ _ b _ => marks into b
  | .for_ _ _ _ _ _ b => marks into b
  | .switch _ _ _ _ b => if into then marks into b else []
  | .case p v s => (.case v, p) :: marks into s
  | .dflt p s => (.dflt, p) :: marks into s
  | .label p l s => (.label l, p) :: marks into s
  | _ => []

/-- The table of a `switch` lists the marks of its body, no key twice. -/
structure Exact (cs : List (Word × Nat)) (d : Option Nat) (ms : List (Mark × Nat)) : Prop where
  cases : ∀ w p, (w, p) ∈ cs ↔ ∃ v, (.case v, p) ∈ ms ∧ w = BitVec.ofInt 64 v
  dflt : ∀ p, d = some p ↔ (.dflt, p) ∈ ms
  nodup : (cs.map (·.1)).Nodup

/-- Jumps are annotated with the right points: `T` gives the point of each label, `brk` and `cont` those of `break` and
`continue`. -/
def Wf (T : Nat → Option Nat) : Option Nat → Option Nat → A → Prop
  | brk, cont, .seq a b => Wf T brk cont a ∧ Wf T brk cont b
  | brk, cont, .cond _ _ a => Wf T brk cont a
  | brk, cont, .condElse _ _ _ a b => Wf T brk cont a ∧ Wf T brk cont b
  | _, _, .loop p q _ b => Wf T (some q) (some p) b
  | _, _, .doWhile p q b _ => Wf T (some q) (some p) b
  | _, _, .for_ p q _ _ _ b => Wf T (some q) (some p) b
  | _, cont, .switch q cs d _ b => Wf T (some q) cont b ∧ Exact cs d (marks false b)
  | brk, cont, .case _ _ s => Wf T brk cont s
  | brk, cont, .dflt _ s => Wf T brk cont s
  | brk, cont, .label p l s => T l = some p ∧ Wf T brk cont s
  | _, _, .goto p l => T l = some p
  | brk, _, .brk p => brk = some p
  | _, cont, .cont p => cont = some p
  | _, _, _ => True

theorem analyze_erase : ∀ (s : Stmt) (brk cont : Option Nat) (st st' : Ana) (a : A),
    analyze brk cont s st = some (a, st') → erase a = s := by
  intro s
  induction s with
  | seq x y ihx ihy =>
    intro brk cont st st' a h
    simp only [analyze, Option.bind_eq_some_iff, Option.map_eq_some_iff, Prod.mk.injEq, Prod.exists] at h
    obtain ⟨a1, s1, h1, a2, s2, h2, rfl, rfl⟩ := h
    simp [erase, ihx _ _ _ _ _ h1, ihy _ _ _ _ _ h2]
  | condElse c x y ihx ihy =>
    intro brk cont st st' a h
    simp only [analyze, Option.bind_eq_some_iff, Option.map_eq_some_iff, Prod.mk.injEq, Prod.exists] at h
    obtain ⟨a1, s1, h1, a2, s2, h2, rfl, rfl⟩ := h
    simp [erase, ihx _ _ _ _ _ h1, ihy _ _ _ _ _ h2]
  | cond c x ih | loop c x ih | doWhile x c ih | for_ i c t x ih =>
    intro brk cont st st' a h
    simp only [analyze, Option.map_eq_some_iff, Prod.mk.injEq, Prod.exists] at h
    obtain ⟨a1, s1, h1, rfl, rfl⟩ := h
    simp [erase, ih _ _ _ _ _ h1]
  | switch e x ih =>
    intro brk cont st st' a h
    simp only [analyze, Option.bind_eq_some_iff, Prod.exists] at h
    obtain ⟨a1, s1, h1, h2⟩ := h
    split at h2
    · simp only [Option.some.injEq, Prod.mk.injEq] at h2
      obtain ⟨rfl, rfl⟩ := h2
      simp [erase, ih _ _ _ _ _ h1]
    · cases h2
  | case v x ih =>
    intro brk cont st st' a h
    simp only [analyze] at h
    split at h
    · cases h
    · simp only [Option.bind_eq_some_iff, Option.map_eq_some_iff, Prod.mk.injEq, Prod.exists] at h
      obtain ⟨cs, _, a1, s1, h1, rfl, rfl⟩ := h
      simp [erase, ih _ _ _ _ _ h1]
  | dflt x ih =>
    intro brk cont st st' a h
    simp only [analyze] at h
    split at h
    · cases h
    · split at h
      · cases h
      · simp only [Option.map_eq_some_iff, Prod.mk.injEq, Prod.exists] at h
        obtain ⟨a1, s1, h1, rfl, rfl⟩ := h
        simp [erase, ih _ _ _ _ _ h1]
  | label l x ih =>
    intro brk cont st st' a h
    simp only [analyze, Option.bind_eq_some_iff, Option.map_eq_some_iff, Prod.mk.injEq, Prod.exists] at h
    obtain ⟨a1, s1, h1, p, s2, h2, rfl, rfl⟩ := h
    simp [erase, ih _ _ _ _ _ h1]
  | brk | cont =>
    intro brk cont st st' a h
    simp only [analyze, Option.map_eq_some_iff, Prod.mk.injEq] at h
    obtain ⟨p, _, rfl, rfl⟩ := h
    rfl
  | _ =>
    intro brk cont st st' a h
    simp only [analyze, Option.some.injEq, Prod.mk.injEq] at h
    obtain ⟨rfl, rfl⟩ := h
    rfl

/-! ### Labels -/

/-- Labels keep their points, and a label that got bound has a mark. -/
structure LabExt (st st' : Ana) (ms : List (Mark × Nat)) : Prop where
  keep : ∀ l p b, st.labels l = some (p, b) → ∃ b', st'.labels l = some (p, b')
  bound : ∀ l p, st'.labels l = some (p, true) → st.labels l = some (p, true) ∨ (.label l, p) ∈ ms

theorem LabExt.refl {st st' : Ana} (h : st'.labels = st.labels) (ms) : LabExt st st' ms where
  keep := fun l p b hl => ⟨b, by rw [h]; exact hl⟩
  bound := fun l p hl => .inl (by rw [← h]; exact hl)

theorem LabExt.trans {a b c : Ana} {ms ms' ms''} (h1 : LabExt a b ms) (h2 : LabExt b c ms')
    (hm : ∀ x, x ∈ ms → x ∈ ms'') (hm' : ∀ x, x ∈ ms' → x ∈ ms'') : LabExt a c ms'' where
  keep := fun l p x hl => by
    obtain ⟨b', hb⟩ := h1.keep l p x hl
    exact h2.keep l p b' hb
  bound := fun l p hl => by
    rcases h2.bound l p hl with h | h
    · rcases h1.bound l p h with h | h
      · exact .inl h
      · exact .inr (hm _ h)
    · exact .inr (hm' _ h)

theorem LabExt.cast {a b a' b' : Ana} {ms ms'} (h : LabExt a b ms) (ha : a'.labels = a.labels) (hb : b'.labels = b.labels)
    (hm : ∀ x, x ∈ ms → x ∈ ms') : LabExt a' b' ms' where
  keep := fun l p x hl => by rw [hb]; exact h.keep l p x (by rw [← ha]; exact hl)
  bound := fun l p hl => by
    rw [ha]
    exact (h.bound l p (by rw [← hb]; exact hl)).imp_right (hm _)

theorem refLabel_spec {l : Nat} {st : Ana} :
    LabExt st (refLabel l st).2 [] ∧ ∃ b, (refLabel l st).2.labels l = some ((refLabel l st).1, b) := by
  unfold refLabel
  cases h : st.labels l with
  | some x =>
    obtain ⟨p, b⟩ := x
    exact ⟨.refl rfl _, b, h⟩
  | none =>
    refine ⟨⟨?_, ?_⟩, false, by simp⟩
    · intro k p b hk
      have : k ≠ l := by rintro rfl; rw [h] at hk; cases hk
      exact ⟨b, by simp [this, hk]⟩
    · intro k p hk
      by_cases hkl : k = l
      · simp [hkl] at hk
      · simp [hkl] at hk; exact .inl hk

theorem defLabel_spec {l p : Nat} {st st' : Ana} (h : defLabel l st = some (p, st')) :
    LabExt st st' [(.label l, p)] ∧ st'.labels l = some (p, true) := by
  unfold defLabel at h
  split at h
  · rename_i hn
    simp only [Option.some.injEq, Prod.mk.injEq] at h
    obtain ⟨rfl, rfl⟩ := h
    refine ⟨⟨?_, ?_⟩, by simp⟩
    · intro k p b hk
      have : k ≠ l := by rintro rfl; rw [hn] at hk; cases hk
      exact ⟨b, by simp [this, hk]⟩
    · intro k p hk
      by_cases hkl : k = l
      · simp [hkl] at hk; exact .inr (by simp [hkl, hk])
      · simp [hkl] at hk; exact .inl hk
  · rename_i q hq
    simp only [Option.some.injEq, Prod.mk.injEq] at h
    obtain ⟨rfl, rfl⟩ := h
    refine ⟨⟨?_, ?_⟩, by simp⟩
    · intro k p b hk
      by_cases hkl : k = l
      · subst hkl
        rw [hq] at hk
        cases hk
        exact ⟨true, by simp⟩
      · exact ⟨b, by simp [hkl, hk]⟩
    · intro k p hk
      by_cases hkl : k = l
      · simp [hkl] at hk; exact .inr (by simp [hkl, hk])
      · simp [hkl] at hk; exact .inl hk
  · cases h

/-! ### Tables of `switch` statements -/

theorem insertCase_spec {w : Word} {p : Nat} : ∀ {cs cs' : List (Word × Nat)}, insertCase w p cs = some cs' →
    (∀ x, x ∈ cs' ↔ x = (w, p) ∨ x ∈ cs) := by
  intro cs
  induction cs with
  | nil => intro cs' h; cases h; simp
  | cons c cs ih =>
    obtain ⟨w', p'⟩ := c
    intro cs' h
    simp only [insertCase] at h
    split at h
    · cases h
    · split at h
      · cases h; simp
      · simp only [Option.map_eq_some_iff] at h
        obtain ⟨cs1, h1, rfl⟩ := h
        intro x
        simp only [List.mem_cons, ih h1 x]
        constructor
        · rintro (h | h | h)
          · exact .inr (.inl h)
          · exact .inl h
          · exact .inr (.inr h)
        · rintro (h | h | h)
          · exact .inr (.inl h)
          · exact .inl h
          · exact .inr (.inr h)

/-- The tree is sorted. -/
def Sorted : List (Word × Nat) → Prop
  | [] => True
  | c :: cs => (∀ x ∈ cs, c.1.toNat < x.1.toNat) ∧ Sorted cs

theorem insertCase_sorted {w : Word} {p : Nat} : ∀ {cs cs' : List (Word × Nat)}, insertCase w p cs = some cs' →
    Sorted cs → Sorted cs' := by
  intro cs
  induction cs with
  | nil => intro cs' h _; cases h; simp [Sorted]
  | cons c cs ih =>
    obtain ⟨w', p'⟩ := c
    intro cs' h hs
    simp only [insertCase] at h
    split at h
    · cases h
    · rename_i hne
      split at h
      · rename_i hlt
        cases h
        refine ⟨?_, hs⟩
        intro x hx
        rcases List.mem_cons.mp hx with rfl | hx
        · exact hlt
        · exact Nat.lt_trans hlt (hs.1 x hx)
      · rename_i hlt
        simp only [Option.map_eq_some_iff] at h
        obtain ⟨cs1, h1, rfl⟩ := h
        refine ⟨?_, ih h1 hs.2⟩
        intro x hx
        rcases (insertCase_spec h1 x).mp hx with rfl | hx
        · have : w.toNat ≠ w'.toNat := fun h => hne (BitVec.eq_of_toNat_eq h)
          show w'.toNat < w.toNat
          omega
        · exact hs.1 x hx

theorem Sorted.nodup : ∀ {cs : List (Word × Nat)}, Sorted cs → (cs.map (·.1)).Nodup := by
  intro cs
  induction cs with
  | nil => intro _; simp
  | cons c cs ih =>
    intro h
    simp only [List.map_cons, List.nodup_cons]
    refine ⟨?_, ih h.2⟩
    intro hm
    obtain ⟨x, hx, he⟩ := List.mem_map.mp hm
    have := h.1 x hx
    rw [he] at this
    omega

/-- How the table of the enclosing `switch` grows. -/
structure TabExt (t t' : Option Table) (ms : List (Mark × Nat)) : Prop where
  none : t = none → t' = none
  some : ∀ x, t = some x → ∃ y, t' = some y ∧
    (∀ w p, (w, p) ∈ y.cases ↔ (w, p) ∈ x.cases ∨ ∃ v, (.case v, p) ∈ ms ∧ w = BitVec.ofInt 64 v) ∧
    (∀ p, y.dflt = some p ↔ x.dflt = some p ∨ (.dflt, p) ∈ ms) ∧
    (Sorted x.cases → Sorted y.cases)

theorem TabExt.refl (t : Option Table) : TabExt t t [] where
  none := fun h => h
  some := fun x h => ⟨x, h, by simp, by simp, fun h => h⟩

theorem TabExt.trans {t1 t2 t3 : Option Table} {ms ms' : List (Mark × Nat)} (h1 : TabExt t1 t2 ms) (h2 : TabExt t2 t3 ms') :
    TabExt t1 t3 (ms ++ ms') where
  none := fun h => h2.none (h1.none h)
  some := fun x h => by
    obtain ⟨y, hy, c1, d1, s1⟩ := h1.some x h
    obtain ⟨z, hz, c2, d2, s2⟩ := h2.some y hy
    refine ⟨z, hz, ?_, ?_, fun h => s2 (s1 h)⟩
    · intro w p
      rw [c2, c1]
      constructor
      · rintro ((h | ⟨v, h, e⟩) | ⟨v, h, e⟩)
        · exact .inl h
        · exact .inr ⟨v, List.mem_append_left _ h, e⟩
        · exact .inr ⟨v, List.mem_append_right _ h, e⟩
      · rintro (h | ⟨v, h, e⟩)
        · exact .inl (.inl h)
        · rcases List.mem_append.mp h with h | h
          · exact .inl (.inr ⟨v, h, e⟩)
          · exact .inr ⟨v, h, e⟩
    · intro p
      rw [d2, d1, List.mem_append, or_assoc]

/-- A mark that is not a `case` or `default` adds nothing. -/
theorem TabExt.label {t t' : Option Table} {ms : List (Mark × Nat)} (h : TabExt t t' ms) (l p : Nat) :
    TabExt t t' ((.label l, p) :: ms) where
  none := h.none
  some := fun x hx => by
    obtain ⟨y, hy, c1, d1, s1⟩ := h.some x hx
    exact ⟨y, hy, by simpa using c1, by simpa using d1, s1⟩

theorem refLabel_sw (l : Nat) (st : Ana) : (refLabel l st).2.sw = st.sw := by
  unfold refLabel; split <;> rfl

theorem defLabel_sw {l p : Nat} {st st' : Ana} (h : defLabel l st = some (p, st')) : st'.sw = st.sw := by
  unfold defLabel at h
  split at h <;> simp only [Option.some.injEq, Prod.mk.injEq, reduceCtorEq] at h <;> rw [← h.2]

/-- Analysis keeps labels, and adds the `case` and `default` marks of the statement to the table of the enclosing
`switch`. -/
theorem analyze_ext : ∀ (s : Stmt) (brk cont : Option Nat) (st st' : Ana) (a : A),
    analyze brk cont s st = some (a, st') → LabExt st st' (marks true a) ∧ TabExt st.sw st'.sw (marks false a) := by
  intro s
  induction s with
  | seq x y ihx ihy =>
    intro brk cont st st' a h
    simp only [analyze, Option.bind_eq_some_iff, Option.map_eq_some_iff, Prod.mk.injEq, Prod.exists] at h
    obtain ⟨a1, s1, h1, a2, s2, h2, rfl, rfl⟩ := h
    obtain ⟨l1, t1⟩ := ihx _ _ _ _ _ h1
    obtain ⟨l2, t2⟩ := ihy _ _ _ _ _ h2
    exact ⟨l1.trans l2 (by simp +contextual [marks]) (by simp +contextual [marks]), t1.trans t2⟩
  | condElse c x y ihx ihy =>
    intro brk cont st st' a h
    simp only [analyze, Option.bind_eq_some_iff, Option.map_eq_some_iff, Prod.mk.injEq, Prod.exists] at h
    obtain ⟨a1, s1, h1, a2, s2, h2, rfl, rfl⟩ := h
    obtain ⟨l1, t1⟩ := ihx _ _ _ _ _ h1
    obtain ⟨l2, t2⟩ := ihy _ _ _ _ _ h2
    exact ⟨(l1.trans l2 (by simp +contextual [marks]) (by simp +contextual [marks])).cast rfl rfl (fun _ h => h), t1.trans t2⟩
  | cond c x ih | loop c x ih | doWhile x c ih | for_ i c t x ih =>
    intro brk cont st st' a h
    simp only [analyze, Option.map_eq_some_iff, Prod.mk.injEq, Prod.exists] at h
    obtain ⟨a1, s1, h1, rfl, rfl⟩ := h
    obtain ⟨l1, t1⟩ := ih _ _ _ _ _ h1
    exact ⟨l1.cast rfl rfl (fun _ h => h), t1⟩
  | switch e x ih =>
    intro brk cont st st' a h
    simp only [analyze, Option.bind_eq_some_iff, Prod.exists] at h
    obtain ⟨a1, s1, h1, h2⟩ := h
    split at h2
    · simp only [Option.some.injEq, Prod.mk.injEq] at h2
      obtain ⟨rfl, rfl⟩ := h2
      obtain ⟨l1, t1⟩ := ih _ _ _ _ _ h1
      exact ⟨l1.cast rfl rfl (by simp [marks]), by simpa [marks] using TabExt.refl st.sw⟩
    · cases h2
  | case v x ih =>
    intro brk cont st st' a h
    simp only [analyze] at h
    split at h
    · cases h
    · rename_i t ht
      simp only [Option.bind_eq_some_iff, Option.map_eq_some_iff, Prod.mk.injEq, Prod.exists] at h
      obtain ⟨cs, hcs, a1, s1, h1, rfl, rfl⟩ := h
      obtain ⟨l1, t1⟩ := ih _ _ _ _ _ h1
      refine ⟨l1.cast rfl rfl (by simp +contextual [marks]), ⟨fun h => by (rw [ht] at h; cases h), ?_⟩⟩
      intro t' ht'
      rw [ht] at ht'
      cases ht'
      obtain ⟨y, hy, c1, d1, so⟩ := t1.some _ rfl
      refine ⟨y, hy, ?_, ?_, fun h => so (insertCase_sorted hcs h)⟩
      · intro w p
        rw [c1]
        simp only [insertCase_spec hcs, marks, List.mem_cons, Prod.mk.injEq, Mark.case.injEq]
        constructor
        · rintro ((⟨rfl, rfl⟩ | h) | ⟨v', h, e⟩)
          · exact .inr ⟨v, .inl ⟨rfl, rfl⟩, rfl⟩
          · exact .inl h
          · exact .inr ⟨v', .inr h, e⟩
        · rintro (h | ⟨v', ⟨rfl, rfl⟩ | h, e⟩)
          · exact .inl (.inr h)
          · exact .inl (.inl ⟨e, rfl⟩)
          · exact .inr ⟨v', h, e⟩
      · intro p
        rw [d1]
        simp [marks]
  | dflt x ih =>
    intro brk cont st st' a h
    simp only [analyze] at h
    split at h
    · cases h
    · rename_i t ht
      split at h
      · cases h
      · rename_i hd
        simp only [Option.map_eq_some_iff, Prod.mk.injEq, Prod.exists] at h
        obtain ⟨a1, s1, h1, rfl, rfl⟩ := h
        obtain ⟨l1, t1⟩ := ih _ _ _ _ _ h1
        refine ⟨l1.cast rfl rfl (by simp +contextual [marks]), ⟨fun h => by (rw [ht] at h; cases h), ?_⟩⟩
        intro t' ht'
        rw [ht] at ht'
        cases ht'
        obtain ⟨y, hy, c1, d1, so⟩ := t1.some _ rfl
        refine ⟨y, hy, ?_, ?_, so⟩
        · intro w p
          rw [c1]
          simp [marks]
        · intro p
          rw [d1, hd]
          simp only [Option.some.injEq, marks, List.mem_cons, Prod.mk.injEq, true_and, reduceCtorEq, false_or]
          constructor
          · rintro (h | h)
            · exact .inl h.symm
            · exact .inr h
          · rintro (h | h)
            · exact .inl h.symm
            · exact .inr h
  | label l x ih =>
    intro brk cont st st' a h
    simp only [analyze, Option.bind_eq_some_iff, Option.map_eq_some_iff, Prod.mk.injEq, Prod.exists] at h
    obtain ⟨a1, s1, h1, p, s2, h2, rfl, rfl⟩ := h
    obtain ⟨l1, t1⟩ := ih _ _ _ _ _ h1
    obtain ⟨l2, -⟩ := defLabel_spec h2
    refine ⟨l1.trans l2 (by simp +contextual [marks]) (by simp +contextual [marks]), ?_⟩
    rw [defLabel_sw h2]
    exact t1.label l p
  | goto l =>
    intro brk cont st st' a h
    simp only [analyze, Option.some.injEq, Prod.mk.injEq] at h
    obtain ⟨rfl, rfl⟩ := h
    exact ⟨refLabel_spec.1, by rw [refLabel_sw]; exact TabExt.refl _⟩
  | brk | cont =>
    intro brk cont st st' a h
    simp only [analyze, Option.map_eq_some_iff, Prod.mk.injEq] at h
    obtain ⟨p, _, rfl, rfl⟩ := h
    exact ⟨.refl rfl _, .refl _⟩
  | _ =>
    intro brk cont st st' a h
    simp only [analyze, Option.some.injEq, Prod.mk.injEq] at h
    obtain ⟨rfl, rfl⟩ := h
    exact ⟨.refl rfl _, .refl _⟩

/-- `T` knows the labels of `st`. -/
def Knows (T : Nat → Option Nat) (st : Ana) : Prop := ∀ l p b, st.labels l = some (p, b) → T l = some p

theorem Knows.of {T st st' ms} (h : Knows T st') (e : LabExt st st' ms) : Knows T st := by
  intro l p b hl
  obtain ⟨b', h'⟩ := e.keep l p b hl
  exact h l p b' h'

/-- Analysis annotates every jump with the right point. -/
theorem analyze_wf (T : Nat → Option Nat) : ∀ (s : Stmt) (brk cont : Option Nat) (st st' : Ana) (a : A),
    analyze brk cont s st = some (a, st') → Knows T st' → Wf T brk cont a := by
  intro s
  induction s with
  | seq x y ihx ihy =>
    intro brk cont st st' a h hT
    simp only [analyze, Option.bind_eq_some_iff, Option.map_eq_some_iff, Prod.mk.injEq, Prod.exists] at h
    obtain ⟨a1, s1, h1, a2, s2, h2, rfl, rfl⟩ := h
    exact ⟨ihx _ _ _ _ _ h1 (hT.of (analyze_ext _ _ _ _ _ _ h2).1), ihy _ _ _ _ _ h2 hT⟩
  | condElse c x y ihx ihy =>
    intro brk cont st st' a h hT
    simp only [analyze, Option.bind_eq_some_iff, Option.map_eq_some_iff, Prod.mk.injEq, Prod.exists] at h
    obtain ⟨a1, s1, h1, a2, s2, h2, rfl, rfl⟩ := h
    exact ⟨ihx _ _ _ _ _ h1 (hT.of (analyze_ext _ _ _ _ _ _ h2).1), ihy _ _ _ _ _ h2 hT⟩
  | cond c x ih | loop c x ih | doWhile x c ih | for_ i c t x ih =>
    intro brk cont st st' a h hT
    simp only [analyze, Option.map_eq_some_iff, Prod.mk.injEq, Prod.exists] at h
    obtain ⟨a1, s1, h1, rfl, rfl⟩ := h
    have w := ih _ _ _ _ _ h1 hT
    exact w
  | switch e x ih =>
    intro brk cont st st' a h hT
    simp only [analyze, Option.bind_eq_some_iff, Prod.exists] at h
    obtain ⟨a1, s1, h1, h2⟩ := h
    split at h2
    · rename_i t ht
      simp only [Option.some.injEq, Prod.mk.injEq] at h2
      obtain ⟨rfl, rfl⟩ := h2
      refine ⟨ih _ _ _ _ _ h1 hT, ?_⟩
      obtain ⟨-, t1⟩ := analyze_ext _ _ _ _ _ _ h1
      obtain ⟨y, hy, c1, d1, so⟩ := t1.some _ rfl
      rw [ht] at hy
      cases hy
      exact ⟨by simpa using c1, by simpa using d1, (so trivial).nodup⟩
    · cases h2
  | case v x ih =>
    intro brk cont st st' a h hT
    simp only [analyze] at h
    split at h
    · cases h
    · simp only [Option.bind_eq_some_iff, Option.map_eq_some_iff, Prod.mk.injEq, Prod.exists] at h
      obtain ⟨cs, _, a1, s1, h1, rfl, rfl⟩ := h
      have w := ih _ _ _ _ _ h1 hT
      exact w
  | dflt x ih =>
    intro brk cont st st' a h hT
    simp only [analyze] at h
    split at h
    · cases h
    · split at h
      · cases h
      · simp only [Option.map_eq_some_iff, Prod.mk.injEq, Prod.exists] at h
        obtain ⟨a1, s1, h1, rfl, rfl⟩ := h
        have w := ih _ _ _ _ _ h1 hT
        exact w
  | label l x ih =>
    intro brk cont st st' a h hT
    simp only [analyze, Option.bind_eq_some_iff, Option.map_eq_some_iff, Prod.mk.injEq, Prod.exists] at h
    obtain ⟨a1, s1, h1, p, s2, h2, rfl, rfl⟩ := h
    obtain ⟨l2, hb⟩ := defLabel_spec h2
    exact ⟨hT l p true hb, ih _ _ _ _ _ h1 (hT.of l2)⟩
  | goto l =>
    intro brk cont st st' a h hT
    simp only [analyze, Option.some.injEq, Prod.mk.injEq] at h
    obtain ⟨rfl, rfl⟩ := h
    obtain ⟨b, hb⟩ := (refLabel_spec (l := l) (st := st)).2
    exact hT l _ b hb
  | brk =>
    intro brk cont st st' a h hT
    simp only [analyze, Option.map_eq_some_iff, Prod.mk.injEq] at h
    obtain ⟨p, hp, rfl, rfl⟩ := h
    exact hp
  | cont =>
    intro brk cont st st' a h hT
    simp only [analyze, Option.map_eq_some_iff, Prod.mk.injEq] at h
    obtain ⟨p, hp, rfl, rfl⟩ := h
    exact hp
  | _ =>
    intro brk cont st st' a h hT
    simp only [analyze, Option.some.injEq, Prod.mk.injEq] at h
    obtain ⟨rfl, rfl⟩ := h
    trivial

/-! ### All points get resolved -/

theorem marks_defs (into : Bool) : ∀ (a : A) (x : Mark × Nat), x ∈ marks into a → x.2 ∈ defs a := by
  intro a
  induction a with
  | seq a b iha ihb =>
    intro x h
    simp only [marks, List.mem_append, defs] at h ⊢
    exact h.imp (iha x) (ihb x)
  | condElse p q c a b iha ihb =>
    intro x h
    simp only [marks, List.mem_append, defs, List.mem_cons] at h ⊢
    rcases h with h | h
    · exact .inl (iha x h)
    · exact .inr (.inr (.inl (ihb x h)))
  | switch q cs d e b ih =>
    intro x h
    simp only [marks] at h
    split at h
    · simp only [defs, List.mem_append]; exact .inl (ih x h)
    · cases h
  | case p v s ih | dflt p s ih | label p l s ih =>
    intro x h
    simp only [marks, List.mem_cons, defs] at h ⊢
    rcases h with rfl | h
    · exact .inl rfl
    · exact .inr (ih x h)
  | cond p c a ih | loop p q c a ih | doWhile p q a c ih | for_ p q i c t a ih =>
    intro x h
    simp only [marks, defs, List.mem_append, List.mem_cons] at h ⊢
    simp [ih x h]
  | _ => intro x h; simp [marks] at h

/-- Labels that `goto` statements name. -/
def gotos : A → List Nat
  | .seq a b => gotos a ++ gotos b
  | .cond _ _ a => gotos a
  | .condElse _ _ _ a b => gotos a ++ gotos b
  | .loop _ _ _ b => gotos b
  | .doWhile _ _ b _ => gotos b
  | .for_ _ _ _ _ _ b => gotos b
  | .switch _ _ _ _ b => gotos b
  | .case _ _ s => gotos s
  | .dflt _ s => gotos s
  | .label _ _ s => gotos s
  | .goto _ l => [l]
  | _ => []

/-- The translator accepts only a `goto` to a bound label. -/
theorem trS_gotos (rt : Ty) (lab : Nat → Bool) : ∀ (a : A) (σ σ' : Tr), trS rt lab a σ = some σ' → ∀ l ∈ gotos a, lab l = true := by
  intro a
  induction a with
  | seq a b iha ihb =>
    intro σ σ' h l hl
    simp only [trS, Option.bind_eq_some_iff] at h
    obtain ⟨s1, h1, h2⟩ := h
    simp only [gotos, List.mem_append] at hl
    exact hl.elim (iha _ _ h1 l) (ihb _ _ h2 l)
  | condElse p q c a b iha ihb =>
    intro σ σ' h l hl
    simp only [trS, Option.bind_eq_some_iff] at h
    obtain ⟨s1, h1, s2, h2, s3, h3, s4, h4, s5, h5, h6⟩ := h
    simp only [gotos, List.mem_append] at hl
    exact hl.elim (iha _ _ h2 l) (ihb _ _ h5 l)
  | cond p c a ih =>
    intro σ σ' h l hl
    simp only [trS, Option.bind_eq_some_iff] at h
    obtain ⟨s1, h1, s2, h2, h3⟩ := h
    exact ih _ _ h2 l hl
  | loop p q c a ih =>
    intro σ σ' h l hl
    simp only [trS, Option.bind_eq_some_iff] at h
    obtain ⟨s0, h0, s1, h1, s2, h2, h3⟩ := h
    exact ih _ _ h2 l hl
  | doWhile p q a c ih =>
    intro σ σ' h l hl
    simp only [trS, Option.bind_eq_some_iff] at h
    obtain ⟨s1, h1, h2⟩ := h
    exact ih _ _ h1 l hl
  | for_ p q i c t a ih =>
    intro σ σ' h l hl
    simp only [trS, Option.bind_eq_some_iff] at h
    obtain ⟨s1, h1, s2, h2, h3⟩ := h
    exact ih _ _ h2 l hl
  | switch q cs d e a ih =>
    intro σ σ' h l hl
    simp only [trS, Option.bind_eq_some_iff] at h
    obtain ⟨s1, h1, s2, h2, s3, h3, h4⟩ := h
    exact ih _ _ h3 l hl
  | case p v s ih | dflt p s ih | label p l s ih =>
    intro σ σ' h l hl
    simp only [trS, Option.bind_eq_some_iff] at h
    obtain ⟨s1, h1, h2⟩ := h
    exact ih _ _ h2 l hl
  | goto p l =>
    intro σ σ' h k hk
    simp only [gotos, List.mem_singleton] at hk
    subst hk
    simp only [trS] at h
    split at h
    · assumption
    · cases h
  | _ => intro σ σ' h l hl; simp [gotos] at hl

/-- The points that a statement uses: its own, those of the enclosing loop or `switch`, and those of labels. -/
theorem refs_wf (T : Nat → Option Nat) : ∀ (a : A) (brk cont : Option Nat), Wf T brk cont a → ∀ p ∈ refs a,
    p ∈ defs a ∨ brk = some p ∨ cont = some p ∨ ∃ l ∈ gotos a, T l = some p := by
  intro a
  induction a with
  | seq a b iha ihb =>
    intro brk cont h p hp
    simp only [refs, List.mem_append] at hp
    simp only [defs, gotos, List.mem_append]
    rcases hp with hp | hp
    · rcases iha _ _ h.1 p hp with h | h | h | ⟨l, h, e⟩
      · exact .inl (.inl h)
      · exact .inr (.inl h)
      · exact .inr (.inr (.inl h))
      · exact .inr (.inr (.inr ⟨l, .inl h, e⟩))
    · rcases ihb _ _ h.2 p hp with h | h | h | ⟨l, h, e⟩
      · exact .inl (.inr h)
      · exact .inr (.inl h)
      · exact .inr (.inr (.inl h))
      · exact .inr (.inr (.inr ⟨l, .inr h, e⟩))
  | condElse p0 q0 c a b iha ihb =>
    intro brk cont h p hp
    simp only [refs, List.mem_append, List.mem_cons] at hp
    simp only [defs, gotos, List.mem_append, List.mem_cons]
    rcases hp with rfl | hp | rfl | hp
    · simp
    · rcases iha _ _ h.1 p hp with h | h | h | ⟨l, h, e⟩
      · exact .inl (.inl h)
      · exact .inr (.inl h)
      · exact .inr (.inr (.inl h))
      · exact .inr (.inr (.inr ⟨l, .inl h, e⟩))
    · simp
    · rcases ihb _ _ h.2 p hp with h | h | h | ⟨l, h, e⟩
      · exact .inl (.inr (.inr (.inl h)))
      · exact .inr (.inl h)
      · exact .inr (.inr (.inl h))
      · exact .inr (.inr (.inr ⟨l, .inr h, e⟩))
  | cond p0 c a ih =>
    intro brk cont h p hp
    simp only [refs, List.mem_cons] at hp
    simp only [defs, gotos, List.mem_append, List.mem_singleton]
    rcases hp with rfl | hp
    · simp
    · rcases ih _ _ h p hp with h | h | h | h
      · exact .inl (.inl h)
      · exact .inr (.inl h)
      · exact .inr (.inr (.inl h))
      · exact .inr (.inr (.inr h))
  | loop p0 q0 c a ih =>
    intro brk cont h p hp
    simp only [refs, List.mem_cons, List.mem_append, List.not_mem_nil, or_false] at hp
    simp only [defs, gotos, List.mem_append, List.mem_cons, List.not_mem_nil, or_false]
    rcases hp with rfl | hp | rfl
    · simp
    · rcases ih _ _ h p hp with h | h | h | h
      · exact .inl (.inr (.inl h))
      · cases h; simp
      · cases h; simp
      · exact .inr (.inr (.inr h))
    · simp
  | doWhile p0 q0 a c ih =>
    intro brk cont h p hp
    simp only [refs] at hp
    simp only [defs, gotos, List.mem_append, List.mem_cons, List.not_mem_nil, or_false]
    rcases ih _ _ h p hp with h | h | h | h
    · exact .inl (.inl h)
    · cases h; simp
    · cases h; simp
    · exact .inr (.inr (.inr h))
  | for_ p0 q0 i c t a ih =>
    intro brk cont h p hp
    simp only [refs, List.mem_cons] at hp
    simp only [defs, gotos, List.mem_append, List.mem_cons, List.not_mem_nil, or_false]
    rcases hp with rfl | hp
    · simp
    rcases ih _ _ h p hp with h | h | h | h
    · exact .inl (.inl h)
    · cases h; simp
    · cases h; simp
    · exact .inr (.inr (.inr h))
  | switch q0 cs d e a ih =>
    intro brk cont h p hp
    simp only [refs, List.mem_cons, List.mem_append, List.mem_map, Prod.exists, exists_eq_right] at hp
    simp only [defs, gotos, List.mem_append, List.mem_singleton]
    obtain ⟨hw, hx⟩ := h
    rcases hp with ⟨w, hp⟩ | rfl | hp
    · obtain ⟨v, hm, -⟩ := (hx.cases w p).mp hp
      exact .inl (.inl (marks_defs _ _ _ hm))
    · cases d with
      | none => simp
      | some x => exact .inl (.inl (marks_defs _ _ _ ((hx.dflt x).mp rfl)))
    · rcases ih _ _ hw p hp with h | h | h | h
      · exact .inl (.inl h)
      · cases h; simp
      · exact .inr (.inr (.inl h))
      · exact .inr (.inr (.inr h))
  | case p0 v s ih | dflt p0 s ih =>
    intro brk cont h p hp
    simp only [refs] at hp
    simp only [defs, gotos, List.mem_cons]
    rcases ih _ _ h p hp with h | h | h | h
    · exact .inl (.inr h)
    · exact .inr (.inl h)
    · exact .inr (.inr (.inl h))
    · exact .inr (.inr (.inr h))
  | label p0 l s ih =>
    intro brk cont h p hp
    simp only [refs] at hp
    simp only [defs, gotos, List.mem_cons]
    rcases ih _ _ h.2 p hp with h | h | h | h
    · exact .inl (.inr h)
    · exact .inr (.inl h)
    · exact .inr (.inr (.inl h))
    · exact .inr (.inr (.inr h))
  | goto p0 l =>
    intro brk cont h p hp
    simp only [refs, List.mem_singleton] at hp
    subst hp
    exact .inr (.inr (.inr ⟨l, by simp [gotos], h⟩))
  | brk p0 =>
    intro brk cont h p hp
    simp only [refs, List.mem_singleton] at hp
    subst hp
    exact .inr (.inl h)
  | cont p0 =>
    intro brk cont h p hp
    simp only [refs, List.mem_singleton] at hp
    subst hp
    exact .inr (.inr (.inl h))
  | _ => intro brk cont h p hp; simp [refs] at hp

/-- The point of each label at the end of analysis. -/
def labelPt (st : Ana) (l : Nat) : Option Nat := (st.labels l).map (·.1)

theorem knows_labelPt (st : Ana) : Knows (labelPt st) st := by
  intro l p b h; simp [labelPt, h]

/-- A compiled function: the annotated body, the addresses of its points, and the code, all jumps resolved. -/
theorem compile_spec {rt : Ty} {pre : List Instr} {body : Stmt} {P : List Instr} (h : compile rt pre body = some P) :
    ∃ (a : A) (T : Nat → Option Nat) (ad : Nat → Nat), erase a = body ∧ Wf T none none a ∧
      P = pre ++ code rt ad a pre.length ++ [.ret] ∧ At rt ad a pre.length := by
  simp only [compile, Option.bind_eq_some_iff, Option.map_eq_some_iff, Prod.exists] at h
  obtain ⟨a, st, ha, σ, hσ, rfl⟩ := h
  have hw := analyze_wf (labelPt st) _ _ _ _ _ _ ha (knows_labelPt st)
  have hr : ∀ p ∈ refs a, p ∈ defs a := by
    intro p hp
    rcases refs_wf _ _ _ _ hw p hp with h | h | h | ⟨l, hl, e⟩
    · exact h
    · cases h
    · cases h
    · have hb := trS_gotos _ _ _ _ _ hσ l hl
      simp only [Ana.bound] at hb
      simp only [labelPt, Option.map_eq_some_iff, Prod.exists] at e
      obtain ⟨p', b, e, rfl⟩ := e
      rw [e] at hb
      subst hb
      rcases (analyze_ext _ _ _ _ _ _ ha).1.bound l p' e with h | h
      · cases h
      · exact marks_defs _ _ _ h
  obtain ⟨h1, h2⟩ := trS_block rt _ a pre hσ hr
  exact ⟨a, labelPt st, addrOf σ, analyze_erase _ _ _ _ _ _ ha, hw, by rw [h1], h2⟩

end Kefir.Stmt
