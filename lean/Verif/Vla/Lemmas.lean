import Verif.Expr.Main
import Verif.Vla.Model

/-! Lemmas about variable length arrays. -/

namespace Kefir.Vla
open Kefir.IR Kefir.Expr Kefir.CSpec Kefir.C17
open Kefir.Types (Basic)

/-! ## Sizes -/

/-- Types whose arrays of known length have no elements of variable length, and whose lengths are expressions of integer
type for which the code is right (`Verif.Expr`). -/
def Regular : VTy → Prop
  | .fixed _ _ => True
  | .array _ t => Known t
  | .vla e t => good e = true ∧ (∃ b, cty e = some (.arith b) ∧ isInteger b = true) ∧ Regular t
where
  Known : VTy → Prop
    | .fixed _ _ => True
    | .array _ t => Known t
    | .vla _ _ => False

theorem known_size (C : Ctx) (t : VTy) (h : Regular.Known t) (m : Mem) : size C t m = some (irSize t, m) := by
  induction t with
  | fixed s a => rfl
  | array n t ih => simp only [size, ih h, Option.map_some, irSize]
  | vla e t _ => exact h.elim

theorem known_align (t : VTy) (h : Regular.Known t) : alignofCode.ir t = align t := by
  induction t with
  | fixed s a => rfl
  | array n t ih => simp only [alignofCode.ir, align, ih h]
  | vla e t _ => exact h.elim

theorem regular_align (t : VTy) (h : Regular t) : alignofCode.unwrapped t = align t := by
  induction t with
  | fixed s a => rfl
  | array n t _ => exact known_align (.array n t) h
  | vla e t ih => simp only [alignofCode.unwrapped, align, ih h.2.2]

theorem word_pos (v : Int) (h : 0 < v) : BitVec.ofInt 64 v = BitVec.ofNat 64 v.toNat := by
  obtain ⟨n, rfl⟩ : ∃ n : Nat, v = n := ⟨v.toNat, by omega⟩
  simp

theorem size_run (E : Env) (L : Lawful E.fp) (t : VTy) (h : Regular t) (m m' : Mem) (n : Nat)
    (hs : size (ctxOf E) t m = some (n, m')) (s : List Word) :
    (sizeofCode t).run E s m = some (BitVec.ofNat 64 n :: s, m') := by
  induction t generalizing m m' n s with
  | fixed z a => cases hs; rfl
  | array k t _ =>
    rw [known_size _ (.array k t) h] at hs
    cases hs
    rfl
  | vla e t ih =>
    obtain ⟨hg, ⟨b, hb, hi⟩, ht⟩ := h
    simp only [size] at hs
    cases h1 : size (ctxOf E) t m with
    | none => rw [h1] at hs; cases hs
    | some r =>
      obtain ⟨z, m1⟩ := r
      rw [h1, Option.bind_some] at hs
      dsimp only at hs
      split at hs
      · rename_i v m2 h2
        split at hs
        · rename_i hv
          simp only [Option.some.injEq, Prod.mk.injEq] at hs
          obtain ⟨rfl, rfl⟩ := hs
          obtain ⟨hT, ws, hr, hrun⟩ := sound E L e hg _ _ _ _ hb h2
          cases hr
          have e1 := ih ht m m1 z h1 s
          have e2 := hrun (BitVec.ofNat 64 z :: s)
          simp only [sizeofCode, SC.run, e1, Option.bind_some, e2, List.cons_append, List.nil_append, execs_cons, execs_nil,
            exec_bin, Bin.exec, Option.map_some]
          rw [word_pos _ hv, ← BitVec.ofNat_mul, Nat.mul_comm]
        · cases hs
      · cases hs

theorem field_run (E : Env) (offs : List Nat) (k : Nat) (s : List Word) (m : Mem) :
    execs E (.getlocals :: (offsets offs ++ [.offsetptr k])) s m =
      some ((offsetBy E.locals offs + BitVec.ofNat 64 k) :: s, m) := by
  rw [execs_cons, exec_getlocals, Option.bind_some]
  dsimp only
  rw [execs_append, offsets_ok, Option.bind_some]
  rfl

theorem load_store (m : Mem) (a w : Word) : loadLE (storeLE m a 8 w) a 8 = w := by
  apply BitVec.eq_of_getLsbD_eq
  intro i hi
  rw [getLsbD_loadLE]
  have h : ((a + BitVec.ofNat 64 (i / 8)) - a).toNat = i / 8 := by
    rw [BitVec.add_comm, BitVec.add_sub_cancel, BitVec.toNat_ofNat]
    omega
  simp only [bitOf, storeLE, h]
  rw [if_pos (by omega), BitVec.getLsbD_extractLsb']
  have h3 : 8 * (i / 8) + i % 8 = i := by omega
  have h4 : i % 8 < 8 := by omega
  simp only [h3, h4, hi, decide_true, Bool.true_and, and_true]

/-! ## Storage -/

/-- Objects between two addresses, each above the one before. -/
def Chain (top : Nat) : Nat → List Object → Prop
  | lo, [] => lo ≤ top
  | lo, o :: os => lo ≤ o.start ∧ Chain top o.stop os

theorem chain_mono (top : Nat) (l : List Object) (a b : Nat) (h : a ≤ b) (hc : Chain top b l) : Chain top a l := by
  cases l with
  | nil => exact Nat.le_trans h hc
  | cons o os => exact ⟨Nat.le_trans h hc.1, hc.2⟩

theorem chain_drop (top : Nat) (k l : List Object) (a : Nat) (hc : Chain top a (k ++ l)) : Chain top a l := by
  induction k generalizing a with
  | nil => exact hc
  | cons o os ih =>
    refine chain_mono top l a o.stop ?_ (ih _ hc.2)
    have := hc.1
    unfold Object.stop
    omega

theorem chain_mem (top : Nat) (l : List Object) (a : Nat) (hc : Chain top a l) (o : Object) (ho : o ∈ l) :
    a ≤ o.start ∧ o.stop ≤ top := by
  induction l generalizing a with
  | nil => cases ho
  | cons x xs ih =>
    have hx : a ≤ x.stop := by
      have := hc.1
      unfold Object.stop
      omega
    rcases List.mem_cons.mp ho with rfl | ho
    · refine ⟨hc.1, ?_⟩
      have h2 := hc.2
      have := chain_drop top xs [] _ (by rw [List.append_nil]; exact h2)
      exact this
    · have := ih _ hc.2 ho
      exact ⟨Nat.le_trans hx this.1, this.2⟩

theorem chain_disjoint (top : Nat) (l : List Object) (a : Nat) (hc : Chain top a l) : l.Pairwise Disjoint := by
  induction l generalizing a with
  | nil => exact List.Pairwise.nil
  | cons x xs ih =>
    refine List.Pairwise.cons (fun y hy => ?_) (ih _ hc.2)
    exact Or.inl (chain_mem top xs _ hc.2 y hy).1

theorem floorTo_le (a x : Nat) : floorTo a x ≤ x := Nat.div_mul_le_self x a
theorem floorTo_mod (a x : Nat) : floorTo a x % a = 0 := Nat.mul_mod_left _ _

theorem place_le (base size align : Nat) : place base size align ≤ base - size := by
  have a1 := floorTo_le 8 (base - size)
  unfold place
  split
  · exact a1
  · exact Nat.le_trans (floorTo_le align _) a1

theorem place_mod (base size align : Nat) (h : align ≠ 0) : place base size align % align = 0 := by
  unfold place
  rw [if_neg h]
  exact floorTo_mod _ _

theorem alloca_eq (s s' : State) (size align p : Nat) (h : alloca s size align = some (s', p)) :
    s' = { s with base := p } ∧ p + size ≤ s.base ∧ 0 < p ∧ (align ≠ 0 → p % align = 0) := by
  unfold alloca at h
  split at h
  · rename_i h1
    simp only [Option.some.injEq, Prod.mk.injEq] at h
    obtain ⟨rfl, rfl⟩ := h
    have := place_le s.base size align
    exact ⟨rfl, by omega, h1.2, place_mod _ _ _⟩
  · cases h

/-- What is in the cell of the scope, and in the first elements of the blocks, is not in the way of the objects further out. -/
def SOk (top : Nat) : Nat → List Block → List (List Object) → Prop
  | _, [], _ => True
  | sc, b :: bs, os =>
    if b.elements = [] then SOk top sc bs os.tail
    else (sc = 0 ∨ Chain top sc os.tail.flatten) ∧ SOk top b.head bs os.tail

theorem sok_zero (top sc : Nat) (bs : List Block) (os : List (List Object)) (h : SOk top sc bs os) : SOk top 0 bs os := by
  induction bs generalizing os with
  | nil => trivial
  | cons b bs ih =>
    unfold SOk at h ⊢
    split
    · rename_i hb
      rw [if_pos hb] at h
      exact ih _ h
    · rename_i hb
      rw [if_neg hb] at h
      exact ⟨Or.inl rfl, h.2⟩

structure Inv (top : Nat) (s : State) (os : List (List Object)) (o : Open) : Prop where
  chain : Chain top s.base os.flatten
  aligned : ∀ x ∈ os.flatten, x.start % x.align = 0
  scope : SOk top s.scope s.blocks os
  shape : o = s.blocks.map fun b => (b.contains, !b.elements.isEmpty)
  len : os.length = s.blocks.length
  declared : ∀ b ∈ s.blocks, b.elements ≠ [] → b.contains = true

theorem inv_run (top : Nat) (es : List Event) (s s' : State) (os os' : List (List Object)) (o : Open)
    (hi : Inv top s os o) (hp : proper o es = true) (hr : run s os es = some (s', os')) :
    ∃ o', Inv top s' os' o' := by
  induction es generalizing s os o with
  | nil =>
    simp only [run, Option.some.injEq, Prod.mk.injEq] at hr
    obtain ⟨rfl, rfl⟩ := hr
    exact ⟨o, hi⟩
  | cons e es ih =>
    obtain ⟨base, scope, blocks⟩ := s
    cases e with
    | enter c stale =>
      simp only [run, step, alive] at hr
      rw [proper] at hp
      refine ih _ _ _ ?_ hp hr
      refine ⟨?_, ?_, ?_, ?_, ?_, ?_⟩
      · simpa using hi.chain
      · simpa using hi.aligned
      · show SOk top scope (_ :: blocks) ([] :: os)
        unfold SOk
        rw [if_pos rfl]
        exact hi.scope
      · simp [hi.shape]
      · simp [hi.len]
      · intro b hb hne
        rcases List.mem_cons.mp hb with rfl | hb
        · exact absurd rfl hne
        · exact hi.declared b hb hne
    | builtin size al =>
      simp only [run, step] at hr
      split at hr
      · cases hr
      · rename_i s1 p h1
        obtain ⟨rfl, h2, h3, _⟩ := alloca_eq _ _ _ _ _ h1
        have hal : alive os (.builtin size al) p = os := by cases os <;> rfl
        rw [hal] at hr
        rw [proper.eq_def] at hp
        dsimp only at hp
        refine ih _ _ o ?_ (by cases o <;> simpa using hp) hr
        refine ⟨?_, hi.aligned, sok_zero top _ _ _ hi.scope, hi.shape, hi.len, hi.declared⟩
        exact chain_mono _ _ _ _ (by dsimp only at h2 ⊢; omega) hi.chain
    | declare size al =>
      cases blocks with
      | nil => simp [run, step] at hr
      | cons b bs =>
        cases os with
        | nil => exact absurd hi.len (by simp)
        | cons ob os =>
          have hsh := hi.shape
          simp only [List.map_cons] at hsh
          subst hsh
          simp only [proper, Bool.and_eq_true] at hp
          obtain ⟨⟨hc, ha⟩, hp⟩ := hp
          have ha : al ≠ 0 := by simpa using ha
          simp only [run, step, pushscope] at hr
          split at hr
          · cases hr
          · rename_i s1 p h1
            obtain ⟨rfl, h2, h3, h4⟩ := alloca_eq _ _ _ _ _ h1
            simp only [alive] at hr
            refine ih _ _ _ ?_ hp hr
            have hch := hi.chain
            simp only [List.flatten_cons] at hch
            have hsc := hi.scope
            unfold SOk at hsc
            refine ⟨?_, ?_, ?_, ?_, ?_, ?_⟩
            · simp only [List.flatten_cons, List.cons_append]
              exact ⟨Nat.le_refl _, chain_mono _ _ _ base h2 hch⟩
            · simp only [List.flatten_cons, List.cons_append]
              intro x hx
              rcases List.mem_cons.mp hx with rfl | hx
              · exact h4 ha
              · exact hi.aligned x (by simpa using hx)
            · unfold SOk
              rw [if_neg (by simp)]
              refine ⟨Or.inr (chain_drop _ _ _ _ hch), ?_⟩
              simp only [List.tail_cons] at hsc ⊢
              by_cases hb : b.elements = []
              · rw [if_pos hb] at hsc
                simpa [Block.head, hb] using hsc
              · rw [if_neg hb] at hsc
                have : (Block.head { b with elements := b.elements ++ [scope] }) = b.head := by
                  unfold Block.head
                  cases h : b.elements with
                  | nil => exact absurd h hb
                  | cons x xs => simp
                rw [this]
                exact hsc.2
            · simp
            · simpa using hi.len
            · intro x hx hne
              rcases List.mem_cons.mp hx with rfl | hx
              · exact hc
              · exact hi.declared x (List.mem_cons_of_mem _ hx) hne
    | leave =>
      cases blocks with
      | nil => simp [run, step] at hr
      | cons b bs =>
        cases os with
        | nil => exact absurd hi.len (by simp)
        | cons ob os =>
          have hsh := hi.shape
          simp only [List.map_cons] at hsh
          subst hsh
          simp only [proper, Bool.and_eq_true] at hp
          obtain ⟨hd, hp⟩ := hp
          have hch := hi.chain
          simp only [List.flatten_cons] at hch
          have hch := chain_drop _ _ _ _ hch
          have hsc := hi.scope
          unfold SOk at hsc
          simp only [List.tail_cons] at hsc
          have hal : ∀ x ∈ os.flatten, x.start % x.align = 0 := fun x hx => hi.aligned x (by
            simp only [List.flatten_cons]; exact List.mem_append_right _ hx)
          have hln : os.length = bs.length := by simpa using hi.len
          have hdc : ∀ x ∈ bs, x.elements ≠ [] → x.contains = true :=
            fun x hx => hi.declared x (List.mem_cons_of_mem _ hx)
          simp only [run, step] at hr
          by_cases hc : b.contains = true
          · have hne : b.elements ≠ [] := by
              rw [hc] at hd
              intro h
              rw [h] at hd
              exact absurd hd (by decide)
            rw [if_neg hne] at hsc
            rw [if_pos hc] at hr
            simp only [alive, popscope] at hr
            by_cases h0 : scope = 0
            · rw [if_pos h0] at hr
              refine ih _ _ _ ?_ hp hr
              subst h0
              exact ⟨hch, hal, sok_zero _ _ _ _ hsc.2, rfl, hln, hdc⟩
            · rw [if_neg h0] at hr
              refine ih _ _ _ ?_ hp hr
              exact ⟨hsc.1.resolve_left h0, hal, hsc.2, rfl, hln, hdc⟩
          · have he : b.elements = [] := Classical.byContradiction fun h =>
              hc (hi.declared b List.mem_cons_self h)
            rw [if_pos he] at hsc
            rw [if_neg hc] at hr
            simp only [alive] at hr
            refine ih _ _ _ ?_ hp hr
            exact ⟨hch, hal, hsc, rfl, hln, hdc⟩

/-! ## The built-in function -/

theorem runKept_run (es : List Event) (s : State) (ks : List Object) (os : List (List Object)) :
    (runKept s ks os es).map (·.2) = run s os es := by
  induction es generalizing s ks os with
  | nil => rfl
  | cons e es ih =>
    simp only [runKept, run]
    cases step s e with
    | none => rfl
    | some r => exact ih _ _ _

/-- As long as the cell of the scope is not 0, neither it nor what it will become is above what the built-in gave. -/
def KOk (ks : List Object) : Nat → List Block → Prop
  | _, [] => True
  | sc, b :: bs =>
    if b.elements = [] then KOk ks sc bs
    else sc = 0 ∨ ((∀ k ∈ ks, sc ≤ k.start) ∧ KOk ks b.head bs)

theorem kok_zero (ks : List Object) (bs : List Block) : KOk ks 0 bs := by
  induction bs with
  | nil => trivial
  | cons b bs ih =>
    unfold KOk
    split
    · exact ih
    · exact Or.inl rfl

structure KInv (top : Nat) (s : State) (ks : List Object) (os : List (List Object)) (o : List Bool) : Prop where
  inner : ∃ op, Inv top s os op
  above : ∀ k ∈ ks, s.base ≤ k.start ∧ k.stop ≤ top
  disj : ks.Pairwise Disjoint
  cross : ∀ a ∈ os.flatten, ∀ k ∈ ks, Disjoint a k
  scope : KOk ks s.scope s.blocks
  shape : o = s.blocks.map fun b => !b.elements.isEmpty

theorem kinv_step (top : Nat) (e : Event) (s s' : State) (ks : List Object) (os : List (List Object)) (o : List Bool)
    (op op' : Open) (p : Nat) (hi : KInv top s ks os o) (hn : Inv top s os op) (hn' : Inv top s' (alive os e p) op')
    (hone : ∃ es, once o (e :: es) = true) (hst : step s e = some (s', p))
    (hlv : e = .leave → ∀ b bs, s.blocks = b :: bs → b.contains = true → b.elements ≠ []) :
    KInv top s' (kept ks e p) (alive os e p) (s'.blocks.map fun b => !b.elements.isEmpty) := by
  obtain ⟨base, scope, blocks⟩ := s
  cases e with
  | enter c stale =>
    simp only [step, Option.some.injEq, Prod.mk.injEq] at hst
    obtain ⟨rfl, rfl⟩ := hst
    refine ⟨⟨_, hn'⟩, hi.above, hi.disj, ?_, ?_, rfl⟩
    · simpa [alive, kept] using hi.cross
    · show KOk ks scope (_ :: blocks)
      unfold KOk
      rw [if_pos rfl]
      exact hi.scope
  | builtin size al =>
    simp only [step] at hst
    obtain ⟨rfl, h2, h3, _⟩ := alloca_eq _ _ _ _ _ hst
    dsimp only at h2
    have hal : alive os (.builtin size al) p = os := by cases os <;> rfl
    rw [hal] at hn' ⊢
    have habove : ∀ a ∈ os.flatten, base ≤ a.start := fun a ha => (chain_mem _ _ _ hn.chain a ha).1
    have htop : base ≤ top := by
      have := chain_drop top os.flatten [] base (by rw [List.append_nil]; exact hn.chain)
      exact this
    refine ⟨⟨_, hn'⟩, ?_, ?_, ?_, kok_zero _ _, rfl⟩
    · intro k hk
      rcases List.mem_cons.mp hk with rfl | hk
      · exact ⟨Nat.le_refl _, Nat.le_trans h2 htop⟩
      · have := hi.above k hk
        dsimp only at this ⊢
        exact ⟨by omega, this.2⟩
    · refine List.Pairwise.cons (fun k hk => ?_) hi.disj
      exact Or.inl (Nat.le_trans h2 (hi.above k hk).1)
    · intro a ha k hk
      rcases List.mem_cons.mp hk with rfl | hk
      · exact Or.inr (Nat.le_trans h2 (habove a ha))
      · exact hi.cross a ha k hk
  | declare size al =>
    cases blocks with
    | nil => simp [step] at hst
    | cons b bs =>
      have hl := hn.len
      cases os with
      | nil => exact absurd hl (by simp)
      | cons ob os =>
        simp only [step, pushscope] at hst
        obtain ⟨rfl, h2, h3, h4⟩ := alloca_eq _ _ _ _ _ hst
        dsimp only at h2
        have he : b.elements = [] := by
          obtain ⟨es, h⟩ := hone
          have hs := hi.shape
          simp only [List.map_cons] at hs
          rw [hs] at h
          simp only [once, Bool.and_eq_true, Bool.not_eq_true', Bool.not_eq_false'] at h
          exact List.isEmpty_iff.mp h.1
        have hsc := hi.scope
        unfold KOk at hsc
        rw [if_pos he] at hsc
        refine ⟨⟨_, hn'⟩, ?_, hi.disj, ?_, ?_, rfl⟩
        · intro k hk
          have := hi.above k hk
          dsimp only at this ⊢
          exact ⟨by omega, this.2⟩
        · intro a ha k hk
          simp only [alive, List.flatten_cons, List.cons_append] at ha
          rcases List.mem_cons.mp ha with rfl | ha
          · exact Or.inl (Nat.le_trans h2 (hi.above k hk).1)
          · exact hi.cross a (by simpa using ha) k hk
        · unfold KOk
          rw [if_neg (by simp)]
          refine Or.inr ⟨fun k hk => (hi.above k hk).1, ?_⟩
          simpa [Block.head, he, kept] using hsc
  | leave =>
    cases blocks with
    | nil => simp [step] at hst
    | cons b bs =>
      have hl := hn.len
      cases os with
      | nil => exact absurd hl (by simp)
      | cons ob os =>
        have hcr : ∀ a ∈ os.flatten, ∀ k ∈ ks, Disjoint a k := fun a ha => hi.cross a (by
          simp only [List.flatten_cons]; exact List.mem_append_right _ ha)
        have hsc := hi.scope
        unfold KOk at hsc
        simp only [step] at hst
        by_cases hc : b.contains = true
        · have hne := hlv rfl b bs rfl hc
          rw [if_neg hne] at hsc
          rw [if_pos hc] at hst
          simp only [Option.some.injEq, Prod.mk.injEq] at hst
          obtain ⟨rfl, rfl⟩ := hst
          by_cases h0 : scope = 0
          · subst h0
            exact ⟨⟨_, hn'⟩, hi.above, hi.disj, hcr, kok_zero _ _, rfl⟩
          · have e : popscope b.head ⟨base, scope, bs⟩ = ⟨scope, b.head, bs⟩ := by
              unfold popscope
              rw [if_neg h0]
            have hsc := hsc.resolve_left h0
            rw [e] at hn' ⊢
            exact ⟨⟨_, hn'⟩, fun k hk => ⟨hsc.1 k hk, (hi.above k hk).2⟩, hi.disj, hcr, hsc.2, rfl⟩
        · have he : b.elements = [] := Classical.byContradiction fun h =>
            hc (hn.declared b List.mem_cons_self h)
          rw [if_pos he] at hsc
          rw [if_neg hc] at hst
          simp only [Option.some.injEq, Prod.mk.injEq] at hst
          obtain ⟨rfl, rfl⟩ := hst
          exact ⟨⟨_, hn'⟩, hi.above, hi.disj, hcr, hsc, rfl⟩

theorem proper_step (top : Nat) (e : Event) (es : List Event) (s s' : State) (os : List (List Object)) (op : Open) (p : Nat)
    (hn : Inv top s os op) (hp : proper op (e :: es) = true) (hst : step s e = some (s', p)) :
    proper op [e] = true ∧ proper (s'.blocks.map fun b => (b.contains, !b.elements.isEmpty)) es = true ∧
      (e = .leave → ∀ b bs, s.blocks = b :: bs → b.contains = true → b.elements ≠ []) := by
  obtain ⟨base, scope, blocks⟩ := s
  have hs := hn.shape
  dsimp only at hs
  subst hs
  cases e with
  | enter c stale =>
    simp only [step, Option.some.injEq, Prod.mk.injEq] at hst
    obtain ⟨rfl, rfl⟩ := hst
    rw [proper] at hp
    exact ⟨by rw [proper, proper], hp, fun h => Event.noConfusion h⟩
  | builtin size al =>
    simp only [step] at hst
    obtain ⟨rfl, _⟩ := alloca_eq _ _ _ _ _ hst
    cases blocks with
    | nil => exact ⟨by simp [proper], by simpa [proper] using hp, fun h => Event.noConfusion h⟩
    | cons b bs => exact ⟨by simp [proper], by simpa [proper] using hp, fun h => Event.noConfusion h⟩
  | declare size al =>
    cases blocks with
    | nil => simp [step] at hst
    | cons b bs =>
      simp only [step, pushscope] at hst
      obtain ⟨rfl, _⟩ := alloca_eq _ _ _ _ _ hst
      simp only [List.map_cons, proper, Bool.and_eq_true] at hp ⊢
      refine ⟨⟨hp.1, trivial⟩, ?_, fun h => Event.noConfusion h⟩
      have : (b.elements ++ [scope]).isEmpty = false := by simp
      simpa [this] using hp.2
  | leave =>
    cases blocks with
    | nil => simp [step] at hst
    | cons b bs =>
      simp only [List.map_cons, proper, Bool.and_eq_true] at hp ⊢
      have hb : s'.blocks = bs := by
        simp only [step] at hst
        split at hst
        · simp only [Option.some.injEq, Prod.mk.injEq] at hst
          rw [← hst.1]
          unfold popscope
          split <;> rfl
        · simp only [Option.some.injEq, Prod.mk.injEq] at hst
          rw [← hst.1]
      refine ⟨⟨hp.1, trivial⟩, by rw [hb]; exact hp.2, ?_⟩
      intro _ b' bs' h hc he
      simp only [List.cons.injEq] at h
      obtain ⟨rfl, rfl⟩ := h
      rw [hc, he] at hp
      exact absurd hp.1 (by decide)

theorem once_step (e : Event) (es : List Event) (s s' : State) (p : Nat)
    (ho : once (s.blocks.map fun b => !b.elements.isEmpty) (e :: es) = true) (hst : step s e = some (s', p)) :
    once (s'.blocks.map fun b => !b.elements.isEmpty) es = true := by
  obtain ⟨base, scope, blocks⟩ := s
  cases e with
  | enter c stale =>
    simp only [step, Option.some.injEq, Prod.mk.injEq] at hst
    obtain ⟨rfl, rfl⟩ := hst
    rw [once] at ho
    exact ho
  | builtin size al =>
    simp only [step] at hst
    obtain ⟨rfl, _⟩ := alloca_eq _ _ _ _ _ hst
    cases blocks with
    | nil => simpa [once] using ho
    | cons b bs => simpa [once] using ho
  | declare size al =>
    cases blocks with
    | nil => simp [step] at hst
    | cons b bs =>
      simp only [step, pushscope] at hst
      obtain ⟨rfl, _⟩ := alloca_eq _ _ _ _ _ hst
      simp only [List.map_cons, once, Bool.and_eq_true] at ho
      have : (b.elements ++ [scope]).isEmpty = false := by simp
      simpa [this] using ho.2
  | leave =>
    cases blocks with
    | nil => simp [step] at hst
    | cons b bs =>
      simp only [List.map_cons, once] at ho
      have hb : s'.blocks = bs := by
        simp only [step] at hst
        split at hst
        · simp only [Option.some.injEq, Prod.mk.injEq] at hst
          rw [← hst.1]
          unfold popscope
          split <;> rfl
        · simp only [Option.some.injEq, Prod.mk.injEq] at hst
          rw [← hst.1]
      rw [hb]
      exact ho

theorem kinv_run (top : Nat) (es : List Event) (s s' : State) (ks ks' : List Object) (os os' : List (List Object))
    (hi : KInv top s ks os (s.blocks.map fun b => !b.elements.isEmpty))
    (hp : proper (s.blocks.map fun b => (b.contains, !b.elements.isEmpty)) es = true)
    (ho : once (s.blocks.map fun b => !b.elements.isEmpty) es = true)
    (hr : runKept s ks os es = some (ks', s', os')) :
    ∃ o', KInv top s' ks' os' o' := by
  induction es generalizing s ks os with
  | nil =>
    simp only [runKept, Option.some.injEq, Prod.mk.injEq] at hr
    obtain ⟨rfl, rfl, rfl⟩ := hr
    exact ⟨_, hi⟩
  | cons e es ih =>
    obtain ⟨op, hn⟩ := hi.inner
    have hs := hn.shape
    subst hs
    simp only [runKept] at hr
    split at hr
    · cases hr
    · rename_i s1 p hst
      obtain ⟨h1, h2, h3⟩ := proper_step top e es s s1 os _ p hn hp hst
      have hrun : run s os [e] = some (s1, alive os e p) := by simp only [run, hst]
      obtain ⟨op', hn'⟩ := inv_run top [e] s s1 os _ _ hn h1 hrun
      exact ih _ _ _ (kinv_step top e s s1 ks os _ _ op' p hi hn hn' ⟨es, ho⟩ hst h3) h2 (once_step e es s s1 p ho hst) hr

theorem run_append (a b : List Event) (s : State) (os : List (List Object)) :
    run s os (a ++ b) = (run s os a).bind fun (s, os) => run s os b := by
  induction a generalizing s os with
  | nil => rfl
  | cons e es ih =>
    simp only [List.cons_append, run]
    cases step s e with
    | none => rfl
    | some r => exact ih _ _

theorem single_run (es : List Event) (h : Single es) (s s' : State) (os os' : List (List Object))
    (hl : os.length = s.blocks.length) (hr : run s os es = some (s', os')) : s' = s ∧ os' = os := by
  induction h generalizing s s' os os' with
  | nil =>
    simp only [run, Option.some.injEq, Prod.mk.injEq] at hr
    exact ⟨hr.1.symm, hr.2.symm⟩
  | @plain stale a b _ _ iha ihb =>
    simp only [run, step, alive, run_append, Option.bind_eq_some_iff] at hr
    obtain ⟨⟨s1, o1⟩, h1, h2⟩ := hr
    obtain ⟨rfl, rfl⟩ := iha _ _ _ _ (by simpa using hl) h1
    simp only [Bool.false_eq_true, if_false] at h2
    exact ihb _ _ _ _ hl h2
  | @one stale size al a b c _ _ _ iha ihb ihc =>
    simp only [run, step, alive, run_append, Option.bind_eq_some_iff] at hr
    obtain ⟨⟨s1, o1⟩, h1, h2⟩ := hr
    obtain ⟨rfl, rfl⟩ := iha _ _ _ _ (by simpa using hl) h1
    simp only [pushscope] at h2
    split at h2
    · cases h2
    · rename_i s2 p h3
      obtain ⟨rfl, h4, h5, _⟩ := alloca_eq _ _ _ _ _ h3
      dsimp only at h4
      simp only [run_append, Option.bind_eq_some_iff] at h2
      obtain ⟨⟨s3, o3⟩, h6, h7⟩ := h2
      obtain ⟨rfl, rfl⟩ := ihb _ _ _ _ (by simpa using hl) h6
      have hb : ¬ s.base = 0 := by omega
      simp only [run, step, if_true, popscope, hb, if_false, alive, Block.head, List.nil_append, List.headD_cons] at h7
      exact ihc _ _ _ _ hl h7

end Kefir.Vla
