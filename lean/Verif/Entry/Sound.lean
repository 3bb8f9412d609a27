import Verif.Entry.Lemmas

/-! The code for one parameter, and for all. -/

namespace Kefir.Entry
open Kefir.Types (Basic)
open Kefir.IR
open Kefir.Expr Kefir.CSpec Kefir.C17

/-- The code looks at the type of the parameter, not at the unqualified type, to find out whether it is `long double`. -/
def Faithful (style : Style) (p : Param) : Prop :=
  ¬ (p.ty = .arith .ldouble ∧ p.qualified = true ∧ (style = .identifiers ∨ p.place = none))

/-- The word of an argument for a `_Bool` of an identifier list is the value of the promoted `int`, extended. -/
def CleanBool (style : Style) (p : Param) (v : Val) (ws : List Word) : Prop :=
  style = .identifiers → p.ty = .arith .bool → Rep v ws

theorem passed_int {b : Basic} (hi : isInteger b = true) {v : Val} {ws : List Word} (h : Passed (.arith b) v ws) :
    ∃ n w, v = .int n ∧ ws = [w] ∧ InRange b n ∧ w.setWidth (8 * basicSize b) = BitVec.ofInt (8 * basicSize b) n := by
  cases v with
  | void => exact h.elim
  | int n => obtain ⟨-, hr, w, rfl, hw⟩ := h; exact ⟨n, w, rfl, rfl, hr, hw⟩
  | fl f x => obtain ⟨rfl, -⟩ := h; cases f <;> cases hi

theorem passed_fl {f : Fmt} {v : Val} {ws : List Word} (h : Passed (.arith (ofFmt f)) v ws) :
    ∃ x : BitVec f.bits, v = .fl f x ∧ Rep (.fl f x) ws := by
  cases v with
  | void => exact h.elim
  | int n => obtain ⟨hi, -⟩ := h; cases f <;> cases hi
  | fl g x =>
    obtain ⟨he, hr⟩ := h
    have : f = g := by cases f <;> cases g <;> first | rfl | cases he
    subst this
    exact ⟨x, rfl, hr⟩

theorem isLd_false {q : Bool} {t : Ty} (h : t ≠ .arith .ldouble) : isLongDouble q t = false := by
  simp [isLongDouble, h]

theorem param_void {E : Env} {v : Val} {ws : List Word} (h : Passed .void v ws) :
    Done E (storePrototype ⟨none, .void, false⟩) ⟨none, .void, false⟩ v ws := by
  cases v with
  | void => cases h; exact done_void _ _ _ _
  | int n => exact h.elim
  | fl f x => exact h.elim

theorem proto_some {o : List Nat} (t : Ty) {q : Bool} (h : t ≠ .void) :
    storePrototype ⟨some o, t, q⟩ = objectLvalue o ++ xchgParamAddress false t ++ storeValue t := by
  simp [storePrototype, h]

theorem proto_none (t : Ty) {q : Bool} (h : t ≠ .void) (h' : t ≠ .arith .ldouble) : storePrototype ⟨none, t, q⟩ = [.pop] := by
  simp [storePrototype, h, isLd_false h']

theorem param_proto (E : Env) {p : Param} {v : Val} {ws : List Word} (hw : WellFormed .prototype p) (hf : Faithful .prototype p)
    (h : Passed p.ty v ws) : Done E (storePrototype p) p v ws := by
  obtain ⟨place, t, q⟩ := p
  cases t with
  | void =>
    obtain ⟨h1, h2, -⟩ := hw.2.1 rfl
    cases h1; cases h2
    exact param_void h
  | arr t n => exact absurd rfl (hw.1 t n)
  | ptr u =>
    cases v with
    | void => exact h.elim
    | fl => exact h.elim
    | int n =>
      obtain ⟨hv, rfl⟩ := h
      cases place with
      | none => rw [proto_none (.ptr u) nofun nofun]; exact done_pop1 _ _ _ _ _
      | some o => rw [proto_some (.ptr u) nofun]; exact done_of_stored (stored_ptr E o false u hv)
  | agg g k =>
    cases v with
    | void => exact h.elim
    | fl => exact h.elim
    | int n =>
      obtain ⟨hv, rfl⟩ := h
      cases place with
      | none => rw [proto_none (.agg g k) nofun nofun]; exact done_pop1 _ _ _ _ _
      | some o => rw [proto_some (.agg g k) nofun]; exact done_agg
  | arith b =>
    by_cases hi : isInteger b = true
    · obtain ⟨n, w, rfl, rfl, hr, hlow⟩ := passed_int hi h
      have hne : Ty.arith b ≠ .arith .ldouble := by rintro ⟨⟩; cases hi
      cases place with
      | none => rw [proto_none (.arith b) nofun hne]; exact done_pop1 _ _ _ _ _
      | some o => rw [proto_some (.arith b) nofun]; exact done_of_stored (stored_int E o false hi hr hlow)
    · have : b = .float ∨ b = .double ∨ b = .ldouble := by
        cases b <;> simp [isInteger] at hi ⊢
      rcases this with rfl | rfl | rfl
      · obtain ⟨x, rfl, w, rfl, hx⟩ := passed_fl (f := .f32) h
        cases place with
        | none => rw [proto_none (.arith .float) nofun nofun]; exact done_pop1 _ _ _ _ _
        | some o => rw [proto_some (.arith .float) nofun]; exact done_of_stored (stored_float E o false hx)
      · obtain ⟨x, rfl, hx⟩ := passed_fl (f := .f64) h
        cases hx
        cases place with
        | none => rw [proto_none (.arith .double) nofun nofun]; exact done_pop1 _ _ _ _ _
        | some o => rw [proto_some (.arith .double) nofun]; exact done_of_stored (stored_double E o false x)
      · obtain ⟨x, rfl, w0, w1, rfl, hx⟩ := passed_fl (f := .f80) h
        cases place with
        | none =>
          have hq : q = false := by
            cases q with
            | false => rfl
            | true => exact absurd ⟨rfl, rfl, .inr rfl⟩ hf
          subst hq
          exact done_pop2 _ _ _ _ _ _
        | some o => rw [proto_some (.arith .ldouble) nofun]; exact done_of_stored (stored_ldouble E o hx)

theorem ident_arith {o : List Nat} {b : Basic} {q : Bool} :
    storeIdentifier ⟨some o, .arith b, q⟩ = objectLvalue o ++ xchgParamAddress q (.arith b) ++
      typeconv (.arith (if b = .float then .double else promoteW b none)) (.arith b) ++ storeValue (.arith b) := by
  rw [← promotion_eq]
  rfl

theorem param_ident (E : Env) {p : Param} {v : Val} {ws : List Word} (hw : WellFormed .identifiers p)
    (hf : Faithful .identifiers p) (hb : CleanBool .identifiers p v ws) (h : Passed (arriving .identifiers p.ty) v ws) :
    Done E (storeIdentifier p) p v ws := by
  obtain ⟨place, t, q⟩ := p
  obtain ⟨hw1, hw2, hw3⟩ := hw
  cases place with
  | none => exact absurd (hw3 rfl) (by simp)
  | some o =>
  cases t with
  | void => exact absurd (hw2 rfl).2.2 nofun
  | arr t n => exact absurd rfl (hw1 t n)
  | ptr u =>
    cases v with
    | void => exact h.elim
    | fl => exact h.elim
    | int n =>
      obtain ⟨hv, rfl⟩ := h
      have e : storeIdentifier ⟨some o, .ptr u, q⟩ = objectLvalue o ++ xchgParamAddress q (.ptr u) ++ storeValue (.ptr u) := by
        simp [storeIdentifier, defaultPromotion, Ty.dec, typeconv]
      rw [e]; exact done_of_stored (stored_ptr E o q u hv)
  | agg g k =>
    cases v with
    | void => exact h.elim
    | fl => exact h.elim
    | int n =>
      obtain ⟨hv, rfl⟩ := h
      have e : storeIdentifier ⟨some o, .agg g k, q⟩ = objectLvalue o ++ xchgParamAddress q (.agg g k) ++ storeValue (.agg g k) := by
        simp [storeIdentifier, defaultPromotion, Ty.dec, Ty.isScalar]
      rw [e]; exact done_agg
  | arith b =>
    rw [ident_arith]
    by_cases hi : isInteger b = true
    · have hfl : b ≠ .float := by rintro rfl; cases hi
      have hp : isInteger (promoteW b none) = true := by cases b <;> simp [isInteger] at hi <;> rfl
      have harr : arriving .identifiers (.arith b) = .arith (promoteW b none) := by simp [arriving, hfl]
      rw [harr] at h
      obtain ⟨n, w, rfl, rfl, hr, hlow⟩ := passed_int hp h
      rw [if_neg hfl]
      refine done_of_stored (stored_promoted E o q hi hr hlow ?_)
      rintro rfl
      have : [w] = [BitVec.ofInt 64 n] := hb rfl rfl
      simpa using this
    · have : b = .float ∨ b = .double ∨ b = .ldouble := by
        cases b <;> simp [isInteger] at hi ⊢
      rcases this with rfl | rfl | rfl
      · obtain ⟨x, rfl, hx⟩ := passed_fl (f := .f64) h
        cases hx
        exact done_of_stored (stored_promotedFloat E o q x)
      · obtain ⟨x, rfl, hx⟩ := passed_fl (f := .f64) h
        cases hx
        have e : typeconv (.arith (if Basic.double = .float then .double else promoteW .double none)) (.arith .double) = [] := rfl
        rw [e, List.append_nil]
        exact done_of_stored (stored_double E o q x)
      · obtain ⟨x, rfl, w0, w1, rfl, hx⟩ := passed_fl (f := .f80) h
        have hq : q = false := by
          cases q with
          | false => rfl
          | true => exact absurd ⟨rfl, rfl, .inl rfl⟩ hf
        subst hq
        have e : typeconv (.arith (if Basic.ldouble = .float then .double else promoteW .ldouble none)) (.arith .ldouble) = [] := rfl
        rw [e, List.append_nil]
        exact done_of_stored (stored_ldouble E o hx)

theorem param_ok (E : Env) {style : Style} {p : Param} {v : Val} {ws : List Word} (hw : WellFormed style p)
    (hf : Faithful style p) (hb : CleanBool style p v ws) (h : Passed (arriving style p.ty) v ws) :
    Done E (storeParam style p) p v ws := by
  cases style with
  | prototype => exact param_proto E hw hf h
  | identifiers => exact param_ident E hw hf hb h

/-! ### All parameters -/

theorem entry_cons (style : Style) (p : Param) (ps : List Param) :
    entry style (p :: ps) = entry style ps ++ storeParam style p := by
  simp [entry]

theorem pushed_cons (ws : List Word) (wss : List (List Word)) : pushed (ws :: wss) = pushed wss ++ ws := by
  simp [pushed]

theorem storage_cons (frame : Word) (p : Param) (ps : List Param) :
    storage frame (p :: ps) = storage frame [p] ++ storage frame ps := by
  simp only [storage, List.filterMap_cons, List.filterMap_nil]
  cases p.place <;> rfl

theorem storage_mem {frame : Word} {p : Param} {ps : List Param} {o : List Nat} (hp : p ∈ ps) (ho : p.place = some o) :
    (offsetBy frame o, p.ty.size) ∈ storage frame ps := by
  simp only [storage, List.mem_filterMap]
  exact ⟨p, hp, by rw [ho]; rfl⟩

/-- The value of an object does not change when its bytes do not. -/
theorem holds_congr {F : FP} {m m1 m2 : Mem} {a : Word} {t : Ty} {v : Val} (h : Holds F m m1 a t v)
    (he : ∀ x, InObj a t.size x → m2 x = m1 x) : Holds F m m2 a t v := by
  have hin : ∀ (n i : Nat), i < n → InObj a n (a + BitVec.ofNat 64 i) := by
    intro n i hi
    simp only [InObj]
    rw [BitVec.add_comm, BitVec.add_sub_cancel, BitVec.toNat_ofNat]
    exact Nat.lt_of_le_of_lt (Nat.mod_le _ _) hi
  unfold Holds at h ⊢
  split
  · rename_i g n src
    intro i hi
    rw [he _ (hin n i hi)]
    exact h i hi
  · rename_i h1
    have h' : ∃ u, conv F t v = some u ∧ load t none m1 a = some u := by
      split at h
      · exact absurd rfl (h1 _ _ _ rfl)
      · exact h
    obtain ⟨u, hc, hl⟩ := h'
    exact ⟨u, hc, by rw [load_congr he]; exact hl⟩

theorem received_congr {F : FP} {frame : Word} {m m1 m2 : Mem} {ps : List Param} {vs : List Val}
    (h : Received F frame m m1 ps vs)
    (he : ∀ r ∈ storage frame ps, ∀ x, InObj r.1 r.2 x → m2 x = m1 x) : Received F frame m m2 ps vs := by
  induction h with
  | nil => exact .nil
  | @cons p v ps vs hp _ ih =>
    refine .cons (fun o ho => holds_congr (hp o ho) ?_) (ih fun r hr => he r ?_)
    · exact he (offsetBy frame o, p.ty.size) (storage_mem (List.mem_cons_self ..) ho)
    · rw [storage_cons]; exact List.mem_append_right _ hr

/-- An aggregate whose bytes have not changed. -/
theorem holds_source {F : FP} {m m1 m2 : Mem} {a : Word} {t : Ty} {v : Val} (h : Holds F m1 m2 a t v)
    (he : ∀ g n src, t = .agg g n → v = .int src → ∀ x, InObj (BitVec.ofInt 64 src) n x → m1 x = m x) :
    Holds F m m2 a t v := by
  unfold Holds at h ⊢
  split
  · rename_i g n src
    intro i hi
    refine (h i hi).trans (he g n src rfl rfl _ ?_)
    simp only [InObj]
    rw [BitVec.add_comm, BitVec.add_sub_cancel, BitVec.toNat_ofNat]
    exact Nat.lt_of_le_of_lt (Nat.mod_le _ _) hi
  · rename_i h1
    split at h
    · exact absurd rfl (h1 _ _ _ rfl)
    · exact h

theorem all_ok (E : Env) {style : Style} (R : List (Word × Nat)) {ps : List Param} {vs : List Val} {wss : List (List Word)}
    (hc : Called style ps vs wss) (hsub : ∀ r ∈ storage E.locals ps, r ∈ R) :
    (∀ p ∈ ps, WellFormed style p) → (∀ p ∈ ps, Faithful style p) → All3 (CleanBool style) ps vs wss →
    All3 (fun p v _ => ∀ g n src, p.ty = .agg g n → v = .int src → ∀ r ∈ R, Apart (BitVec.ofInt 64 src, n) r) ps vs wss →
    (storage E.locals ps).Pairwise Apart → ∀ (s0 : List Word) (m : Mem),
    ∃ m', execs E (entry style ps) (pushed wss ++ s0) m = some (s0, m') ∧ Received E.fp E.locals m m' ps vs ∧
      ∀ x, (∀ r ∈ storage E.locals ps, ¬ InObj r.1 r.2 x) → m' x = m x := by
  induction hc with
  | nil =>
    intro _ _ _ _ _ s0 m
    exact ⟨m, by simp [entry, pushed, execs_nil], .nil, fun _ _ => rfl⟩
  | @cons p v ws ps vs wss hpass _ ih =>
    intro hw hf hb hs hpw s0 m
    cases hb with | cons hb hbs =>
    cases hs with | cons hs hss =>
    rw [storage_cons] at hsub hpw
    obtain ⟨-, hpw2, hap⟩ := List.pairwise_append.1 hpw
    obtain ⟨m1, hx1, hr1, ho1⟩ := ih (fun r hr => hsub r (List.mem_append_right _ hr)) (fun p hp => hw p (List.mem_cons_of_mem _ hp))
      (fun p hp => hf p (List.mem_cons_of_mem _ hp)) hbs hss hpw2 (ws ++ s0) m
    obtain ⟨m2, hx2, hp2, ho2⟩ := param_ok E (hw p (List.mem_cons_self ..)) (hf p (List.mem_cons_self ..)) hb hpass s0 m1
      (fun g n src ht hv r hr => hs g n src ht hv r (hsub r (List.mem_append_left _ hr)))
    refine ⟨m2, ?_, .cons ?_ ?_, ?_⟩
    · rw [entry_cons, pushed_cons, List.append_assoc, execs_append, hx1]
      exact hx2
    · intro o ho
      refine holds_source (hp2 o ho) fun g n src ht hv x hx => ho1 x fun r hr hin => ?_
      exact hs g n src ht hv r (hsub r (List.mem_append_right _ hr)) x ⟨hx, hin⟩
    · exact received_congr hr1 fun r hr x hx => ho2 x fun r' hr' hin => hap r' hr' r hr x ⟨hin, hx⟩
    · intro x hx
      rw [storage_cons] at hx
      rw [ho2 x fun r hr => hx r (List.mem_append_left _ hr), ho1 x fun r hr => hx r (List.mem_append_right _ hr)]

end Kefir.Entry
