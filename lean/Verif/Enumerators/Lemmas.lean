import Verif.Enumerators.Cover
import Verif.ConstExpr.Props

/-! # Enumerators: the analyzer's scopes and values follow the specification -/

namespace Kefir.Enumerators
open Kefir.Types (Basic)
open Kefir.Expr Kefir.C17 Kefir.CSpec
open Kefir.IR (Word Mem)
open Kefir.ConstExpr

/-- The compiler's record of a declaration. -/
def encD : Decl → KDecl
  | .constant v => .constant (BitVec.ofInt 64 v)
  | .object => .object

/-- The compiler's record of the open scopes. -/
def enc (s : Scopes) : KScopes := s.map fun f => f.map fun p => (p.1, encD p.2)

/-- The constants are values of type `int`. -/
def Fits (s : Scopes) : Prop := ∀ f ∈ s, ∀ x v, (x, Decl.constant v) ∈ f → InRange .int v

theorem lookup_enc (x : Name) : (f : List (Name × Decl)) →
    (f.map fun p => (p.1, encD p.2)).lookup x = (f.lookup x).map encD
  | [] => rfl
  | (y, d) :: f => by
    simp only [List.map_cons, List.lookup_cons]
    cases x == y
    · exact lookup_enc x f
    · rfl

theorem resolve_enc (x : Name) : (s : Scopes) → resolve x (enc s) = (visible x s).map encD
  | [] => rfl
  | f :: s => by
    have ih := resolve_enc x s
    simp only [enc, List.map_cons, resolve, visible, lookup_enc] at ih ⊢
    cases f.lookup x with
    | none => exact ih
    | some d => rfl

theorem lookup_mem (x : Name) (d : Decl) : (f : List (Name × Decl)) → f.lookup x = some d → (x, d) ∈ f
  | [], h => by cases h
  | (y, d') :: f, h => by
    rw [List.lookup_cons] at h
    by_cases hxy : x == y
    · rw [hxy] at h
      have := eq_of_beq hxy
      cases h
      subst this
      exact List.mem_cons_self
    · rw [Bool.eq_false_iff.mpr hxy] at h
      exact List.mem_cons_of_mem _ (lookup_mem x d f h)

theorem visible_fits {s : Scopes} (hf : Fits s) {x : Name} {v : Int} (h : visible x s = some (.constant v)) :
    InRange .int v := by
  induction s with
  | nil => cases h
  | cons f s ih =>
    rw [visible] at h
    split at h
    · rename_i d hd
      cases h
      exact hf f List.mem_cons_self x v (lookup_mem x _ f hd)
    · exact ih (fun g hg => hf g (List.mem_cons_of_mem _ hg)) h

theorem toInt_word {v : Int} (h : InRange .int v) : (BitVec.ofInt 64 v).toInt = v := by
  obtain ⟨h1, h2⟩ := h
  have e1 : minVal .int = -2147483648 := by decide
  have e2 : maxVal .int = 2147483647 := by decide
  rw [e1] at h1
  rw [e2] at h2
  rw [BitVec.toInt_ofInt, Int.bmod_def]
  omega

/-! ### Analysis of names -/

theorem analyze_some {s : Scopes} (hf : Fits s) : (e : VExpr) → (e' : Expr) → constants s e = some e' →
    analyze (enc s) e = .ok e'
  | .lit b v, e', h => by cases h; rfl
  | .name x, e', h => by
    rw [constants] at h
    split at h
    · rename_i v hv
      cases h
      rw [analyze, resolve_enc, hv]
      simp only [Option.map_some, encD, toInt_word (visible_fits hf hv)]
    · cases h
  | .cast b e, e', h => by
    rw [constants] at h
    obtain ⟨a, ha, rfl⟩ := Option.map_eq_some_iff.mp h
    rw [analyze, analyze_some hf e a ha]; rfl
  | .un op e, e', h => by
    rw [constants] at h
    obtain ⟨a, ha, rfl⟩ := Option.map_eq_some_iff.mp h
    rw [analyze, analyze_some hf e a ha]; rfl
  | .bin op a b, e', h => by
    rw [constants] at h
    obtain ⟨a', ha, h⟩ := Option.bind_eq_some_iff.mp h
    obtain ⟨b', hb, rfl⟩ := Option.map_eq_some_iff.mp h
    rw [analyze, analyze_some hf a a' ha, Except.bind, analyze_some hf b b' hb]; rfl
  | .land a b, e', h => by
    rw [constants] at h
    obtain ⟨a', ha, h⟩ := Option.bind_eq_some_iff.mp h
    obtain ⟨b', hb, rfl⟩ := Option.map_eq_some_iff.mp h
    rw [analyze, analyze_some hf a a' ha, Except.bind, analyze_some hf b b' hb]; rfl
  | .lor a b, e', h => by
    rw [constants] at h
    obtain ⟨a', ha, h⟩ := Option.bind_eq_some_iff.mp h
    obtain ⟨b', hb, rfl⟩ := Option.map_eq_some_iff.mp h
    rw [analyze, analyze_some hf a a' ha, Except.bind, analyze_some hf b b' hb]; rfl
  | .cond c a b, e', h => by
    rw [constants] at h
    obtain ⟨c', hc, h⟩ := Option.bind_eq_some_iff.mp h
    obtain ⟨a', ha, h⟩ := Option.bind_eq_some_iff.mp h
    obtain ⟨b', hb, rfl⟩ := Option.map_eq_some_iff.mp h
    rw [analyze, analyze_some hf c c' hc, Except.bind, analyze_some hf a a' ha, Except.bind, analyze_some hf b b' hb]
    rfl

/-- Analysis fails with an error, or gives an expression that is not constant. -/
def NotConst : Out Expr → Prop
  | .ok e => e.isConst = false
  | .error f => ∃ c, f = .err c

/-- What analysis gives: `NotConst` when a name is no constant. -/
def Analyzed (s : Scopes) (e : VExpr) : Prop :=
  match constants s e with
  | some e' => analyze (enc s) e = .ok e'
  | none => NotConst (analyze (enc s) e)

theorem Analyzed.cases {s : Scopes} {e : VExpr} (h : Analyzed s e) :
    (∃ e', constants s e = some e' ∧ analyze (enc s) e = .ok e') ∨
    constants s e = none ∧ ((∃ e', analyze (enc s) e = .ok e' ∧ e'.isConst = false) ∨
      ∃ c, analyze (enc s) e = .error (.err c)) := by
  unfold Analyzed at h
  split at h
  · rename_i e' he; exact .inl ⟨e', he, h⟩
  · rename_i he
    refine .inr ⟨he, ?_⟩
    cases ha : analyze (enc s) e with
    | ok e' => rw [ha] at h; exact .inl ⟨e', rfl, h⟩
    | error f => rw [ha] at h; obtain ⟨c, rfl⟩ := h; exact .inr ⟨c, rfl⟩

theorem analyzed_two {s : Scopes} {a b : VExpr} {k : Expr → Expr → Expr}
    (hk : ∀ x y, (k x y).isConst = (x.isConst && y.isConst)) {e : VExpr}
    (hc : constants s e = (constants s a).bind fun a => (constants s b).map fun b => k a b)
    (ha : analyze (enc s) e = (analyze (enc s) a).bind fun a => (analyze (enc s) b).map fun b => k a b)
    (h1 : Analyzed s a) (h2 : Analyzed s b) : Analyzed s e := by
  unfold Analyzed
  rw [hc, ha]
  rcases h1.cases with ⟨a', c1, e1⟩ | ⟨c1, ⟨a', e1, n1⟩ | ⟨f1, e1⟩⟩ <;>
    rcases h2.cases with ⟨b', c2, e2⟩ | ⟨c2, ⟨b', e2, n2⟩ | ⟨f2, e2⟩⟩ <;>
    simp_all [Except.bind, Except.map, NotConst]

theorem analyzed {s : Scopes} (hf : Fits s) : (e : VExpr) → Analyzed s e
  | .lit b v => rfl
  | .name x => by
    unfold Analyzed
    cases hc : constants s (.name x) with
    | some e' => exact analyze_some hf _ _ hc
    | none =>
      simp only [constants, analyze, resolve_enc] at hc ⊢
      cases hv : visible x s with
      | none => exact ⟨_, rfl⟩
      | some d =>
        cases d with
        | constant v => rw [hv] at hc; cases hc
        | object => rfl
  | .cast b e => by
    have h := analyzed hf e
    unfold Analyzed
    rw [constants, analyze]
    rcases h.cases with ⟨a', c1, e1⟩ | ⟨c1, ⟨a', e1, n1⟩ | ⟨f1, e1⟩⟩ <;>
      simp_all [Except.map, NotConst, Expr.isConst]
  | .un op e => by
    have h := analyzed hf e
    unfold Analyzed
    rw [constants, analyze]
    rcases h.cases with ⟨a', c1, e1⟩ | ⟨c1, ⟨a', e1, n1⟩ | ⟨f1, e1⟩⟩ <;>
      simp_all [Except.map, NotConst, Expr.isConst]
  | .bin op a b =>
    analyzed_two (k := .bin op) (fun _ _ => by simp only [Expr.isConst]) (by simp only [constants])
      (by simp only [analyze]) (analyzed hf a) (analyzed hf b)
  | .land a b =>
    analyzed_two (k := .land) (fun _ _ => by simp only [Expr.isConst]) (by simp only [constants])
      (by simp only [analyze]) (analyzed hf a) (analyzed hf b)
  | .lor a b =>
    analyzed_two (k := .lor) (fun _ _ => by simp only [Expr.isConst]) (by simp only [constants])
      (by simp only [analyze]) (analyzed hf a) (analyzed hf b)
  | .cond c a b => by
    have h0 := analyzed hf c
    have h1 := analyzed hf a
    have h2 := analyzed hf b
    unfold Analyzed
    rw [constants, analyze]
    rcases h0.cases with ⟨c', c0, e0⟩ | ⟨c0, ⟨c', e0, n0⟩ | ⟨f0, e0⟩⟩ <;>
      rcases h1.cases with ⟨a', c1, e1⟩ | ⟨c1, ⟨a', e1, n1⟩ | ⟨f1, e1⟩⟩ <;>
      rcases h2.cases with ⟨b', c2, e2⟩ | ⟨c2, ⟨b', e2, n2⟩ | ⟨f2, e2⟩⟩ <;>
      simp_all [Except.bind, Except.map, NotConst, Expr.isConst]

/-! ### The arithmetic is signed -/

/-- Integer types promoted to signed types. -/
def calmB (b : Basic) : Bool := isInteger b && signed (promote b)

/-- An expression the evaluator handles exactly. -/
structure Exact (e : Expr) : Prop where
  exact : exactOps e = true
  signed : noUnsignedLong e = true
  typed : ∃ b, cty e = some (.arith b) ∧ calmB b = true

theorem bt_cty {e : Expr} {b : Basic} (h : cty e = some (.arith b)) : bt e = b := bt_of h

theorem calm_int : calmB .int = true := by decide

theorem calm_promote {b : Basic} (h : calmB b = true) : calmB (promote b) = true := by
  cases b <;> revert h <;> decide +kernel

theorem calm_common {b c : Basic} (hb : calmB b = true) (hc : calmB c = true) :
    calmB (commonReal (promote b) (promote c)) = true ∧ signed (commonReal (promote b) (promote c)) = true ∧
    signed (promote b) = true ∧ promote b ≠ .uint ∧
    fitsIn b (commonReal (promote b) (promote c)) = true ∧ fitsIn c (commonReal (promote b) (promote c)) = true ∧
    commonReal (promote b) (promote c) ≠ .uint := by
  cases b <;> cases c <;> revert hb hc <;> decide +kernel

theorem calm_integer {b : Basic} (h : calmB b = true) : isInteger b = true := (Bool.and_eq_true_iff.mp h).1

theorem exact_bin {op : BinOp} {a b : Expr} (ha : Exact a) (hb : Exact b) : Exact (.bin op a b) := by
  obtain ⟨t1, c1, k1⟩ := ha.typed
  obtain ⟨t2, c2, k2⟩ := hb.typed
  have i1 := calm_integer k1
  have i2 := calm_integer k2
  obtain ⟨g1, g2, g3, g4, g5, g6, g7⟩ := calm_common k1 k2
  refine ⟨?_, ?_, ?_⟩
  · rw [exactOps, ha.exact, hb.exact, bt_cty c1, bt_cty c2]
    simp only [g2, g3, g5, g6, bne_iff_ne.mpr g4, bne_iff_ne.mpr g7, Bool.true_and, Bool.and_true, Bool.true_or,
      beq_self_eq_true, ite_self]
  · rw [noUnsignedLong, ha.signed, hb.signed, bt_cty c1, bt_cty c2, g2]
    simp only [Bool.true_and, Bool.or_true]
  · simp only [cty, c1, c2, Option.bind_some]
    rw [exact_bfw ha.exact, exact_bfw hb.exact]
    have hp := calm_promote k1
    cases op <;> simp only [binTy, commonT, common_none i1 i2, isInt, i1, i2, Bool.and_self, if_true,
      promoteW_none i1]
    all_goals first
      | exact ⟨_, rfl, g1⟩
      | exact ⟨_, rfl, hp⟩
      | exact ⟨_, rfl, calm_int⟩

theorem exact_logic {a b : Expr} (ha : Exact a) (hb : Exact b) : Exact (.land a b) ∧ Exact (.lor a b) := by
  obtain ⟨t1, c1, k1⟩ := ha.typed
  obtain ⟨t2, c2, k2⟩ := hb.typed
  refine ⟨⟨?_, ?_, .int, ?_, calm_int⟩, ⟨?_, ?_, .int, ?_, calm_int⟩⟩
  · rw [exactOps, ha.exact, hb.exact]; rfl
  · rw [noUnsignedLong, ha.signed, hb.signed]; rfl
  · simp only [cty, c1, c2, Option.bind_some]; rfl
  · rw [exactOps, ha.exact, hb.exact]; rfl
  · rw [noUnsignedLong, ha.signed, hb.signed]; rfl
  · simp only [cty, c1, c2, Option.bind_some]; rfl

/-- A signed expression with its constants replaced is handled exactly by the evaluator. -/
theorem exact_of {s : Scopes} (hf : Fits s) : (e : VExpr) → (e' : Expr) → signedExpr e → constants s e = some e' → Exact e'
  | .lit b v, e', hs, h => by
    cases h
    obtain ⟨h1, h2⟩ := hs
    have hi := (Bool.and_eq_true_iff.mp h1).1
    exact ⟨by rw [exactOps]; exact hi, rfl, b, by rw [cty, if_pos ⟨hi, h2⟩], h1⟩
  | .name x, e', hs, h => by
    rw [constants] at h
    split at h
    · rename_i v hv
      cases h
      exact ⟨rfl, rfl, .int, by rw [cty, if_pos ⟨rfl, visible_fits hf hv⟩], calm_int⟩
    · cases h
  | .cast b e, e', hs, h => by
    rw [constants] at h
    obtain ⟨a, ha, rfl⟩ := Option.map_eq_some_iff.mp h
    obtain ⟨h1, h2⟩ := hs
    have ih := exact_of hf e a h2 ha
    obtain ⟨t, ct, -⟩ := ih.typed
    have hi := (Bool.and_eq_true_iff.mp h1).1
    exact ⟨by rw [exactOps, ih.exact, hi]; rfl, by rw [noUnsignedLong]; exact ih.signed, b,
      by simp only [cty, ct, Option.bind_some]; rfl, h1⟩
  | .un op e, e', hs, h => by
    rw [constants] at h
    obtain ⟨a, ha, rfl⟩ := Option.map_eq_some_iff.mp h
    have ih := exact_of hf e a hs ha
    obtain ⟨t, ct, hk⟩ := ih.typed
    have hi := calm_integer hk
    obtain ⟨-, -, g3, g4, -⟩ := calm_common hk hk
    refine ⟨?_, ?_, ?_⟩
    · rw [exactOps, ih.exact, bt_cty ct, bne_iff_ne.mpr g4]; simp only [Bool.or_true, Bool.and_self]
    · rw [noUnsignedLong, ih.signed, bt_cty ct, g3]; simp only [Bool.or_true, Bool.and_self]
    · simp only [cty, ct, Option.bind_some]
      rw [exact_bfw ih.exact]
      cases op <;> simp only [promoteW_none hi, hi, if_true]
      all_goals first
        | exact ⟨_, rfl, calm_promote hk⟩
        | exact ⟨.int, rfl, calm_int⟩
  | .bin op a b, e', hs, h => by
    rw [constants] at h
    obtain ⟨a', ha, h⟩ := Option.bind_eq_some_iff.mp h
    obtain ⟨b', hb, rfl⟩ := Option.map_eq_some_iff.mp h
    exact exact_bin (exact_of hf a a' hs.1 ha) (exact_of hf b b' hs.2 hb)
  | .land a b, e', hs, h => by
    rw [constants] at h
    obtain ⟨a', ha, h⟩ := Option.bind_eq_some_iff.mp h
    obtain ⟨b', hb, rfl⟩ := Option.map_eq_some_iff.mp h
    exact (exact_logic (exact_of hf a a' hs.1 ha) (exact_of hf b b' hs.2 hb)).1
  | .lor a b, e', hs, h => by
    rw [constants] at h
    obtain ⟨a', ha, h⟩ := Option.bind_eq_some_iff.mp h
    obtain ⟨b', hb, rfl⟩ := Option.map_eq_some_iff.mp h
    exact (exact_logic (exact_of hf a a' hs.1 ha) (exact_of hf b b' hs.2 hb)).2
  | .cond c a b, e', hs, h => by
    rw [constants] at h
    obtain ⟨c', hc, h⟩ := Option.bind_eq_some_iff.mp h
    obtain ⟨a', ha, h⟩ := Option.bind_eq_some_iff.mp h
    obtain ⟨b', hb, rfl⟩ := Option.map_eq_some_iff.mp h
    have i0 := exact_of hf c c' hs.1 hc
    have i1 := exact_of hf a a' hs.2.1 ha
    have i2 := exact_of hf b b' hs.2.2 hb
    obtain ⟨t0, c0, -⟩ := i0.typed
    obtain ⟨t1, c1, k1⟩ := i1.typed
    obtain ⟨t2, c2, k2⟩ := i2.typed
    obtain ⟨g1, g2, g3, g4, g5, g6, g7⟩ := calm_common k1 k2
    refine ⟨?_, ?_, _, ?_, g1⟩
    · rw [exactOps, i0.exact, i1.exact, i2.exact, bt_cty c1, bt_cty c2]
      simp only [g5, g6, Bool.true_and]
    · rw [noUnsignedLong, i0.signed, i1.signed, i2.signed]; rfl
    · simp only [cty, c0, c1, c2, Option.bind_some]
      rw [exact_bfw i1.exact, exact_bfw i2.exact]
      simp only [condTy, common_none (calm_integer k1) (calm_integer k2)]
      rfl

/-! ### Values -/

theorem evaluate_ok {C : Ctx} {m : Mem} {s : Scopes} (hf : Fits s) {e : VExpr} (hs : signedExpr e) {v : Int}
    (h : valueOf C m s e = .ok v) : evaluate (enc s) e = .ok (BitVec.ofInt 64 v) := by
  unfold valueOf at h
  split at h
  · cases h
  · rename_i e' he
    split at h
    · rename_i v' m' hv
      cases h
      have hx := exact_of hf e e' hs he
      obtain ⟨b, hb, -⟩ := hx.typed
      obtain ⟨x, h1, -, h3⟩ := C17_signed_partial C e' b _ m m' hx.exact hx.signed hb hv
      cases h1
      obtain ⟨t', hk, -⟩ := kty_agrees e' _ (exact_noSizeof e' hx.exact) hb
      unfold evaluate
      rw [analyze_some hf e e' he]
      simp only [hk, exact_const e' hx.exact, if_true, h3]
    · cases h

theorem evaluate_notConstant {C : Ctx} {m : Mem} {s : Scopes} (hf : Fits s) {e : VExpr}
    (h : valueOf C m s e = .error .notConstant) : ∃ c, evaluate (enc s) e = .error (.err c) := by
  unfold valueOf at h
  split at h
  · rename_i hn
    unfold evaluate
    rcases (analyzed hf e).cases with ⟨e', c1, -⟩ | ⟨-, ⟨e', e1, n1⟩ | ⟨f1, e1⟩⟩
    · rw [hn] at c1; cases c1
    · rw [e1]
      simp only [n1]
      cases kty e' with
      | none => exact ⟨_, rfl⟩
      | some t => exact ⟨_, rfl⟩
    · rw [e1]; exact ⟨_, rfl⟩
  · split at h <;> cases h

theorem valueOf_error {C : Ctx} {m : Mem} {s : Scopes} {e : VExpr} {w : Why} (h : valueOf C m s e = .error w) :
    w = .notConstant ∨ w = .range := by
  unfold valueOf at h
  split at h
  · cases h; exact .inl rfl
  · split at h <;> cases h
    exact .inr rfl

end Kefir.Enumerators
