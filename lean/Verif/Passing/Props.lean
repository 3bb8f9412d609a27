import Verif.Passing.Lemmas
import Verif.Entry.Props

/-!
# C102: the arguments of a call arrive with the types and values C prescribes

`Kefir.Passing.Spec` says which types the arguments are converted to (`passedTypes`), which values they have (`Evaluated`) and
what it means that words hold them (`Sent`).
-/

namespace Kefir.Passing
open Kefir.Types (Basic)
open Kefir.IR
open Kefir.Expr Kefir.CSpec Kefir.C17

/-! ### The code for the arguments -/

/-- C102, arguments: in a call that satisfies the constraints, with arguments whose evaluation, in order, is defined, the code that
is appended to any block, entered with any stack, runs to its end and leaves the words of all arguments, converted to the types of
the parameters or promoted, the last argument on top; memory is the one that the evaluation of the arguments leaves.
Unless an argument is a bit-field, the words hold the values in full.
Missing from the full property: the expressions that `good` excludes, and conversions of floating values to `_Bool` and `unsigned
long` (`convGood`), for which `Expr/Findings.lean` refutes the conversion itself. -/
theorem C102_arguments_partial (E : Env) (L : Lawful E.fp) (d : Declared) (args : List Expr) (m m' : Mem) (us : List Val)
    (hacc : Acceptable d args) (hev : Evaluated (ctxOf E) (passedTypes d args) args m us m')
    (hg : ∀ e ∈ args, good e = true) (ht : ∀ e ∈ args, (cty e).isSome = true)
    (hc : ∀ p ∈ (passedTypes d args).zip args, convGood (ct p.2) p.1 = true) :
    ∃ wss, Sent (passedTypes d args) us wss ∧ ((∀ e ∈ args, e.bfw = none) → Full us wss) ∧
      ∀ (blk post : List Instr) (s : List Word),
        Steps E ((call none (funcType d) args).build blk ++ post) ⟨blk.length, s, m⟩
          ⟨((call none (funcType d) args).build blk).length, Entry.pushed wss ++ s, m'⟩ := by
  obtain ⟨wss, h1, h2, h3⟩ := args_ok E L hev (laid_of d args hacc.1) hg ht hc hacc.2
  refine ⟨wss, h1, h2, fun blk post s => ?_⟩
  have hr : (call none (funcType d) args).run E s m = some (Entry.pushed wss ++ s, m') := by
    simp only [call, SC.run, execs_nil, Option.bind_some, h3]
  have := SC.steps_run E (call none (funcType d) args) ⟨plain_of rfl, arguments_ok _ _⟩ blk post s m _ m' hr
  rw [SC.build_eq, List.length_append, SC.flat_length]
  exact this.steps

/-- C102, calls through pointers: the address of the function, which is evaluated first, is left below the arguments. -/
theorem C102_indirect_partial (E : Env) (L : Lawful E.fp) (d : Declared) (f : Expr) (p : Ty) (args : List Expr)
    (m m0 m' : Mem) (a : Int) (us : List Val) (hf : good f = true) (hft : cty f = some (.ptr p))
    (hfv : eval (ctxOf E) f m = some (.int a, m0))
    (hacc : Acceptable d args) (hev : Evaluated (ctxOf E) (passedTypes d args) args m0 us m')
    (hg : ∀ e ∈ args, good e = true) (ht : ∀ e ∈ args, (cty e).isSome = true)
    (hc : ∀ p ∈ (passedTypes d args).zip args, convGood (ct p.2) p.1 = true) :
    ∃ wss, Sent (passedTypes d args) us wss ∧
      ∀ (blk post : List Instr) (s : List Word),
        Steps E ((call (some f) (funcType d) args).build blk ++ post) ⟨blk.length, s, m⟩
          ⟨((call (some f) (funcType d) args).build blk).length, Entry.pushed wss ++ BitVec.ofInt 64 a :: s, m'⟩ := by
  obtain ⟨wss, h1, -, h3⟩ := args_ok E L hev (laid_of d args hacc.1) hg ht hc hacc.2
  obtain ⟨-, ws, hr, hx⟩ := sound E L f hf _ _ _ _ hft hfv
  simp only [Rep] at hr
  subst hr
  refine ⟨wss, h1, fun blk post s => ?_⟩
  have hr : (call (some f) (funcType d) args).run E s m = some (Entry.pushed wss ++ BitVec.ofInt 64 a :: s, m') := by
    simp only [call, SC.run, hx, Option.bind_some, h3, List.cons_append, List.nil_append]
  have := SC.steps_run E (call (some f) (funcType d) args) ⟨tr_ok f, arguments_ok _ _⟩ blk post s m _ m' hr
  rw [SC.build_eq, List.length_append, SC.flat_length]
  exact this.steps

/-- `void f(short, ...)`, called as `f(65537, (signed char)-1, x.b)` with a bit-field of three bits: the hypotheses of the two
theorems hold, and the values are 1, -1 and 0. -/
def exampleCall : Declared × List Expr :=
  (.prototype [.arith .short] true,
    [.const .int 65537, .cast (.arith .schar) (.const .int (-1)),
     .lval (.member (.addr (.auto [8] (.agg 0 8))) [0] (.arith .uint) (some (0, 3)))])

example : passedTypes exampleCall.1 exampleCall.2 = [.arith .short, .arith .int, .arith .int] := by decide

example : Acceptable exampleCall.1 exampleCall.2 := by
  refine ⟨⟨by decide, nofun⟩, fun p hp => .inl ?_⟩
  revert p
  decide

example : ∃ m', Evaluated (ctxOf toyEnv) (passedTypes exampleCall.1 exampleCall.2) exampleCall.2 (fun _ => 0)
    [.int 1, .int (-1), .int 0] m' := by
  have h : (eval (ctxOf toyEnv) (.lval (.member (.addr (.auto [8] (.agg 0 8))) [0] (.arith .uint) (some (0, 3))))
      (fun _ => 0)).map (·.1) = some (.int 0) := by decide +kernel
  obtain ⟨⟨v, m'⟩, h1, h2⟩ := Option.map_eq_some_iff.mp h
  cases h2
  exact ⟨m', .cons rfl rfl (.cons rfl rfl (.cons h1 rfl .nil))⟩

example : (∀ e ∈ exampleCall.2, good e = true) ∧ (∀ e ∈ exampleCall.2, (cty e).isSome = true) ∧
    ∀ p ∈ (passedTypes exampleCall.1 exampleCall.2).zip exampleCall.2, convGood (ct p.2) p.1 = true := by decide

/-! ### The declaration -/

theorem exceed_declared (ps : List Ty) (args : List Expr) :
    (allocArgs (ps.map some) args).2 = decide (ps.length < args.length) := by
  induction ps generalizing args with
  | nil => cases args <;> rfl
  | cons p ps ih =>
    simp only [List.map_cons, allocArgs, ih, List.length_tail, List.length_cons]
    exact decide_eq_decide.mpr (by omega)

theorem exceed_names (n : Nat) (args : List Expr) :
    (allocArgs (List.replicate n none) args).2 = decide (n < args.length) := by
  induction n generalizing args with
  | zero => cases args <;> rfl
  | succ n ih =>
    simp only [List.replicate_succ, allocArgs, ih, List.length_tail]
    exact decide_eq_decide.mpr (by omega)

/-- The type in the declaration stands for the type of the specification: the same up to `long long` and `long`; a bit-field may be
promoted to another integer type. -/
def Stands (e : Expr) (T K : Ty) : Prop := K.norm = T.norm ∨ (e.bfw.isSome = true ∧ isInt T = true ∧ isInt K = true)

/-- Types of the specification, arguments and types in the declaration, one by one. -/
inductive Agree : List Ty → List Expr → List Ty → Prop
  | nil : Agree [] [] []
  | cons {T e K Ts es Ks} : Stands e T K → Agree Ts es Ks → Agree (T :: Ts) (e :: es) (K :: Ks)

theorem stands_promoted {e : Expr} {t : Ty} (hg : good e = true) (ht : cty e = some t) (hna : ∀ u n, t ≠ .arr u n) :
    Stands e (promoted e) (Entry.defaultPromotion (kt e)) := by
  have hn := kt_of hg ht
  simp only [promoted, ct_of ht]
  cases t with
  | arith b =>
    obtain ⟨b', hk, hb'⟩ := norm_eq_arith hn
    have hl : Entry.defaultPromotion (kt e) = .arith (if b' = .float then .double else promoteW b' none) := by
      rw [hk, ← Entry.promotion_eq]; rfl
    rw [hl]
    cases hw : e.bfw with
    | none =>
      left
      rcases normB_cases hb' with rfl | ⟨rfl, rfl⟩ | ⟨rfl, rfl⟩ | ⟨rfl, rfl⟩ | ⟨rfl, rfl⟩ <;>
        first
        | rfl
        | (simp only [promoteArg]; split <;> rfl)
    | some w =>
      cases hi : isInteger b with
      | true =>
        have hi' : isInteger b' = true := (normB_facts hb').1.trans hi
        have hbf : b ≠ .float := by rintro rfl; cases hi
        have hbf' : b' ≠ .float := by rintro rfl; cases hi'
        right
        simp only [promoteArg, if_neg hbf, if_neg hbf', isInt, promote_int hi, promote_int hi', Option.isSome, hw, and_self]
      | false =>
        have hbb : b' = b := by
          have hi' : isInteger b' = false := (normB_facts hb').1.trans hi
          cases b <;> first
            | (exact absurd hi (by decide))
            | (cases b' <;> first | rfl | (exact absurd hi' (by decide)) | (exact absurd hb' (by decide)))
        subst hbb
        left
        simp only [promoteArg]
        split <;> simp [promoteW, hi]
  | arr u n => exact absurd rfl (hna u n)
  | void => left; cases hq : kt e <;> rw [hq] at hn <;> first | rfl | cases hn
  | ptr p => left; cases hq : kt e <;> rw [hq] at hn <;> first | (cases hn; rfl) | cases hn
  | agg g n => left; cases hq : kt e <;> rw [hq] at hn <;> first | (cases hn; rfl) | cases hn

theorem agree_promoted : ∀ (args : List Expr), (∀ e ∈ args, good e = true) →
    (∀ e ∈ args, ∃ t, cty e = some t ∧ ∀ u n, t ≠ .arr u n) →
    Agree (args.map promoted) args (args.map fun e => Entry.defaultPromotion (kt e))
  | [], _, _ => .nil
  | e :: es, hg, ht => by
    obtain ⟨t, h1, h2⟩ := ht e (by simp)
    exact .cons (stands_promoted (hg e (by simp)) h1 h2)
      (agree_promoted es (fun e' h' => hg e' (by simp [h'])) fun e' h' => ht e' (by simp [h']))

theorem agree_declared : ∀ (ps : List Ty) (args : List Expr), ps.length ≤ args.length → (∀ e ∈ args, good e = true) →
    (∀ e ∈ args, ∃ t, cty e = some t ∧ ∀ u n, t ≠ .arr u n) →
    Agree (ps ++ (args.drop ps.length).map promoted) args ((allocArgs (ps.map some) args).1.filterMap id)
  | [], args, _, hg, ht => by
    simpa [allocArgs, List.filterMap_map, Function.comp_def] using agree_promoted args hg ht
  | p :: ps, [], h, _, _ => by simp at h
  | p :: ps, e :: es, h, hg, ht =>
    .cons (.inl rfl) (agree_declared ps es (by simpa using h) (fun e' h' => hg e' (by simp [h'])) fun e' h' => ht e' (by simp [h']))

theorem agree_names : ∀ (n : Nat) (args : List Expr), (∀ e ∈ args, good e = true) →
    (∀ e ∈ args, ∃ t, cty e = some t ∧ ∀ u n, t ≠ .arr u n) →
    Agree (args.map promoted) args ((allocArgs (List.replicate n none) args).1.filterMap id)
  | 0, args, hg, ht => by
    simpa [allocArgs, List.filterMap_map, Function.comp_def] using agree_promoted args hg ht
  | n + 1, [], hg, ht => by
    have := agree_names n [] (by simp) (by simp)
    simpa [List.replicate_succ, allocArgs] using this
  | n + 1, e :: es, hg, ht => by
    obtain ⟨t, h1, h2⟩ := ht e (by simp)
    exact .cons (stands_promoted (hg e (by simp)) h1 h2)
      (agree_names n es (fun e' h' => hg e' (by simp [h'])) fun e' h' => ht e' (by simp [h']))

theorem agree_no_void : ∀ {Ts : List Ty} {args : List Expr} {Ks : List Ty}, Agree Ts args Ks → (∀ T ∈ Ts, T ≠ .void) →
    Ks.filter (· != .void) = Ks
  | _, _, _, .nil, _ => rfl
  | _, _, _, @Agree.cons T e K Ts es Ks h hr, hv => by
    have hK : (K != .void) = true := by
      rw [bne_iff_ne]
      rintro rfl
      rcases h with h | ⟨-, -, h⟩
      · have := hv T (by simp)
        cases T <;> first | (exact this rfl) | cases h
      · cases h
    rw [List.filter_cons, if_pos hK, agree_no_void hr fun T h' => hv T (by simp [h'])]

/-- C102, declarations: the declaration that a call is translated with has one member for each argument, in order, of the type the
argument is converted to; and it asks for the convention of variable arguments exactly if the prototype ends with an ellipsis, or
there are more arguments than the type of the function knows of. -/
theorem C102_declaration (d : Declared) (args : List Expr) (hacc : Acceptable d args) (hg : ∀ e ∈ args, good e = true)
    (ht : ∀ e ∈ args, ∃ t, cty e = some t ∧ ∀ u n, t ≠ .arr u n) (hv : ∀ T ∈ passedTypes d args, T ≠ .void) :
    Agree (passedTypes d args) args (declaration (funcType d) args).args ∧
      (declaration (funcType d) args).vararg = variadic d args := by
  cases d with
  | noPrototype n =>
    have h := agree_names n args hg ht
    refine ⟨?_, ?_⟩
    · simp only [declaration, funcType]
      rw [agree_no_void h hv]; exact h
    · simp only [declaration, funcType, variadic, Bool.false_or, exceed_names]
  | prototype ps el =>
    cases el with
    | false =>
      have hlen : args.length = ps.length := hacc.1
      by_cases hps : ps = []
      · subst hps
        have : args = [] := List.eq_nil_of_length_eq_zero hlen
        subst this
        exact ⟨.nil, rfl⟩
      · have hf : (funcType (.prototype ps false)).params = ps.map some := by
          simp [funcType, hps]
        have h := agree_declared ps args (Nat.le_of_eq hlen.symm) hg ht
        simp only [passedTypes, List.take_of_length_le (Nat.le_of_eq hlen.symm)] at hv ⊢
        refine ⟨?_, ?_⟩
        · simp only [declaration, hf]
          rw [agree_no_void h hv]; exact h
        · have hell : (funcType (.prototype ps false)).ellipsis = false := rfl
          simp only [declaration, hf, hell, exceed_declared, variadic, Bool.false_or, hlen, Nat.lt_irrefl, decide_false]
    | true =>
      obtain ⟨hlen, hps⟩ : ps.length ≤ args.length ∧ ps ≠ [] := hacc.1
      have hf : (funcType (.prototype ps true)).params = ps.map some := by simp [funcType]
      have h := agree_declared ps args hlen hg ht
      simp only [passedTypes, List.take_of_length_le hlen] at hv ⊢
      refine ⟨?_, ?_⟩
      · simp only [declaration, hf]
        rw [agree_no_void h hv]; exact h
      · simp only [declaration, funcType, variadic, Bool.true_or]

/-- The example call: three members, variable arguments.  The bit-field is promoted to `unsigned int`, not to `int`. -/
example : declaration (funcType exampleCall.1) exampleCall.2 = ⟨[.arith .short, .arith .int, .arith .uint], true⟩ := by decide

example : (∀ e ∈ exampleCall.2, ∃ t, cty e = some t ∧ ∀ u n, t ≠ .arr u n) ∧
    ∀ T ∈ passedTypes exampleCall.1 exampleCall.2, T ≠ .void := by
  refine ⟨?_, by decide⟩
  intro e he
  simp only [exampleCall, List.mem_cons, List.not_mem_nil, or_false] at he
  rcases he with rfl | rfl | rfl <;> exact ⟨_, rfl, nofun⟩

/-- `f(void)`: no members. -/
example : declaration (funcType (.prototype [] false)) [] = ⟨[], false⟩ := by decide

/-- `int g();` called with two arguments: variable arguments. -/
example : declaration (funcType (.noPrototype 0)) [.const .int 1, .fconst .f32 0] =
    ⟨[.arith .int, .arith .double], true⟩ := by decide

/-! ### Caller and called function -/

theorem called_of {style : Entry.Style} : ∀ {ps : List Entry.Param} {us : List Val} {wss : List (List Word)},
    Sent (ps.map fun p => Entry.arriving style p.ty) us wss → Entry.Called style ps us wss
  | [], _, _, h => by cases h; exact .nil
  | p :: ps, _, _, h => by cases h with | cons h1 h2 => exact .cons h1 (called_of h2)

theorem clean_of {style : Entry.Style} : ∀ {ps : List Entry.Param} {us : List Val} {wss : List (List Word)},
    Entry.Called style ps us wss → Full us wss → Entry.All3 (Entry.CleanBool style) ps us wss
  | _, _, _, .nil, _ => .nil
  | _, _, _, .cons _ hr, hf => by cases hf with | cons h1 h2 => exact .cons (fun _ _ => h1) (clean_of hr h2)

theorem clean_prototype : ∀ {ps : List Entry.Param} {us : List Val} {wss : List (List Word)},
    Entry.Called .prototype ps us wss → Entry.All3 (Entry.CleanBool .prototype) ps us wss
  | _, _, _, .nil => .nil
  | _, _, _, .cons _ hr => .cons nofun (clean_prototype hr)

/-- C102, from the call to the body: the words that the code of a call leaves, in a caller with the storage `E.locals`, are such
that the code at the entry of the called function, with its own storage, sets each parameter with a name to the value of its
argument.  For a function with a prototype the parameters are those of the prototype; for one with an identifier list the promoted
types of the arguments have to be those of the parameters (6.5.2.2p6), and no argument is a bit-field.
Missing from the full property: what C102_arguments_partial and C97_parameters_partial lack. -/
theorem C102_received_partial (E E' : Env) (L : Lawful E.fp) (style : Entry.Style) (ps : List Entry.Param)
    (args : List Expr) (m m' : Mem) (us : List Val) (d : Declared)
    (hd : match style with
      | .prototype => d = .prototype (ps.map (·.ty)) false
      | .identifiers => d = .noPrototype ps.length ∧ (∀ e ∈ args, e.bfw = none))
    (hty : passedTypes d args = ps.map fun p => Entry.arriving style p.ty)
    (hacc : Acceptable d args) (hev : Evaluated (ctxOf E) (passedTypes d args) args m us m')
    (hg : ∀ e ∈ args, good e = true) (ht : ∀ e ∈ args, (cty e).isSome = true)
    (hc : ∀ p ∈ (passedTypes d args).zip args, convGood (ct p.2) p.1 = true)
    (hwf : ∀ p ∈ ps, Entry.WellFormed style p) (hf : ∀ p ∈ ps, Entry.Faithful style p)
    (hapart : (Entry.storage E'.locals ps).Pairwise Entry.Apart)
    (hsrc : ∀ wss, Entry.Called style ps us wss → Entry.SourcesApart E'.locals ps us wss) :
    ∃ wss, (∀ (blk post : List Instr) (s : List Word),
        Steps E ((call none (funcType d) args).build blk ++ post) ⟨blk.length, s, m⟩
          ⟨((call none (funcType d) args).build blk).length, Entry.pushed wss ++ s, m'⟩) ∧
      ∀ s0, ∃ m2, execs E' (Entry.entry style ps) (Entry.pushed wss ++ s0) m' = some (s0, m2) ∧
        Entry.Received E'.fp E'.locals m' m2 ps us := by
  obtain ⟨wss, h1, h2, h3⟩ := C102_arguments_partial E L d args m m' us hacc hev hg ht hc
  rw [hty] at h1
  have hcall := called_of h1
  have hb : Entry.All3 (Entry.CleanBool style) ps us wss := by
    cases style with
    | prototype => exact clean_prototype hcall
    | identifiers => exact clean_of hcall (h2 hd.2)
  refine ⟨wss, h3, fun s0 => ?_⟩
  obtain ⟨m2, g1, g2, -⟩ := Entry.C97_parameters_partial E' style ps us wss hcall hwf hf hb hapart (hsrc wss hcall) s0 m'
  exact ⟨m2, g1, g2⟩

/-- `void f(short a, unsigned char b) {…}` called as `f(65537, -1)`: the hypotheses hold, and the parameters become 1 and 255. -/
example : ∃ (ps : List Entry.Param) (args : List Expr) (us : List Val),
    (passedTypes (.prototype (ps.map (·.ty)) false) args = ps.map fun p => Entry.arriving .prototype p.ty) ∧
    Acceptable (.prototype (ps.map (·.ty)) false) args ∧
    Evaluated (ctxOf toyEnv) (passedTypes (.prototype (ps.map (·.ty)) false) args) args (fun _ => 0) us (fun _ => 0) ∧
    (∀ e ∈ args, good e = true) ∧ (∀ e ∈ args, (cty e).isSome = true) ∧
    (∀ p ∈ (passedTypes (.prototype (ps.map (·.ty)) false) args).zip args, convGood (ct p.2) p.1 = true) ∧
    (∀ p ∈ ps, Entry.WellFormed .prototype p) ∧ (∀ p ∈ ps, Entry.Faithful .prototype p) ∧ us = [.int 1, .int 255] ∧
    (∀ wss, Entry.Called .prototype ps us wss → Entry.SourcesApart toyEnv.locals ps us wss) := by
  refine ⟨[⟨some [0], .arith .short, false⟩, ⟨some [2], .arith .uchar, false⟩], [.const .int 65537, .const .int (-1)],
    [.int 1, .int 255], by decide, ⟨rfl, fun p hp => .inl ?_⟩, .cons rfl rfl (.cons rfl rfl .nil), by decide, by decide,
    by decide, ?_, ?_, rfl, ?_⟩
  · revert p; decide
  · intro p hp
    simp only [List.mem_cons, List.not_mem_nil, or_false] at hp
    rcases hp with rfl | rfl <;> exact ⟨nofun, nofun, nofun⟩
  · intro p hp
    simp only [List.mem_cons, List.not_mem_nil, or_false] at hp
    rcases hp with rfl | rfl <;> simp [Entry.Faithful]
  · intro wss h
    cases h with
    | cons h1 hr => cases hr with
      | cons h2 hr => cases hr; exact .cons nofun (.cons nofun .nil)

/-! ### The result -/

theorem int_low {b : Basic} (hi : isInteger b = true) (hne : b ≠ .bool) {v : Int} {w : Word} (hr : InRange b v)
    (hw : w.setWidth (8 * basicSize b) = BitVec.ofInt (8 * basicSize b) v) : wrap b w.toInt = v := by
  rw [← wrap_of_inRange hr hi]
  apply wrap_congr hne
  rw [width_eq hi hne]
  have h1 := congrArg BitVec.toNat hw
  rw [BitVec.toNat_setWidth, BitVec.toNat_ofInt] at h1
  have hlt := w.isLt
  rw [BitVec.toInt_eq_toNat_cond]
  cases b <;> first | (exact absurd hi (by decide)) | skip
  all_goals simp only [basicSize] at h1 ⊢
  all_goals (split <;> omega)

/-- C102, results of scalar type: the words in which the called function returns a value become the words of the value in full;
nothing else on the stack and no memory changes.
Missing from the full property: a result of type `_Bool` has to be extended by the called function (`C102_bool_result_false`). -/
theorem C102_scalar_result_partial (E : Env) (t : Ty) (tmp : List Nat) (v : Val) (ws : List Word) (hs : isScalarT t = true)
    (hp : Entry.Passed t v ws) (hb : t = .arith .bool → Rep v ws) (s : List Word) (m : Mem) :
    ∃ ws', Rep v ws' ∧ execs E (result t tmp) (ws ++ s) m = some (ws' ++ s, m) := by
  cases t with
  | void => cases hs
  | arr => cases hs
  | agg => cases hs
  | ptr p =>
    cases v with
    | int x => obtain ⟨-, rfl⟩ := hp; exact ⟨_, rfl, rfl⟩
    | void => exact hp.elim
    | fl f x => exact hp.elim
  | arith b =>
    cases v with
    | void => exact hp.elim
    | fl f x =>
      obtain ⟨rfl, hr⟩ := hp
      refine ⟨ws, hr, ?_⟩
      simp only [result, Ty.isScalar, if_true, normalize, fmtOf_ofFmt, execs_nil]
    | int x =>
      obtain ⟨hi, hr, w, rfl, hw⟩ := hp
      have hfm : fmtOf b = none := by cases b <;> first | rfl | (exact absurd hi (by decide))
      refine ⟨[BitVec.ofInt 64 x], rfl, ?_⟩
      simp only [result, Ty.isScalar, if_true, normalize_int hfm, List.cons_append, List.nil_append]
      by_cases hbool : b = .bool
      · have := hb (by rw [hbool])
        simp only [Rep, List.cons.injEq, and_true] at this
        subst this
        have hW : b = .bool → W64 x := by
          intro _
          subst hbool
          unfold InRange at hr
          simp [minVal, maxVal, signed, width] at hr
          unfold W64
          omega
        rw [reduceTo_ok E b hi x hW, wrap_of_inRange hr hi]
      · have h := reduceTo_ok E b hi w.toInt (fun h => absurd h hbool) s m
        rw [BitVec.ofInt_toInt, int_low hi hbool hr hw] at h
        exact h

/-- C102, results of structure and union type: the bytes that the called function returned are copied to the temporary object of
the call, whose address is left; no other byte changes. -/
theorem C102_aggregate_result (E : Env) (g n : Nat) (tmp : List Nat) (src : Word) (s : List Word) (m : Mem)
    (hap : Entry.Apart (src, n) (offsetBy E.locals tmp, n)) :
    ∃ m', execs E (result (.agg g n) tmp) (src :: s) m = some (offsetBy E.locals tmp :: s, m') ∧
      (∀ i < n, m' (offsetBy E.locals tmp + BitVec.ofNat 64 i) = m (src + BitVec.ofNat 64 i)) ∧
      ∀ x, ¬ Entry.InObj (offsetBy E.locals tmp) n x → m' x = m x := by
  have hsrc : BitVec.ofInt 64 src.toInt = src := BitVec.ofInt_toInt
  obtain ⟨m', h1, h2, h3⟩ := Entry.stored_agg E tmp false g n (v := src.toInt) s m (by rw [hsrc]; exact hap)
  rw [hsrc] at h1
  refine ⟨m', ?_, fun i hi => ?_, h3⟩
  · have e : result (.agg g n) tmp = Entry.objectLvalue tmp ++ [.pick 0, .xchg 2, .bcopy (Ty.agg g n).size] := rfl
    rw [e, execs_append, Entry.lvalue_ok, Option.bind_some]
    rw [execs_append, execs_append, List.cons_append, List.nil_append, Entry.lvalue_ok, Option.bind_some,
      Entry.xchg_word E (show Ty.agg g n ≠ .arith .ldouble from nofun), Option.bind_some] at h1
    simp only [storeValue, execs_cons, execs_nil, exec_bcopy, Option.bind_some, Option.some.injEq, Prod.mk.injEq] at h1
    obtain ⟨-, rfl⟩ := h1
    rfl
  · have := h2 i hi
    rwa [hsrc] at this

/-- `unsigned char f(void)` that returns 200 and leaves other bits of the register set. -/
example : Entry.Passed (.arith .uchar) (.int 200) [0x1c8] ∧
    execs toyEnv (result (.arith .uchar) []) [0x1c8] (fun _ => 0) = some ([200], fun _ => 0) :=
  ⟨⟨rfl, by decide, _, rfl, by decide⟩, rfl⟩

/-- Bytes returned at 0x9000, temporary object at the beginning of the storage of automatic objects. -/
example : Entry.Apart ((0x9000 : Word), 16) (offsetBy toyEnv.locals [0], 16) := by
  intro x h
  simp only [Entry.InObj, toyEnv, offsetBy] at h
  have h1 := h.1
  have h2 := h.2
  rw [BitVec.toNat_sub] at h1 h2
  have := x.isLt
  simp at h1 h2
  omega

/-- `if (f())` for a function `_Bool f(void)` that returns 0 and leaves other bits of the register set, as the System V ABI
allows: the result is normalised to 1, because the whole word is compared with zero. -/
theorem C102_bool_result_false :
    ∃ (ws : List Word), Entry.Passed (.arith .bool) (.int 0) ws ∧
      execs toyEnv (result (.arith .bool) []) ws (fun _ => 0) = some ([1], fun _ => 0) :=
  ⟨[0x100], ⟨rfl, by decide, _, rfl, by decide⟩, rfl⟩

end Kefir.Passing
