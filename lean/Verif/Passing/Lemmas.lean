import Verif.Passing.Model
import Verif.Entry.Sound
import Verif.Expr.Plain
import Verif.Expr.Props

/-! Lemmas for `Verif/Passing/Props.lean`. -/

namespace Kefir.Passing
open Kefir.Types (Basic)
open Kefir.IR
open Kefir.Expr Kefir.CSpec Kefir.C17

theorem pushed_cons (ws : List Word) (wss : List (List Word)) (s : List Word) :
    Entry.pushed (ws :: wss) ++ s = Entry.pushed wss ++ (ws ++ s) := by
  simp [Entry.pushed]

/-! ### Layouts -/

/-- Types of the specification, arguments and argument layouts, one by one. -/
inductive Laid : List Ty → List Expr → List (Option Ty) → Prop
  | nil {ls} : Laid [] [] ls
  | declared {T e Ts es ls} : Laid Ts es ls → Laid (T :: Ts) (e :: es) (some T :: ls)
  | promoted {e Ts es ls} : Laid Ts es ls →
      Laid (promoted e :: Ts) (e :: es) (some (Entry.defaultPromotion (kt e)) :: ls)

theorem laid_promoted (args : List Expr) :
    Laid (args.map promoted) args (args.map fun e => some (Entry.defaultPromotion (kt e))) := by
  induction args with
  | nil => exact .nil
  | cons e es ih => exact .promoted ih

theorem laid_names (n : Nat) (args : List Expr) :
    Laid (args.map promoted) args (allocArgs (List.replicate n none) args).1 := by
  induction n generalizing args with
  | zero => exact laid_promoted args
  | succ n ih =>
    cases args with
    | nil => exact .nil
    | cons e es => exact .promoted (ih es)

theorem laid_declared (ps : List Ty) (args : List Expr) (h : ps.length ≤ args.length) :
    Laid (ps ++ (args.drop ps.length).map promoted) args (allocArgs (ps.map some) args).1 := by
  induction ps generalizing args with
  | nil => exact laid_promoted args
  | cons p ps ih =>
    cases args with
    | nil => simp at h
    | cons e es => exact .declared (ih es (by simpa using h))

theorem laid_of (d : Declared) (args : List Expr) (h : CountOk d args) :
    Laid (passedTypes d args) args (allocArgs (funcType d).params args).1 := by
  cases d with
  | noPrototype n => exact laid_names n args
  | prototype ps el =>
    have hle : ps.length ≤ args.length := by
      cases el with
      | false => exact Nat.le_of_eq h.symm
      | true => exact h.1
    simp only [passedTypes, List.take_of_length_le hle, funcType]
    split
    · rename_i hc
      obtain ⟨rfl, rfl⟩ := hc
      have : args = [] := List.eq_nil_of_length_eq_zero h
      subst this
      exact .nil
    · exact laid_declared ps args hle

/-! ### One argument -/

theorem size_le {b : Basic} (hb : isInteger b = true) : 8 * basicSize b ≤ 64 := by
  cases b <;> first | (exact absurd hb (by decide)) | decide

theorem passed_of {t : Ty} {v : Val} {ws : List Word} (hT : HasTy t v) (hr : Rep v ws) : Entry.Passed t v ws := by
  cases t <;> cases v <;> simp only [HasTy] at hT
  · exact hr
  · rename_i b x
    exact ⟨hT.1, hT.2, _, hr, setWidth_ofInt (size_le hT.1) _⟩
  · exact ⟨hT, hr⟩
  · exact ⟨hT, hr⟩
  · exact ⟨hT, hr⟩

theorem isScalar_norm {t u : Ty} (h : t.norm = u.norm) : t.isScalar = isScalarT u := by
  cases t <;> cases u <;> simp_all [Ty.norm, Ty.isScalar, isScalarT]

/-- The effect of the code for an argument. -/
def ArgOk (E : Env) (e : Expr) (l T : Ty) (m : Mem) (u : Val) (m' : Mem) : Prop :=
  ∃ ws, Entry.Passed T u ws ∧ (l = T ∨ e.bfw = none → Rep u ws) ∧
    ∀ s, (argument e l).run E s m = some (ws ++ s, m')

theorem declared_ok (E : Env) (L : Lawful E.fp) {e : Expr} {T t : Ty} {m m' : Mem} {v u : Val} (hg : good e = true)
    (ht : cty e = some t) (hc : convGood t T = true) (ha : (isScalarT T = true ∧ isScalarT t = true) ∨ T = t)
    (he : eval (ctxOf E) e m = some (v, m')) (hu : conv E.fp T v = some u) : ArgOk E e T T m u m' := by
  obtain ⟨hT, ws, hr, hx⟩ := sound E L e hg _ _ _ _ ht he
  have hn := kt_of hg ht
  by_cases hs : isScalarT t = true
  · rw [← convGood_norm hn rfl] at hc
    obtain ⟨h1, ws', h2, h3⟩ := typeconv_ok E ((hasTy_norm hn).mpr hT) hr hc hu
    refine ⟨ws', passed_of h1 h2, fun _ => h2, fun s => ?_⟩
    simp only [argument, SC.run, hx, Option.bind_some, isScalar_norm hn, hs, if_true, h3]
  · have hTt : T = t := by
      rcases ha with h | h
      · exact absurd h.2 hs
      · exact h
    subst hTt
    rw [conv_self hT, Option.some.injEq] at hu
    subst hu
    refine ⟨ws, passed_of hT hr, fun _ => hr, fun s => ?_⟩
    simp only [argument, SC.run, hx, Option.bind_some, isScalar_norm hn, hs, Bool.false_eq_true, if_false, execs_nil]

theorem inRange_promote {b : Basic} (hb : isInteger b = true) {x : Int} (h : InRange b x) : InRange (promote b) x := by
  unfold InRange at *
  cases b <;> first | (simp [isInteger] at hb; done) | skip
  all_goals simp [minVal, maxVal, signed, width, promote, convRank] at h ⊢
  all_goals omega

theorem promote_int {b : Basic} (hb : isInteger b = true) (w : Option Nat) : isInteger (promoteW b w) = true := by
  unfold promoteW
  rw [hb]
  cases w with
  | none => cases b <;> first | rfl | (exact absurd hb (by decide))
  | some w =>
    simp only [Bool.not_true, Bool.false_eq_true, if_false]
    split
    · rfl
    · exact hb

theorem promote_bool {b : Basic} (hb : isInteger b = true) (w : Option Nat) (h : promoteW b w = .bool) : b = .bool := by
  unfold promoteW at h
  rw [hb] at h
  cases w with
  | none => cases b <;> first | rfl | (exact absurd h (by decide)) | (exact absurd hb (by decide))
  | some w =>
    simp only [Bool.not_true, Bool.false_eq_true, if_false] at h
    split at h
    · cases h
    · exact h

theorem width_eq {b : Basic} (hb : isInteger b = true) (hne : b ≠ .bool) : width b = 8 * basicSize b := by
  cases b <;> first | rfl | (exact absurd rfl hne) | (exact absurd hb (by decide))

theorem ofInt_wrap {b : Basic} (hb : isInteger b = true) (hne : b ≠ .bool) (x : Int) :
    BitVec.ofInt (8 * basicSize b) (wrap b x) = BitVec.ofInt (8 * basicSize b) x := by
  rw [← width_eq hb hne]
  apply BitVec.eq_of_toInt_eq
  rw [BitVec.toInt_ofInt, BitVec.toInt_ofInt]
  unfold wrap
  rw [if_neg hne]
  split
  · exact Int.bmod_bmod
  · simpa using Int.emod_bmod (x := x) (n := 2 ^ width b)

theorem promoted_ok (E : Env) (L : Lawful E.fp) {e : Expr} {t : Ty} {m m' : Mem} {v u : Val} (hg : good e = true)
    (ht : cty e = some t) (he : eval (ctxOf E) e m = some (v, m')) (hu : conv E.fp (promoteArg t e.bfw) v = some u) :
    ArgOk E e (Entry.defaultPromotion (kt e)) (promoteArg t e.bfw) m u m' := by
  obtain ⟨hT, ws, hr, hx⟩ := sound E L e hg _ _ _ _ ht he
  have hn := kt_of hg ht
  cases t with
  | arith b =>
    obtain ⟨b', hk, hb'⟩ := norm_eq_arith hn
    have hl : Entry.defaultPromotion (kt e) = .arith (if b' = .float then .double else promoteW b' none) := by
      rw [hk, ← Entry.promotion_eq]; rfl
    have hsc : (kt e).isScalar = true := by rw [hk]; rfl
    cases hi : isInteger b with
    | true =>
      have hi' : isInteger b' = true := (normB_facts hb').1.trans hi
      have hbf : b ≠ .float := by rintro rfl; cases hi
      have hbf' : b' ≠ .float := by rintro rfl; cases hi'
      rw [if_neg hbf'] at hl
      simp only [promoteArg, if_neg hbf] at hu ⊢
      cases v with
      | void => exact hT.elim
      | fl f x => simp only [HasTy] at hT; subst hT; cases f <;> cases hi
      | int x =>
        have hpb : isInteger (promoteW b e.bfw) = true := promote_int hi _
        have hpb' : isInteger (promoteW b' none) = true := promote_int hi' _
        have fm : ∀ {c : Basic}, isInteger c = true → fmtOf c = none := by
          intro c hc; cases c <;> first | rfl | (exact absurd hc (by decide))
        have hx' : InRange b' x := ((hasTy_norm hn).mpr hT |> fun h => by rw [hk] at h; exact h.2)
        have hxp : InRange (promoteW b' none) x := by
          unfold promoteW; rw [hi']; exact inRange_promote hi' hx'
        have hc1 : conv E.fp (.arith (promoteW b' none)) (.int x) = some (.int x) := by
          simp only [conv, fm hpb', wrap_of_inRange hxp hpb']
        have hcg : convGood (kt e) (.arith (promoteW b' none)) = true := by
          rw [hk]; simp [convGood, fm hi']
        obtain ⟨-, ws', h2, h3⟩ := typeconv_ok E ((hasTy_norm hn).mpr hT) hr hcg hc1
        simp only [conv, fm hpb, Option.some.injEq] at hu
        subst hu
        simp only [Rep] at h2
        subst h2
        refine ⟨[BitVec.ofInt 64 x], ⟨hpb, wrap_inRange _ hpb x, _, rfl, ?_⟩, ?_, fun s => ?_⟩
        · rw [setWidth_ofInt (size_le hpb)]
          by_cases hbool : promoteW b e.bfw = .bool
          · have hbb := promote_bool hi _ hbool
            have : InRange (promoteW b e.bfw) x := by rw [hbool]; rw [hbb] at hT; exact hT.2
            rw [wrap_of_inRange this hpb]
          · rw [ofInt_wrap hpb hbool]
        · intro hor
          have : InRange (promoteW b e.bfw) x := by
            rcases hor with h | h
            · rw [hl, Ty.arith.injEq] at h; rw [← h]; exact hxp
            · rw [h]; unfold promoteW; rw [hi]; exact inRange_promote hi hT.2
          rw [wrap_of_inRange this hpb]
          rfl
        · simp only [argument, SC.run, hx, Option.bind_some, hsc, if_true, hl, h3]
    | false =>
      have hbb : b' = b := by
        have hi' : isInteger b' = false := (normB_facts hb').1.trans hi
        cases b <;> first | (exact absurd hi (by decide)) | (cases b' <;> first | rfl | (exact absurd hi' (by decide)) | (exact absurd hb' (by decide)))
      subst hbb
      have e1 : promoteArg (.arith b') e.bfw = Entry.defaultPromotion (kt e) := by
        rw [hl]; simp only [promoteArg]
        split
        · rfl
        · simp only [promoteW, hi, Bool.not_false, if_true]
      rw [e1] at hu ⊢
      have hcg : convGood (kt e) (Entry.defaultPromotion (kt e)) = true := by
        rw [hl, hk]; cases b' <;> first | rfl | (exact absurd hi (by decide))
      obtain ⟨h1, ws', h2, h3⟩ := typeconv_ok E ((hasTy_norm hn).mpr hT) hr hcg hu
      refine ⟨ws', passed_of h1 h2, fun _ => h2, fun s => ?_⟩
      simp only [argument, SC.run, hx, Option.bind_some, hsc, if_true, h3]
  | arr t n => cases v <;> exact hT.elim
  | void =>
    have hk : kt e = .void := by cases hq : kt e <;> rw [hq] at hn <;> first | rfl | cases hn
    have e1 : Entry.defaultPromotion (kt e) = .void := by rw [hk]; rfl
    rw [e1]
    exact declared_ok E L hg ht rfl (.inr rfl) he hu
  | ptr p =>
    have hk : kt e = .ptr p := by cases hq : kt e <;> rw [hq] at hn <;> first | (cases hn; rfl) | cases hn
    have e1 : Entry.defaultPromotion (kt e) = .ptr p := by rw [hk]; rfl
    rw [e1]
    exact declared_ok E L hg ht rfl (.inr rfl) he hu
  | agg g n =>
    have hk : kt e = .agg g n := by cases hq : kt e <;> rw [hq] at hn <;> first | (cases hn; rfl) | cases hn
    have e1 : Entry.defaultPromotion (kt e) = .agg g n := by rw [hk]; rfl
    rw [e1]
    exact declared_ok E L hg ht (by simp [convGood]) (.inr rfl) he hu

/-! ### All arguments -/

theorem args_ok (E : Env) (L : Lawful E.fp) {Ts : List Ty} {args : List Expr} {m m' : Mem} {us : List Val}
    (hev : Evaluated (ctxOf E) Ts args m us m') : ∀ {ls : List (Option Ty)}, Laid Ts args ls → (∀ e ∈ args, good e = true) →
    (∀ e ∈ args, (cty e).isSome = true) → (∀ p ∈ Ts.zip args, convGood (ct p.2) p.1 = true) →
    (∀ p ∈ Ts.zip args, Assignable p.1 p.2) →
    ∃ wss, Sent Ts us wss ∧ ((∀ e ∈ args, e.bfw = none) → Full us wss) ∧
      ∀ s, (arguments args ls).run E s m = some (Entry.pushed wss ++ s, m') := by
  induction hev with
  | nil =>
    intro ls _ _ _ _ _
    exact ⟨[], .nil, fun _ => .nil, fun s => rfl⟩
  | @cons T e Ts es m v m1 u us m' he hu hrest ih =>
    intro ls hl hg ht hc ha
    obtain ⟨t, hte⟩ := Option.isSome_iff_exists.mp (ht e (by simp))
    have hct : ct e = t := ct_of hte
    have main : ∀ l ls', Laid Ts es ls' → ArgOk E e l T m u m1 → ∃ wss, Sent (T :: Ts) (u :: us) wss ∧
        ((∀ e' ∈ e :: es, e'.bfw = none) → Full (u :: us) wss) ∧
        ∀ s, (arguments (e :: es) (some l :: ls')).run E s m = some (Entry.pushed wss ++ s, m') := by
      intro l ls' hl' harg
      obtain ⟨ws, h1, h2, h3⟩ := harg
      obtain ⟨wss, g1, g2, g3⟩ := ih hl' (fun e' h' => hg e' (by simp [h'])) (fun e' h' => ht e' (by simp [h']))
        (fun p h' => hc p (by simp [h'])) (fun p h' => ha p (by simp [h']))
      refine ⟨ws :: wss, .cons h1 g1, fun hb => .cons (h2 (.inr (hb e (by simp)))) (g2 fun e' h' => hb e' (by simp [h'])), fun s => ?_⟩
      rw [pushed_cons, arguments, SC.run, Option.getD_some, h3]
      exact g3 _
    have hc0 := hc (T, e) (by simp)
    have ha0 := ha (T, e) (by simp)
    simp only [Assignable, hct] at hc0 ha0
    cases hl with
    | declared hl' => exact main T _ hl' (declared_ok E L (hg e (by simp)) hte hc0 ha0 he hu)
    | promoted hl' =>
      refine main _ _ hl' ?_
      have := promoted_ok E L (hg e (by simp)) hte he (u := u)
      simp only [promoted, hct] at *
      exact this hu

theorem arguments_ok (args : List Expr) (ls : List (Option Ty)) : (arguments args ls).Ok := by
  induction args generalizing ls with
  | nil => exact plain_of rfl
  | cons e es ih =>
    cases ls with
    | nil => exact plain_of rfl
    | cons l ls =>
      refine ⟨⟨tr_ok e, ?_⟩, ih ls⟩
      split
      · exact plain_typeconv _ _
      · exact plain_of rfl

end Kefir.Passing
