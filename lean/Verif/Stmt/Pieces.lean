import Verif.Expr.Main
import Verif.Expr.Plain
import Verif.Stmt.Good
import Verif.Stmt.Model

/-! What the pieces of code around expressions do. -/
namespace Kefir.Stmt
open Kefir.Types (Basic)
open Kefir.C17
open Kefir.Expr Kefir.CSpec
open Kefir.IR

theorem condCode_eq (c : Expr) : condCode c = tr (.un .lnot c) := by simp [condCode, tr]

theorem condCode_ok (c : Expr) : (condCode c).Ok := by rw [condCode_eq]; exact tr_ok _

theorem doCode_ok (c : Expr) : (doCode c).Ok := ⟨tr_ok c, by
  show ∀ i ∈ _, _
  split <;> exact plain_of rfl⟩

theorem exprCode_ok (e : Expr) : (exprCode e).Ok := ⟨tr_ok e, by
  show ∀ i ∈ _, _
  split
  · exact plain_of rfl
  · split <;> exact plain_of rfl⟩

theorem tailCode_ok (t : Option Expr) : (tailCode t).Ok := by
  cases t with
  | none => exact plain_of rfl
  | some e =>
    refine ⟨tr_ok e, ?_⟩
    show ∀ i ∈ _, _
    split <;> exact plain_of rfl

theorem declCode_ok (ds : List Decl) : (declCode ds).Ok := by
  induction ds with
  | nil => exact plain_of rfl
  | cons d ds ih =>
    simp only [declCode]
    split
    · exact ih
    · rename_i e _
      exact ⟨trL_ok _, plain_of rfl, tr_ok e, ((plain_typeconv _ _).app (plain_store _ _)).app (plain_of rfl), ih⟩

theorem initCode_ok (i : Init) : (initCode i).Ok := by
  cases i with
  | none => exact plain_of rfl
  | expr e => exact exprCode_ok e
  | decl ds => exact declCode_ok ds

theorem retCode_ok (rt : Ty) (e : Option Expr) (q : Bool) : (retCode rt e q).Ok := by
  cases e with
  | none => exact plain_of rfl
  | some e =>
    refine ⟨tr_ok e, ?_⟩
    show ∀ i ∈ _, _
    split
    · exact plain_of rfl
    · exact plain_typeconv _ _

variable {E : Env} (L : Lawful E.fp)
include L

theorem cond_run {c : Expr} {m m1 : Mem} {x : Bool} (hg : okC c = true) (h : test (ctxOf E) c m = some (x, m1)) (s : List Word) :
    (condCode c).run E s m = some (ofBool (!x) :: s, m1) := by
  simp only [okC, Bool.and_eq_true] at hg
  obtain ⟨⟨g1, g2⟩, g3⟩ := hg
  split at g3
  · rename_i t ht
    simp only [test, Option.bind_eq_some_iff, Option.map_eq_some_iff, Prod.mk.injEq, Prod.exists] at h
    obtain ⟨v, m2, he, y, hy, rfl, rfl⟩ := h
    have sn := sound E L (.un .lnot c) (by simp [good, g1, g2])
    obtain ⟨-, ws, hr, hrun⟩ := sn (.arith .int) (ofBoolV (!y)) m m2 (by simp [cty, ht, g3]) (by
      simp only [eval, he, Option.bind_some, unV, hy, Option.map_some])
    rw [condCode_eq, hrun]
    simp only [ofBoolV, Rep] at hr
    subst hr
    cases y <;> rfl
  · cases g3

theorem do_run {c : Expr} {m m1 : Mem} {x : Bool} (hg : okC c = true) (h : test (ctxOf E) c m = some (x, m1)) (s : List Word) :
    ∃ w : Word, (doCode c).run E s m = some (w :: s, m1) ∧ (w != 0) = x := by
  simp only [okC, Bool.and_eq_true] at hg
  obtain ⟨⟨g1, g2⟩, g3⟩ := hg
  split at g3
  · rename_i t ht
    simp only [test, Option.bind_eq_some_iff, Option.map_eq_some_iff, Prod.mk.injEq, Prod.exists] at h
    obtain ⟨v, m2, he, y, hy, rfl, rfl⟩ := h
    obtain ⟨ws, h1, h2⟩ := truthOf E g1 (sound E L c g1) ht g3 g2 he hy
    by_cases hl : kt c = .arith .ldouble
    · refine ⟨ofBool y, ?_, by cases y <;> rfl⟩
      have := h2 s
      simp only [truncate, if_pos hl] at this
      simp only [doCode, SC.run, h1, Option.bind_some, if_pos hl, this]
    · obtain ⟨hT, ws', hr, h1'⟩ := sound E L c g1 _ _ _ _ ht he
      have : ws' = ws := by
        have a := h1 []
        rw [h1' []] at a
        simpa using a
      subst this
      have hlen := rep_length ((hasTy_norm (kt_of g1 ht)).mpr hT) hr
      have hs : slots (kt c) = 1 := by
        have hn := kt_of g1 ht
        cases hk : kt c with
        | void =>
          rw [hk] at hn
          cases t <;> simp_all [Ty.norm, isScalarT]
        | arith b => cases b <;> simp_all [slots]
        | _ => rfl
      rw [hs] at hlen
      obtain ⟨w, rfl⟩ := List.length_eq_one_iff.mp hlen
      have := h2 s
      simp only [truncate, if_neg hl, List.singleton_append, execs_cons, exec_un, Option.bind_some, execs_nil,
        Option.some.injEq, Prod.mk.injEq, List.cons.injEq, and_true] at this
      refine ⟨w, by simp only [doCode, SC.run, h1, Option.bind_some, if_neg hl, execs_nil, List.singleton_append], ?_⟩
      have h3 : Un.trunc1.exec w = ofBool (w != 0) := rfl
      rw [h3] at this
      revert this
      cases (w != 0) <;> cases y <;> simp [ofBool]
  · cases g3

theorem expr_run {e : Expr} {m m1 : Mem} {v : Val} (hg : okE e = true) (h : eval (ctxOf E) e m = some (v, m1)) (s : List Word) :
    (exprCode e).run E s m = some (s, m1) := by
  simp only [okE, Bool.and_eq_true, Option.isSome_iff_exists] at hg
  obtain ⟨g1, t, ht⟩ := hg
  obtain ⟨hT, ws, hr, hrun⟩ := sound E L e g1 _ _ _ _ ht h
  have hlen := rep_length ((hasTy_norm (kt_of g1 ht)).mpr hT) hr
  simp only [exprCode, SC.run, hrun, Option.bind_some]
  by_cases hv : kt e = .void
  · rw [hv] at hlen
    have : ws = [] := List.length_eq_zero_iff.mp hlen
    simp [hv, this, execs_nil]
  · by_cases hl : kt e = .arith .ldouble
    · rw [hl] at hlen
      obtain ⟨a, b, rfl⟩ : ∃ a b, ws = [a, b] := by
        match ws, hlen with
        | [a, b], _ => exact ⟨a, b, rfl⟩
      simp [hl, execs_cons, exec_pop, execs_nil]
    · have hs : slots (kt e) = 1 := by
        cases hk : kt e with
        | void => exact (hv hk).elim
        | arith b => cases b <;> simp_all [slots]
        | _ => rfl
      rw [hs] at hlen
      obtain ⟨w, rfl⟩ := List.length_eq_one_iff.mp hlen
      simp [hv, hl, execs_cons, exec_pop, execs_nil]

theorem tail_run {tidy : Bool} {t : Option Expr} {m m1 : Mem} (hg : okTail tidy t = true)
    (h : effect (ctxOf E) t m = some m1) (s : List Word) :
    ∃ j, (tailCode t).run E s m = some (j ++ s, m1) ∧ (tidy = true → j = []) := by
  cases t with
  | none => cases h; exact ⟨[], rfl, fun _ => rfl⟩
  | some e =>
    simp only [effect, Option.map_eq_some_iff, Prod.exists, exists_eq_right] at h
    obtain ⟨v, h⟩ := h
    simp only [okTail, okE, Bool.and_eq_true, Option.isSome_iff_exists, Bool.or_eq_true, Bool.not_eq_true', bne_iff_ne] at hg
    obtain ⟨⟨g1, t, ht⟩, g2⟩ := hg
    obtain ⟨hT, ws, hr, hrun⟩ := sound E L e g1 _ _ _ _ ht h
    have hn := kt_of g1 ht
    have hlen := rep_length ((hasTy_norm hn).mpr hT) hr
    simp only [tailCode, SC.run, hrun, Option.bind_some]
    by_cases hv : kt e = .void
    · rw [hv] at hlen
      have : ws = [] := List.length_eq_zero_iff.mp hlen
      exact ⟨[], by simp [hv, this, execs_nil], fun _ => rfl⟩
    · by_cases hl : kt e = .arith .ldouble
      · rw [hl] at hlen
        obtain ⟨a, b, rfl⟩ : ∃ a b, ws = [a, b] := by
          match ws, hlen with
          | [a, b], _ => exact ⟨a, b, rfl⟩
        refine ⟨[b], by simp [hl, execs_cons, exec_pop, execs_nil], fun ht' => ?_⟩
        rcases g2 with g2 | g2
        · rw [ht'] at g2; cases g2
        · rw [ct_of ht] at g2
          rw [hl] at hn
          exfalso
          apply g2
          obtain ⟨b', rfl, hb⟩ := norm_eq_arith hn.symm
          cases b' <;> simp_all [normB]
      · have hs : slots (kt e) = 1 := by
          cases hk : kt e with
          | void => exact (hv hk).elim
          | arith b => cases b <;> simp_all [slots]
          | _ => rfl
        rw [hs] at hlen
        obtain ⟨w, rfl⟩ := List.length_eq_one_iff.mp hlen
        exact ⟨[], by simp [hv, execs_cons, exec_pop, execs_nil], fun _ => rfl⟩

theorem decl_run : ∀ (ds : List Decl) {m m1 : Mem}, ds.all okD = true → declare (ctxOf E) ds m = some m1 →
    ∀ s, (declCode ds).run E s m = some (s, m1) := by
  intro ds
  induction ds with
  | nil => intro m m1 _ h s; cases h; rfl
  | cons d ds ih =>
    intro m m1 hg h s
    simp only [List.all_cons, Bool.and_eq_true] at hg
    obtain ⟨hd, hds⟩ := hg
    simp only [declare] at h
    simp only [okD] at hd
    simp only [declCode]
    cases hi : d.init with
    | none => rw [hi] at h; exact ih hds h s
    | some e =>
      rw [hi] at h hd
      simp only [Option.bind_eq_some_iff, Prod.exists] at h
      obtain ⟨v0, m2, he, v1, hv, a, m3, hel, m4, hst, h⟩ := h
      simp only [Bool.and_eq_true, okE, Option.isSome_iff_exists] at hd
      obtain ⟨⟨⟨⟨ge, u, hce⟩, hsc⟩, hs⟩, hg⟩ := hd
      obtain ⟨hT, ws, hr, hx⟩ := sound E L e ge _ _ _ _ hce he
      have ne := kt_of ge hce
      rw [ct_of hce] at hg
      rw [← convGood_norm ne rfl] at hg
      obtain ⟨h1, ws', h2, h3⟩ := typeconv_ok E ((hasTy_norm ne).mpr hT) hr hg hv
      obtain ⟨w, rfl⟩ := storeGood_word hs h1 h2
      simp only [evalL, Option.some.injEq, Prod.mk.injEq] at hel
      obtain ⟨rfl, rfl⟩ := hel
      obtain ⟨w', e1, h4⟩ := store_ok E (bf := none) (by intro _ _ h; cases h) hs h1 h2 hst
      cases e1
      have hxl := autoCase E d.offs d.t d.t _ m m (by
        have : complete d.t = true := by cases hdt : d.t <;> simp_all [complete, Ty.isScalar]
        simp [clty, this]) (by simp only [evalL]; rfl) s
      have hpick : ∀ (w : Word) (s : List Word) (m : Mem), exec E (.pick 0) (w :: s) m = some (w :: w :: s, m) := fun _ _ _ => rfl
      simp only [SC.run, hxl, Option.bind_some, execs_cons, hpick, execs_nil, hx, execs_append, h3, List.singleton_append,
        h4, exec_pop]
      exact ih hds h s

theorem init_run {i : Init} {m m1 : Mem} (hg : okInit i = true) (h : start (ctxOf E) i m = some m1) (s : List Word) :
    (initCode i).run E s m = some (s, m1) := by
  cases i with
  | none => cases h; rfl
  | expr e =>
    simp only [start, effect, Option.map_eq_some_iff, Prod.exists, exists_eq_right] at h
    obtain ⟨v, h⟩ := h
    exact expr_run L hg h s
  | decl ds => exact decl_run L ds hg h s

theorem ret_run {rt : Ty} {e : Expr} {q : Bool} {m m1 : Mem} {v v' : Val} (hg : okRet rt (some e) q = true)
    (h : eval (ctxOf E) e m = some (v, m1)) (hc : conv E.fp rt v = some v') :
    ∃ ws, Rep v' ws ∧ ∀ s, (retCode rt (some e) q).run E s m = some (ws ++ s, m1) := by
  simp only [okRet, Bool.and_eq_true, okE, Option.isSome_iff_exists, Bool.or_eq_true, Bool.not_eq_true', beq_iff_eq] at hg
  obtain ⟨⟨⟨⟨ge, u, hce⟩, hsc⟩, hg⟩, hq⟩ := hg
  obtain ⟨hT, ws, hr, hx⟩ := sound E L e ge _ _ _ _ hce h
  have ne := kt_of ge hce
  rw [ct_of hce] at hg hq
  rw [← convGood_norm ne rfl] at hg
  cases q with
  | false =>
    obtain ⟨h1, ws', h2, h3⟩ := typeconv_ok E ((hasTy_norm ne).mpr hT) hr hg hc
    exact ⟨ws', h2, fun s => by simp [retCode, SC.run, hx, h3]⟩
  | true =>
    rcases hq with hq | rfl
    · cases hq
    · rw [conv_self hT] at hc
      cases hc
      exact ⟨ws, hr, fun s => by simp [retCode, SC.run, hx, execs_nil]⟩

/-- The controlling expression of `switch`: one word, which tells the values of the promoted type apart. -/
theorem switch_run {e : Expr} {b : Basic} {m m1 : Mem} {x : Int} (hg : good e = true) (hs : switchTy e = some b)
    (h : eval (ctxOf E) e m = some (.int x, m1)) :
    (∀ s, (tr e).run E s m = some (BitVec.ofInt 64 x :: s, m1)) ∧
      ∀ v, wrap b v = v → BitVec.ofInt 64 v = BitVec.ofInt 64 x → v = x := by
  unfold switchTy at hs
  split at hs
  · rename_i b0 hc
    split at hs
    · rename_i hi
      cases hs
      simp only [isInt] at hi
      obtain ⟨hT, ws, hr, hx⟩ := sound E L e hg _ _ _ _ hc h
      simp only [Rep] at hr
      subst hr
      refine ⟨hx, ?_⟩
      have hm := promoteW_mem hi (valid_left hc)
      have hxr := promote_keeps hi (valid_left hc) hT.2 (field_value hg hc h hT.2)
      intro v hv he
      have hvr := wrap_inRange _ (promoted_facts hm).1 v
      rw [hv] at hvr
      have he' := congrArg BitVec.toNat he
      simp only [BitVec.toNat_ofInt] at he'
      by_cases hsg : signed (promoteW b0 e.bfw) = true
      · have r1 := signed_range hm (.inl hsg) hvr
        have r2 := signed_range hm (.inl hsg) hxr
        omega
      · have r1 := unsigned_range hm (by simpa using hsg) hvr
        have r2 := unsigned_range hm (by simpa using hsg) hxr
        omega
    · cases hs
  · cases hs

end Kefir.Stmt
