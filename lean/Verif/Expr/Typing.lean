import Verif.Expr.Analyzer
import Verif.Expr.Spec
import Verif.Types.Props
import Mathlib.Tactic.Tauto

/-! Kefir's analyzer gives every expression the type C17 gives it, except that `long` and `long long` may be exchanged
(finding `C12_long_long_rank_false`), and `sizeof` (finding below). -/
namespace Kefir.Expr
open Kefir.Types (Basic)
open Kefir.C17 Kefir.CSpec

def normB : Basic → Basic
  | .ullong => .ulong
  | .llong => .long
  | b => b

/-- Types up to the difference between `long` and `long long` (which have the same values and representation). -/
def Ty.norm : Ty → Ty
  | .arith b => .arith (normB b)
  | t => t

mutual
/-- No `sizeof` (typed `int` by the analyzer), outside unevaluated contexts. -/
def noSizeof : Expr → Bool
  | .sizeof _ => false
  | .lval l | .addr l | .incdec _ _ l => noSizeofL l
  | .cast _ e | .un _ e => noSizeof e
  | .bin _ a b | .land a b | .lor a b | .elvis a b | .comma a b => noSizeof a && noSizeof b
  | .cond c a b => noSizeof c && noSizeof a && noSizeof b
  | .assign l e | .assignOp _ l e => noSizeofL l && noSizeof e
  | _ => true
def noSizeofL : LV → Bool
  | .deref e | .member e _ _ _ => noSizeof e
  | .index a i => noSizeof a && noSizeof i
  | _ => true
end

theorem norm_arith {t : Ty} {b : Basic} (h : t.norm = .arith b) : ∃ b', t = .arith b' ∧ normB b' = b := by
  cases t <;> simp_all [Ty.norm]

theorem norm_eq_arith {t : Ty} {b : Basic} (h : t.norm = (Ty.arith b).norm) :
    ∃ b', t = .arith b' ∧ normB b' = normB b := norm_arith h

theorem norm_eq_ptr {t u : Ty} (h : t.norm = (Ty.ptr u).norm) : t = .ptr u := by
  cases t <;> simp_all [Ty.norm]

theorem norm_eq_agg {t : Ty} {g s : Nat} (h : t.norm = (Ty.agg g s).norm) : t = .agg g s := by
  cases t <;> simp_all [Ty.norm]

theorem norm_eq_arr {t u : Ty} {n : Nat} (h : t.norm = (Ty.arr u n).norm) : t = .arr u n := by
  cases t <;> simp_all [Ty.norm]

theorem norm_eq_void {t : Ty} (h : t.norm = Ty.void.norm) : t = .void := by
  cases t <;> simp_all [Ty.norm]

theorem normB_cases {b c : Basic} (h : normB b = normB c) :
    b = c ∨ (b = .ullong ∧ c = .ulong) ∨ (b = .ulong ∧ c = .ullong) ∨ (b = .llong ∧ c = .long) ∨
      (b = .long ∧ c = .llong) := by
  cases b <;> cases c <;> simp_all [normB]

theorem normB_integral {b c : Basic} (h : normB b = normB c) : b.isIntegral = isInteger c := by
  rcases normB_cases h with rfl | ⟨rfl, rfl⟩ | ⟨rfl, rfl⟩ | ⟨rfl, rfl⟩ | ⟨rfl, rfl⟩
  · cases b <;> rfl
  all_goals rfl

/-- A width C allows for a bit-field of the type. -/
def validW (b : Basic) (w : Option Nat) : Prop := ∀ n, w = some n → isInteger b = true ∧ 1 ≤ n ∧ n ≤ width b

theorem promotion_agrees {b b' : Basic} {w : Option Nat} (hn : normB b' = normB b) (hi : isInteger b = true)
    (hw : validW b w) :
    ∃ p, b'.intPromotion w = some p ∧ normB p = normB (promoteW b w) ∧
      p ∈ [Basic.int, .uint, .long, .ulong, .llong, .ullong] ∧
      promoteW b w ∈ [Basic.int, .uint, .long, .ulong, .llong, .ullong] := by
  cases w with
  | none =>
    rcases normB_cases hn with rfl | ⟨rfl, rfl⟩ | ⟨rfl, rfl⟩ | ⟨rfl, rfl⟩ | ⟨rfl, rfl⟩
    · cases b' <;> first | (simp [isInteger] at hi; done) | exact ⟨_, rfl, by decide⟩
    all_goals exact ⟨_, rfl, by decide⟩
  | some n =>
    obtain ⟨_, h1, h2⟩ := hw n rfl
    by_cases h31 : n < 32
    · have e : b'.intPromotion (some n) = some .int := by
        unfold Basic.intPromotion
        have : b'.isIntegral = true := by rw [normB_integral hn]; exact hi
        have hbp : b'.bitfieldPromotion n = .int := by
          unfold Basic.bitfieldPromotion
          rw [if_neg (by simp; omega), if_neg (by omega)]
        simp only [this, Bool.not_true, Bool.false_eq_true, if_false, Basic.fieldBase, hbp]
        rfl
      refine ⟨.int, e, ?_⟩
      have : promoteW b (some n) = .int := by simp [promoteW, hi, h31]
      rw [this]; decide
    · have h32 : 32 ≤ width b := by omega
      have hb : b ∈ [Basic.int, .uint, .long, .ulong, .llong, .ullong] := by
        cases b <;> simp_all [width]
      have hb' : b' ∈ [Basic.int, .uint, .long, .ulong, .llong, .ullong] := by
        rcases normB_cases hn with rfl | ⟨rfl, rfl⟩ | ⟨rfl, rfl⟩ | ⟨rfl, rfl⟩ | ⟨rfl, rfl⟩
        · exact hb
        all_goals decide
      have hsg : b'.isSignedTag = signed b := by
        rcases normB_cases hn with rfl | ⟨rfl, rfl⟩ | ⟨rfl, rfl⟩ | ⟨rfl, rfl⟩ | ⟨rfl, rfl⟩
        · simp only [List.mem_cons, List.not_mem_nil, or_false] at hb
          rcases hb with rfl | rfl | rfl | rfl | rfl | rfl <;> rfl
        all_goals rfl
      have hii : b'.isIntegral = true := by rw [normB_integral hn]; exact hi
      by_cases hs : n = 32 ∧ signed b = true
      · obtain ⟨rfl, hs⟩ := hs
        have e : b'.intPromotion (some 32) = some .int := by
          unfold Basic.intPromotion
          simp only [hii, Bool.not_true, Bool.false_eq_true, if_false, Basic.fieldBase, Basic.bitfieldPromotion, hsg, hs]
          rfl
        refine ⟨.int, e, ?_⟩
        have : promoteW b (some 32) = .int := by simp [promoteW, hi, hs]
        rw [this]; decide
      · have e : b'.intPromotion (some n) = some b' := by
          unfold Basic.intPromotion
          have hbp : b'.bitfieldPromotion n = b' := by
            unfold Basic.bitfieldPromotion
            rw [if_neg (by simpa [hsg] using hs), if_pos (by omega)]
          simp only [hii, Bool.not_true, Bool.false_eq_true, if_false, Basic.fieldBase, hbp]
          rw [if_neg]
          simp only [List.mem_cons, List.not_mem_nil, or_false] at hb'
          rcases hb' with rfl | rfl | rfl | rfl | rfl | rfl <;> decide
        have e2 : promoteW b (some n) = b := by
          unfold promoteW
          rw [if_neg (by simp [hi])]
          simp only
          rw [if_neg (by intro h; rcases h with h | h; · exact h31 h
                         · exact hs h)]
        exact ⟨b', e, by rw [e2]; exact hn, hb', by rw [e2]; exact hb⟩

theorem common_agrees {b1 b1' b2 b2' : Basic} {w1 w2 : Option Nat} (h1 : normB b1' = normB b1)
    (h2 : normB b2' = normB b2) (v1 : validW b1 w1) (v2 : validW b2 w2) :
    ∃ c, b1'.commonArith w1 b2' w2 = some c ∧ normB c = normB (common b1 w1 b2 w2) := by
  by_cases i1 : isInteger b1 = true
  · by_cases i2 : isInteger b2 = true
    · obtain ⟨p, hp, np, mp, mp'⟩ := promotion_agrees h1 i1 v1
      obtain ⟨q, hq, nq, mq, mq'⟩ := promotion_agrees h2 i2 v2
      have j1 : isInteger b1' = true := by
        have := normB_integral h1; rw [i1] at this; cases b1' <;> simp_all [Basic.isIntegral, isInteger]
      have j2 : isInteger b2' = true := by
        have := normB_integral h2; rw [i2] at this; cases b2' <;> simp_all [Basic.isIntegral, isInteger]
      rw [Kefir.Types.commonArith_integer j1 j2 hp hq]
      unfold common
      revert np nq mp mp' mq mq'
      generalize promoteW b1 w1 = p1
      generalize promoteW b2 w2 = q1
      intro np mp mp' nq mq mq'
      clear hp hq v1 v2 h1 h2 i1 i2 j1 j2
      have key : ∀ p ∈ [Basic.int, .uint, .long, .ulong, .llong, .ullong],
          ∀ q ∈ [Basic.int, .uint, .long, .ulong, .llong, .ullong],
          ∀ p1 ∈ [Basic.int, .uint, .long, .ulong, .llong, .ullong],
          ∀ q1 ∈ [Basic.int, .uint, .long, .ulong, .llong, .ullong],
          normB p = normB p1 → normB q = normB q1 →
          (p.commonArith none q none).map normB = some (normB (commonReal p1 q1)) := by decide +kernel
      have := key p mp q mq p1 mp' q1 mq' np nq
      rw [Option.map_eq_some_iff] at this
      exact this
    · obtain ⟨p, hp, np, mp, mp'⟩ := promotion_agrees h1 i1 v1
      have e2 : b2' = b2 := by rcases normB_cases h2 with h | h | h | h | h <;> first | exact h | (exfalso; simp_all [isInteger])
      subst e2
      have ew : promoteW b2' w2 = b2' := by simp [promoteW, i2]
      have hb1 : b1' ≠ .ldouble ∧ b1' ≠ .double ∧ b1' ≠ .float := by
        have := normB_integral h1; rw [i1] at this
        refine ⟨?_, ?_, ?_⟩ <;> (rintro rfl; simp [Basic.isIntegral] at this)
      unfold common
      rw [ew]
      simp only [List.mem_cons, List.not_mem_nil, or_false] at mp'
      cases b2' <;> simp_all [isInteger, Basic.commonArith, commonReal] <;>
        rcases mp' with h | h | h | h | h | h <;> rw [h] <;> decide
  · have e1 : b1' = b1 := by rcases normB_cases h1 with h | h | h | h | h <;> first | exact h | (exfalso; simp_all [isInteger])
    subst e1
    have ew : promoteW b1' w1 = b1' := by simp [promoteW, i1]
    by_cases i2 : isInteger b2 = true
    · obtain ⟨p, hp, np, mp, mp'⟩ := promotion_agrees h2 i2 v2
      have hb1 : b2' ≠ .ldouble ∧ b2' ≠ .double ∧ b2' ≠ .float := by
        have := normB_integral h2; rw [i2] at this
        refine ⟨?_, ?_, ?_⟩ <;> (rintro rfl; simp [Basic.isIntegral] at this)
      unfold common
      rw [ew]
      simp only [List.mem_cons, List.not_mem_nil, or_false] at mp'
      cases b1' <;> simp_all [isInteger, Basic.commonArith, commonReal] <;>
        rcases mp' with h | h | h | h | h | h <;> rw [h] <;> decide
    · have e2 : b2' = b2 := by rcases normB_cases h2 with h | h | h | h | h <;> first | exact h | (exfalso; simp_all [isInteger])
      subst e2
      have ew2 : promoteW b2' w2 = b2' := by simp [promoteW, i2]
      unfold common
      rw [ew, ew2]
      cases b1' <;> first | (exact absurd rfl i1) | (cases b2' <;> first | (exact absurd rfl i2) | exact ⟨_, rfl, by decide⟩)

theorem bfw_valid {e : Expr} {b : Basic} (h : cty e = some (.arith b)) : validW b e.bfw := by
  intro n hn
  cases e <;> simp only [Expr.bfw, reduceCtorEq] at hn
  rename_i l
  cases l <;> simp only [LV.bf, Option.map_none, reduceCtorEq] at hn
  rename_i e offs t bf
  simp only [cty, clty, Option.map_eq_some_iff, Option.bind_eq_some_iff] at h
  obtain ⟨a, ⟨u, hu, h⟩, hd⟩ := h
  simp only [Option.map_eq_some_iff] at hn
  obtain ⟨⟨o, n'⟩, hbf, rfl⟩ := hn
  subst hbf
  have hf : fieldOk t (some (o, n')) = true ∧ t = a := by
    split at h <;> first | (split at h <;> first | (refine ⟨by assumption, by simpa using h⟩) | (cases h)) | cases h
  obtain ⟨hf, rfl⟩ := hf
  cases t <;> simp [fieldOk] at hf
  simp only [Ty.dec, Ty.arith.injEq] at hd
  subst hd
  exact hf

theorem lbf_valid {l : LV} {b : Basic} (h : clty l = some (.arith b)) : validW b (l.bf.map (·.2)) := by
  have : cty (.lval l) = some (.arith b) := by simp [cty, h, Ty.dec]
  exact bfw_valid this

theorem isNull_agrees (e : Expr) : e.isNull = isNullConst e := by
  have hi : ∀ b : Basic, b.isIntegral = isInteger b := by intro b; cases b <;> rfl
  unfold Expr.isNull isNullConst
  split <;> simp_all

theorem isConst_of_null {e : Expr} (h : isNullConst e = true) : e.isConst = true := by
  unfold isNullConst at h
  split at h
  · rfl
  · rfl
  · cases h

theorem isScalar_agrees {t t' : Ty} (h : t'.norm = t.norm) : t'.isScalar = isScalarT t := by
  cases t <;> cases t' <;> simp_all [Ty.norm, Ty.isScalar, isScalarT]

theorem isInt_agrees {t t' : Ty} (h : t'.norm = t.norm) : t'.isIntegral = isInt t := by
  cases t <;> cases t' <;> simp_all [Ty.norm, Ty.isIntegral, isInt]
  exact normB_integral h

theorem isArith_agrees {t t' : Ty} (h : t'.norm = t.norm) : t'.isArith = isArithT t := by
  cases t <;> cases t' <;> simp_all [Ty.norm, Ty.isArith, isArithT]

theorem complete_agrees (t : Ty) : t.isComplete = complete t := by cases t <;> rfl

theorem norm_dec {t t' : Ty} (h : t'.norm = t.norm) : t'.dec.norm = t.dec.norm := by
  cases t <;> cases t' <;> simp_all [Ty.norm, Ty.dec]

theorem commonT_agrees {t1 t1' t2 t2' c : Ty} {w1 w2 : Option Nat} (n1 : t1'.norm = t1.norm) (n2 : t2'.norm = t2.norm)
    (v1 : ∀ b, t1 = .arith b → validW b w1) (v2 : ∀ b, t2 = .arith b → validW b w2)
    (h : commonT t1 w1 t2 w2 = some c) : ∃ c', kCommon t1' w1 t2' w2 = some c' ∧ c'.norm = c.norm := by
  unfold commonT at h
  split at h
  · rename_i b1 b2
    obtain ⟨b1', rfl, m1⟩ := norm_eq_arith n1
    obtain ⟨b2', rfl, m2⟩ := norm_eq_arith n2
    obtain ⟨c', hc, hn⟩ := common_agrees m1 m2 (v1 _ rfl) (v2 _ rfl)
    simp only [Option.some.injEq] at h
    subst h
    exact ⟨.arith c', by simp [kCommon, hc], by simp [Ty.norm, hn]⟩
  · cases h

theorem isArith_of_common {t1 t2 c : Ty} {w1 w2 : Option Nat} (h : commonT t1 w1 t2 w2 = some c) :
    isArithT t1 = true ∧ isArithT t2 = true := by
  unfold commonT at h
  split at h
  · exact ⟨rfl, rfl⟩
  · cases h

theorem binTy_agrees {op : BinOp} {t1 t1' t2 t2' c : Ty} {w1 w2 : Option Nat} {n1 n2 c1 c2 : Bool}
    (e1 : t1'.norm = t1.norm) (e2 : t2'.norm = t2.norm)
    (v1 : ∀ b, t1 = .arith b → validW b w1) (v2 : ∀ b, t2 = .arith b → validW b w2)
    (k1 : n1 = true → c1 = true) (k2 : n2 = true → c2 = true)
    (h : binTy op t1 w1 n1 t2 w2 n2 = some c) :
    ∃ c', kBin op t1' w1 c1 t2' w2 c2 = some c' ∧ c'.norm = c.norm := by
  have ci : isInt t1' = isInt t1 ∧ isInt t2' = isInt t2 := by
    constructor
    · rw [← isInt_agrees (t' := t1') rfl, isInt_agrees e1]
    · rw [← isInt_agrees (t' := t2') rfl, isInt_agrees e2]
  have a1 := isArith_agrees e1
  have a2 := isArith_agrees e2
  have i1 := isInt_agrees e1
  have i2 := isInt_agrees e2
  have hc : ∀ c, commonT t1 w1 t2 w2 = some c →
      ∃ c', (if t1'.isArith && t2'.isArith then kCommon t1' w1 t2' w2 else none) = some c' ∧ c'.norm = c.norm := by
    intro c h
    obtain ⟨x, y⟩ := isArith_of_common h
    obtain ⟨c', h1, h2⟩ := commonT_agrees e1 e2 v1 v2 h
    exact ⟨c', by simp [a1, a2, x, y, h1], h2⟩
  have hci : ∀ c, (if isInt t1 && isInt t2 then commonT t1 w1 t2 w2 else none) = some c →
      ∃ c', (if t1'.isIntegral && t2'.isIntegral then kCommon t1' w1 t2' w2 else none) = some c' ∧ c'.norm = c.norm := by
    intro c h
    split at h
    · rename_i hi
      obtain ⟨c', h1, h2⟩ := commonT_agrees e1 e2 v1 v2 h
      exact ⟨c', by rw [i1, i2, if_pos hi, h1], h2⟩
    · cases h
  cases op <;> simp only [binTy] at h <;> simp only [kBin]
  case mul => exact hc c h
  case div => exact hc c h
  case mod => exact hci c h
  case band => exact hci c h
  case bor => exact hci c h
  case bxor => exact hci c h
  case add =>
    split at h
    · rename_i t
      have := norm_eq_ptr e1
      subst this
      simp only [complete_agrees, i2]
      exact ⟨c, h, rfl⟩
    · rename_i t hne
      have := norm_eq_ptr e2
      subst this
      have hne' : ∀ u, t1' ≠ .ptr u := by
        rintro u rfl
        exact hne u (norm_eq_ptr e1.symm)
      split
      · rename_i h'; exact absurd rfl (hne' _)
      · rename_i heq
        cases heq
        simp only [complete_agrees, i1]
        exact ⟨c, h, rfl⟩
      · rename_i h'; exact absurd rfl (h' _)
    · rename_i hn1 hn2
      have hne1 : ∀ u, t1' ≠ .ptr u := by
        rintro u rfl
        exact hn1 u (norm_eq_ptr e1.symm)
      have hne2 : ∀ u, t2' ≠ .ptr u := by
        rintro u rfl
        exact hn2 u (norm_eq_ptr e2.symm)
      split
      · exact absurd rfl (hne1 _)
      · exact absurd rfl (hne2 _)
      · exact hc c h
  case sub =>
    split at h
    · rename_i t u
      have := norm_eq_ptr e1
      subst this
      have := norm_eq_ptr e2
      subst this
      simp only [complete_agrees]
      split at h
      · rename_i hh
        simp only [Bool.and_eq_true, beq_iff_eq] at hh
        obtain ⟨hh, rfl⟩ := hh
        exact ⟨c, by simpa [hh] using h, rfl⟩
      · cases h
    · rename_i t hne
      have := norm_eq_ptr e1
      subst this
      have hne2 : ∀ u, t2' ≠ .ptr u := by
        rintro u rfl
        exact hne u (norm_eq_ptr e2.symm)
      split
      · exact absurd rfl (hne2 _)
      · rename_i heq _
        cases heq
        simp only [complete_agrees, i2]
        exact ⟨c, h, rfl⟩
      · rename_i h' _; exact absurd rfl (h' _)
    · rename_i hn1 hn2
      have hne1 : ∀ u, t1' ≠ .ptr u := by
        rintro u rfl
        exact hn1 u (norm_eq_ptr e1.symm)
      split
      · exact absurd rfl (hne1 _)
      · exact absurd rfl (hne1 _)
      · exact hc c h
  case shl =>
    split at h
    · rename_i b
      obtain ⟨b', rfl, m1⟩ := norm_eq_arith e1
      split at h
      · rename_i hh
        simp only [Bool.and_eq_true] at hh
        obtain ⟨p, hp, np, _⟩ := promotion_agrees m1 hh.1 (v1 _ rfl)
        simp only [Option.some.injEq] at h
        subst h
        refine ⟨.arith p, ?_, by simp [Ty.norm, np]⟩
        have : b'.isIntegral = true := by rw [normB_integral m1]; exact hh.1
        simp [this, i2, hh.2, hp]
      · cases h
    · cases h
  case shr =>
    split at h
    · rename_i b
      obtain ⟨b', rfl, m1⟩ := norm_eq_arith e1
      split at h
      · rename_i hh
        simp only [Bool.and_eq_true] at hh
        obtain ⟨p, hp, np, _⟩ := promotion_agrees m1 hh.1 (v1 _ rfl)
        simp only [Option.some.injEq] at h
        subst h
        refine ⟨.arith p, ?_, by simp [Ty.norm, np]⟩
        have : b'.isIntegral = true := by rw [normB_integral m1]; exact hh.1
        simp [this, i2, hh.2, hp]
      · cases h
    · cases h
  case eq | ne =>
    split at h
    · obtain ⟨b1', rfl, m1⟩ := norm_eq_arith e1
      obtain ⟨b2', rfl, m2⟩ := norm_eq_arith e2
      exact ⟨c, h, rfl⟩
    · have := norm_eq_ptr e1
      subst this
      have := norm_eq_ptr e2
      subst this
      exact ⟨c, h, rfl⟩
    · rename_i hne
      have := norm_eq_ptr e1
      subst this
      split at h
      · rename_i hh
        simp only [Bool.and_eq_true] at hh
        have : ∃ b2', t2' = .arith b2' := by
          cases t2 <;> simp [isInt] at hh
          obtain ⟨b2', h', _⟩ := norm_eq_arith e2
          exact ⟨b2', h'⟩
        obtain ⟨b2', rfl⟩ := this
        exact ⟨c, by simp [i2, hh.1, k2 hh.2]; simpa using h, rfl⟩
      · cases h
    · rename_i hne _
      have := norm_eq_ptr e2
      subst this
      split at h
      · rename_i hh
        simp only [Bool.and_eq_true] at hh
        have : ∃ b1', t1' = .arith b1' := by
          cases t1 <;> simp [isInt] at hh
          obtain ⟨b1', h', _⟩ := norm_eq_arith e1
          exact ⟨b1', h'⟩
        obtain ⟨b1', rfl⟩ := this
        exact ⟨c, by simp [i1, hh.1, k1 hh.2]; simpa using h, rfl⟩
      · cases h
    · cases h
  all_goals
    split at h
    · obtain ⟨b1', rfl, m1⟩ := norm_eq_arith e1
      obtain ⟨b2', rfl, m2⟩ := norm_eq_arith e2
      exact ⟨c, h, rfl⟩
    · have := norm_eq_ptr e1
      subst this
      have := norm_eq_ptr e2
      subst this
      exact ⟨c, h, rfl⟩
    · cases h

theorem condTy_agrees {t1 t1' t2 t2' c : Ty} {w1 w2 : Option Nat} {n1 n2 : Bool}
    (e1 : t1'.norm = t1.norm) (e2 : t2'.norm = t2.norm)
    (v1 : ∀ b, t1 = .arith b → validW b w1) (v2 : ∀ b, t2 = .arith b → validW b w2)
    (h : condTy t1 w1 n1 t2 w2 n2 = some c) :
    ∃ c', kCond t1' w1 n1 t2' w2 n2 = some c' ∧ c'.norm = c.norm := by
  cases t1 with
  | void =>
    have := norm_eq_void e1; subst this
    cases t2 with
    | void => have := norm_eq_void e2; subst this; exact ⟨c, h, rfl⟩
    | ptr u => have := norm_eq_ptr e2; subst this; exact ⟨c, h, rfl⟩
    | _ => cases h
  | arith b1 =>
    obtain ⟨b1', rfl, m1⟩ := norm_eq_arith e1
    cases t2 with
    | arith b2 =>
      obtain ⟨b2', rfl, m2⟩ := norm_eq_arith e2
      obtain ⟨c', hc, hn⟩ := common_agrees m1 m2 (v1 _ rfl) (v2 _ rfl)
      simp only [condTy, Option.some.injEq] at h
      subst h
      exact ⟨.arith c', by simp [kCond, hc], by simp [Ty.norm, hn]⟩
    | ptr u => have := norm_eq_ptr e2; subst this; exact ⟨c, h, rfl⟩
    | _ => cases h
  | ptr t =>
    have := norm_eq_ptr e1; subst this
    cases t2 with
    | ptr u => have := norm_eq_ptr e2; subst this; exact ⟨c, h, rfl⟩
    | void =>
      have := norm_eq_void e2; subst this
      refine ⟨c, ?_, rfl⟩
      simp only [condTy] at h; simp only [kCond]; split at h <;> simp_all
    | arith b =>
      obtain ⟨b', rfl, _⟩ := norm_eq_arith e2
      refine ⟨c, ?_, rfl⟩
      simp only [condTy] at h; simp only [kCond]; split at h <;> simp_all
    | agg g s =>
      have := norm_eq_agg e2; subst this
      refine ⟨c, ?_, rfl⟩
      simp only [condTy] at h; simp only [kCond]; split at h <;> simp_all
    | arr u n =>
      have := norm_eq_arr e2; subst this
      refine ⟨c, ?_, rfl⟩
      simp only [condTy] at h; simp only [kCond]; split at h <;> simp_all
  | agg g s =>
    have := norm_eq_agg e1; subst this
    simp only [condTy] at h
    split at h
    · rename_i h2
      subst h2
      have := norm_eq_agg e2; subst this
      exact ⟨c, by simp [kCond]; simpa using h, rfl⟩
    · cases h
  | arr u n =>
    have := norm_eq_arr e1; subst this
    cases t2 with
    | ptr u => have := norm_eq_ptr e2; subst this; exact ⟨c, h, rfl⟩
    | _ => cases h

theorem assignable_agrees {lt t t' : Ty} {n : Bool} (e : t'.norm = t.norm) (h : assignable lt t n = true) :
    kAssignable lt.dec t' = true := by
  unfold assignable at h
  split at h
  · obtain ⟨b', rfl, _⟩ := norm_eq_arith e
    simp only [Ty.dec]
    unfold kAssignable
    split <;> simp_all [Ty.isArith]
  · have := norm_eq_ptr e; subst this; rfl
  · simp only [beq_iff_eq] at h
    subst h
    have := norm_eq_agg e; subst this
    simp [kAssignable, Ty.dec]
  · have := norm_eq_ptr e; subst this
    simp only [kAssignable, Ty.dec]
    simp only [Bool.or_eq_true] at h ⊢
    tauto
  · simp only [Bool.and_eq_true] at h
    cases t <;> simp [isInt] at h
    obtain ⟨b', rfl, m⟩ := norm_eq_arith e
    simp [kAssignable, Ty.dec, Ty.isIntegral, normB_integral m, h]
  · cases h

theorem opAssignable_agrees {op : BinOp} {lt t t' : Ty} (e : t'.norm = t.norm) (h : opAssignable op lt t = true) :
    kAssignOp op lt.dec t' = true := by
  have i := isInt_agrees e
  have a := isArith_agrees e
  have hd : ∀ u, lt = .arith u → lt.dec = lt := by rintro u rfl; rfl
  cases lt with
  | arith b =>
    simp only [Ty.dec]
    have hi : (Ty.arith b).isIntegral = isInt (.arith b) := isInt_agrees rfl
    have hr : (Ty.arith b).isArith = isArithT (.arith b) := rfl
    cases op <;> simp only [opAssignable, kAssignOp, hi, hr, i, a] at h ⊢ <;> exact h
  | ptr u =>
    simp only [Ty.dec]
    cases op <;> simp_all [opAssignable, isInt, isArithT, kAssignOp, complete_agrees]
  | _ => cases op <;> simp_all [opAssignable, isInt, isArithT]

mutual
theorem kty_agrees : (e : Expr) → (t : Ty) → noSizeof e = true → cty e = some t →
    ∃ t', kty e = some t' ∧ t'.norm = t.norm
  | .const b v, t, _, h => by
    simp only [cty] at h
    split at h
    · exact ⟨t, by simpa [kty] using h, rfl⟩
    · cases h
  | .fconst f x, t, _, h => ⟨t, by simpa [cty, kty] using h, rfl⟩
  | .str id, t, _, h => ⟨t, by simpa [cty, kty] using h, rfl⟩
  | .lval l, t, hs, h => by
    simp only [cty, Option.map_eq_some_iff] at h
    obtain ⟨u, hu, rfl⟩ := h
    exact ⟨u.dec, by simp [kty, klty_agrees l u hs hu], rfl⟩
  | .addr l, t, hs, h => by
    simp only [cty] at h
    split at h
    · cases h
    · rename_i hb
      simp only [Option.map_eq_some_iff] at h
      obtain ⟨u, hu, rfl⟩ := h
      exact ⟨.ptr u, by simp [kty, hb, klty_agrees l u hs hu], rfl⟩
  | .cast t e, u, hs, h => by
    simp only [cty, Option.bind_eq_some_iff] at h
    obtain ⟨v, hv, h⟩ := h
    obtain ⟨v', hv', n⟩ := kty_agrees e v hs hv
    split at h
    · rename_i hc
      simp only [Option.some.injEq] at h
      subst h
      refine ⟨t, ?_, rfl⟩
      simp only [kty, hv', Option.bind_some]
      cases t with
      | void => rfl
      | arith b =>
        cases v <;> simp [castable] at hc
        · obtain ⟨v'', rfl, m⟩ := norm_eq_arith n
          simp [Ty.isScalar]
        · have := norm_eq_ptr n; subst this
          have : b.isIntegral = true := by cases b <;> simp_all [isInteger, Basic.isIntegral]
          simp [Ty.isScalar, this]
      | ptr w =>
        cases v <;> simp [castable] at hc
        · obtain ⟨v'', rfl, m⟩ := norm_eq_arith n
          simp [Ty.isScalar, normB_integral m, hc]
        · have := norm_eq_ptr n; subst this
          simp [Ty.isScalar]
      | _ => cases v <;> simp [castable] at hc
    · cases h
  | .un op e, u, hs, h => by
    simp only [cty, Option.bind_eq_some_iff] at h
    obtain ⟨v, hv, h⟩ := h
    obtain ⟨v', hv', n⟩ := kty_agrees e v hs hv
    simp only [kty, hv', Option.bind_some]
    have pl : ∀ b, v = .arith b → u = .arith (promoteW b e.bfw) → ∃ t', (match v' with
          | .arith b => if b.isIntegral then (b.intPromotion e.bfw).map Ty.arith else some (Ty.arith b)
          | _ => none) = some t' ∧ t'.norm = u.norm := by
      rintro b rfl rfl
      obtain ⟨b', rfl, m⟩ := norm_eq_arith n
      by_cases hi : isInteger b = true
      · obtain ⟨p, hp, np, _⟩ := promotion_agrees m hi (bfw_valid hv)
        exact ⟨.arith p, by simp [normB_integral m, hi, hp], by simp [Ty.norm, np]⟩
      · refine ⟨.arith b', by simp [normB_integral m, hi], ?_⟩
        simp [Ty.norm, promoteW, hi, m]
    cases op with
    | plus =>
      cases v <;> simp at h
      exact pl _ rfl h.symm
    | neg =>
      cases v <;> simp at h
      exact pl _ rfl h.symm
    | bnot =>
      cases v <;> simp at h
      obtain ⟨hi, rfl⟩ := h
      obtain ⟨b', rfl, m⟩ := norm_eq_arith n
      obtain ⟨p, hp, np, _⟩ := promotion_agrees m hi (bfw_valid hv)
      exact ⟨.arith p, by simp [hp], by simp [Ty.norm, np]⟩
    | lnot =>
      simp only at h
      rw [isScalar_agrees n]
      exact ⟨u, by cases v <;> simpa using h, rfl⟩
  | .bin op a b, c, hs, h => by
    simp only [noSizeof, Bool.and_eq_true] at hs
    simp only [cty, Option.bind_eq_some_iff] at h
    obtain ⟨t1, h1, t2, h2, h⟩ := h
    obtain ⟨t1', k1, n1⟩ := kty_agrees a t1 hs.1 h1
    obtain ⟨t2', k2, n2⟩ := kty_agrees b t2 hs.2 h2
    simp only [kty, k1, k2, Option.bind_some]
    exact binTy_agrees n1 n2 (fun _ hb => bfw_valid (hb ▸ h1)) (fun _ hb => bfw_valid (hb ▸ h2)) isConst_of_null
      isConst_of_null h
  | .land a b, c, hs, h => by
    simp only [noSizeof, Bool.and_eq_true] at hs
    simp only [cty, Option.bind_eq_some_iff] at h
    obtain ⟨t1, h1, t2, h2, h⟩ := h
    obtain ⟨t1', k1, n1⟩ := kty_agrees a t1 hs.1 h1
    obtain ⟨t2', k2, n2⟩ := kty_agrees b t2 hs.2 h2
    exact ⟨c, by simpa only [kty, k1, k2, Option.bind_some, isScalar_agrees n1, isScalar_agrees n2] using h, rfl⟩
  | .lor a b, c, hs, h => by
    simp only [noSizeof, Bool.and_eq_true] at hs
    simp only [cty, Option.bind_eq_some_iff] at h
    obtain ⟨t1, h1, t2, h2, h⟩ := h
    obtain ⟨t1', k1, n1⟩ := kty_agrees a t1 hs.1 h1
    obtain ⟨t2', k2, n2⟩ := kty_agrees b t2 hs.2 h2
    exact ⟨c, by simpa only [kty, k1, k2, Option.bind_some, isScalar_agrees n1, isScalar_agrees n2] using h, rfl⟩
  | .cond x a b, c, hs, h => by
    simp only [noSizeof, Bool.and_eq_true] at hs
    simp only [cty, Option.bind_eq_some_iff] at h
    obtain ⟨t, h0, t1, h1, t2, h2, h⟩ := h
    obtain ⟨t', k0, n0⟩ := kty_agrees x t hs.1.1 h0
    obtain ⟨t1', k1, n1⟩ := kty_agrees a t1 hs.1.2 h1
    obtain ⟨t2', k2, n2⟩ := kty_agrees b t2 hs.2 h2
    simp only [kty, k0, k1, k2, Option.bind_some, isScalar_agrees n0, isNull_agrees]
    split at h
    · rename_i hh
      rw [if_pos hh]
      exact condTy_agrees n1 n2 (fun _ hb => bfw_valid (hb ▸ h1)) (fun _ hb => bfw_valid (hb ▸ h2)) h
    · cases h
  | .elvis a b, c, hs, h => by
    simp only [noSizeof, Bool.and_eq_true] at hs
    simp only [cty, Option.bind_eq_some_iff] at h
    obtain ⟨t1, h1, t2, h2, h⟩ := h
    obtain ⟨t1', k1, n1⟩ := kty_agrees a t1 hs.1 h1
    obtain ⟨t2', k2, n2⟩ := kty_agrees b t2 hs.2 h2
    simp only [kty, k1, k2, Option.bind_some, isScalar_agrees n1, isNull_agrees]
    split at h
    · rename_i hh
      rw [if_pos hh]
      exact condTy_agrees n1 n2 (fun _ hb => bfw_valid (hb ▸ h1)) (fun _ hb => bfw_valid (hb ▸ h2)) h
    · cases h
  | .comma a b, c, hs, h => by
    simp only [noSizeof, Bool.and_eq_true] at hs
    simp only [cty, Option.bind_eq_some_iff] at h
    obtain ⟨t1, h1, h⟩ := h
    obtain ⟨t1', k1, n1⟩ := kty_agrees a t1 hs.1 h1
    obtain ⟨t2', k2, n2⟩ := kty_agrees b c hs.2 h
    exact ⟨t2', by simp [kty, k1, k2], n2⟩
  | .assign l e, c, hs, h => by
    simp only [noSizeof, Bool.and_eq_true] at hs
    simp only [cty, Option.bind_eq_some_iff] at h
    obtain ⟨lt, h1, t, h2, h⟩ := h
    have k1 := klty_agrees l lt hs.1 h1
    obtain ⟨t', k2, n2⟩ := kty_agrees e t hs.2 h2
    split at h
    · rename_i ha
      simp only [Option.some.injEq] at h
      subst h
      have hd : lt.dec = lt := by cases lt <;> first | rfl | (cases t <;> simp [assignable] at ha)
      have := assignable_agrees n2 ha
      rw [hd] at this
      exact ⟨lt, by simp [kty, k1, k2, this, hd], rfl⟩
    · cases h
  | .assignOp op l e, c, hs, h => by
    simp only [noSizeof, Bool.and_eq_true] at hs
    simp only [cty, Option.bind_eq_some_iff] at h
    obtain ⟨lt, h1, t, h2, h⟩ := h
    have k1 := klty_agrees l lt hs.1 h1
    obtain ⟨t', k2, n2⟩ := kty_agrees e t hs.2 h2
    split at h
    · rename_i ha
      simp only [Option.some.injEq] at h
      subst h
      have hd : lt.dec = lt := by
        cases lt <;> first | rfl | (cases op <;> simp [opAssignable, isInt, isArithT] at ha)
      have := opAssignable_agrees n2 ha
      rw [hd] at this
      exact ⟨lt, by simp [kty, k1, k2, this, hd], rfl⟩
    · cases h
  | .incdec p d l, c, hs, h => by
    simp only [cty, Option.bind_eq_some_iff] at h
    obtain ⟨lt, h1, h⟩ := h
    have k1 := klty_agrees l lt hs h1
    refine ⟨c, ?_, rfl⟩
    cases lt <;> simp at h
    · subst h; simp [kty, k1, Ty.isScalar]
    · rw [← h.2]; simp [kty, k1, Ty.isScalar]
  | .sizeof _, _, hs, _ => by cases hs
theorem klty_agrees : (l : LV) → (t : Ty) → noSizeofL l = true → clty l = some t → klty l = some t
  | .auto offs u, t, _, h => by
    simp only [clty] at h; split at h
    · simpa [klty] using h
    · cases h
  | .glob id offs u, t, _, h => by
    simp only [clty] at h; split at h
    · simpa [klty] using h
    · cases h
  | .deref e, t, hs, h => by
    simp only [clty, Option.bind_eq_some_iff] at h
    obtain ⟨u, hu, h⟩ := h
    obtain ⟨u', k, n⟩ := kty_agrees e u hs hu
    cases u <;> simp at h
    subst h
    have := norm_eq_ptr n; subst this
    simp [klty, k]
  | .index a i, t, hs, h => by
    simp only [noSizeofL, Bool.and_eq_true] at hs
    simp only [clty, Option.bind_eq_some_iff] at h
    obtain ⟨t1, h1, t2, h2, h⟩ := h
    obtain ⟨t1', k1, n1⟩ := kty_agrees a t1 hs.1 h1
    obtain ⟨t2', k2, n2⟩ := kty_agrees i t2 hs.2 h2
    have i1 := isInt_agrees n1
    have i2 := isInt_agrees n2
    simp only [klty, k1, k2, Option.bind_some]
    split at h
    · have := norm_eq_ptr n1; subst this
      split at h
      · rename_i hh
        simp only [Bool.and_eq_true] at hh
        simpa [i2, hh.2] using h
      · cases h
    · rename_i hne
      have := norm_eq_ptr n2; subst this
      split at h
      · rename_i hh
        simp only [Bool.and_eq_true] at hh
        cases t1 <;> simp [isInt] at hh
        obtain ⟨b', rfl, m⟩ := norm_eq_arith n1
        simpa [i1, isInt, hh.2] using h
      · cases h
    · cases h
  | .member e offs u bf, t, hs, h => by
    simp only [clty, Option.bind_eq_some_iff] at h
    obtain ⟨v, hv, h⟩ := h
    obtain ⟨v', k, n⟩ := kty_agrees e v hs hv
    simp only [klty, k, Option.bind_some]
    split at h
    · have := norm_eq_agg n; subst this
      split at h
      · exact h
      · cases h
    · have := norm_eq_ptr n; subst this
      split at h
      · exact h
      · cases h
    · cases h
end

end Kefir.Expr
