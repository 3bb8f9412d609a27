import Verif.Expr.Balanced

/-! The straight-line parts of expression code contain no jumps, so `SC.steps_run` applies to every expression. -/
namespace Kefir.Expr
open Kefir.Types (Basic)
open Kefir.C17 Kefir.CSpec
open Kefir.IR

def Plain (is : List Instr) : Prop := ∀ i ∈ is, SC.isPlain i = true

theorem plain_of {is : List Instr} (h : is.all SC.isPlain = true) : Plain is := by
  intro i hi; exact List.all_eq_true.mp h i hi

theorem Plain.app {a b : List Instr} (ha : Plain a) (hb : Plain b) : Plain (a ++ b) := by
  intro i hi
  rcases List.mem_append.mp hi with h | h
  · exact ha i h
  · exact hb i h

theorem plain_typeconv (t u : Ty) : Plain (typeconv t u) := by
  unfold typeconv
  split
  · exact plain_of rfl
  · cases u with
    | arith b =>
      cases t with
      | arith c => cases b <;> cases c <;> exact plain_of rfl
      | _ => cases b <;> exact plain_of rfl
    | void => simp only; split <;> exact plain_of rfl
    | _ => exact plain_of rfl

theorem plain_normalize (t : Ty) : Plain (normalize t) := by
  cases t with
  | arith b => cases b <;> exact plain_of rfl
  | _ => exact plain_of rfl

theorem plain_intInstr (op : BinOp) (sg : Bool) : Plain (intInstr op sg) := by
  cases op <;> exact plain_of rfl

theorem plain_arithInstr (op : BinOp) (c : Ty) (sg : Bool) : Plain (arithInstr op c sg) := by
  cases c with
  | arith b => cases op <;> cases b <;> exact plain_of rfl
  | _ => exact plain_of rfl

theorem plain_relInstr (op : BinOp) (c : Ty) : Plain (relInstr op c) := by
  cases c with
  | arith b => cases op <;> cases b <;> exact plain_of rfl
  | _ => cases op <;> exact plain_of rfl

theorem plain_truncate (t : Ty) : Plain (truncate t) := by
  unfold truncate; split <;> exact plain_of rfl

theorem plain_resolve (t : Ty) (bf : Option (Nat × Nat)) : Plain (resolveLvalue t bf) := by
  cases bf with
  | none =>
    cases t with
    | arith b => cases b <;> exact plain_of rfl
    | _ => exact plain_of rfl
  | some p =>
    cases t with
    | arith b => cases b <;> exact plain_of rfl
    | _ => exact plain_of rfl

theorem plain_store (t : Ty) (bf : Option (Nat × Nat)) : Plain (storeLvalue t bf) := by
  cases bf with
  | none =>
    cases t with
    | arith b => cases b <;> exact plain_of rfl
    | _ => exact plain_of rfl
  | some p => exact plain_of rfl

theorem plain_storeResult (t : Ty) (bf : Option (Nat × Nat)) : Plain (storeResult t bf) := by
  unfold storeResult
  refine Plain.app (Plain.app ?_ (plain_store t bf)) ?_
  · split <;> exact plain_of rfl
  · split
    · split
      · split <;> exact plain_of rfl
      · exact plain_of rfl
    · exact plain_of rfl

theorem plain_offsets (l : List Nat) : Plain (offsets l) := by
  induction l with
  | nil => exact plain_of rfl
  | cons o os ih =>
    simp only [offsets]
    refine Plain.app ?_ ih
    split <;> exact plain_of rfl

theorem plain_reorder (t : Ty) : Plain (reorder t) := by unfold reorder; split <;> exact plain_of rfl

theorem plain_compound (op : BinOp) (c v : Ty) : Plain (compoundInstr op c v) := by
  cases op <;> simp only [compoundInstr] <;> first | exact plain_arithInstr _ _ _ | exact plain_intInstr _ _

theorem plain_incdec (t : Ty) (d : Bool) : Plain (incdecInstr t d) := by
  cases t with
  | arith b => cases b <;> exact plain_of rfl
  | _ => exact plain_of rfl

theorem plain_keep (t : Ty) : Plain (keepValue t) := by unfold keepValue; split <;> exact plain_of rfl

theorem ok_prologue {a b : SC} (ha : a.Ok) (hb : b.Ok) (ta tb rt : Ty) : (prologue a ta b tb rt).Ok :=
  ⟨ha, plain_typeconv _ _, hb, plain_typeconv _ _⟩

theorem ok_trBin {op : BinOp} {a b : SC} (ha : a.Ok) (hb : b.Ok) (ta tb rt : Ty) (wa wb : Option Nat) :
    (trBin op a ta wa b tb wb rt).Ok := by
  have rel : ∀ op, (match kCommon ta wa tb wb with
    | some c => a ;; .prim (typeconv ta c) ;; b ;; .prim (typeconv tb c ++ relInstr op c)
    | none => a ;; b ;; .prim (relInstr op ta)).Ok := by
    intro op
    split
    · exact ⟨ha, plain_typeconv _ _, hb, (plain_typeconv _ _).app (plain_relInstr _ _)⟩
    · exact ⟨ha, hb, plain_relInstr _ _⟩
  have ar : ∀ op sg, (prologue a ta b tb rt ;; .prim (arithInstr op rt sg ++ normalize rt)).Ok := fun op sg =>
    ⟨ok_prologue ha hb _ _ _, (plain_arithInstr _ _ _).app (plain_normalize _)⟩
  cases op <;> first | exact ar _ _ | exact rel _ | skip
  · simp only [trBin]
    split
    · exact ar _ _
    · exact ⟨ha, hb, plain_of rfl⟩
    · exact ⟨hb, ha, plain_of rfl⟩
    · exact plain_of rfl
  · simp only [trBin]
    refine ⟨ok_prologue ha hb _ _ _, ?_⟩
    split
    · exact (plain_arithInstr _ _ _).app (plain_normalize _)
    · exact plain_of rfl
    · exact plain_of rfl
    · exact plain_of rfl

theorem plain_pops (n : Nat) : Plain (List.replicate n .pop) := by
  intro i hi; rw [(List.mem_replicate.mp hi).2]; rfl

mutual
theorem tr_ok : (e : Expr) → (tr e).Ok
  | .const _ _ => plain_of rfl
  | .fconst f _ => by cases f <;> exact plain_of rfl
  | .str _ => plain_of rfl
  | .sizeof _ => plain_of rfl
  | .lval l => ⟨trL_ok l, plain_resolve _ _⟩
  | .addr l => trL_ok l
  | .cast t e => ⟨tr_ok e, plain_typeconv _ _⟩
  | .un op e => by
    have h := tr_ok e
    cases op <;> refine ⟨h, ?_⟩
    · exact plain_normalize _
    · refine Plain.app ?_ (plain_normalize _)
      split
      · split <;> exact plain_of rfl
      · exact plain_of rfl
    · exact Plain.app (a := [.un .not]) (plain_of rfl) (plain_normalize _)
    · refine Plain.app ?_ (plain_of rfl)
      split <;> exact plain_of rfl
  | .bin op a b => by simp only [tr]; exact ok_trBin (tr_ok a) (tr_ok b) _ _ _ _ _
  | .land a b =>
    ⟨tr_ok a, (plain_truncate _).app (plain_of rfl), tr_ok b, (plain_truncate _).app (plain_of rfl)⟩
  | .lor a b =>
    ⟨tr_ok a, (plain_truncate _).app (plain_of rfl), tr_ok b, (plain_truncate _).app (plain_of rfl)⟩
  | .cond c a b => ⟨tr_ok c, tr_ok a, tr_ok b⟩
  | .elvis c b => ⟨tr_ok c, plain_of rfl, plain_of rfl, tr_ok b⟩
  | .comma a b => ⟨tr_ok a, plain_pops _, tr_ok b⟩
  | .assign l e => by
    refine ⟨tr_ok e, ?_, trL_ok l, Plain.app ?_ (plain_storeResult _ _)⟩
    · show Plain _
      split
      · exact plain_typeconv _ _
      · exact plain_of rfl
    · split <;> exact plain_of rfl
  | .assignOp op l e => by
    have h1 := tr_ok e
    have h2 := trL_ok l
    simp only [tr]
    split
    · refine ⟨h1, ?_, h2, ?_⟩
      · show Plain _
        split <;> exact plain_of rfl
      · exact ((((plain_of rfl).app (plain_resolve _ _)).app (plain_reorder _)).app (plain_of rfl)).app (plain_storeResult _ _)
    · split
      · exact ⟨h1, plain_typeconv _ _, h2, ((((((plain_of rfl).app (plain_resolve _ _)).app (plain_typeconv _ _)).app
          (plain_reorder _)).app (plain_compound _ _ _)).app (plain_typeconv _ _)).app (plain_storeResult _ _)⟩
      · exact plain_of rfl
  | .incdec post dec l => by
    refine ⟨trL_ok l, (((plain_of rfl).app (plain_resolve _ _)).app ?_).app (plain_store _ _)⟩
    split
    · exact ((plain_keep _).app (plain_incdec _ _)).app (plain_normalize _)
    · exact ((plain_incdec _ _).app (plain_normalize _)).app (plain_keep _)
theorem trL_ok : (l : LV) → (trL l).Ok
  | .auto offs _ => Plain.app (a := [.getlocals]) (plain_of rfl) (plain_offsets _)
  | .glob id offs _ => Plain.app (a := [.getglobal id]) (plain_of rfl) (plain_offsets _)
  | .deref e => tr_ok e
  | .index a i => by
    have h1 := tr_ok a
    have h2 := tr_ok i
    simp only [trL]
    split
    · exact ⟨h1, h2, plain_of rfl⟩
    · split
      · exact ⟨h2, h1, plain_of rfl⟩
      · exact plain_of rfl
  | .member e offs _ _ => ⟨tr_ok e, plain_offsets _⟩
end

end Kefir.Expr
