import Verif.Stmt.Spec

/-! The constraints of C17 6.8 on labels and jumps.  Nothing here refers to kefir's analyzer or translator. -/
namespace Kefir.CSpec
open Kefir.Types (Basic)
open Kefir.Expr Kefir.Stmt

/-- The labels of a function body, once for each labelled statement. -/
def labelsOf : Stmt → List Nat
  | .seq a b => labelsOf a ++ labelsOf b
  | .cond _ a => labelsOf a
  | .condElse _ a b => labelsOf a ++ labelsOf b
  | .loop _ b => labelsOf b
  | .doWhile b _ => labelsOf b
  | .for_ _ _ _ b => labelsOf b
  | .switch _ b => labelsOf b
  | .case _ s => labelsOf s
  | .dflt s => labelsOf s
  | .label l s => l :: labelsOf s
  | _ => []

/-- The labels that `goto` statements name. -/
def gotosOf : Stmt → List Nat
  | .seq a b => gotosOf a ++ gotosOf b
  | .cond _ a => gotosOf a
  | .condElse _ a b => gotosOf a ++ gotosOf b
  | .loop _ b => gotosOf b
  | .doWhile b _ => gotosOf b
  | .for_ _ _ _ b => gotosOf b
  | .switch _ b => gotosOf b
  | .case _ s => gotosOf s
  | .dflt s => gotosOf s
  | .label _ s => gotosOf s
  | .goto l => [l]
  | _ => []

/-- The `case` constants that belong to a `switch` with the given body: not those of a `switch` inside. -/
def casesOf : Stmt → List Int
  | .seq a b => casesOf a ++ casesOf b
  | .cond _ a => casesOf a
  | .condElse _ a b => casesOf a ++ casesOf b
  | .loop _ b => casesOf b
  | .doWhile b _ => casesOf b
  | .for_ _ _ _ b => casesOf b
  | .case v s => v :: casesOf s
  | .dflt s => casesOf s
  | .label _ s => casesOf s
  | _ => []

/-- The number of `default` labels that belong to a `switch` with the given body. -/
def dfltsOf : Stmt → Nat
  | .seq a b => dfltsOf a + dfltsOf b
  | .cond _ a => dfltsOf a
  | .condElse _ a b => dfltsOf a + dfltsOf b
  | .loop _ b => dfltsOf b
  | .doWhile b _ => dfltsOf b
  | .for_ _ _ _ b => dfltsOf b
  | .case _ s => dfltsOf s
  | .dflt s => 1 + dfltsOf s
  | .label _ s => dfltsOf s
  | _ => 0

/-- Constraints on a statement that is inside a loop (`loop`) or inside a `switch` (`sw`) of the same function:
`break` and `continue` (6.8.6.2p1, 6.8.6.3p1), `case` and `default` (6.8.1p2), the labels of a `switch` (6.8.4.2p3). -/
def Placed (loop sw : Bool) : Stmt → Prop
  | .seq a b => Placed loop sw a ∧ Placed loop sw b
  | .cond _ a => Placed loop sw a
  | .condElse _ a b => Placed loop sw a ∧ Placed loop sw b
  | .loop _ b => Placed true sw b
  | .doWhile b _ => Placed true sw b
  | .for_ _ _ _ b => Placed true sw b
  | .switch e b =>
    Placed loop true b ∧ dfltsOf b ≤ 1 ∧ ∃ p, switchTy e = some p ∧ ((casesOf b).map (wrap p)).Nodup
  | .case _ s => sw = true ∧ Placed loop sw s
  | .dflt s => sw = true ∧ Placed loop sw s
  | .label _ s => Placed loop sw s
  | .brk => loop = true ∨ sw = true
  | .cont => loop = true
  | _ => True

/-- A function body meets the constraints on labels and jumps; labels are unique within the function (6.8.1p3), and
`goto` names one of them (6.8.6.1p1). -/
def Constraints (body : Stmt) : Prop :=
  Placed false false body ∧ (labelsOf body).Nodup ∧ ∀ l ∈ gotosOf body, l ∈ labelsOf body

/-- Every `switch` has a controlling expression of integer type, and each of its constants is a value of the promoted
type, so that the conversion of 6.8.4.2p5 changes nothing. -/
def CasesFit : Stmt → Prop
  | .seq a b => CasesFit a ∧ CasesFit b
  | .cond _ a => CasesFit a
  | .condElse _ a b => CasesFit a ∧ CasesFit b
  | .loop _ b => CasesFit b
  | .doWhile b _ => CasesFit b
  | .for_ _ _ _ b => CasesFit b
  | .switch e b => CasesFit b ∧ ∃ p, switchTy e = some p ∧ ∀ v ∈ casesOf b, wrap p v = v
  | .case _ s => CasesFit s
  | .dflt s => CasesFit s
  | .label _ s => CasesFit s
  | _ => True

end Kefir.CSpec
