import Verif.Expr.Sound
import Verif.Stmt.Spec

/-! The programs the theorems on statements are about: those that meet C's constraints on expressions and avoid the
constructs that `Props.lean` shows to be miscompiled. -/
namespace Kefir.Stmt
open Kefir.Types (Basic)
open Kefir.Expr Kefir.CSpec

/-- A well-typed expression of the kind that the translator of expressions handles (`Expr/Sound.lean`). -/
def okE (e : Expr) : Bool := good e && (cty e).isSome

/-- A controlling expression: of scalar type, but not `float` or `double`, which kefir tests bit by bit. -/
def okC (c : Expr) : Bool :=
  good c && truthGood (ct c) && (match cty c with | some t => isScalarT t | none => false)

/-- An initialized scalar object: not of type `long double` (kefir's store also writes the padding), and not a
conversion from floating to `_Bool` or `unsigned long`. -/
def okD (d : Decl) : Bool :=
  match d.init with
  | none => true
  | some e => okE e && d.t.isScalar && storeGood d.t && convGood (ct e) d.t

def okInit : Init → Bool
  | .none => true
  | .expr e => okE e
  | .decl ds => ds.all okD

/-- Third clause of `for`; `tidy`: not of type `long double`. -/
def okTail (tidy : Bool) : Option Expr → Bool
  | none => true
  | some e => okE e && (!tidy || ct e != .arith .ldouble)

/-- `return e`: the function returns a scalar; an `e` of qualified type already has the function's return type. -/
def okRet (rt : Ty) : Option Expr → Bool → Bool
  | none, _ => true
  | some e, q => okE e && rt.isScalar && convGood (ct e) rt && (!q || ct e == rt)

/-- `sw`: promoted type of the controlling expression of the enclosing `switch`; its `case` constants must be values of
that type.  `tidy`: no `switch`, and no `for` with a third clause of type `long double`. -/
def okS (rt : Ty) (tidy : Bool) : Option Basic → Stmt → Bool
  | _, .skip => true
  | _, .expr e => okE e
  | _, .decl ds => ds.all okD
  | sw, .seq a b => okS rt tidy sw a && okS rt tidy sw b
  | sw, .cond c a => okC c && okS rt tidy sw a
  | sw, .condElse c a b => okC c && okS rt tidy sw a && okS rt tidy sw b
  | sw, .loop c b => okC c && okS rt tidy sw b
  | sw, .doWhile b c => okC c && okS rt tidy sw b
  | sw, .for_ i c t b =>
    okInit i && (match c with | none => true | some c => okC c) && okTail tidy t && okS rt tidy sw b
  | _, .switch e b => !tidy && good e && (switchTy e).isSome && okS rt tidy (switchTy e) b
  | sw, .case v s => (match sw with | some b => wrap b v == v | none => false) && okS rt tidy sw s
  | sw, .dflt s => okS rt tidy sw s
  | sw, .label _ s => okS rt tidy sw s
  | _, .goto _ => true
  | _, .brk => true
  | _, .cont => true
  | _, .ret e q => okRet rt e q

end Kefir.Stmt
