import Verif.Compat.Model

/-! Expressions, what is known about the identifiers in them, and the description of an expression that the rules of
`Spec.lean` and the functions of `Model.lean` assign. -/
namespace Kefir.ExprType
open Kefir.Types (Basic)
open Kefir.Compat

inductive UnOp | plus | neg | inv | lnot
  deriving DecidableEq
inductive IncOp | preInc | preDec | postInc | postDec
  deriving DecidableEq
inductive BinOp | mul | div | mod | add | sub | shl | shr | lt | le | gt | ge | eq | ne | band | bor | bxor | land | lor
  deriving DecidableEq
inductive AssignOp | mul | div | mod | add | sub | shl | shr | band | bor | bxor
  deriving DecidableEq

mutual
/-- Expressions (C17 6.5).  Type names stand for the types they denote.  Not here: compound literals, the builtin
functions and the operators of GNU C; parentheses are not nodes. -/
inductive Expr
  | ident (x : String)
  /-- A constant of that type.  The value of a floating constant plays no role. -/
  | const (b : Basic) (v : Int)
  /-- A string literal that initialises an array of `n` elements. -/
  | str (elem : Basic) (n : Nat)
  | un (op : UnOp) (e : Expr)
  | incdec (op : IncOp) (e : Expr)
  | addr (e : Expr)
  | deref (e : Expr)
  | sizeofExpr (e : Expr)
  | sizeofType (t : Ty)
  | alignofType (t : Ty)
  | bin (op : BinOp) (a b : Expr)
  | assign (a b : Expr)
  | assignOp (op : AssignOp) (a b : Expr)
  | cast (t : Ty) (e : Expr)
  | cond (c a b : Expr)
  | comma (a b : Expr)
  | index (a b : Expr)
  | call (f : Expr) (args : Args)
  | dot (e : Expr) (x : String)
  | arrow (e : Expr) (x : String)
  | generic (c : Expr) (as : Assocs) (d : Dflt)
inductive Args
  | nil
  | cons (e : Expr) (rest : Args)
/-- The associations of a generic selection other than `default`. -/
inductive Assocs
  | nil
  | cons (t : Ty) (e : Expr) (rest : Assocs)
/-- The `default` association. -/
inductive Dflt
  | none
  | some (e : Expr)
end

/-- What an ordinary identifier denotes. -/
inductive Entity
  /-- An object; `register` if declared so, `static` if it has static storage duration. -/
  | object (t : Ty) (register static : Bool)
  | function (t : Ty)
  | enumConst

/-- The outcome of evaluating a constant expression. -/
inductive Eval
  | int (v : Int)
  /-- An address; `null` if it is the integer zero. -/
  | address (null : Bool)
  | other
  /-- The expression is not constant. -/
  | notConstant
  /-- The evaluation is refused, e.g. because of a division by zero. -/
  | error
  deriving DecidableEq

/-- The declarations an expression is checked against. -/
structure Env where
  ident : String → Option Entity
  /-- The tags of complete structure (`false`) and union (`true`) types with the members. -/
  tag : String → Option (Bool × Fields)
  /-- The values of constant expressions.  (How they are computed is the subject of other properties.) -/
  eval : Expr → Eval

/-- The description of an expression.  The flags say what the expression may be used for; a description with fewer
flags describes the expression too. -/
structure Desc where
  type : Ty
  /-- It designates an object (but not a declared array: nothing can be assigned to one). -/
  lvalue : Bool
  /-- The operator `&` applies to it. -/
  addressable : Bool
  /-- It is a constant expression. -/
  const : Bool
  /-- Its address is an address constant. -/
  static : Bool
  /-- The width if it designates a bit-field. -/
  bits : Option Nat

/-- `d'` has the type and width of `d`, and at least its flags. -/
structure Desc.Le (d d' : Desc) : Prop where
  type : d'.type = d.type
  bits : d'.bits = d.bits
  lvalue : d.lvalue = true → d'.lvalue = true
  addressable : d.addressable = true → d'.addressable = true
  const : d.const = true → d'.const = true
  static : d.static = true → d'.static = true

end Kefir.ExprType
