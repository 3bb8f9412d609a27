import Verif.Expr.Syntax

/-! Abstract syntax of the modelled C statements: the statement nodes of `headers/kefir/ast/node.h`, after name
resolution.  Statement expressions, variable-length arrays, `goto *p`, aggregate initializers and inline assembly are not
modelled. -/
namespace Kefir.Stmt
open Kefir.Expr

/-- One init-declarator for an automatic object of scalar type: where the object lives (as in `LV.auto`), its type, its
initializer. -/
structure Decl where
  offs : List Nat
  t : Ty
  init : Option Expr

/-- First clause of a `for` statement. -/
inductive Init
  | none
  | expr (e : Expr)
  | decl (ds : List Decl)

/-- Statements.  A compound statement `{ a b c }` is `seq a (seq b (seq c skip))`; a declaration is a block item. -/
inductive Stmt
  /-- the null statement; the empty compound statement -/
  | skip
  | expr (e : Expr)
  | decl (ds : List Decl)
  | seq (a b : Stmt)
  /-- `if (c) a` -/
  | cond (c : Expr) (a : Stmt)
  /-- `if (c) a else b` -/
  | condElse (c : Expr) (a b : Stmt)
  /-- `while (c) b` -/
  | loop (c : Expr) (b : Stmt)
  /-- `do b while (c);` -/
  | doWhile (b : Stmt) (c : Expr)
  /-- `for (init; c; t) b` -/
  | for_ (init : Init) (c t : Option Expr) (b : Stmt)
  | switch (e : Expr) (b : Stmt)
  /-- `case v: s`, `v` the value of the constant expression -/
  | case (v : Int) (s : Stmt)
  | dflt (s : Stmt)
  | label (l : Nat) (s : Stmt)
  | goto (l : Nat)
  | brk
  | cont
  /-- `return e;`; `q`: `e` is an lvalue of a qualified type or of array type (before lvalue conversion) -/
  | ret (e : Option Expr) (q : Bool)

/-- What a jump can be aimed at. -/
inductive Mark
  | label (l : Nat)
  | case (v : Int)
  | dflt
  deriving DecidableEq, Repr

end Kefir.Stmt
