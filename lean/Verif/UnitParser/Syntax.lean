import Verif.DeclParser.Syntax

/-! # Parsing translation units: syntax trees

Declarations, statements and external declarations over the trees of `Verif.DeclParser.Syntax`. -/

namespace Kefir.UnitParser
open Kefir.Parser (Expr)
open Kefir.Declr (Spec Dtor)
open Kefir.DeclParser (Syn)

/-- Declarations (6.7): specifiers and declarators with their initializers, or a static assertion. -/
inductive Decl where
  | decl (ss : List (Spec Syn)) (ds : List (Dtor Syn × Option (Expr Syn)))
  | assertion (e : Expr Syn) (msg : Expr Syn)

/-- The first clause of a `for` statement. -/
inductive ForInit where
  | none
  | expr (e : Expr Syn)
  | decl (d : Decl)

mutual
/-- Statements (6.8). -/
inductive Stmt where
  | label (s : String) (st : Stmt)
  | case (e : Expr Syn) (st : Stmt)
  | default (st : Stmt)
  | compound (items : List Item)
  | expr (e : Option (Expr Syn))
  | ifThen (e : Expr Syn) (st : Stmt)
  | ifElse (e : Expr Syn) (st st' : Stmt)
  | switch (e : Expr Syn) (st : Stmt)
  | while (e : Expr Syn) (st : Stmt)
  | doWhile (st : Stmt) (e : Expr Syn)
  | for (i : ForInit) (c n : Option (Expr Syn)) (st : Stmt)
  | goto (s : String)
  | continue
  | break
  | ret (e : Option (Expr Syn))
/-- Block items (6.8.2). -/
inductive Item where
  | decl (d : Decl)
  | stmt (st : Stmt)
end

/-- External declarations (6.9): function definitions, with the declarations of old-style parameters, and
declarations. -/
inductive External where
  | fn (ss : List (Spec Syn)) (d : Dtor Syn) (params : List Decl) (body : List Item)
  | decl (d : Decl)

end Kefir.UnitParser
