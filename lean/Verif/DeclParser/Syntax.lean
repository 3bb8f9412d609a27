import Verif.Parser.Syntax
import Verif.Declr.Syntax

/-! # Parsing declarations: syntax trees

The trees of declaration specifiers and declarators are those of `Verif.Declr.Syntax`.  What they leave open, the
expressions in them, type names and the bodies of structures, unions and enumerations, is `Syn`. -/

namespace Kefir.DeclParser
open Kefir.Parser (Expr)
open Kefir.Declr (Spec Dtor)

/-- A member declaration or static assertion in a structure or union (6.7.2.1).  A declarator comes with the width of
its bit-field; an unnamed bit-field has the declarator `name none`. -/
inductive Member (X : Type) where
  | decl (ss : List (Spec X)) (ds : List (Dtor X × Option X))
  | assertion (e : X) (msg : X)

/-- What is inside of specifiers and declarators. -/
inductive Syn where
  | expr (e : Expr Syn)
  | typeName (ss : List (Spec Syn)) (d : Dtor Syn)
  | members (ms : List (Member Syn))
  | enumerators (es : List (String × Option Syn))

end Kefir.DeclParser
