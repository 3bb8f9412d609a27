import Verif.Base
import Verif.Lexer.TokenSpec

/-!
# Preprocessing tokens

Simplifications: source locations are dropped; character constants, header names, wide string
literals and keywords (which the tokenizer never produces before conversion) are `other`, carrying
their spelling; extension tokens are not modelled (no extension is installed by default).
-/

namespace Kefir.Preproc

open Kefir.Lexer (Punct)

/-- The text of an identifier or number. -/
abbrev Name := List Char

/-- `struct kefir_token`, `headers/kefir/lexer/lexem.h:30-50, 233-251`, restricted to what the
preprocessor looks at.  The Boolean of `ident` is `preprocessor_props.skip_identifier_subst`, the
one of `ws` is `pp_whitespace.newline`. -/
inductive Tok where
  | ident (name : Name) (skip : Bool)
  | punct (p : Punct)
  | number (text : Name)
  | string (bytes : List Char)
  | other (text : Name)
  | ws (newline : Bool)
  | placemaker
  | sentinel
  deriving DecidableEq, Repr

/-- `klass == KEFIR_TOKEN_PP_WHITESPACE`. -/
def Tok.isWs : Tok → Bool
  | .ws _ => true
  | _ => false

end Kefir.Preproc
