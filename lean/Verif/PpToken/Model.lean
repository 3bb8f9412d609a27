import Verif.Lexer.Matchers
/-!
# The preprocessor's tokenizer (`source/preprocessor/tokenizer.c`)
-/

namespace Kefir.PpToken

open Kefir.Lexer

/-- source/preprocessor/tokenizer.c:47-64: the attempts after whitespace, in order. -/
def ppToken (sc : StrCodec) (t : Tries) : Lex Token := do
  let c0 ← peek 0
  if c0 = 0 then pure .sentinel
  else
    orElse (matchChar sc.cd) (orElse (matchPpNumber sc.cd) (orElse (matchStringLiteral sc false)
      (orElse (matchIdentifier sc.cd) (orElse (matchPunctuator t) (fail .lexerError)))))

/-- source/preprocessor/tokenizer.c:27-84 `preprocessor_next_impl`, without extensions. -/
def ppNextImpl (sc : StrCodec) (t : Tries) : Lex LocToken := do
  let loc ← location
  let tok ← orElse matchWhitespace (ppToken sc t)
  pure ⟨tok, loc.1, loc.2⟩

/-- source/preprocessor/tokenizer.c:86-94 `kefir_preprocessor_tokenize_next`. -/
def ppNext (sc : StrCodec) (t : Tries) : Lex LocToken := apply (ppNextImpl sc t)

end Kefir.PpToken
