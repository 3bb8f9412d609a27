import Verif.Lexer.Spec
/-!
# Punctuators and keywords, and how C17 spells them
-/

namespace Kefir.Lexer

/-- headers/kefir/lexer/lexem.h:148-203 `kefir_punctuator_token_t`. -/
inductive Punct where
  | leftBracket
  | rightBracket
  | leftParenthese
  | rightParenthese
  | leftBrace
  | rightBrace
  | dot
  | rightArrow
  | doublePlus
  | doubleMinus
  | ampersand
  | star
  | plus
  | minus
  | tilde
  | exclamationMark
  | slash
  | percent
  | leftShift
  | rightShift
  | lessThan
  | greaterThan
  | lessOrEqual
  | greaterOrEqual
  | equal
  | notEqual
  | caret
  | vbar
  | doubleAmpersand
  | doubleVbar
  | questionMark
  | colon
  | semicolon
  | ellipsis
  | assign
  | assignMultiply
  | assignDivide
  | assignModulo
  | assignAdd
  | assignSubtract
  | assignShiftLeft
  | assignShiftRight
  | assignAnd
  | assignXor
  | assignOr
  | comma
  | hash
  | doubleHash
  | digraphLeftBracket
  | digraphRightBracket
  | digraphLeftBrace
  | digraphRightBrace
  | digraphHash
  | digraphDoubleHash
  deriving DecidableEq, Repr

/-- headers/kefir/lexer/lexem.h:52-101 `kefir_keyword_token_t`. -/
inductive Keyword where
  | kAuto
  | kBreak
  | kCase
  | kChar
  | kConst
  | kContinue
  | kDefault
  | kDo
  | kDouble
  | kElse
  | kEnum
  | kExtern
  | kFloat
  | kFor
  | kGoto
  | kIf
  | kInline
  | kInt
  | kLong
  | kRegister
  | kRestrict
  | kReturn
  | kShort
  | kSigned
  | kSizeof
  | kStatic
  | kStruct
  | kSwitch
  | kTypedef
  | kUnion
  | kUnsigned
  | kVoid
  | kVolatile
  | kWhile
  | kAlignas
  | kAlignof
  | kAtomic
  | kBool
  | kComplex
  | kGeneric
  | kImaginary
  | kNoreturn
  | kStaticAssert
  | kThreadLocal
  | kAttribute
  | kAsm
  deriving DecidableEq, Repr

/-- The spelling of each punctuator (C17 6.4.6, with the digraphs of paragraph 3). -/
def Punct.spelling : Punct → List Chr
  | .leftBracket => str "["
  | .rightBracket => str "]"
  | .leftParenthese => str "("
  | .rightParenthese => str ")"
  | .leftBrace => str "{"
  | .rightBrace => str "}"
  | .dot => str "."
  | .rightArrow => str "->"
  | .doublePlus => str "++"
  | .doubleMinus => str "--"
  | .ampersand => str "&"
  | .star => str "*"
  | .plus => str "+"
  | .minus => str "-"
  | .tilde => str "~"
  | .exclamationMark => str "!"
  | .slash => str "/"
  | .percent => str "%"
  | .leftShift => str "<<"
  | .rightShift => str ">>"
  | .lessThan => str "<"
  | .greaterThan => str ">"
  | .lessOrEqual => str "<="
  | .greaterOrEqual => str ">="
  | .equal => str "=="
  | .notEqual => str "!="
  | .caret => str "^"
  | .vbar => str "|"
  | .doubleAmpersand => str "&&"
  | .doubleVbar => str "||"
  | .questionMark => str "?"
  | .colon => str ":"
  | .semicolon => str ";"
  | .ellipsis => str "..."
  | .assign => str "="
  | .assignMultiply => str "*="
  | .assignDivide => str "/="
  | .assignModulo => str "%="
  | .assignAdd => str "+="
  | .assignSubtract => str "-="
  | .assignShiftLeft => str "<<="
  | .assignShiftRight => str ">>="
  | .assignAnd => str "&="
  | .assignXor => str "^="
  | .assignOr => str "|="
  | .comma => str ","
  | .hash => str "#"
  | .doubleHash => str "##"
  | .digraphLeftBracket => str "<:"
  | .digraphRightBracket => str ":>"
  | .digraphLeftBrace => str "<%"
  | .digraphRightBrace => str "%>"
  | .digraphHash => str "%:"
  | .digraphDoubleHash => str "%:%:"

/-- The spelling of each keyword (C17 6.4.1), and of the extensions `asm` and `__attribute__`. -/
def Keyword.spellings : Keyword → List (List Chr)
  | .kAuto => [str "auto"]
  | .kBreak => [str "break"]
  | .kCase => [str "case"]
  | .kChar => [str "char"]
  | .kConst => [str "const"]
  | .kContinue => [str "continue"]
  | .kDefault => [str "default"]
  | .kDo => [str "do"]
  | .kDouble => [str "double"]
  | .kElse => [str "else"]
  | .kEnum => [str "enum"]
  | .kExtern => [str "extern"]
  | .kFloat => [str "float"]
  | .kFor => [str "for"]
  | .kGoto => [str "goto"]
  | .kIf => [str "if"]
  | .kInline => [str "inline"]
  | .kInt => [str "int"]
  | .kLong => [str "long"]
  | .kRegister => [str "register"]
  | .kRestrict => [str "restrict"]
  | .kReturn => [str "return"]
  | .kShort => [str "short"]
  | .kSigned => [str "signed"]
  | .kSizeof => [str "sizeof"]
  | .kStatic => [str "static"]
  | .kStruct => [str "struct"]
  | .kSwitch => [str "switch"]
  | .kTypedef => [str "typedef"]
  | .kUnion => [str "union"]
  | .kUnsigned => [str "unsigned"]
  | .kVoid => [str "void"]
  | .kVolatile => [str "volatile"]
  | .kWhile => [str "while"]
  | .kAlignas => [str "_Alignas"]
  | .kAlignof => [str "_Alignof"]
  | .kAtomic => [str "_Atomic"]
  | .kBool => [str "_Bool"]
  | .kComplex => [str "_Complex"]
  | .kGeneric => [str "_Generic"]
  | .kImaginary => [str "_Imaginary"]
  | .kNoreturn => [str "_Noreturn"]
  | .kStaticAssert => [str "_Static_assert"]
  | .kThreadLocal => [str "_Thread_local"]
  | .kAttribute => [str "__attribute__"]
  | .kAsm => [str "__asm__", str "asm"]

end Kefir.Lexer
