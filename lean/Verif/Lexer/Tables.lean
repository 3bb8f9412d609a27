import Verif.Lexer.TokenSpec
/-!
# Token tables of the lexer
-/

namespace Kefir.Lexer

/-- source/lexer/tokens/punctuator.c:25-81 `PUNCTUATORS`. -/
def punctuators : List (List Chr × Punct) := [
  (str "[", .leftBracket),
  (str "]", .rightBracket),
  (str "(", .leftParenthese),
  (str ")", .rightParenthese),
  (str "{", .leftBrace),
  (str "}", .rightBrace),
  (str ".", .dot),
  (str "->", .rightArrow),
  (str "++", .doublePlus),
  (str "--", .doubleMinus),
  (str "&", .ampersand),
  (str "*", .star),
  (str "+", .plus),
  (str "-", .minus),
  (str "~", .tilde),
  (str "!", .exclamationMark),
  (str "/", .slash),
  (str "%", .percent),
  (str "<<", .leftShift),
  (str ">>", .rightShift),
  (str "<", .lessThan),
  (str ">", .greaterThan),
  (str "<=", .lessOrEqual),
  (str ">=", .greaterOrEqual),
  (str "==", .equal),
  (str "!=", .notEqual),
  (str "^", .caret),
  (str "|", .vbar),
  (str "&&", .doubleAmpersand),
  (str "||", .doubleVbar),
  (str "?", .questionMark),
  (str ":", .colon),
  (str ";", .semicolon),
  (str "...", .ellipsis),
  (str "=", .assign),
  (str "*=", .assignMultiply),
  (str "/=", .assignDivide),
  (str "%=", .assignModulo),
  (str "+=", .assignAdd),
  (str "-=", .assignSubtract),
  (str "<<=", .assignShiftLeft),
  (str ">>=", .assignShiftRight),
  (str "&=", .assignAnd),
  (str "^=", .assignXor),
  (str "|=", .assignOr),
  (str ",", .comma),
  (str "#", .hash),
  (str "##", .doubleHash),
  (str "<:", .digraphLeftBracket),
  (str ":>", .digraphRightBracket),
  (str "<%", .digraphLeftBrace),
  (str "%>", .digraphRightBrace),
  (str "%:", .digraphHash),
  (str "%:%:", .digraphDoubleHash)]

/-- source/lexer/tokens/keyword.c:26-75 `KEYWORDS`. -/
def keywords : List (List Chr × Keyword) := [
  (str "auto", .kAuto),
  (str "break", .kBreak),
  (str "case", .kCase),
  (str "char", .kChar),
  (str "const", .kConst),
  (str "continue", .kContinue),
  (str "default", .kDefault),
  (str "do", .kDo),
  (str "double", .kDouble),
  (str "else", .kElse),
  (str "enum", .kEnum),
  (str "extern", .kExtern),
  (str "float", .kFloat),
  (str "for", .kFor),
  (str "goto", .kGoto),
  (str "if", .kIf),
  (str "inline", .kInline),
  (str "int", .kInt),
  (str "long", .kLong),
  (str "register", .kRegister),
  (str "restrict", .kRestrict),
  (str "return", .kReturn),
  (str "short", .kShort),
  (str "signed", .kSigned),
  (str "sizeof", .kSizeof),
  (str "static", .kStatic),
  (str "struct", .kStruct),
  (str "switch", .kSwitch),
  (str "typedef", .kTypedef),
  (str "union", .kUnion),
  (str "unsigned", .kUnsigned),
  (str "void", .kVoid),
  (str "volatile", .kVolatile),
  (str "while", .kWhile),
  (str "_Alignas", .kAlignas),
  (str "_Alignof", .kAlignof),
  (str "_Atomic", .kAtomic),
  (str "_Bool", .kBool),
  (str "_Complex", .kComplex),
  (str "_Generic", .kGeneric),
  (str "_Imaginary", .kImaginary),
  (str "_Noreturn", .kNoreturn),
  (str "_Static_assert", .kStaticAssert),
  (str "_Thread_local", .kThreadLocal),
  (str "__attribute__", .kAttribute),
  (str "__asm__", .kAsm),
  (str "asm", .kAsm)]

end Kefir.Lexer
