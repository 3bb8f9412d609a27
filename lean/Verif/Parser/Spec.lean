import Verif.Parser.Syntax

/-! The expression grammar of C17 (6.5, 6.6 and the initializers of 6.7.9): which token sequences are spelled by which
trees.  Left recursive rules are written as in the standard.  Type names are a parameter, `IsType pre t`. -/
namespace Kefir.Parser
open Kefir.Lexer (Punct Keyword)

/-- Places where a dialect can differ from the C17 grammar. -/
structure Dialect where
  /-- postfix operators may follow a compound literal -/
  literalPostfix : Bool
  /-- a comma may follow the last argument of a call -/
  trailingComma : Bool
  /-- a braced initializer may be empty -/
  emptyBraces : Bool
  /-- the operand of prefix `++` and `--` may be a cast -/
  castOperand : Bool
  /-- the operand of `_Alignof` may be an expression -/
  alignofExpr : Bool

/-- C17. -/
def Dialect.c17 : Dialect := ⟨true, false, false, false, false⟩

/-- The dialect kefir parses. -/
def Dialect.kefir : Dialect := ⟨false, true, true, true, true⟩

/-- What both have in common. -/
def Dialect.common : Dialect := ⟨false, false, false, false, false⟩

/-- Everything either accepts. -/
def Dialect.union : Dialect := ⟨true, true, true, true, true⟩

/-- `[` or `<:` (6.4.6p3). -/
def Tok.isLBracket : Tok → Bool
  | .punct .leftBracket | .punct .digraphLeftBracket => true
  | _ => false

/-- `]` or `:>`. -/
def Tok.isRBracket : Tok → Bool
  | .punct .rightBracket | .punct .digraphRightBracket => true
  | _ => false

/-- `{` or `<%`. -/
def Tok.isLBrace : Tok → Bool
  | .punct .leftBrace | .punct .digraphLeftBrace => true
  | _ => false

/-- `}` or `%>`. -/
def Tok.isRBrace : Tok → Bool
  | .punct .rightBrace | .punct .digraphRightBrace => true
  | _ => false

/-- The levels of binary operators (6.5.5 to 6.5.14). -/
inductive Level where
  | mul | add | shift | rel | eq | band | bxor | bor | land | lor
  deriving DecidableEq, Repr

/-- Nonterminals. -/
inductive Sym where
  | primary | literal | postfix | unary | cast | bin (l : Level) | cond | assign | expr | braces | init
  deriving DecidableEq, Repr

/-- The operators of each level. -/
def Level.ops : Level → List (Punct × BinOp)
  | .mul => [(.star, .multiply), (.slash, .divide), (.percent, .modulo)]
  | .add => [(.plus, .add), (.minus, .subtract)]
  | .shift => [(.leftShift, .shiftLeft), (.rightShift, .shiftRight)]
  | .rel => [(.lessThan, .less), (.greaterThan, .greater), (.lessOrEqual, .lessEqual),
      (.greaterOrEqual, .greaterEqual)]
  | .eq => [(.equal, .equal), (.notEqual, .notEqual)]
  | .band => [(.ampersand, .bitAnd)]
  | .bxor => [(.caret, .bitXor)]
  | .bor => [(.vbar, .bitOr)]
  | .land => [(.doubleAmpersand, .logicalAnd)]
  | .lor => [(.doubleVbar, .logicalOr)]

/-- The nonterminal of the right operands of each level: the next tighter one. -/
def Level.operand : Level → Sym
  | .mul => .cast
  | .add => .bin .mul
  | .shift => .bin .add
  | .rel => .bin .shift
  | .eq => .bin .rel
  | .band => .bin .eq
  | .bxor => .bin .band
  | .bor => .bin .bxor
  | .land => .bin .bor
  | .lor => .bin .land

/-- unary-operator (6.5.3). -/
def unaryOps : List (Punct × UnOp) :=
  [(.ampersand, .address), (.star, .indirection), (.plus, .plus), (.minus, .negate), (.tilde, .invert),
    (.exclamationMark, .logicalNegate)]

/-- Prefix and postfix increment and decrement. -/
def prefixOps : List (Punct × UnOp) := [(.doublePlus, .preInc), (.doubleMinus, .preDec)]
/-- See `prefixOps`. -/
def postfixOps : List (Punct × UnOp) := [(.doublePlus, .postInc), (.doubleMinus, .postDec)]

/-- assignment-operator (6.5.16). -/
def assignOps : List (Punct × AssignOp) :=
  [(.assign, .simple), (.assignMultiply, .multiply), (.assignDivide, .divide), (.assignModulo, .modulo),
    (.assignAdd, .add), (.assignSubtract, .subtract), (.assignShiftLeft, .shiftLeft),
    (.assignShiftRight, .shiftRight), (.assignAnd, .bitAnd), (.assignXor, .bitXor), (.assignOr, .bitOr)]

/-- Names of the built-in operators; they are reserved identifiers (7.1.3). -/
def builtinNames : List (String × BuiltinOp) :=
  [("__builtin_va_start", .vaStart), ("__builtin_va_end", .vaEnd), ("__builtin_va_copy", .vaCopy),
    ("__builtin_va_arg", .vaArg), ("__builtin_alloca", .alloca), ("__builtin_alloca_with_align", .allocaWithAlign),
    ("__builtin_alloca_with_align_and_max", .allocaWithAlignAndMax)]

/-- A UTF-8 string literal has elements of type `char` like one without prefix (6.4.5p6). -/
def StrKind.elements : StrKind → StrKind
  | .unicode8 => .multibyte
  | k => k

/-- Sequences separated by commas. -/
def sepComma : List (List Tok) → List Tok
  | [] => []
  | [x] => x
  | x :: xs => x ++ comma :: sepComma xs

/-- An optional comma after a list that is not empty. -/
def optComma (allowed : Bool) (isEmpty : Bool) : List Tok → Prop
  | [] => True
  | ts => ts = [comma] ∧ allowed = true ∧ isEmpty = false

/-- A generic association: its type name or `default`, and its expression. -/
structure Assoc (τ : Type) where
  headToks : List Tok
  head : Option τ
  toks : List Tok
  expr : Expr τ

/-- The tokens of an association. -/
def Assoc.all {τ} (a : Assoc τ) : List Tok := comma :: a.headToks ++ colon :: a.toks

/-- The associations with a type. -/
def typedAssocs {τ} (as : List (Assoc τ)) : List (τ × Expr τ) :=
  as.filterMap fun a => a.head.map fun t => (t, a.expr)

/-- The expressions of the `default` associations. -/
def defaultAssocs {τ} (as : List (Assoc τ)) : List (Expr τ) :=
  as.filterMap fun a => match a.head with
    | some _ => none
    | none => some a.expr

/-- A designator as written. -/
inductive WDesig (τ : Type) where
  | index (l : Tok) (toks : List Tok) (e : Expr τ) (r : Tok)
  | member (s : String)

/-- Its tokens. -/
def WDesig.toks {τ} : WDesig τ → List Tok
  | .index l ts _ r => l :: ts ++ [r]
  | .member s => [.punct .dot, .ident s]

/-- Its place in the tree. -/
def WDesig.node {τ} : WDesig τ → Desig (Expr τ)
  | .index _ _ e _ => .index e
  | .member s => .member s

/-- An item of a braced initializer as written. -/
structure WItem (τ : Type) where
  desigs : List (WDesig τ)
  toks : List Tok
  init : Expr τ

/-- Its tokens. -/
def WItem.all {τ} (i : WItem τ) : List Tok :=
  match i.desigs with
  | [] => i.toks
  | ds => ds.flatMap WDesig.toks ++ .punct .assign :: i.toks

/-- Its place in the tree. -/
def WItem.node {τ} (i : WItem τ) : List (Desig (Expr τ)) × Expr τ :=
  ((i.desigs.map WDesig.node).reverse, i.init)

/-- An argument of a built-in operator as written. -/
inductive BArg (τ : Type) where
  | type (toks : List Tok) (t : τ)
  | expr (toks : List Tok) (e : Expr τ)

/-- Its tokens. -/
def BArg.toks {τ} : BArg τ → List Tok
  | .type ts _ => ts
  | .expr ts _ => ts

/-- Its place in the tree. -/
def BArg.node {τ} : BArg τ → Expr τ
  | .type _ t => .typeName t
  | .expr _ e => e

variable {τ : Type} (d : Dialect) (isTypedef : String → Bool) (IsType : List Tok → τ → Prop)

/-- `Der d isTypedef IsType s ts e`: the nonterminal `s` derives the tokens `ts` with the tree `e`, in the dialect `d`,
where `isTypedef` tells which identifiers are typedef names (6.7.8). -/
inductive Der : Sym → List Tok → Expr τ → Prop where
  -- 6.5.1 primary expressions
  | ident {s} : isTypedef s = false → builtinNames.lookup s = none →
      Der .primary [.ident s] (.ident s)
  | const {k v} : Der .primary [.const k v] (.const k v)
  | str {k v} : Der .primary [.str k v] (.str k.elements v)
  | paren {ts e} : Der .expr ts e → Der .primary (lp :: ts ++ [rp]) e
  | generic {tc c} {as : List (Assoc τ)} : Der .assign tc c → as ≠ [] →
      (∀ a ∈ as, Der .assign a.toks a.expr) →
      (∀ a ∈ as, match a.head with
        | some t => IsType a.headToks t
        | none => a.headToks = [.kw .kDefault]) →
      (defaultAssocs as).length ≤ 1 →
      Der .primary (.kw .kGeneric :: lp :: tc ++ as.flatMap Assoc.all ++ [rp])
        (.generic c (typedAssocs as) (defaultAssocs as).head?)
  -- 6.5.2 postfix operators
  | postfixPrimary {ts e} : Der .primary ts e → Der .postfix ts e
  | builtin {s op} {args : List (BArg τ)} {tc} : builtinNames.lookup s = some op →
      (∀ ts t, BArg.type ts t ∈ args → IsType ts t) →
      (∀ ts e, BArg.expr ts e ∈ args → Der .assign ts e) →
      optComma d.trailingComma args.isEmpty tc →
      Der .postfix (.ident s :: lp :: sepComma (args.map BArg.toks) ++ tc ++ [rp])
        (.builtin op (args.map BArg.node))
  | subscript {l r ta a ti i} : Der .postfix ta a → l.isLBracket = true →
      Der .expr ti i → r.isRBracket = true →
      Der .postfix (ta ++ l :: ti ++ [r]) (.subscript a i)
  | call {tf f} {args : List (List Tok × Expr τ)} {tc} : Der .postfix tf f →
      (∀ a ∈ args, Der .assign a.1 a.2) →
      optComma d.trailingComma args.isEmpty tc →
      Der .postfix (tf ++ lp :: sepComma (args.map (·.1)) ++ tc ++ [rp])
        (.call f (args.map (·.2)))
  | member {ts e s} : Der .postfix ts e →
      Der .postfix (ts ++ [.punct .dot, .ident s]) (.member e s)
  | arrow {ts e s} : Der .postfix ts e →
      Der .postfix (ts ++ [.punct .rightArrow, .ident s]) (.arrow e s)
  | postfixOp {ts e p op} : Der .postfix ts e → (p, op) ∈ postfixOps →
      Der .postfix (ts ++ [.punct p]) (.unary op e)
  | literal {tt t tb i} : IsType tt t → Der .braces tb i →
      Der .literal (lp :: tt ++ rp :: tb) (.compound t i)
  | postfixLiteral {ts e} : d.literalPostfix = true → Der .literal ts e →
      Der .postfix ts e
  -- 6.5.3 unary operators
  | unaryPostfix {ts e} : Der .postfix ts e → Der .unary ts e
  | unaryLiteral {ts e} : Der .literal ts e → Der .unary ts e
  | prefixOp {ts e p op} : (p, op) ∈ prefixOps →
      Der (if d.castOperand then .cast else .unary) ts e →
      Der .unary (.punct p :: ts) (.unary op e)
  | unaryOp {ts e p op} : (p, op) ∈ unaryOps → Der .cast ts e →
      Der .unary (.punct p :: ts) (.unary op e)
  | sizeofExpr {ts e} : Der .unary ts e →
      Der .unary (.kw .kSizeof :: ts) (.unary .sizeof e)
  | sizeofType {tt t} : IsType tt t →
      Der .unary (.kw .kSizeof :: lp :: tt ++ [rp]) (.unary .sizeof (.typeName t))
  | alignofType {tt t} : IsType tt t →
      Der .unary (.kw .kAlignof :: lp :: tt ++ [rp]) (.unary .alignof (.typeName t))
  | alignofExpr {ts e} : d.alignofExpr = true → Der .assign ts e →
      Der .unary (.kw .kAlignof :: lp :: ts ++ [rp]) (.unary .alignof e)
  -- 6.5.4 casts
  | castUnary {ts e} : Der .unary ts e → Der .cast ts e
  | cast {tt t ts e} : IsType tt t → Der .cast ts e →
      Der .cast (lp :: tt ++ rp :: ts) (.cast t e)
  -- 6.5.5 to 6.5.14 binary operators
  | binOperand {l ts e} : Der (Level.operand l) ts e → Der (.bin l) ts e
  | binOp {l ta a p op tb b} : Der (.bin l) ta a → (p, op) ∈ Level.ops l →
      Der (Level.operand l) tb b →
      Der (.bin l) (ta ++ .punct p :: tb) (.binary op a b)
  -- 6.5.15 the conditional operator
  | condBin {ts e} : Der (.bin .lor) ts e → Der .cond ts e
  | cond {tc c ta a tb b} : Der (.bin .lor) tc c → Der .expr ta a →
      Der .cond tb b →
      Der .cond (tc ++ .punct .questionMark :: ta ++ colon :: tb) (.cond c a b)
  -- 6.5.16 assignment
  | assignCond {ts e} : Der .cond ts e → Der .assign ts e
  | assign {ta a p op tb b} : Der .unary ta a → (p, op) ∈ assignOps →
      Der .assign tb b →
      Der .assign (ta ++ .punct p :: tb) (.assign op a b)
  -- 6.5.17 the comma operator
  | exprAssign {ts e} : Der .assign ts e → Der .expr ts e
  | comma {ta a tb b} : Der .expr ta a → Der .assign tb b →
      Der .expr (ta ++ Parser.comma :: tb) (.comma a b)
  -- 6.7.9 initializers
  | initExpr {ts e} : Der .assign ts e → Der .init ts e
  | initBraces {ts e} : Der .braces ts e → Der .init ts e
  | braces {l r} {items : List (WItem τ)} {tc} : l.isLBrace = true → r.isRBrace = true →
      (items = [] → d.emptyBraces = true) →
      (∀ it ∈ items, Der .init it.toks it.init) →
      (∀ it ∈ items, ∀ l ts e r, WDesig.index l ts e r ∈ it.desigs →
        l.isLBracket = true ∧ r.isRBracket = true) →
      (∀ it ∈ items, ∀ l ts e r, WDesig.index l ts e r ∈ it.desigs → Der .cond ts e) →
      optComma true items.isEmpty tc →
      Der .braces (l :: sepComma (items.map WItem.all) ++ tc ++ [r])
        (.initList (items.map WItem.node))

end Kefir.Parser
