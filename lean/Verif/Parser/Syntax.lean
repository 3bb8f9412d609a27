import Verif.Lexer.TokenSpec

/-! Tokens and expression trees.  -/
namespace Kefir.Parser
open Kefir.Lexer (Punct Keyword)

/-- The kinds of constants, `headers/kefir/lexer/lexem.h` `kefir_constant_token_type_t`; the tree has the same kinds. -/
inductive ConstKind where
  | integer | longInteger | longLongInteger | unsignedInteger | unsignedLongInteger | unsignedLongLongInteger
  | float | double | longDouble | char | wideChar | unicode16Char | unicode32Char
  deriving DecidableEq, Repr

/-- The kinds of string literals, `headers/kefir/lexer/lexem.h` `kefir_string_literal_token_type_t`. -/
inductive StrKind where
  | multibyte | unicode8 | unicode16 | unicode32 | wide
  deriving DecidableEq, Repr

/-- A token handed to the parser, `headers/kefir/lexer/lexem.h` `struct kefir_token`.  Values of constants are kept as
their bits.  The sentinel token, which `kefir_parser_token_cursor_at` returns beyond the last token
(`source/parser/cursor.c`), is the end of the list. -/
inductive Tok where
  | punct (p : Punct)
  | kw (k : Keyword)
  | ident (s : String)
  | const (k : ConstKind) (v : Nat)
  | str (k : StrKind) (v : List Nat)
  deriving DecidableEq, Repr

/-- Unary operators, `headers/kefir/ast/node.h` `kefir_ast_unary_operation_type_t`. -/
inductive UnOp where
  | preInc | preDec | postInc | postDec | address | indirection | plus | negate | invert | logicalNegate
  | sizeof | alignof
  deriving DecidableEq, Repr

/-- Binary operators, `headers/kefir/ast/node.h` `kefir_ast_binary_operation_type_t`. -/
inductive BinOp where
  | multiply | divide | modulo | add | subtract | shiftLeft | shiftRight
  | less | greater | lessEqual | greaterEqual | equal | notEqual
  | bitAnd | bitXor | bitOr | logicalAnd | logicalOr
  deriving DecidableEq, Repr

/-- Assignment operators, `headers/kefir/ast/node.h` `kefir_ast_assignment_operation_t`. -/
inductive AssignOp where
  | simple | multiply | divide | modulo | add | subtract | shiftLeft | shiftRight | bitAnd | bitXor | bitOr
  deriving DecidableEq, Repr

/-- Built-in operators, `headers/kefir/ast/node.h` `kefir_ast_builtin_operator_t`. -/
inductive BuiltinOp where
  | vaStart | vaEnd | vaArg | vaCopy | alloca | allocaWithAlign | allocaWithAlignAndMax
  deriving DecidableEq, Repr

/-- A designator: `[index]` or `.member`. -/
inductive Desig (ε : Type) where
  | index (e : ε)
  | member (s : String)

/-- Expression trees over type names of type `τ`.  An initializer is an expression or a braced list (`initList`); each
item of the list has its designators, the innermost (last written) first, as in kefir's chain of designations.
The comma node of kefir holds the list of its operands: `[a, b, c]` is `comma (comma a b) c` here
(`kefir_parser_ast_builder_comma_operator`, `source/parser/builder.c` 437-494, appends to a left operand that is a
comma node, so a list never starts with one). -/
inductive Expr (τ : Type) where
  | ident (s : String)
  | const (k : ConstKind) (v : Nat)
  | str (k : StrKind) (v : List Nat)
  | generic (control : Expr τ) (assocs : List (τ × Expr τ)) (dflt : Option (Expr τ))
  | compound (t : τ) (init : Expr τ)
  | initList (items : List (List (Desig (Expr τ)) × Expr τ))
  | subscript (a i : Expr τ)
  | call (f : Expr τ) (args : List (Expr τ))
  | member (e : Expr τ) (s : String)
  | arrow (e : Expr τ) (s : String)
  | builtin (op : BuiltinOp) (args : List (Expr τ))
  | unary (op : UnOp) (e : Expr τ)
  | typeName (t : τ)
  | cast (t : τ) (e : Expr τ)
  | binary (op : BinOp) (a b : Expr τ)
  | cond (c a b : Expr τ)
  | assign (op : AssignOp) (a b : Expr τ)
  | comma (a b : Expr τ)

/-- The left parenthesis. -/
abbrev lp : Tok := .punct .leftParenthese
/-- The right parenthesis. -/
abbrev rp : Tok := .punct .rightParenthese
/-- The comma. -/
abbrev comma : Tok := .punct .comma
/-- The colon. -/
abbrev colon : Tok := .punct .colon

end Kefir.Parser
