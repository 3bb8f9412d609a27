import Verif.DeclParser.Syntax
import Verif.Parser.Spec

/-! # The grammar of declarations

Which token sequences are declaration specifiers, declarators, parameter lists, member lists and type names, and of
which trees: C17 6.7, 6.7.2 to 6.7.7.  The expressions inside are parameters, `IsAssign` for assignment expressions and
`IsCond` for constant expressions (6.6p1: conditional expressions).

The set of typedef names is fixed, so no enumeration constant here hides a typedef name. -/

namespace Kefir.DeclParser
open Kefir.Lexer (Punct Keyword)
open Kefir.Parser (Tok Expr lp rp comma colon sepComma optComma)
open Kefir.Declr

/-- Places where a dialect can differ from the C17 grammar. -/
structure Dialect where
  /-- the length of an array may start with `*`, as in `[*p]` -/
  starBound : Bool
  /-- `[const *]` in an abstract declarator -/
  abstractStar : Bool
  /-- the parameter list of an abstract parameter may start with a typedef name, as in `int f(int (T))` -/
  typedefParam : Bool
  /-- a parameter name in parentheses may be that of a typedef (6.7.6.3p11 takes the typedef name) -/
  nameParam : Bool
  /-- the type specifier `_Atomic ( type-name )` -/
  atomicType : Bool
  /-- the type specifier `_Atomic ( type-name`, without the parenthesis -/
  atomicOpen : Bool
  /-- the qualifier `_Atomic` of a pointer or array may be followed by `(` (excluded by 6.7.2.4p4) -/
  atomicParen : Bool
  /-- any declaration specifiers in type names and member declarations -/
  anySpecifiers : Bool
  /-- specifiers without a type specifier (excluded by 6.7.2p2) -/
  noType : Bool
  /-- structures without members -/
  emptyStruct : Bool
  /-- `__builtin_va_list` as an ordinary identifier -/
  vaName : Bool

/-- C17. -/
def Dialect.c17 : Dialect := ⟨true, false, true, false, true, false, false, false, false, false, false⟩

/-- The dialect kefir parses. -/
def Dialect.kefir : Dialect := ⟨false, true, false, true, false, true, true, true, true, true, true⟩

/-- What both have in common. -/
def Dialect.common : Dialect := ⟨false, false, false, false, false, false, false, false, false, false, false⟩

/-- The name of the built-in type of argument lists. -/
def vaListName : String := "__builtin_va_list"

/-- Spellings (6.4.1). -/
def Word.kw : Word → Keyword
  | .void => .kVoid | .char => .kChar | .short => .kShort | .int => .kInt | .long => .kLong | .float => .kFloat
  | .double => .kDouble | .signed => .kSigned | .unsigned => .kUnsigned | .bool => .kBool

/-- See `Word.kw`. -/
def Qual.kw : Qual → Keyword
  | .const => .kConst | .restrict => .kRestrict | .volatile => .kVolatile | .atomic => .kAtomic

/-- See `Word.kw`. -/
def Storage.kw : Storage → Keyword
  | .typedef => .kTypedef | .extern => .kExtern | .static => .kStatic | .threadLocal => .kThreadLocal
  | .auto => .kAuto | .register => .kRegister

/-- See `Word.kw`. -/
def FnSpec.kw : FnSpec → Keyword
  | .inline => .kInline | .noreturn => .kNoreturn

/-- See `Word.kw`. -/
def TagKind.kw : TagKind → Keyword
  | .struct => .kStruct | .union => .kUnion | .enum => .kEnum

/-- The star. -/
abbrev star : Tok := .punct .star
/-- The semicolon. -/
abbrev semi : Tok := .punct .semicolon

/-- A list of qualifiers. -/
def qualToks (q : List Qual) : List Tok := q.map fun x => .kw (Qual.kw x)

/-- An optional tag. -/
def tagToks : Option String → List Tok
  | some s => [.ident s]
  | none => []

/-- Type specifiers. -/
def isType : Spec Syn → Bool
  | .type _ => true
  | _ => false

/-- The specifiers of a specifier-qualifier list (6.7.2.1). -/
def isSpecQual : Spec Syn → Bool
  | .type _ | .qual _ | .align _ => true
  | _ => false

/-- Old-style parameters. -/
def Params.idents : List String → Params Syn
  | [] => .nil
  | s :: r => .ident s (Params.idents r)

/-- Prototype parameters. -/
def Params.decls : List (List (Spec Syn) × Dtor Syn) → Params Syn
  | [] => .nil
  | p :: r => .decl p.1 p.2 (Params.decls r)

/-- `ss` may be the specifiers of a declaration (6.7.2p2: there is a type specifier) or, if `restricted`, a
specifier-qualifier list. -/
def SpecsOk (d : Dialect) (restricted : Bool) (ss : List (Spec Syn)) : Prop :=
  ss ≠ [] ∧ (d.noType = true ∨ ss.any isType = true) ∧
    (restricted = true → d.anySpecifiers = true ∨ ss.all isSpecQual = true)

/-- `_Atomic` followed by `(` is no qualifier (6.7.2.4p4). -/
def SpecsGlue (ss : List (Spec Syn)) (next : List Tok) : Prop :=
  ss.getLast? = some (.qual .atomic) → next.head? ≠ some lp

/-- The same for the qualifiers of pointers and arrays. -/
def QualsGlue (d : Dialect) (q : List Qual) (next : List Tok) : Prop :=
  d.atomicParen = true ∨ (q.getLast? = some .atomic → next.head? ≠ some lp)

/-- Qualifiers. -/
def isQualKw : Keyword → Bool
  | .kConst | .kRestrict | .kVolatile | .kAtomic => true
  | _ => false

/-- The first token of a declarator that is neither `*`, nor a qualifier of such a pointer, nor `(`. -/
def declHead : (afterStar : Bool) → List Tok → Option Tok
  | _, [] => none
  | a, t :: r =>
    if t = star then declHead true r
    else if t = lp then declHead false r
    else match t with
      | .kw k => if a && isQualKw k then declHead true r else some t
      | _ => some t

/-- That token is a typedef name and comes after `(`. -/
def typedefInParens (isTypedef : String → Bool) : (afterStar : Bool) → List Tok → Bool
  | _, [] => false
  | a, t :: r =>
    if t = star then typedefInParens isTypedef true r
    else if t = lp then
      match r with
      | .ident s :: _ => isTypedef s
      | _ => typedefInParens isTypedef false r
    else match t with
      | .kw k => if a && isQualKw k then typedefInParens isTypedef true r else false
      | _ => false

/-- An enumerator as written. -/
structure WEnum where
  name : String
  value : Option (List Tok × Expr Syn)

/-- Its tokens. -/
def WEnum.toks (e : WEnum) : List Tok :=
  .ident e.name :: match e.value with
    | some (ts, _) => .punct .assign :: ts
    | none => []

/-- Its place in the tree. -/
def WEnum.node (e : WEnum) : String × Option Syn := (e.name, e.value.map fun v => .expr v.2)

/-- What the grammar describes. -/
inductive Sym where
  /-- a declaration specifier, where `has` tells whether there was a type specifier before -/
  | spec (has : Bool)
  /-- declaration specifiers -/
  | specs (has : Bool)
  /-- declarator -/
  | dtor
  /-- direct-declarator -/
  | direct
  /-- abstract-declarator -/
  | abs
  /-- direct-abstract-declarator -/
  | dabs
  /-- an optional direct-abstract-declarator -/
  | odabs
  /-- the parenthesised parameters of a declarator -/
  | parens (abstract : Bool)
  /-- parameter-declaration -/
  | param
  /-- parameter-list -/
  | params
  /-- struct-declaration-list, may be empty -/
  | members
  /-- struct-declaration -/
  | member
  /-- struct-declarator-list -/
  | mdtors
  /-- struct-declarator -/
  | mdtor
  /-- type-name -/
  | typeName

/-- The trees. -/
abbrev Sym.Val : Sym → Type
  | .spec _ => Spec Syn
  | .specs _ => List (Spec Syn)
  | .dtor | .direct | .abs | .dabs | .odabs => Dtor Syn
  | .parens _ => Params Syn × Bool
  | .param => List (Spec Syn) × Dtor Syn
  | .params => List (List (Spec Syn) × Dtor Syn)
  | .members => List (Member Syn)
  | .member => Member Syn
  | .mdtors => List (Dtor Syn × Option Syn)
  | .mdtor => Dtor Syn × Option Syn
  | .typeName => Syn

variable (d : Dialect) (isTypedef : String → Bool) (IsAssign IsCond : List Tok → Expr Syn → Prop)

/-- The brackets of an array declarator (6.7.6.2, 6.7.7): `static`, qualifiers, length. -/
inductive Brackets (abstract : Bool) : List Tok → Bool → List Qual → Bound Syn → Prop where
  | empty {l r q} : l.isLBracket = true → r.isRBracket = true →
      Brackets abstract (l :: qualToks q ++ [r]) false q .unbounded
  | expr {l r q te e} : l.isLBracket = true → r.isRBracket = true → IsAssign te e →
      (d.starBound = true ∨ te.head? ≠ some star) → QualsGlue d q te →
      Brackets abstract (l :: qualToks q ++ te ++ [r]) false q (.expr (.expr e))
  | staticQuals {l r q te e} : l.isLBracket = true → r.isRBracket = true → IsAssign te e →
      (d.starBound = true ∨ te.head? ≠ some star) → QualsGlue d q te →
      Brackets abstract (l :: .kw .kStatic :: qualToks q ++ te ++ [r]) true q (.expr (.expr e))
  | qualsStatic {l r q te e} : l.isLBracket = true → r.isRBracket = true → IsAssign te e →
      (d.starBound = true ∨ te.head? ≠ some star) →
      Brackets abstract (l :: qualToks q ++ .kw .kStatic :: te ++ [r]) true q (.expr (.expr e))
  | star {l r q} : l.isLBracket = true → r.isRBracket = true →
      (abstract = false ∨ q = [] ∨ d.abstractStar = true) →
      Brackets abstract (l :: qualToks q ++ [star, r]) false q .star

/-- `Der d isTypedef IsAssign IsCond s ts v`: the nonterminal `s` derives the tokens `ts` with the tree `v`. -/
inductive Der : (s : Sym) → List Tok → s.Val → Prop where
  -- 6.7.2 type specifiers
  | word {has} (w : Word) : Der (.spec has) [.kw (Word.kw w)] (.type (.word w))
  | complex {has} : Der (.spec has) [.kw .kComplex] (.type .complex)
  | atomicType {has ts t} : d.atomicType = true → Der .typeName ts t →
      Der (.spec has) (.kw .kAtomic :: lp :: ts ++ [rp]) (.type (.atomic t))
  | atomicOpen {has ts t} : d.atomicOpen = true → Der .typeName ts t →
      Der (.spec has) (.kw .kAtomic :: lp :: ts) (.type (.atomic t))
  | tagRef {has} (k : TagKind) (s : String) :
      Der (.spec has) [.kw (TagKind.kw k), .ident s] (.type (.tag k (some s) none))
  | tagMembers {has k n l r ts ms} : k ≠ .enum → l.isLBrace = true → r.isRBrace = true → Der .members ts ms →
      (ms = [] → d.emptyStruct = true) →
      Der (.spec has) (.kw (TagKind.kw k) :: tagToks n ++ l :: ts ++ [r]) (.type (.tag k n (some (.members ms))))
  | tagEnumerators {has n l r} {es : List WEnum} {tc} : l.isLBrace = true → r.isRBrace = true → es ≠ [] →
      (∀ e ∈ es, isTypedef e.name = false) → (∀ e ∈ es, ∀ ts v, e.value = some (ts, v) → IsCond ts v) →
      optComma true es.isEmpty tc →
      Der (.spec has) (.kw .kEnum :: tagToks n ++ l :: sepComma (es.map WEnum.toks) ++ tc ++ [r])
        (.type (.tag .enum n (some (.enumerators (es.map WEnum.node)))))
  | typedefName {s} : isTypedef s = true → s ≠ vaListName →
      Der (.spec false) [.ident s] (.type (.typedefName s))
  | vaList {has} : Der (.spec has) [.ident vaListName] (.type .vaList)
  -- 6.7.1, 6.7.3, 6.7.4, 6.7.5
  | qual {has} (q : Qual) : Der (.spec has) [.kw (Qual.kw q)] (.qual q)
  | storage {has} (s : Storage) : Der (.spec has) [.kw (Storage.kw s)] (.storage s)
  | fn {has} (f : FnSpec) : Der (.spec has) [.kw (FnSpec.kw f)] (.fn f)
  | alignExpr {has ts e} : IsCond ts e →
      Der (.spec has) (.kw .kAlignas :: lp :: ts ++ [rp]) (.align (.expr e))
  | alignType {has ts t} : Der .typeName ts t → (d.vaName = true ∨ ts.head? ≠ some (.ident vaListName)) →
      Der (.spec has) (.kw .kAlignas :: lp :: ts ++ [rp]) (.align t)
  | specsNil {has} : Der (.specs has) [] []
  | specsCons {has ts s ts' ss} : Der (.spec has) ts s → Der (.specs (has || isType s)) ts' ss →
      Der (.specs has) (ts ++ ts') (s :: ss)
  -- 6.7.6 declarators
  | ptr {q ts v} : Der .dtor ts v → QualsGlue d q ts → Der .dtor (star :: qualToks q ++ ts) (.ptr q v)
  | dtorDirect {ts v} : Der .direct ts v → Der .dtor ts v
  | name {s} : (d.vaName = true ∨ s ≠ vaListName) → Der .direct [.ident s] (.name (some s))
  | paren {ts v} : Der .dtor ts v → Der .direct (lp :: ts ++ [rp]) v
  | arr {ts v tb st q b} : Der .direct ts v → Brackets d IsAssign false tb st q b →
      Der .direct (ts ++ tb) (.arr v st q b)
  | func {ts v tp ps} : Der .direct ts v → Der (.parens false) tp ps → Der .direct (ts ++ tp) (.fn v ps.1 ps.2)
  -- 6.7.7 abstract declarators
  | absPtr {q} : Der .abs (star :: qualToks q) (.ptr q (.name none))
  | absPtrAbs {q ts v} : Der .abs ts v → QualsGlue d q ts → Der .abs (star :: qualToks q ++ ts) (.ptr q v)
  | absDirect {ts v} : Der .dabs ts v → Der .abs ts v
  | odabsNone : Der .odabs [] (.name none)
  | odabsSome {ts v} : Der .dabs ts v → Der .odabs ts v
  | dabsParen {ts v} : Der .abs ts v → Der .dabs (lp :: ts ++ [rp]) v
  | dabsArr {ts v tb st q b} : Der .odabs ts v → Brackets d IsAssign true tb st q b →
      Der .dabs (ts ++ tb) (.arr v st q b)
  | dabsFunc {ts v tp ps} : Der .odabs ts v → Der (.parens true) tp ps → Der .dabs (ts ++ tp) (.fn v ps.1 ps.2)
  -- 6.7.6.3 parameters
  | parensList {a ts ps} : Der .params ts ps → Der (.parens a) (lp :: ts ++ [rp]) (Params.decls ps, false)
  | parensEllipsis {a ts ps} : Der .params ts ps →
      Der (.parens a) (lp :: ts ++ [comma, .punct .ellipsis, rp]) (Params.decls ps, true)
  | parensEmpty {a} : Der (.parens a) [lp, rp] (.nil, false)
  | parensIdents {ids : List String} : ids ≠ [] → (∀ s ∈ ids, isTypedef s = false) →
      (∀ s ∈ ids, d.vaName = true ∨ s ≠ vaListName) →
      Der (.parens false) (lp :: sepComma (ids.map fun s => [.ident s]) ++ [rp]) (Params.idents ids, false)
  | paramDtor {ts ss td v} : Der (.specs false) ts ss → SpecsOk d false ss → Der .dtor td v → SpecsGlue ss td →
      (d.nameParam = true ∨ typedefInParens isTypedef false td = false) → Der .param (ts ++ td) (ss, v)
  | paramAbs {ts ss td v} : Der (.specs false) ts ss → SpecsOk d false ss → Der .abs td v → SpecsGlue ss td →
      (d.typedefParam = true ∨ ∀ s, declHead false td ≠ some (.ident s)) → Der .param (ts ++ td) (ss, v)
  | paramNone {ts ss} : Der (.specs false) ts ss → SpecsOk d false ss → Der .param ts (ss, .name none)
  | paramsOne {ts p} : Der .param ts p → Der .params ts [p]
  | paramsCons {ts p ts' ps} : Der .param ts p → Der .params ts' ps → Der .params (ts ++ comma :: ts') (p :: ps)
  -- 6.7.2.1 members
  | membersNil : Der .members [] []
  | membersCons {ts m ts' ms} : Der .member ts m → Der .members ts' ms → Der .members (ts ++ ts') (m :: ms)
  | memberDecl {ts ss td ds} : Der (.specs false) ts ss → SpecsOk d true ss → Der .mdtors td ds → SpecsGlue ss td →
      Der .member (ts ++ td ++ [semi]) (.decl ss ds)
  | memberNone {ts ss} : Der (.specs false) ts ss → SpecsOk d true ss → Der .member (ts ++ [semi]) (.decl ss [])
  | memberAssert {ts e k v} : IsCond ts e →
      Der .member (.kw .kStaticAssert :: lp :: ts ++ [comma, .str k v, rp, semi])
        (.assertion (.expr e) (.expr (.str k.elements v)))
  | mdtorsOne {ts p} : Der .mdtor ts p → Der .mdtors ts [p]
  | mdtorsCons {ts p ts' ps} : Der .mdtor ts p → Der .mdtors ts' ps → Der .mdtors (ts ++ comma :: ts') (p :: ps)
  | mdtor {ts v} : Der .dtor ts v → Der .mdtor ts (v, none)
  | mdtorBits {ts v te e} : Der .dtor ts v → IsCond te e → Der .mdtor (ts ++ colon :: te) (v, some (.expr e))
  | mdtorUnnamed {te e} : IsCond te e → Der .mdtor (colon :: te) (.name none, some (.expr e))
  -- 6.7.7 type names
  | typeNameAbs {ts ss td v} : Der (.specs false) ts ss → SpecsOk d true ss → Der .abs td v → SpecsGlue ss td →
      Der .typeName (ts ++ td) (.typeName ss v)
  | typeNameNone {ts ss} : Der (.specs false) ts ss → SpecsOk d true ss → Der .typeName ts (.typeName ss (.name none))

/-! ### Type names and expressions

Type names contain expressions, which contain type names. -/

/-- Type names in which type names are nested at most `n - 1` deep inside of expressions, where `p` is the dialect of
expressions. -/
def TypeNames (p : Parser.Dialect) (d : Dialect) (isTypedef : String → Bool) : Nat → List Tok → Syn → Prop
  | 0 => fun _ _ => False
  | n + 1 => Der d isTypedef (Parser.Der p isTypedef (TypeNames p d isTypedef n) .assign)
      (Parser.Der p isTypedef (TypeNames p d isTypedef n) .cond) .typeName

/-- type-name (6.7.7). -/
def IsTypeName (p : Parser.Dialect) (d : Dialect) (isTypedef : String → Bool) (ts : List Tok) (t : Syn) : Prop :=
  ∃ n, TypeNames p d isTypedef n ts t

/-- The expressions of 6.5. -/
def IsExpr (p : Parser.Dialect) (d : Dialect) (isTypedef : String → Bool) : Parser.Sym → List Tok → Expr Syn → Prop :=
  Parser.Der p isTypedef (IsTypeName p d isTypedef)

/-- The parts of declarations of 6.7. -/
def IsDecl (p : Parser.Dialect) (d : Dialect) (isTypedef : String → Bool) : (s : Sym) → List Tok → s.Val → Prop :=
  Der d isTypedef (IsExpr p d isTypedef .assign) (IsExpr p d isTypedef .cond)

end Kefir.DeclParser
