import Verif.UnitParser.Syntax
import Verif.DeclParser.Spec

/-! # The grammar of translation units

Which token sequences are declarations, statements and translation units, and of which trees: C17 6.7, 6.8 and 6.9.
Which identifiers are typedef names changes on the way, so the relations have a scope before and a scope after.

Only the grammar and the scopes of ordinary identifiers are described here, not the constraints of these sections.
Enumeration constants and the names of parameters in parameter lists do not hide typedef names here, as in
`Verif.DeclParser.Spec`. -/

namespace Kefir.UnitParser
open Kefir.Lexer (Punct Keyword)
open Kefir.Parser (Tok Expr lp rp comma colon builtinNames)
open Kefir.Declr
open Kefir.DeclParser (Syn IsDecl IsExpr SpecsOk SpecsGlue semi vaListName)

/-! ### Scopes -/

/-- The open blocks, the innermost first: the ordinary identifiers declared in each, the latest first, and whether as
typedef names. -/
abbrev Scope := List (List (String × Bool))

namespace Scope

/-- What an identifier is declared as in the innermost block that declares it (6.2.1p4). -/
def lookup (σ : Scope) (s : String) : Option Bool := σ.findSome? fun b => List.lookup s b

/-- Whether an identifier is a typedef name.  `__builtin_va_list` is one without a declaration, and the names of the
built-in operators are reserved for them. -/
def names (σ : Scope) (s : String) : Bool :=
  s == vaListName || (σ.lookup s == some true && (builtinNames.lookup s).isNone)

/-- A declaration in the innermost block. -/
def declare (isTypedef : Bool) (s : String) : Scope → Scope
  | [] => [[(s, isTypedef)]]
  | b :: r => ((s, isTypedef) :: b) :: r

/-- The declaration of what a declarator declares. -/
def enter (isTypedef : Bool) : Option String → Scope → Scope
  | some s, σ => σ.declare isTypedef s
  | none, σ => σ

/-- Declarations of variables. -/
def enterAll : List String → Scope → Scope
  | [], σ => σ
  | s :: r, σ => enterAll r (σ.declare false s)

/-- The innermost block declares `s`, and as what it is not declared now (excluded by 6.7p3). -/
def clash (isTypedef : Bool) (o : Option String) (σ : Scope) : Bool :=
  match o, σ with
  | some s, b :: _ => b.lookup s == some (!isTypedef)
  | _, _ => false

/-- The same typedef names, also after the end of any number of blocks. -/
def Same (σ τ : Scope) : Prop :=
  ∀ k s, lookup (σ.drop k) s = some true ↔ lookup (τ.drop k) s = some true

end Scope

/-! ### Dialects -/

/-- Places where a dialect can differ from the C17 grammar. -/
structure Dialect where
  /-- expressions -/
  p : Parser.Dialect
  /-- declaration specifiers and declarators -/
  d : DeclParser.Dialect
  /-- Names come into scope after the declaration, and not after their declarator (6.2.1p7).  Names that a `for` statement
  declares stay in scope after it (against 6.8.5p5).  Functions and their parameters do not come into scope in the
  definition of the function, and the names that declarations of old-style parameters declare stay in scope after it
  (against 6.2.1p4).  No identifier is declared both as a typedef name and not as one in what is then one block. -/
  late : Bool
  /-- a label of a statement in a block may have the name of a typedef (6.2.3) -/
  labels : Bool
  /-- only what has the same meaning with the scopes of C17 -/
  agree : Bool

/-- C17. -/
def Dialect.c17 : Dialect := ⟨.c17, .c17, false, true, false⟩

/-- The dialect kefir parses. -/
def Dialect.kefir : Dialect := ⟨.kefir, .kefir, true, false, false⟩

/-- The scopes of kefir, and what is common to kefir and C17 elsewhere in declarations. -/
def Dialect.accept : Dialect := ⟨.kefir, .common, true, false, false⟩

/-- What C17 and kefir have in common. -/
def Dialect.common : Dialect := ⟨.common, .common, true, false, true⟩

/-- The scope that is seen in a declaration that was started in `σ0` and has declared `σ`. -/
def Dialect.view (D : Dialect) (σ0 σ : Scope) : Scope := if D.late then σ0 else σ

/-- In a declaration that was started in `σ0` and has declared `σ`, `P` holds for the typedef names that are seen. -/
def Dialect.Sees (D : Dialect) (σ0 σ : Scope) (P : (String → Bool) → Prop) : Prop :=
  P (D.view σ0 σ).names ∧ (D.agree = true → P σ.names)

/-- It does not matter which of two scopes is seen. -/
def Dialect.Agree (D : Dialect) (σ τ : Scope) : Prop := D.agree = true → σ.Same τ

/-- Whether the declaration is possible. -/
def Dialect.May (D : Dialect) (isTypedef : Bool) (o : Option String) (σ : Scope) : Prop :=
  D.late = true → σ.clash isTypedef o = false

/-! ### Declarations (6.7) -/

/-- `typedef`. -/
def isTypedefSpec : Spec Syn → Bool
  | .storage .typedef => true
  | _ => false

/-- init-declarator, where `σ0` is the scope at the start of the declaration. -/
inductive InitDtor (D : Dialect) (isTypedef : Bool) (σ0 : Scope) :
    Scope → List Tok → Dtor Syn × Option (Expr Syn) → Scope → Prop where
  | plain {σ ts v} : D.Sees σ0 σ (fun td => IsDecl D.p D.d td .dtor ts v) → D.May isTypedef v.ident σ →
      InitDtor D isTypedef σ0 σ ts (v, none) (σ.enter isTypedef v.ident)
  | init {σ ts v te e} : D.Sees σ0 σ (fun td => IsDecl D.p D.d td .dtor ts v) → D.May isTypedef v.ident σ →
      D.Sees σ0 (σ.enter isTypedef v.ident) (fun td => IsExpr D.p D.d td .init te e) →
      InitDtor D isTypedef σ0 σ (ts ++ .punct .assign :: te) (v, some e) (σ.enter isTypedef v.ident)

/-- init-declarator-list. -/
inductive InitDtors (D : Dialect) (isTypedef : Bool) (σ0 : Scope) :
    Scope → List Tok → List (Dtor Syn × Option (Expr Syn)) → Scope → Prop where
  | one {σ ts v σ'} : InitDtor D isTypedef σ0 σ ts v σ' → InitDtors D isTypedef σ0 σ ts [v] σ'
  | cons {σ ts v σ' ts' vs σ''} : InitDtor D isTypedef σ0 σ ts v σ' → InitDtors D isTypedef σ0 σ' ts' vs σ'' →
      InitDtors D isTypedef σ0 σ (ts ++ comma :: ts') (v :: vs) σ''

/-- declaration (6.7). -/
inductive Declaration (D : Dialect) : Scope → List Tok → Decl → Scope → Prop where
  | decl {σ ts ss ts' ds σ'} : IsDecl D.p D.d σ.names (.specs false) ts ss → SpecsOk D.d false ss → SpecsGlue ss ts' →
      InitDtors D (ss.any isTypedefSpec) σ σ ts' ds σ' → Declaration D σ (ts ++ ts' ++ [semi]) (.decl ss ds) σ'
  | specs {σ ts ss} : IsDecl D.p D.d σ.names (.specs false) ts ss → SpecsOk D.d false ss →
      Declaration D σ (ts ++ [semi]) (.decl ss []) σ
  | assertion {σ ts e k v} : IsExpr D.p D.d σ.names .cond ts e →
      Declaration D σ (.kw .kStaticAssert :: lp :: ts ++ [comma, .str k v, rp, semi])
        (.assertion e (.str k.elements v)) σ

/-! ### Statements (6.8) -/

/-- The statement ends with an `if` that could still get an `else`. -/
def Stmt.isOpen : Stmt → Bool
  | .ifThen _ _ => true
  | .ifElse _ _ st | .label _ st | .case _ st | .default st | .switch _ st | .while _ st | .for _ _ _ st => st.isOpen
  | _ => false

/-- An optional expression. -/
inductive OptExpr (D : Dialect) (σ : Scope) : List Tok → Option (Expr Syn) → Prop where
  | none : OptExpr D σ [] none
  | some {ts e} : IsExpr D.p D.d σ.names .expr ts e → OptExpr D σ ts (some e)

/-- What the grammar describes. -/
inductive Sym where
  /-- statement -/
  | stmt
  /-- block-item-list, may be empty -/
  | items

/-- The trees. -/
abbrev Sym.Val : Sym → Type
  | .stmt => Stmt
  | .items => List Item

/-- The first clause of a `for` statement without a declaration. -/
def forClause : Option (Expr Syn) → ForInit
  | none => .none
  | some e => .expr e

/-- statement and block-item-list (6.8).  An `else` belongs to the nearest `if` that the syntax allows (6.8.4.1p3). -/
inductive Statement (D : Dialect) : (s : Sym) → Scope → List Tok → s.Val → Scope → Prop where
  -- 6.8.1 labeled statements
  | label {σ s ts st σ'} : Statement D .stmt σ ts st σ' →
      Statement D .stmt σ (.ident s :: colon :: ts) (.label s st) σ'
  | case {σ te e ts st σ'} : IsExpr D.p D.d σ.names .cond te e → Statement D .stmt σ ts st σ' →
      Statement D .stmt σ (.kw .kCase :: te ++ colon :: ts) (.case e st) σ'
  | default {σ ts st σ'} : Statement D .stmt σ ts st σ' →
      Statement D .stmt σ (.kw .kDefault :: colon :: ts) (.default st) σ'
  -- 6.8.2 compound statements
  | compound {σ l ts is σ' r} : l.isLBrace = true → Statement D .items ([] :: σ) ts is σ' → r.isRBrace = true →
      Statement D .stmt σ (l :: ts ++ [r]) (.compound is) σ
  | itemsNil {σ} : Statement D .items σ [] [] σ
  | itemDecl {σ ts d σ' ts' is σ''} : Declaration D σ ts d σ' → Statement D .items σ' ts' is σ'' →
      Statement D .items σ (ts ++ ts') (.decl d :: is) σ''
  | itemStmt {σ ts st σ' ts' is σ''} : Statement D .stmt σ ts st σ' →
      (D.labels = true ∨ ∀ s r, ts = .ident s :: colon :: r → σ.names s = false) →
      Statement D .items σ' ts' is σ'' → Statement D .items σ (ts ++ ts') (.stmt st :: is) σ''
  -- 6.8.3 expression statements
  | expr {σ te e} : OptExpr D σ te e → Statement D .stmt σ (te ++ [semi]) (.expr e) σ
  -- 6.8.4 selection statements
  | ifThen {σ te e ts st σ'} : IsExpr D.p D.d σ.names .expr te e → Statement D .stmt σ ts st σ' →
      Statement D .stmt σ (.kw .kIf :: lp :: te ++ rp :: ts) (.ifThen e st) σ'
  | ifElse {σ te e ts st σ' ts' st' σ''} : IsExpr D.p D.d σ.names .expr te e → Statement D .stmt σ ts st σ' →
      st.isOpen = false → Statement D .stmt σ' ts' st' σ'' →
      Statement D .stmt σ (.kw .kIf :: lp :: te ++ rp :: ts ++ .kw .kElse :: ts') (.ifElse e st st') σ''
  | switch {σ te e ts st σ'} : IsExpr D.p D.d σ.names .expr te e → Statement D .stmt σ ts st σ' →
      Statement D .stmt σ (.kw .kSwitch :: lp :: te ++ rp :: ts) (.switch e st) σ'
  -- 6.8.5 iteration statements
  | while {σ te e ts st σ'} : IsExpr D.p D.d σ.names .expr te e → Statement D .stmt σ ts st σ' →
      Statement D .stmt σ (.kw .kWhile :: lp :: te ++ rp :: ts) (.while e st) σ'
  | doWhile {σ ts st σ' te e} : Statement D .stmt σ ts st σ' → IsExpr D.p D.d σ'.names .expr te e →
      Statement D .stmt σ (.kw .kDo :: ts ++ .kw .kWhile :: lp :: te ++ [rp, semi]) (.doWhile st e) σ'
  | forExpr {σ ti i tc c tn n ts st σ'} : OptExpr D σ ti i → OptExpr D σ tc c → OptExpr D σ tn n →
      Statement D .stmt σ ts st σ' →
      Statement D .stmt σ (.kw .kFor :: lp :: ti ++ semi :: tc ++ semi :: tn ++ rp :: ts) (.for (forClause i) c n st) σ'
  | forDecl {σ td d σ1 tc c tn n ts st σ'} : Declaration D σ td d σ1 → OptExpr D σ1 tc c → OptExpr D σ1 tn n →
      Statement D .stmt σ1 ts st σ' → D.Agree σ' σ →
      Statement D .stmt σ (.kw .kFor :: lp :: td ++ tc ++ semi :: tn ++ rp :: ts) (.for (.decl d) c n st) (D.view σ' σ)
  -- 6.8.6 jump statements
  | goto {σ s} : Statement D .stmt σ [.kw .kGoto, .ident s, semi] (.goto s) σ
  | continue {σ} : Statement D .stmt σ [.kw .kContinue, semi] .continue σ
  | break {σ} : Statement D .stmt σ [.kw .kBreak, semi] .break σ
  | ret {σ te e} : OptExpr D σ te e → Statement D .stmt σ (.kw .kReturn :: te ++ [semi]) (.ret e) σ

/-! ### External declarations (6.9) -/

/-- The names of parameters. -/
def paramNames : Params Syn → List String
  | .nil => []
  | .decl _ d r => d.ident.toList ++ paramNames r
  | .ident s r => s :: paramNames r

/-- The function declarator that is applied to the name: the parameters of the function that a declarator declares. -/
def definedParams : Dtor Syn → Option (Params Syn)
  | .name _ => none
  | .ptr _ d => definedParams d
  | .arr d _ _ _ => definedParams d
  | .fn d ps _ => match definedParams d with
    | some ps' => some ps'
    | none => some ps

/-- The scope in the definition of a function: its name and those of its parameters are declared (6.2.1p4). -/
def functionScope (d : Dtor Syn) (σ : Scope) : Scope :=
  (σ.enter false d.ident).enterAll ((definedParams d).elim [] paramNames)

/-- declaration-list, may be empty. -/
inductive Declarations (D : Dialect) : Scope → List Tok → List Decl → Scope → Prop where
  | nil {σ} : Declarations D σ [] [] σ
  | cons {σ ts d σ' ts' ds σ''} : Declaration D σ ts d σ' → Declarations D σ' ts' ds σ'' →
      Declarations D σ (ts ++ ts') (d :: ds) σ''

/-- external-declaration. -/
inductive ExternalDecl (D : Dialect) : Scope → List Tok → External → Scope → Prop where
  | decl {σ ts d σ'} : Declaration D σ ts d σ' → ExternalDecl D σ ts (.decl d) σ'
  | fn {σ ts ss td v tk ks σk l tb body σb r} : IsDecl D.p D.d σ.names (.specs false) ts ss → SpecsOk D.d false ss →
      IsDecl D.p D.d σ.names .dtor td v → SpecsGlue ss td →
      Declarations D (D.view σ (functionScope v σ)) tk ks σk → l.isLBrace = true →
      Statement D .items ([] :: σk) tb body σb → r.isRBrace = true →
      D.Agree σ (functionScope v σ) → D.Agree σk (σ.enter false v.ident) →
      ExternalDecl D σ (ts ++ td ++ tk ++ l :: tb ++ [r]) (.fn ss v ks body) (D.view σk (σ.enter false v.ident))

/-- translation-unit, may be empty. -/
inductive Externals (D : Dialect) : Scope → List Tok → List External → Scope → Prop where
  | nil {σ} : Externals D σ [] [] σ
  | cons {σ ts x σ' ts' xs σ''} : ExternalDecl D σ ts x σ' → Externals D σ' ts' xs σ'' →
      Externals D σ (ts ++ ts') (x :: xs) σ''

/-- The tokens `ts` are the translation unit `xs` (6.9). -/
def IsUnit (D : Dialect) (ts : List Tok) (xs : List External) : Prop := xs ≠ [] ∧ ∃ σ, Externals D [[]] ts xs σ

end Kefir.UnitParser
