import Verif.Declr.Spec

/-!
# Declaration specifiers and declarators: model of kefir's analysis

`source/ast/analyzer/declarator.c` 312-1048, `source/ast/analyzer/type.c`, `source/ast/analyzer/nodes/init_declarator.c`
29-56, `source/ast/analyzer/nodes/type_name.c`, `source/ast/function_declaration_context.c` 69-105 and 245-299,
`source/ast/type/qualified.c` 75-117, `source/ast/type/function.c` 44-99, `source/ast/type_conv.c` 202-230.

Simplifications: every diagnostic is `none`; memory allocation succeeds; structures, unions and enumerations are opaque
(`resolve_struct_type`, `resolve_enum_type` and `analyze_structure` are parameters of the model); the expressions in
array declarators and alignment specifiers are opaque; a parameter that has the name of a typedef name does not hide
it in the rest of the parameter list; the parameters of a function that is being defined are not modelled.
-/

namespace Kefir.Declr.Model

/-- `headers/kefir/ast/type/function.h` `kefir_ast_function_type_mode_t`. -/
inductive Mode where
  | empty | parameters | identifiers
  deriving DecidableEq, Repr

mutual
/-- `headers/kefir/ast/type.h` 33-65 `struct kefir_ast_type`.  `static` is the `_STATIC` variant of the array boundary
(`headers/kefir/ast/type/array.h`). -/
inductive KTy where
  | basic (b : Basic)
  | tagged (id : Nat) (complete : Bool)
  | vaList
  | ptr (t : KTy)
  | arr (n : Len) (static : Bool) (q : Quals) (t : KTy)
  | fn (ret : KTy) (mode : Mode) (ps : KParams) (ellipsis : Bool)
  | qual (q : Quals) (t : KTy)
/-- `headers/kefir/ast/type/function.h` `struct kefir_ast_function_type_parameter`: adjusted type and storage, or no
type.  The type before the adjustment is left out. -/
inductive KParams where
  | nil
  | typed (adjusted : KTy) (storage : StorageClass) (rest : KParams)
  | untyped (rest : KParams)
end

deriving instance DecidableEq for KTy, KParams
deriving instance Repr for KTy, KParams

variable {X : Type}

/-- What the analysis asks its surroundings for. -/
structure Env (X : Type) where
  /-- `resolve_typedef`, declarator.c 299-310 -/
  typedefTy : String → Option KTy
  /-- `resolve_struct_type` and `resolve_enum_type`, declarator.c 165-297 -/
  tagTy : TagKind → Option String → Option X → Option KTy
  /-- `kefir_ast_constant_expression_value_evaluate`: the value of an integer constant expression.  Other constants
  are `none` here and not of integer type. -/
  value : X → Option Int
  /-- the type of the expression is `KEFIR_AST_TYPE_IS_INTEGRAL_TYPE` -/
  isInt : X → Bool
  /-- what `evaluate_alignment`, declarator.c 721-737, takes the maximum with -/
  alignTo : X → Option Nat
  /-- `type_alignment`, declarator.c 704-719 -/
  natural : KTy → Option Nat

/-- `enum signedness`, declarator.c 39. -/
inductive Signedness where
  | default | signed | unsigned
  deriving DecidableEq, Repr

/-- `enum type_specifier_sequence_state`, declarator.c 312-316. -/
inductive Seq where
  | empty | typedef | specifiers
  deriving DecidableEq, Repr

/-- The local variables of `analyze_declaration_specifiers_impl`, declarator.c 954-960. -/
structure State where
  sign : Signedness := .default
  seq : Seq := .empty
  base : Option KTy := none
  quals : Quals := {}
  storage : StorageClass := .unspecified
  inline : Bool := false
  noreturn : Bool := false
  align : Nat := 0
  deriving DecidableEq

/-- `kefir_ast_type_qualified`, qualified.c 75-106. -/
def KTy.qualified (q : Quals) : KTy → KTy
  | .qual q' t => .qual (q.union q') t
  | t => .qual q t

/-- `if (!KEFIR_AST_TYPE_IS_ZERO_QUALIFICATION(&qualification))` followed by `kefir_ast_type_qualified`. -/
def KTy.qualifyNonZero (q : Quals) (t : KTy) : KTy :=
  if q = {} then t else t.qualified q

/-- `kefir_ast_unqualified_type`, qualified.c 108-117. -/
def KTy.unqual : KTy → KTy
  | .qual _ t => t
  | t => t

/-- `KEFIR_AST_TYPE_IS_INCOMPLETE`, headers/kefir/ast/type.h 110-115. -/
def KTy.incomplete (t : KTy) : Bool :=
  match t.unqual with
  | .basic .void => true
  | .tagged _ c => !c
  | .arr .unknown _ _ _ => true
  | _ => false

/-- The tags that `resolve_type` tests. -/
def KTy.is (b : Basic) : KTy → Bool
  | .basic b' => b' == b
  | _ => false

/-- `resolve_type`, declarator.c 318-487. -/
def resolveType (env : Env X) (s : State) : TypeSpec X → Option State
  | .word .void =>
    if s.base = none then some { s with base := some (.basic .void), seq := .specifiers } else none
  | .word .char =>
    if s.base = none then some { s with base := some (.basic .char), seq := .specifiers } else none
  | .word .short =>
    if s.base = none ∨ s.base = some (.basic .int) then
      if s.seq ≠ .typedef then some { s with base := some (.basic .short) } else none
    else none
  | .word .int =>
    if s.seq ≠ .typedef then
      match s.base with
      | none => some { s with base := some (.basic .int), seq := .specifiers }
      | some t =>
        if t.is .short || t.is .long || t.is .llong then some { s with seq := .specifiers } else none
    else none
  | .word .long =>
    if s.seq ≠ .typedef then
      if s.base = some (.basic .long) then some { s with base := some (.basic .llong), seq := .specifiers }
      else if s.base = none ∨ s.base = some (.basic .int) then
        some { s with base := some (.basic .long), seq := .specifiers }
      else none
    else none
  | .word .float =>
    if s.base = none then
      if s.seq ≠ .typedef then some { s with base := some (.basic .float), seq := .specifiers } else none
    else none
  | .word .double =>
    if s.seq ≠ .typedef then
      match s.base with
      | none => some { s with base := some (.basic .double), seq := .specifiers }
      | some t =>
        if t.is .long then some { s with base := some (.basic .ldouble), seq := .specifiers } else none
    else none
  | .word .signed =>
    if s.seq ≠ .typedef then
      if s.sign = .default then some { s with sign := .signed, seq := .specifiers } else none
    else none
  | .word .unsigned =>
    if s.seq ≠ .typedef then
      if s.sign = .default then some { s with sign := .unsigned, seq := .specifiers } else none
    else none
  | .word .bool =>
    if s.seq ≠ .typedef then
      if s.base = none then some { s with base := some (.basic .bool), seq := .specifiers } else none
    else none
  | .complex => none
  | .atomic _ => none
  | .tag k n b =>
    if s.seq = .empty then
      match env.tagTy k n b with
      | some t => some { s with base := some t, seq := .specifiers }
      | none => none
    else none
  | .typedefName n =>
    if s.seq = .empty then
      match env.typedefTy n with
      | some t => some { s with base := some t, seq := .typedef }
      | none => none
    else none
  | .vaList =>
    if s.seq = .empty then
      if s.base = none then some { s with base := some .vaList, seq := .specifiers } else none
    else none

/-- `apply_type_signedness`, declarator.c 489-592. -/
def applySign (sign : Signedness) (base : Option KTy) : Option KTy :=
  match sign, base with
  | .default, none => some (.basic .int)
  | .default, some t => some t
  | .signed, none => some (.basic .int)
  | .signed, some (.basic .char) => some (.basic .schar)
  | .signed, some (.basic .short) => some (.basic .short)
  | .signed, some (.basic .int) => some (.basic .int)
  | .signed, some (.basic .long) => some (.basic .long)
  | .signed, some (.basic .llong) => some (.basic .llong)
  | .signed, some _ => none
  | .unsigned, none => some (.basic .uint)
  | .unsigned, some (.basic .char) => some (.basic .uchar)
  | .unsigned, some (.basic .short) => some (.basic .ushort)
  | .unsigned, some (.basic .int) => some (.basic .uint)
  | .unsigned, some (.basic .long) => some (.basic .ulong)
  | .unsigned, some (.basic .llong) => some (.basic .ullong)
  | .unsigned, some _ => none

/-- `resolve_qualification`, declarator.c 594-616. -/
def resolveQual (q : Quals) : Qual → Option Quals
  | .const => some { q with const := true }
  | .restrict => some { q with restrict := true }
  | .volatile => some { q with volatile := true }
  | .atomic => none

/-- `resolve_storage_class`, declarator.c 618-683. -/
def resolveStorage (c : StorageClass) : Storage → Option StorageClass
  | .typedef => if c = .unspecified then some .typedef else none
  | .extern =>
    if c = .unspecified then some .extern
    else if c = .threadLocal then some .externThreadLocal else none
  | .static =>
    if c = .unspecified then some .static
    else if c = .threadLocal then some .staticThreadLocal else none
  | .threadLocal =>
    if c = .extern then some .externThreadLocal
    else if c = .static then some .staticThreadLocal
    else if c = .unspecified then some .threadLocal else none
  | .auto => if c = .unspecified then some .auto else none
  | .register => if c = .unspecified then some .register else none

/-- One round of the loop of `analyze_declaration_specifiers_impl`, declarator.c 962-990.  `resolve_function_specifier`
(685-702) merges into a set of two flags (`kefir_ast_context_merge_function_specifiers`, source/ast/type.c 284-319). -/
def step (env : Env X) (s : State) : Spec X → Option State
  | .type t => resolveType env s t
  | .qual q =>
    match resolveQual s.quals q with
    | some q => some { s with quals := q }
    | none => none
  | .storage c =>
    match resolveStorage s.storage c with
    | some c => some { s with storage := c }
    | none => none
  | .fn .inline => some { s with inline := true }
  | .fn .noreturn => some { s with noreturn := true }
  | .align a =>
    match env.alignTo a with
    | some n => some { s with align := max s.align n }
    | none => none

/-- The loop of `analyze_declaration_specifiers_impl`, declarator.c 962-990. -/
def steps (env : Env X) : State → List (Spec X) → Option State
  | s, [] => some s
  | s, x :: r =>
    match step env s x with
    | some s' => steps env s' r
    | none => none

/-- What the analysis of specifiers yields. -/
structure Specs where
  ty : KTy
  storage : StorageClass
  inline : Bool
  noreturn : Bool
  align : Nat
  deriving DecidableEq

/-- `analyze_declaration_specifiers_impl`, declarator.c 949-1013, when the caller asks for the alignment. -/
def specifiers (env : Env X) (ss : List (Spec X)) : Option Specs :=
  match steps env {} ss with
  | none => none
  | some s =>
    match applySign s.sign s.base with
    | none => none
    | some t =>
      if s.align > 0 then
        match env.natural (t.qualifyNonZero s.quals) with
        | none => none
        | some n =>
          if n ≤ s.align then some ⟨t.qualifyNonZero s.quals, s.storage, s.inline, s.noreturn, s.align⟩ else none
      else some ⟨t.qualifyNonZero s.quals, s.storage, s.inline, s.noreturn, 0⟩

/-- `analyze_declaration_specifiers_impl`, declarator.c 949-1013, when the caller only asks for the type (as
`kefir_ast_analyze_type_name_node` does). -/
def specifiersType (env : Env X) (ss : List (Spec X)) : Option KTy :=
  match steps env {} ss with
  | none => none
  | some s =>
    match applySign s.sign s.base with
    | none => none
    | some t => some (t.qualifyNonZero s.quals)

/-- The loop over the qualifiers of a pointer or array declarator, declarator.c 747-751 and 765-769. -/
def resolveQuals : Quals → List Qual → Option Quals
  | q, [] => some q
  | q, x :: r =>
    match resolveQual q x with
    | some q' => resolveQuals q' r
    | none => none

/-- `resolve_pointer_declarator`, declarator.c 739-757. -/
def pointerDeclarator (q : List Qual) (t : KTy) : Option KTy :=
  match resolveQuals {} q with
  | some q => some ((KTy.ptr t).qualifyNonZero q)
  | none => none

/-- `resolve_array_declarator`, declarator.c 759-825. -/
def arrayDeclarator (env : Env X) (st : Bool) (q : List Qual) (b : Bound X) (t : KTy) : Option KTy :=
  match resolveQuals {} q with
  | none => none
  | some q =>
    match b with
    | .unbounded => some (.arr .unknown false q t)
    | .star => some (.arr .vla st q t)
    | .expr e =>
      match env.value e with
      | some n => some (.arr (.fixed n) st q t)
      | none => if env.isInt e then some (.arr .vla st q t) else none

/-- `kefir_ast_type_conv_adjust_function_parameter`, type_conv.c 202-230. -/
def adjust : KTy → KTy
  | .fn r m ps e => .ptr (.fn r m ps e)
  | .arr _ _ q t => (KTy.ptr t).qualifyNonZero q
  | .vaList => .ptr .vaList
  | t => t

/-- `type->tag == KEFIR_AST_TYPE_FUNCTION`. -/
def KTy.isFn : KTy → Bool
  | .fn _ _ _ _ => true
  | _ => false

/-- `type->tag == KEFIR_AST_TYPE_ARRAY`. -/
def KTy.isArr : KTy → Bool
  | .arr _ _ _ _ => true
  | _ => false

/-- `kefir_list_length(&type->function_type.parameters) == 1`, for parameters with types. -/
def KParams.single : KParams → Bool
  | .typed _ _ .nil => true
  | _ => false

mutual
/-- `kefir_ast_analyze_type`, analyzer/type.c 189-245, with `analyze_array` (55-96) and `analyze_function` (154-187).
`param` is `KEFIR_AST_TYPE_ANALYSIS_FUNCTION_PARAMETER`. -/
def analyzeType (param : Bool) : KTy → Bool
  | .basic _ => true
  | .tagged _ _ => true
  | .vaList => true
  | .ptr t => analyzeType false t
  | .arr _ st q t =>
    analyzeType false t &&
    (!t.incomplete && !t.isFn) &&
    ((!st && decide (q = {})) || param)
  | .fn r mode ps _ =>
    (!r.isFn && !r.isArr) &&
    (if mode = .parameters then analyzeParams ps.single ps else true)
  | .qual _ t => analyzeType param t
/-- The loop over the parameters, analyzer/type.c 163-184; `single` says that there is exactly one. -/
def analyzeParams (single : Bool) : KParams → Bool
  | .nil => true
  | .untyped rest => analyzeParams single rest
  | .typed t st rest =>
    analyzeType true t &&
    (if t = .basic .void then single
     else !t.incomplete &&
      (match st with
       | .register => true
       | .auto => true
       | .unspecified => true
       | _ => false)) &&
    analyzeParams single rest
end

/-- `context_define_identifier` and `scoped_context_define_identifier` of the context of a parameter list,
function_declaration_context.c 245-299 and 69-105, for a parameter without initialiser of a function that is not being
defined: type and storage of the parameter. -/
def defineParam (scope : List String) (name : String) (t : KTy) (sp : Specs) : Option (KTy × StorageClass) :=
  if sp.align ≠ 0 then none
  else if !t.unqual.isFn && (sp.inline || sp.noreturn) then none
  else if (adjust t.unqual).incomplete then none
  else
    match sp.storage with
    | .unspecified => if scope.contains name then none else some (adjust t.unqual, .auto)
    | .register => if scope.contains name then none else some (adjust t.unqual, .register)
    | _ => none

/-- `kefir_ast_type_function_parameter`, function.c 44-93: the new mode. -/
def paramMode (m : Mode) (hasType : Bool) : Option Mode :=
  match m, hasType with
  | .parameters, true => some .parameters
  | .parameters, false => none
  | .identifiers, false => some .identifiers
  | .identifiers, true => none
  | .empty, true => some .parameters
  | .empty, false => some .identifiers

/-- Appends parameters. -/
def KParams.append : KParams → KParams → KParams
  | .nil, ps => ps
  | .typed t s r, ps => .typed t s (r.append ps)
  | .untyped r, ps => .untyped (r.append ps)

mutual
/-- `analyze_declaration_declarator_impl`, declarator.c 904-936. -/
def declarator (env : Env X) : Dtor X → KTy → Option (Option String × KTy)
  | .name s, t => some (s, t)
  | .ptr q d, t =>
    match pointerDeclarator q t with
    | some t => declarator env d t
    | none => none
  | .arr d st q b, t =>
    match arrayDeclarator env st q b t with
    | some t => declarator env d t
    | none => none
  | .fn d ps e, t =>
    match params env ps [] .empty .nil with
    | some (mode, kps) => declarator env d (.fn t mode kps e)
    | none => none
/-- The loop of `resolve_function_declarator`, declarator.c 847-885, with `kefir_ast_analyze_declaration_node` and
`kefir_ast_analyze_init_declarator_node` for each parameter declaration.  `scope`: the parameters declared so far. -/
def params (env : Env X) : Params X → List String → Mode → KParams → Option (Mode × KParams)
  | .nil, _, mode, acc => some (mode, acc)
  | .decl ss d rest, scope, mode, acc =>
    match specifiers env ss with
    | none => none
    | some sp =>
      match declarator env d sp.ty with
      | none => none
      | some (name, t) =>
        if analyzeType true t then
          match name with
          | some n =>
            match defineParam scope n t sp with
            | none => none
            | some (t', c) =>
              match paramMode mode true with
              | none => none
              | some mode' => params env rest (n :: scope) mode' (acc.append (.typed (adjust t') c .nil))
          | none =>
            match paramMode mode true with
            | none => none
            | some mode' => params env rest scope mode' (acc.append (.typed (adjust t) sp.storage .nil))
        else none
  | .ident _ rest, scope, mode, acc =>
    match paramMode mode false with
    | none => none
    | some mode' => params env rest scope mode' (acc.append (.untyped .nil))
end

/-- `kefir_ast_analyze_declaration_node` (analyzer/nodes/declaration.c) with one declarator and
`kefir_ast_analyze_init_declarator_node` (init_declarator.c 29-56), outside of parameter lists, up to the definition of
the identifier. -/
def declaration (env : Env X) (ss : List (Spec X)) (d : Dtor X) : Option (Option String × KTy × Specs) :=
  match specifiers env ss with
  | none => none
  | some sp =>
    match declarator env d sp.ty with
    | none => none
    | some (name, t) => if analyzeType false t then some (name, t, sp) else none

/-- `kefir_ast_analyze_type_name_node`, analyzer/nodes/type_name.c, with `kefir_ast_analyze_declaration`, declarator.c
1031-1048. -/
def typeName (env : Env X) (ss : List (Spec X)) (d : Dtor X) : Option KTy :=
  match specifiersType env ss with
  | none => none
  | some t =>
    match declarator env d t with
    | none => none
    | some (_, t) => some t

end Kefir.Declr.Model
