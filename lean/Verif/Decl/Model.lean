import Verif.Decl.Spec

/-!
# Model of kefir's declaration analysis

`source/ast/global_context.c`, `source/ast/local_context.c`, `source/ast/function_declaration_context.c`,
`source/ast/context_impl.c`, the callers in `source/ast/analyzer/nodes/` and the part of
`source/ast-translator/scope/` that turns the tables into assembler symbols.

Simplifications common to all definitions below:
* A scoped identifier (`struct kefir_ast_scoped_identifier *`, `headers/kefir/ast/scope.h` 45–85) is an index into
  `heap`; pointer comparison is comparison of indices.  Memory allocation does not fail.
* Error codes are not told apart: `none` stands for any error.  As the driver does, a run stops at the first error.
* A flat scope (hash tree keyed by name) is an association list, the block scope tree is the list of the flat scopes
  from the current one to the root (`Verif/Scope` proves that this is what the tree does).
* The symbol table only interns names and is left out; so are alignments apart from their presence.
* Types are abstract.  `Types.compatible` and `Types.composite` stand for `KEFIR_AST_TYPE_COMPATIBLE` and
  `KEFIR_AST_TYPE_COMPOSITE`.
* An initializer is represented by the type that `kefir_ast_analyze_initializer` computes from the declared one;
  it is taken to be well-formed and constant.
* Tags, labels, temporaries and the flow control tree are left out.
-/

namespace Kefir.Decl.Model

open Kefir.Decl (Types Storage Linkage Declaration Definition Item Reply Ref Duration)

variable {N T : Type} [DecidableEq N]

/-- `struct kefir_ast_scoped_identifier`, headers/kefir/ast/scope.h 45–85.  The union member `type` overlays the
type of every other member (lines 49–74), so `ordinary_id->type = …` sets it.  The function specifier is only ever
merged (context_impl.c, type.c 284–) and not modelled. -/
inductive Entry (T : Type)
  | object (type : T) (storage : Storage) (linkage : Linkage) (external hasInit : Bool)
  | function (type : T) (storage : Storage) (external defined : Bool)
  | typedefName (type : T)
  | constant (value : Int)

/-- `kefir_ast_scoped_identifier_class_t`, headers/kefir/ast/constants.h 174–181. -/
inductive Class | object | function | typedefName | constant
  deriving DecidableEq

def Entry.klass : Entry T → Class
  | .object .. => .object
  | .function .. => .function
  | .typedefName .. => .typedefName
  | .constant .. => .constant

/-- `struct kefir_ast_global_context`, headers/kefir/ast/global_context.h: the tables that concern ordinary
identifiers. -/
structure Global (N T : Type) where
  heap : List (Entry T)
  objects : List (N × Nat)
  functions : List (N × Nat)
  constants : List (N × Nat)
  types : List (N × Nat)
  ordinary : List (N × Nat)

/-- The global context together with the ordinary block scopes of the current local context, innermost first
(`none` outside functions). -/
structure Ctx (N T : Type) where
  global : Global N T
  blocks : Option (List (List (N × Nat)))

/-- `kefir_ast_identifier_flat_scope_at`, source/ast/scope.c 108–119. -/
def at? (l : List (N × Nat)) (n : N) : Option Nat :=
  match l with
  | [] => none
  | (m, a) :: r => if m = n then some a else at? r n

/-- `kefir_ast_identifier_flat_scope_insert`, source/ast/scope.c 94–106: fails on a name that is present. -/
def insert (l : List (N × Nat)) (n : N) (id : Nat) : Option (List (N × Nat)) :=
  match at? l n with
  | some _ => none
  | none => some ((n, id) :: l)

namespace Global

/-- `KEFIR_MALLOC` of a scoped identifier by the allocators of context_impl.c 61–213. -/
def alloc (g : Global N T) (e : Entry T) : Global N T × Nat :=
  ({ g with heap := g.heap ++ [e] }, g.heap.length)

/-- A write through a pointer to a scoped identifier. -/
def write (g : Global N T) (id : Nat) (e : Entry T) : Global N T := { g with heap := g.heap.set id e }

/-- `insert_ordinary_identifier`, global_context.c 396–405. -/
def insertOrdinary (g : Global N T) (n : N) (id : Nat) : Global N T :=
  match at? g.ordinary n with
  | some _ => g
  | none => { g with ordinary := (n, id) :: g.ordinary }

/-- `require_ordinary_identifier_type`, global_context.c 407–420. -/
def requireClass (g : Global N T) (n : N) (k : Class) : Bool :=
  match at? g.ordinary n with
  | some id =>
    match g.heap[id]? with
    | some e => e.klass == k
    | none => false
  | none => true

/-- `kefir_ast_global_context_declare_external`, global_context.c 422–471, with `own = extern` and
`internal = static`; `kefir_ast_global_context_declare_external_thread_local`, 473–520, with the two thread-local
storage classes. -/
def declareExternal (ty : Types T) (own internal : Storage) (g : Global N T) (n : N) (t : T) :
    Option (Global N T × Nat) :=
  if ty.variablyModified t then none
  else if !g.requireClass n .object then none
  else match at? g.objects n with
    | some id =>
      match g.heap[id]? with
      | some (.object t₀ st l ext ini) =>
        if !(st = own || st = internal) then none
        else if !ty.compatible t₀ t then none
        else some ((g.write id (.object (ty.composite t₀ t) st l ext ini)).insertOrdinary n id, id)
      | _ => none
    | none =>
      let (g₁, id) := g.alloc (.object t own .external true false)
      match insert g₁.objects n id with
      | some objects => some ({ g₁ with objects }.insertOrdinary n id, id)
      | none => none

/-- The end of the four definition functions of objects: the initializer is analysed with the declared type and the
type it yields replaces the type of the scoped identifier; global_context.c 572–588, 641–656, 717–732, 791–806. -/
def applyInit (g : Global N T) (id : Nat) (t : T) (init : Option (T → T)) : Option (Global N T × Nat) :=
  match init with
  | none => some (g, id)
  | some f =>
    match g.heap[id]? with
    | some (.object _ st l ext _) => some (g.write id (.object (f t) st l ext true), id)
    | _ => none

/-- `kefir_ast_global_context_define_external`, global_context.c 522–591, with `own = extern`;
`kefir_ast_global_context_define_external_thread_local`, 593–659, with `own = externThread`. -/
def defineExternal (ty : Types T) (own : Storage) (g : Global N T) (n : N) (t : T) (init : Option (T → T)) :
    Option (Global N T × Nat) :=
  if ty.variablyModified t then none
  else if !g.requireClass n .object then none
  else match at? g.objects n with
    | some id =>
      match g.heap[id]? with
      | some (.object t₀ st l _ ini) =>
        if st ≠ own then none
        else if !ty.compatible t₀ t then none
        else if init.isSome && ini then none
        else ((g.write id (.object (ty.composite t₀ t) st l false ini)).insertOrdinary n id).applyInit id t init
      | _ => none
    | none =>
      let (g₁, id) := g.alloc (.object t own .external false init.isSome)
      match insert g₁.objects n id with
      | some objects => ({ g₁ with objects }.insertOrdinary n id).applyInit id t init
      | none => none

/-- `kefir_ast_global_context_define_static`, global_context.c 661–735, with `own = static`;
`kefir_ast_global_context_define_static_thread_local`, 737–809, with `own = staticThread`. -/
def defineStatic (ty : Types T) (own : Storage) (g : Global N T) (n : N) (t : T) (init : Option (T → T)) :
    Option (Global N T × Nat) :=
  if ty.variablyModified t then none
  else if !g.requireClass n .object then none
  else match at? g.objects n with
    | some id =>
      match g.heap[id]? with
      | some (.object t₀ st l ext ini) =>
        if st ≠ own then none
        else if !ty.compatible t₀ t then none
        else if ext then none
        else if init.isSome && ini then none
        else ((g.write id (.object (ty.composite t₀ t) st l ext ini)).insertOrdinary n id).applyInit id t init
      | _ => none
    | none =>
      if init.isNone && ty.incomplete t then none
      else
        let (g₁, id) := g.alloc (.object t own .internal false init.isSome)
        match insert g₁.objects n id with
        | some objects => ({ g₁ with objects }.insertOrdinary n id).applyInit id t init
        | none => none

/-- `kefir_ast_global_context_define_constant`, global_context.c 811–846.  The type of a constant is an integer type
and is left out, and with it the test that it is not variably modified. -/
def defineConstant (g : Global N T) (n : N) (v : Int) : Option (Global N T × Nat) :=
  match at? g.ordinary n with
  | some _ => none
  | none =>
    let (g₁, id) := g.alloc (.constant v)
    match insert g₁.constants n id with
    | some constants =>
      match insert g₁.ordinary n id with
      | some ordinary => some ({ g₁ with constants, ordinary }, id)
      | none => none
    | none => none

/-- `kefir_ast_global_context_define_type`, global_context.c 884–928. -/
def defineType (ty : Types T) (g : Global N T) (n : N) (t : T) : Option (Global N T × Nat) :=
  if ty.variablyModified t then none
  else if !g.requireClass n .typedefName then none
  else match at? g.types n with
    | some id =>
      match g.heap[id]? with
      | some (.typedefName t₀) =>
        if !ty.compatible t₀ t then none
        else if ty.incomplete t₀ && !ty.incomplete t then some (g.write id (.typedefName t), id)
        else some (g, id)
      | _ => none
    | none =>
      let (g₁, id) := g.alloc (.typedefName t)
      match insert g₁.types n id with
      | some types => some ({ g₁ with types }.insertOrdinary n id, id)
      | none => none

/-- `kefir_ast_global_context_declare_function`, global_context.c 930–979. -/
def declareFunction (ty : Types T) (g : Global N T) (n : N) (t : T) : Option (Global N T × Nat) :=
  if ty.variablyModified t then none
  else if !g.requireClass n .function then none
  else match at? g.functions n with
    | some id =>
      match g.heap[id]? with
      | some (.function t₀ st ext de) =>
        if !(st = .extern || st = .static) then none
        else if !ty.compatible t₀ t then none
        else some ((g.write id (.function (ty.composite t₀ t) st ext de)).insertOrdinary n id, id)
      | _ => none
    | none =>
      let (g₁, id) := g.alloc (.function t .extern true false)
      match insert g₁.functions n id with
      | some functions => some ({ g₁ with functions }.insertOrdinary n id, id)
      | none => none

/-- `kefir_ast_global_context_define_function`, global_context.c 981–1034. -/
def defineFunction (ty : Types T) (g : Global N T) (n : N) (t : T) : Option (Global N T × Nat) :=
  if ty.variablyModified t then none
  else if !g.requireClass n .function then none
  else match at? g.functions n with
    | some id =>
      match g.heap[id]? with
      | some (.function t₀ st _ de) =>
        if !(st = .extern || st = .static) then none
        else if !ty.compatible t₀ t then none
        else if de then none
        else some ((g.write id (.function (ty.composite t₀ t) st false true)).insertOrdinary n id, id)
      | _ => none
    | none =>
      let (g₁, id) := g.alloc (.function t .extern false true)
      match insert g₁.functions n id with
      | some functions => some ({ g₁ with functions }.insertOrdinary n id, id)
      | none => none

/-- `kefir_ast_global_context_define_static_function`, global_context.c 1036–1089. -/
def defineStaticFunction (ty : Types T) (g : Global N T) (declaration : Bool) (n : N) (t : T) :
    Option (Global N T × Nat) :=
  if ty.variablyModified t then none
  else if !g.requireClass n .function then none
  else match at? g.functions n with
    | some id =>
      match g.heap[id]? with
      | some (.function t₀ st ext de) =>
        if st ≠ .static then none
        else if !ty.compatible t₀ t then none
        else if ext then none
        else if !(!de || declaration) then none
        else some ((g.write id (.function (ty.composite t₀ t) st ext (de || !declaration))).insertOrdinary n id, id)
      | _ => none
    | none =>
      let (g₁, id) := g.alloc (.function t .static false (!declaration))
      match insert g₁.functions n id with
      | some functions => some ({ g₁ with functions }.insertOrdinary n id, id)
      | none => none

/-- `context_define_identifier`, global_context.c 107–230.  `declaration` is false for function definitions and for
declarations with an initializer. -/
def defineIdentifier (ty : Types T) (g : Global N T) (declaration : Bool) (d : Declaration N T) :
    Option (Global N T × Nat) :=
  if ty.isFunction d.type then
    if d.aligned then none
    else if d.init.isSome then none
    else match d.storage with
      | .typedef =>
        if d.inline || d.noreturn then none
        else if !declaration then none
        else g.defineType ty d.name d.type
      | .none | .extern =>
        if declaration then g.declareFunction ty d.name d.type else g.defineFunction ty d.name d.type
      | .static => g.defineStaticFunction ty declaration d.name d.type
      | .threadLocal | .externThread | .staticThread | .auto | .register => none
  else if d.inline || d.noreturn then none
  else if !(declaration || d.init.isSome) then none
  else match d.storage with
    | .typedef => if d.aligned then none else g.defineType ty d.name d.type
    | .extern =>
      if declaration then g.declareExternal ty .extern .static d.name d.type
      else g.defineExternal ty .extern d.name d.type d.init
    | .static => g.defineStatic ty .static d.name d.type d.init
    | .threadLocal => g.defineExternal ty .externThread d.name d.type d.init
    | .externThread =>
      if declaration then g.declareExternal ty .externThread .staticThread d.name d.type
      else g.defineExternal ty .externThread d.name d.type d.init
    | .staticThread => g.defineStatic ty .staticThread d.name d.type d.init
    | .none => g.defineExternal ty .extern d.name d.type d.init
    | .auto | .register => none

end Global

/-- The local context: the global one and its block scopes. -/
structure Local (N T : Type) where
  global : Global N T
  top : List (N × Nat)
  rest : List (List (N × Nat))

namespace Local

/-- `kefir_ast_identifier_block_scope_insert`, source/ast/scope.c 297–307: into the current block. -/
def insertTop (c : Local N T) (g : Global N T) (n : N) (id : Nat) : Option (Local N T × Nat) :=
  match insert c.top n id with
  | some top => some ({ c with global := g, top }, id)
  | none => none

/-- `require_global_ordinary_object`, local_context.c 472–497: the outer `none` is an error, the inner one "not
there". -/
def requireObject (ty : Types T) (g : Global N T) (n : N) (threadLocal : Bool) (t : T) : Option (Option Nat) :=
  match at? g.objects n with
  | some id =>
    match g.heap[id]? with
    | some (.object t₀ st _ _ _) =>
      if threadLocal && !(st = .externThread || st = .staticThread) then none
      else if !threadLocal && !(st = .extern || st = .static) then none
      else if !ty.compatible t₀ t then none
      else some (some id)
    | _ => none
  | none => some none

/-- `kefir_ast_local_context_declare_external`, local_context.c 499–558.
(`kefir_ast_local_context_declare_external_thread_local`, 560–618, is never called: see `defineIdentifier`.) -/
def declareExternal (ty : Types T) (c : Local N T) (n : N) (t : T) : Option (Local N T × Nat) :=
  if ty.variablyModified t then none
  else match requireObject ty c.global n false t with
    | none => none
    | some there =>
      match at? c.top n with
      | some id =>
        if some id ≠ there then none
        else match c.global.heap[id]? with
          | some (.object t₀ st l ext ini) =>
            if !ty.compatible t₀ t then none
            else some ({ c with global := c.global.write id (.object (ty.composite t₀ t) st l ext ini) }, id)
          | _ => none
      | none =>
        match there with
        | some id =>
          match c.global.heap[id]? with
          | some (.object t₀ st l ext ini) =>
            c.insertTop (c.global.write id (.object (ty.composite t₀ t) st l ext ini)) n id
          | _ => none
        | none =>
          let (g₁, id) := c.global.alloc (.object t .extern .external true false)
          match insert g₁.objects n id with
          | some objects => c.insertTop { g₁ with objects } n id
          | none => none

/-- `kefir_ast_local_context_define_static`, local_context.c 620–685, with `own = static`;
`kefir_ast_local_context_define_static_thread_local`, 687–751, with `own = staticThread`. -/
def defineStatic (ty : Types T) (own : Storage) (c : Local N T) (n : N) (t : T) (init : Option (T → T)) :
    Option (Local N T × Nat) :=
  if ty.variablyModified t && !ty.isPointer t then none
  else if ty.variablyModified t && init.isSome then none
  else if init.isNone && ty.incomplete t then none
  else match at? c.top n with
    | some _ => none
    | none =>
      match init with
      | none =>
        let (g₁, id) := c.global.alloc (.object t own .none false false)
        c.insertTop g₁ n id
      | some f =>
        if ty.incomplete (f t) then none
        else
          let (g₁, id) := c.global.alloc (.object (f t) own .none false true)
          c.insertTop g₁ n id

/-- `kefir_ast_local_context_define_auto`, local_context.c 791–855, with `own = auto`;
`kefir_ast_local_context_define_register`, 857–920, with `own = register`.  Registration of variable length arrays
in the flow control tree (`register_vla`, 763–789) is left out. -/
def defineAuto (ty : Types T) (own : Storage) (c : Local N T) (n : N) (t : T) (init : Option (T → T)) :
    Option (Local N T × Nat) :=
  if ty.variablyModified t && init.isSome then none
  else if init.isNone && ty.incomplete t then none
  else match at? c.top n with
    | some _ => none
    | none =>
      match init with
      | none =>
        let (g₁, id) := c.global.alloc (.object t own .none false false)
        c.insertTop g₁ n id
      | some f =>
        if ty.incomplete (f t) then none
        else
          let (g₁, id) := c.global.alloc (.object (f t) own .none false true)
          c.insertTop g₁ n id

/-- `kefir_ast_local_context_define_constant`, local_context.c 922–956. -/
def defineConstant (c : Local N T) (n : N) (v : Int) : Option (Local N T × Nat) :=
  match at? c.top n with
  | some _ => none
  | none =>
    let (g₁, id) := c.global.alloc (.constant v)
    c.insertTop g₁ n id

/-- `kefir_ast_local_context_define_type`, local_context.c 995–1031. -/
def defineType (ty : Types T) (c : Local N T) (n : N) (t : T) : Option (Local N T × Nat) :=
  match at? c.top n with
  | some id =>
    match c.global.heap[id]? with
    | some (.typedefName t₀) =>
      if !ty.compatible t₀ t then none
      else if ty.incomplete t₀ && !ty.incomplete t then
        some ({ c with global := c.global.write id (.typedefName t) }, id)
      else some (c, id)
    | _ => none
  | none =>
    let (g₁, id) := c.global.alloc (.typedefName t)
    c.insertTop g₁ n id

/-- `require_global_ordinary_function`, local_context.c 1033–1047. -/
def requireFunction (ty : Types T) (g : Global N T) (n : N) (t : T) : Option (Option Nat) :=
  match at? g.functions n with
  | some id =>
    match g.heap[id]? with
    | some (.function t₀ _ _ _) => if !ty.compatible t₀ t then none else some (some id)
    | _ => none
  | none => some none

/-- `kefir_ast_local_context_declare_function`, local_context.c 1049–1106. -/
def declareFunction (ty : Types T) (c : Local N T) (n : N) (t : T) : Option (Local N T × Nat) :=
  if ty.variablyModified t then none
  else match requireFunction ty c.global n t with
    | none => none
    | some there =>
      match at? c.top n with
      | some id =>
        if some id ≠ there then none
        else match c.global.heap[id]? with
          | some (.function t₀ st ext de) =>
            if !ty.compatible t₀ t then none
            else some ({ c with global := c.global.write id (.function (ty.composite t₀ t) st ext de) }, id)
          | _ => none
      | none =>
        match there with
        | some id =>
          match c.global.heap[id]? with
          | some (.function t₀ st ext de) =>
            c.insertTop (c.global.write id (.function (ty.composite t₀ t) st ext de)) n id
          | _ => none
        | none =>
          let (g₁, id) := c.global.alloc (.function t .extern true false)
          match insert g₁.functions n id with
          | some functions => c.insertTop { g₁ with functions } n id
          | none => none

/-- `context_define_identifier`, local_context.c 159–270.  `_Thread_local extern` goes to the plain
`declare_external` (lines 237–243), as in the source. -/
def defineIdentifier (ty : Types T) (c : Local N T) (declaration : Bool) (d : Declaration N T) :
    Option (Local N T × Nat) :=
  if ty.isFunction d.type then
    if d.aligned then none
    else if d.init.isSome then none
    else match d.storage with
      | .typedef =>
        if d.inline || d.noreturn then none
        else if !declaration then none
        else c.defineType ty d.name d.type
      | .extern | .none =>
        if !declaration then none else c.declareFunction ty d.name d.type
      | .static | .threadLocal | .externThread | .staticThread | .auto | .register => none
  else if d.inline || d.noreturn then none
  else if !(declaration || d.init.isSome) then none
  else match d.storage with
    | .typedef => if d.aligned then none else c.defineType ty d.name d.type
    | .extern => if !declaration then none else c.declareExternal ty d.name d.type
    | .static => c.defineStatic ty .static d.name d.type d.init
    | .externThread => if !declaration then none else c.declareExternal ty d.name d.type
    | .staticThread => c.defineStatic ty .staticThread d.name d.type d.init
    | .auto | .none => c.defineAuto ty .auto d.name d.type d.init
    | .register => c.defineAuto ty .register d.name d.type d.init
    | .threadLocal => none

end Local

/-- `scoped_identifier->…` as read by `kefir_ast_try_analyze_identifier`, analyzer/nodes/identifier.c 26–82, and by
`kefir_ast_analyze_init_declarator_node`, analyzer/nodes/init_declarator.c 78–95: class, storage, linkage, type.
For functions, whose scoped identifier has no linkage field, linkage is what the storage class says; the translator
treats it that way (`functionSymbols`). -/
def Entry.ref (id : Nat) : Entry T → Ref T
  | .object t st l _ _ =>
    .object id l
      (match st with
       | .externThread | .staticThread | .threadLocal => .thread
       | .extern | .static => .static
       | .register => .register
       | _ => .automatic) t
  | .function t st _ _ => .function id (if st = .static then .internal else .external) t
  | .typedefName t => .typedefName id t
  | .constant v => .constant id v

def Ctx.toLocal (c : Ctx N T) : Option (Local N T) :=
  match c.blocks with
  | some (top :: rest) => some ⟨c.global, top, rest⟩
  | _ => none

def Local.toCtx (l : Local N T) : Ctx N T := ⟨l.global, some (l.top :: l.rest)⟩

/-- The reply made from the scoped identifier that a declaration yields. -/
def reply (g : Global N T) (id : Nat) : Reply T :=
  match g.heap[id]? with
  | some e => .refers (e.ref id)
  | none => .rejected

/-- `context->define_identifier` of the current context, called by `kefir_ast_analyze_init_declarator_node`,
analyzer/nodes/init_declarator.c 66–69: `declaration` is `node->initializer == NULL`. -/
def declare (ty : Types T) (c : Ctx N T) (d : Declaration N T) : Option (Ctx N T × Reply T) :=
  match c.blocks with
  | none => (c.global.defineIdentifier ty d.init.isNone d).map (fun p => (⟨p.1, none⟩, reply p.1 p.2))
  | some _ =>
    match c.toLocal with
    | some l => (l.defineIdentifier ty d.init.isNone d).map (fun p => (p.1.toCtx, reply p.1.global p.2))
    | none => none

/-- `context->define_constant` of the current context: global_context.c 93–105, local_context.c 144–157. -/
def declareConstant (c : Ctx N T) (n : N) (v : Int) : Option (Ctx N T × Reply T) :=
  match c.blocks with
  | none => (c.global.defineConstant n v).map (fun p => (⟨p.1, none⟩, reply p.1 p.2))
  | some _ =>
    match c.toLocal with
    | some l => (l.defineConstant n v).map (fun p => (p.1.toCtx, reply p.1.global p.2))
    | none => none

/-- The parameters of a function definition: `context_define_identifier`, function_declaration_context.c 245–299,
and `scoped_context_define_identifier`, 69–105, in a function definition context.  The parameter declarations have
no initializer, alignment or function specifier (252–264), types are adjusted already (266–271). -/
def defineParams (ty : Types T) (l : Local N T) : List (N × T × Bool) → Option (Local N T)
  | [] => some l
  | (n, t, reg) :: ps =>
    if ty.incomplete t then none
    else
      match l.defineIdentifier ty true
          { name := n, type := t, storage := if reg then .register else .auto, inline := false, noreturn := false,
            aligned := false, init := none } with
      | some (l', _) => defineParams ty l' ps
      | none => none

/-- `kefir_ast_analyze_function_definition_node`, analyzer/nodes/function_definition.c 175–265, for prototyped
definitions: a fresh local context, whose root block receives the parameters while the declarator is analysed
(201–203), then the definition in the surrounding, global, context (244–246). -/
def define (ty : Types T) (c : Ctx N T) (f : Definition N T) : Option (Ctx N T × Reply T) :=
  match c.blocks with
  | some _ => none
  | none =>
    match defineParams ty ⟨c.global, [], []⟩ f.params with
    | none => none
    | some l =>
      if !ty.isFunction f.type then none
      else match f.storage with
        | .typedef | .threadLocal | .externThread | .staticThread | .auto | .register => none
        | .extern | .static | .none =>
          match l.global.defineIdentifier ty false f.toDecl with
          | some (g, id) => some (⟨g, some (l.top :: l.rest)⟩, reply g id)
          | none => none

/-- `kefir_ast_local_context_resolve_scoped_ordinary_identifier`, local_context.c 416–433, and
`kefir_ast_global_context_resolve_scoped_ordinary_identifier`, global_context.c 370–381. -/
def resolve (c : Ctx N T) (n : N) : Option Nat :=
  match (c.blocks.getD []).findSome? (fun b => at? b n) with
  | some id => some id
  | none => at? c.global.ordinary n

/-- One item.  Blocks are pushed and popped by `kefir_ast_local_context_push_block_scope` and `…_pop_block_scope`,
local_context.c 453–470, for compound statements (analyzer/nodes/compound_statement.c 49–59). -/
def step (ty : Types T) (c : Ctx N T) : Item N T → Option (Ctx N T × Reply T)
  | .declare d => declare ty c d
  | .constant n v => declareConstant c n v
  | .define f => define ty c f
  | .endDefinition =>
    match c.blocks with
    | some [_] => some (⟨c.global, none⟩, .done)
    | _ => none
  | .openBlock =>
    match c.blocks with
    | some bs => some (⟨c.global, some ([] :: bs)⟩, .done)
    | none => none
  | .closeBlock =>
    match c.blocks with
    | some (_ :: b :: bs) => some (⟨c.global, some (b :: bs)⟩, .done)
    | _ => none
  | .use n =>
    match resolve c n with
    | some id => some (c, reply c.global id)
    | none => none

/-- `kefir_ast_global_context_init`, global_context.c 282–346. -/
def initial : Ctx N T := ⟨⟨[], [], [], [], [], []⟩, none⟩

/-- The analyzer: stop at the first error. -/
def run (ty : Types T) (c : Ctx N T) : List (Item N T) → List (Reply T) × Option (Ctx N T)
  | [] => ([], some c)
  | i :: is =>
    match step ty c i with
    | none => ([.rejected], none)
    | some (c', r) => (r :: (run ty c' is).1, (run ty c' is).2)

/-- The two symbol lists of an IR module: `globals` and `externals`, source/ir/module.c 259–282. -/
structure Symbols (N : Type) where
  globals : List N
  externals : List N

/-- `translate_global_scoped_identifier_object`, scope/global_scope_layout.c 226–264, followed by
`translate_externals`, scope/translator.c 59–99, and `translate_external_thread_locals`, 172–204, for one object:
extern and thread-local extern objects are declared external or, with storage of their own, global; static objects
go to anonymous blobs (`translate_static`, 129–170, `translate_static_thread_locals`, 237–276). -/
def objectSymbols (g : Global N T) (p : N × Nat) : Symbols N :=
  match g.heap[p.2]? with
  | some (.object _ st _ ext _) =>
    match st with
    | .extern | .externThread | .threadLocal => if ext then ⟨[], [p.1]⟩ else ⟨[p.1], []⟩
    | _ => ⟨[], []⟩
  | _ => ⟨[], []⟩

/-- `translate_global_scoped_identifier_function`, scope/global_scope_layout.c 266–293, followed by
`translate_externals`, scope/translator.c 86–92, for one function. -/
def functionSymbols (g : Global N T) (p : N × Nat) : Symbols N :=
  match g.heap[p.2]? with
  | some (.function _ st ext _) =>
    match st with
    | .extern => if ext then ⟨[], [p.1]⟩ else ⟨[p.1], []⟩
    | _ => ⟨[], []⟩
  | _ => ⟨[], []⟩

/-- `kefir_ast_translator_build_global_scope_layout`, scope/global_scope_layout.c 322–352, and
`kefir_ast_translate_global_scope`, scope/translator.c 278–292: all entries of both tables.  The order of iteration
of the hash trees is not modelled. -/
def symbols (g : Global N T) : Symbols N :=
  let parts := g.objects.map (objectSymbols g) ++ g.functions.map (functionSymbols g)
  ⟨(parts.map Symbols.globals).flatten, (parts.map Symbols.externals).flatten⟩

end Kefir.Decl.Model
