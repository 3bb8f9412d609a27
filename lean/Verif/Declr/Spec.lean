import Verif.Declr.Syntax

/-!
# Declaration specifiers and declarators: what C17 prescribes

The table of 6.7.2p2, the rules for storage classes (6.7.1p2), qualifiers (6.7.3) and alignment (6.7.5), and the types
that declarators give to identifiers (6.7.6).
-/

namespace Kefir.Declr

/-- Basic types, and `void`. -/
inductive Basic where
  | void | char | schar | uchar | short | ushort | int | uint | long | ulong | llong | ullong
  | float | double | ldouble | bool
  deriving DecidableEq, Repr

open Word in
/-- The table of 6.7.2p2, complex types apart: lists of type specifiers and the type each denotes. -/
def table : List (List Word × Basic) :=
  [([void], .void),
   ([char], .char),
   ([signed, char], .schar),
   ([unsigned, char], .uchar),
   ([short], .short), ([signed, short], .short), ([short, int], .short), ([signed, short, int], .short),
   ([unsigned, short], .ushort), ([unsigned, short, int], .ushort),
   ([int], .int), ([signed], .int), ([signed, int], .int),
   ([unsigned], .uint), ([unsigned, int], .uint),
   ([long], .long), ([signed, long], .long), ([long, int], .long), ([signed, long, int], .long),
   ([unsigned, long], .ulong), ([unsigned, long, int], .ulong),
   ([long, long], .llong), ([signed, long, long], .llong), ([long, long, int], .llong),
   ([signed, long, long, int], .llong),
   ([unsigned, long, long], .ullong), ([unsigned, long, long, int], .ullong),
   ([float], .float),
   ([double], .double),
   ([long, double], .ldouble),
   ([bool], .bool)]

/-- The type specifiers, in any order, denote the type (6.7.2p2). -/
def Denotes (ws : List Word) (b : Basic) : Prop :=
  ∃ row ∈ table, ws.Perm row.1 ∧ b = row.2

/-- A set of qualifiers; the order in which they are written and repetitions do not matter (6.7.3p5). -/
structure Quals where
  const : Bool := false
  restrict : Bool := false
  volatile : Bool := false
  deriving DecidableEq, Repr

/-- The qualifiers in a list. -/
def Quals.of (qs : List Qual) : Quals where
  const := qs.contains .const
  restrict := qs.contains .restrict
  volatile := qs.contains .volatile

/-- What the storage-class specifiers of a declaration say. -/
inductive StorageClass where
  | unspecified | typedef | extern | static | threadLocal | externThreadLocal | staticThreadLocal | auto | register
  deriving DecidableEq, Repr

/-- 6.7.1p2: at most one storage-class specifier, except that `_Thread_local` may appear with `static` or
`extern`. -/
def StorageOk (ss : List Storage) (c : StorageClass) : Prop :=
  (ss = [] ∧ c = .unspecified) ∨
  (ss = [.typedef] ∧ c = .typedef) ∨
  (ss = [.extern] ∧ c = .extern) ∨
  (ss = [.static] ∧ c = .static) ∨
  (ss = [.threadLocal] ∧ c = .threadLocal) ∨
  (ss.Perm [.threadLocal, .extern] ∧ c = .externThreadLocal) ∨
  (ss.Perm [.threadLocal, .static] ∧ c = .staticThreadLocal) ∨
  (ss = [.auto] ∧ c = .auto) ∨
  (ss = [.register] ∧ c = .register)

variable {X : Type}

/-- The type specifiers of a list of declaration specifiers. -/
def typeSpecs : List (Spec X) → List (TypeSpec X)
  | [] => []
  | .type t :: r => t :: typeSpecs r
  | _ :: r => typeSpecs r

/-- The qualifiers. -/
def quals : List (Spec X) → List Qual
  | [] => []
  | .qual q :: r => q :: quals r
  | _ :: r => quals r

/-- The storage-class specifiers. -/
def storages : List (Spec X) → List Storage
  | [] => []
  | .storage s :: r => s :: storages r
  | _ :: r => storages r

/-- The function specifiers. -/
def fnSpecs : List (Spec X) → List FnSpec
  | [] => []
  | .fn f :: r => f :: fnSpecs r
  | _ :: r => fnSpecs r

/-- The alignment specifiers. -/
def aligns : List (Spec X) → List X
  | [] => []
  | .align a :: r => a :: aligns r
  | _ :: r => aligns r

/-- Whether an array has a known length. -/
inductive Len where
  | unknown
  | fixed (n : Int)
  | vla
  deriving DecidableEq, Repr

mutual
/-- C types.  A structure, union or enumeration is known by a number; `complete` says whether it is complete.  A
function type has a prototype or not; the parameters of a prototype have their adjusted, unqualified types (6.7.6.3p7,
p8, p15). -/
inductive Ty where
  | basic (b : Basic)
  | tagged (id : Nat) (complete : Bool)
  | vaList
  | ptr (t : Ty)
  | arr (n : Len) (t : Ty)
  | fn (ret : Ty) (proto : Proto) (ellipsis : Bool)
  | qual (q : Quals) (t : Ty)
/-- The parameters of a function type. -/
inductive Proto where
  | none
  | some (ps : Tys)
/-- Lists of types. -/
inductive Tys where
  | nil
  | cons (t : Ty) (rest : Tys)
end

deriving instance DecidableEq for Ty, Proto, Tys
deriving instance Repr for Ty, Proto, Tys

/-- Union of sets of qualifiers. -/
def Quals.union (a b : Quals) : Quals :=
  ⟨a.const || b.const, a.restrict || b.restrict, a.volatile || b.volatile⟩

/-- The type with additional qualifiers; the qualifiers of an array type are those of its elements (6.7.3p9). -/
def Ty.addQuals (q : Quals) : Ty → Ty
  | .qual q' u => .qual (q.union q') u
  | .arr n u => .arr n (u.addQuals q)
  | u => .qual q u

/-- The so-qualified version of a type. -/
def Ty.qualify (q : Quals) (t : Ty) : Ty :=
  if q = {} then t else t.addQuals q

/-- The unqualified version of a type. -/
def Ty.unqual : Ty → Ty
  | .qual _ t => t
  | t => t

/-- Incomplete types (6.2.5): `void`, arrays of unknown size, structures, unions whose content is unknown. -/
def Ty.incomplete (t : Ty) : Bool :=
  match t.unqual with
  | .basic .void => true
  | .tagged _ c => !c
  | .arr .unknown _ => true
  | _ => false

/-- Function types. -/
def Ty.isFn (t : Ty) : Bool :=
  match t.unqual with
  | .fn _ _ _ => true
  | _ => false

/-- Array types. -/
def Ty.isArr (t : Ty) : Bool :=
  match t.unqual with
  | .arr _ _ => true
  | _ => false

/-- What a declaration needs to know about what is around it. -/
structure Scope (X : Type) where
  /-- the type a typedef name stands for -/
  typedefTy : String → Option Ty
  /-- the type that a structure, union or enumeration specifier denotes -/
  tagTy : TagKind → Option String → Option X → Option Ty
  /-- the value of an integer constant expression -/
  value : X → Option Int
  /-- an expression, not constant, of integer type -/
  isInt : X → Bool
  /-- the alignment that the operand of `_Alignas` asks for -/
  alignTo : X → Option Nat
  /-- the natural alignment of a type -/
  natural : Ty → Option Nat
  /-- parameters need complete types, as they do in the definition of a function (6.7.6.3p4) -/
  definition : Bool

/-- The type that type specifiers denote: the table of 6.7.2p2, one structure, union or enumeration specifier, or one
typedef name. -/
inductive TypeOf (G : Scope X) : List (TypeSpec X) → Ty → Prop where
  | words (ws b) : Denotes ws b → TypeOf G (ws.map .word) (.basic b)
  | tag (k n b t) : G.tagTy k n b = some t → TypeOf G [.tag k n b] t
  | typedefName (s t) : G.typedefTy s = some t → TypeOf G [.typedefName s] t
  | vaList : TypeOf G [.vaList] .vaList

/-- What declaration specifiers say. -/
structure Meaning where
  ty : Ty
  storage : StorageClass
  inline : Bool
  noreturn : Bool
  /-- the alignment asked for; 0 if none is -/
  align : Nat
  deriving DecidableEq

/-- Declaration specifiers are valid and mean `m` (6.7 to 6.7.5).  An alignment specification may not be less strict
than the natural alignment (6.7.5p5); several combine to the strictest one (6.7.5p6), and 0 has no effect. -/
structure Means (G : Scope X) (ss : List (Spec X)) (m : Meaning) : Prop where
  type : ∃ t, TypeOf G (typeSpecs ss) t ∧ m.ty = t.qualify (Quals.of (quals ss))
  storage : StorageOk (storages ss) m.storage
  inline : m.inline = (fnSpecs ss).contains .inline
  noreturn : m.noreturn = (fnSpecs ss).contains .noreturn
  align : ∃ as, (aligns ss).mapM G.alignTo = some as ∧ m.align = as.foldl max 0 ∧
    (m.align ≠ 0 → ∃ n, G.natural m.ty = some n ∧ n ≤ m.align)

/-- The type of a parameter after adjustment (6.7.6.3p7, p8) and without qualifiers (6.7.6.3p15).  (An array type made
by the implementation, as `va_list` may be, is adjusted too.) -/
def Ty.param (t : Ty) : Ty :=
  match t.unqual with
  | .arr _ u => .ptr u
  | .fn r p e => .ptr (.fn r p e)
  | .vaList => .ptr .vaList
  | u => u

/-- The identifiers that a parameter list declares. -/
def Params.names : Params X → List String
  | .nil => []
  | .decl _ d rest =>
    match d.ident with
    | some s => s :: rest.names
    | none => rest.names
  | .ident s rest => s :: rest.names

/-- The identifiers of the parameter declarations in a list, old-style identifiers left out. -/
def Params.declNames : Params X → List String
  | .nil => []
  | .decl _ d rest =>
    match d.ident with
    | some s => s :: rest.declNames
    | none => rest.declNames
  | .ident _ rest => rest.declNames

mutual
/-- No parameter list in the declarator, however deep, declares an identifier twice (6.7p3: the parameters of a
prototype have no linkage). -/
def Dtor.Distinct : Dtor X → Prop
  | .name _ => True
  | .ptr _ d => d.Distinct
  | .arr d _ _ _ => d.Distinct
  | .fn d ps _ => ps.declNames.Nodup ∧ ps.Distinct ∧ d.Distinct
/-- See `Dtor.Distinct`. -/
def Params.Distinct : Params X → Prop
  | .nil => True
  | .decl _ d rest => d.Distinct ∧ rest.Distinct
  | .ident _ rest => rest.Distinct
end

/-- The parameter list is `( void )` (6.7.6.3p10). -/
def Params.isVoid (G : Scope X) : Params X → Prop
  | .decl ss (.name none) .nil => Means G ss ⟨.basic .void, .unspecified, false, false, 0⟩
  | _ => False

mutual
/-- `HasType G outer d t u`: in a declaration whose specifiers denote `t`, the declarator `d` is valid and gives its
identifier the type `u` (6.7.6.1p1, 6.7.6.2p3, 6.7.6.3p5).  `outer` says that the declarator belongs to a parameter:
only then the outermost array derivation may have `static` or qualifiers (6.7.6.2p1). -/
inductive HasType (G : Scope X) : Bool → Dtor X → Ty → Ty → Prop where
  | name (o s t) : HasType G o (.name s) t t
  /-- "derived-declarator-type-list type-qualifier-list pointer to T" -/
  | ptr (o q d t u) : Qual.atomic ∉ q → HasType G o d (Ty.qualify (Quals.of q) (.ptr t)) u →
      HasType G o (.ptr q d) t u
  /-- "derived-declarator-type-list array of T": T is a complete object type, the length greater than zero -/
  | arr (o d st q b n t u) : t.incomplete = false → t.isFn = false →
      (st = true ∨ q ≠ [] → o = true ∧ ∃ s, d = .name s) → Qual.atomic ∉ q →
      HasLen G b n → (st = true → ∃ e, b = .expr e) → HasType G o d (.arr n t) u →
      HasType G o (.arr d st q b) t u
  /-- "derived-declarator-type-list function returning T": T is not a function or array type -/
  | fn (o d ps e t p u) : t.isFn = false → t.isArr = false → HasProto G ps e p →
      ps.names.Nodup → HasType G o d (.fn t p e) u → HasType G o (.fn d ps e) t u
/-- The length of an array (6.7.6.2p1, p4). -/
inductive HasLen (G : Scope X) : Bound X → Len → Prop where
  | unbounded : HasLen G .unbounded .unknown
  | star : HasLen G .star .vla
  | const (e n) : G.value e = some n → 0 < n → HasLen G (.expr e) (.fixed n)
  | vla (e) : G.value e = none → G.isInt e = true → HasLen G (.expr e) .vla
/-- The parameters of a function type: none are specified, there are none, or there is a list of them. -/
inductive HasProto (G : Scope X) : Params X → Bool → Proto → Prop where
  | empty : HasProto G .nil false .none
  | void (ps) : ps.isVoid G → HasProto G ps false (.some .nil)
  | list (ps e ts) : ps ≠ .nil → HasParams G ps ts → HasProto G ps e (.some ts)
/-- Parameters: each has specifiers, of which only `register` may say something about storage (6.7.6.3p2), no function
specifiers and no alignment (6.7.4p2, 6.7.5p2), a declarator, and a type that is not `void` after adjustment, and
complete if this is asked for. -/
inductive HasParams (G : Scope X) : Params X → Tys → Prop where
  | nil : HasParams G .nil .nil
  | cons (ss d rest m u ts) : Means G ss m → m.storage = .unspecified ∨ m.storage = .register →
      fnSpecs ss = [] → aligns ss = [] →
      HasType G true d m.ty u → u.param ≠ .basic .void → (G.definition = true → u.param.incomplete = false) →
      HasParams G rest ts → HasParams G (.decl ss d rest) (.cons u.param ts)
end

end Kefir.Declr
