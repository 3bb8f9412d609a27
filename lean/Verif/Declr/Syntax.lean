/-!
# Declaration specifiers and declarators: syntax trees

Trees shared by the specification and the model.  `X` stands for syntax that is not looked into here: the expressions
between `[` and `]`, what is between the parentheses of `_Alignas`, bodies of structures, unions and enumerations, and
the type name of `_Atomic ( … )`.
-/

namespace Kefir.Declr

/-- Type specifiers that are keywords (6.7.2p1). -/
inductive Word where
  | void | char | short | int | long | float | double | signed | unsigned | bool
  deriving DecidableEq, Repr

/-- `struct`, `union`, `enum`. -/
inductive TagKind where
  | struct | union | enum
  deriving DecidableEq, Repr

/-- Type specifiers. -/
inductive TypeSpec (X : Type) where
  | word (w : Word)
  | complex
  | atomic (t : X)
  | tag (k : TagKind) (name : Option String) (body : Option X)
  | typedefName (s : String)
  /-- the built-in `__builtin_va_list` -/
  | vaList
  deriving DecidableEq, Repr

/-- Type qualifiers (6.7.3). -/
inductive Qual where
  | const | restrict | volatile | atomic
  deriving DecidableEq, Repr

/-- Storage-class specifiers (6.7.1). -/
inductive Storage where
  | typedef | extern | static | threadLocal | auto | register
  deriving DecidableEq, Repr

/-- Function specifiers (6.7.4). -/
inductive FnSpec where
  | inline | noreturn
  deriving DecidableEq, Repr

/-- Declaration specifiers (6.7p1). -/
inductive Spec (X : Type) where
  | type (t : TypeSpec X)
  | qual (q : Qual)
  | storage (s : Storage)
  | fn (f : FnSpec)
  | align (a : X)
  deriving DecidableEq, Repr

/-- What is between the brackets of an array declarator, apart from `static` and qualifiers. -/
inductive Bound (X : Type) where
  | unbounded
  | star
  | expr (e : X)
  deriving DecidableEq, Repr

mutual
/-- Declarators, parentheses omitted; `name none` is the absent identifier of an abstract declarator. -/
inductive Dtor (X : Type) where
  | name (s : Option String)
  | ptr (q : List Qual) (d : Dtor X)
  | arr (d : Dtor X) (static : Bool) (q : List Qual) (b : Bound X)
  | fn (d : Dtor X) (ps : Params X) (ellipsis : Bool)
/-- Parameter lists: parameter declarations, or the identifiers of an old-style list. -/
inductive Params (X : Type) where
  | nil
  | decl (ss : List (Spec X)) (d : Dtor X) (rest : Params X)
  | ident (s : String) (rest : Params X)
end

deriving instance DecidableEq for Dtor, Params
deriving instance Repr for Dtor, Params

/-- The identifier a declarator declares. -/
def Dtor.ident {X : Type} : Dtor X → Option String
  | .name s => s
  | .ptr _ d => d.ident
  | .arr d _ _ _ => d.ident
  | .fn d _ _ => d.ident

end Kefir.Declr
