/-!
# Declarations of ordinary identifiers: what C17 prescribes

A translation unit is looked at as a sequence of items: declarations, enumeration constants, function
definitions, the opening and closing of blocks and uses of an identifier.  The specification says, item by item,
whether C17 accepts the item, demands a diagnostic, or leaves the behaviour undefined, and which entity (with which
linkage, storage duration and type) every accepted item introduces or refers to.

Nothing here mentions kefir.  Types are abstract: the specification only uses the questions of `Types`.
-/

namespace Kefir.Decl

/-- The questions about a type that C17 6.2.2, 6.7 and 6.9 ask. -/
structure Types (T : Type) where
  /-- Is it a function type? -/
  isFunction : T → Bool
  /-- Is it an incomplete object type (6.2.5p1)? -/
  incomplete : T → Bool
  /-- Is it variably modified (6.7.6p3)? -/
  variablyModified : T → Bool
  /-- Is it a variable length array type (6.7.6.2p4)? -/
  variableLength : T → Bool
  /-- Is it a pointer type? -/
  isPointer : T → Bool
  /-- Are the two types compatible (6.2.7p1)? -/
  compatible : T → T → Bool
  /-- Are they the same type (6.7p3)? -/
  same : T → T → Bool
  /-- The composite type of two compatible types (6.2.7p3). -/
  composite : T → T → T

/-- Storage-class specifiers of a declaration (6.7.1p1, p2). -/
inductive Storage
  | none | typedef | extern | static | threadLocal | externThread | staticThread | auto | register
  deriving DecidableEq, Repr

/-- One declared identifier.  `init` is the initializer, if there is one: it is represented by its effect on the
type (an array of unknown size is completed by its initializer, 6.7.9p22).  Initializers are taken to be valid and,
where C17 asks for it, constant. -/
structure Declaration (N T : Type) where
  name : N
  type : T
  storage : Storage
  inline : Bool
  noreturn : Bool
  aligned : Bool
  init : Option (T → T)

/-- The beginning of a function definition, up to its opening brace.  Parameters have their adjusted types
(6.7.6.3p7, p8), the flag says whether `register` was given. -/
structure Definition (N T : Type) where
  name : N
  type : T
  storage : Storage
  inline : Bool
  noreturn : Bool
  params : List (N × T × Bool)

inductive Item (N T : Type)
  | declare (d : Declaration N T)
  | constant (name : N) (value : Int)
  | define (f : Definition N T)
  | endDefinition
  | openBlock
  | closeBlock
  | use (name : N)

inductive Linkage | none | internal | external
  deriving DecidableEq, Repr

inductive Duration | automatic | register | static | thread
  deriving DecidableEq, Repr

/-- What an identifier designates.  Entities are numbered in the order in which they are introduced, so two
identifiers designate the same entity exactly when their numbers agree. -/
inductive Ref (T : Type)
  | object (id : Nat) (linkage : Linkage) (duration : Duration) (type : T)
  | function (id : Nat) (linkage : Linkage) (type : T)
  | typedefName (id : Nat) (type : T)
  | constant (id : Nat) (value : Int)
  deriving DecidableEq, Repr

namespace Ref
variable {T U : Type}

def id : Ref T → Nat
  | .object i _ _ _ | .function i _ _ | .typedefName i _ | .constant i _ => i

def linkage : Ref T → Linkage
  | .object _ l _ _ | .function _ l _ => l
  | .typedefName .. | .constant .. => .none

def type? : Ref T → Option T
  | .object _ _ _ t | .function _ _ t | .typedefName _ t => some t
  | .constant .. => .none

/-- The same designation with the type forgotten. -/
def untyped : Ref T → Ref Unit
  | .object i l d _ => .object i l d ()
  | .function i l _ => .function i l ()
  | .typedefName i _ => .typedefName i ()
  | .constant i v => .constant i v
end Ref

/-- How far an entity with linkage has been introduced so far. -/
inductive Status | declared | tentative | defined
  deriving DecidableEq, Repr

def Status.join : Status → Status → Status
  | .defined, _ => .defined
  | _, .defined => .defined
  | .tentative, _ => .tentative
  | _, .tentative => .tentative
  | _, _ => .declared

/-- What is known about an entity with linkage.  `type` is the composite of all declarations so far; `inlineOnly`
says that every file-scope declaration of the function so far had `inline` and not `extern` (6.7.4p7). -/
structure Linked (T : Type) where
  id : Nat
  isFunction : Bool
  linkage : Linkage
  thread : Bool
  status : Status
  inlineOnly : Bool
  type : T

variable {N T : Type} [DecidableEq N]

def lookup {α : Type} (l : List (N × α)) (n : N) : Option α :=
  match l with
  | [] => none
  | (m, a) :: r => if m = n then some a else lookup r n

/-- Replace the entry of `n`, or add one. -/
def put {α : Type} (l : List (N × α)) (n : N) (a : α) : List (N × α) :=
  match l with
  | [] => [(n, a)]
  | (m, b) :: r => if m = n then (n, a) :: r else (m, b) :: put r n a

structure State (N T : Type) where
  /-- number of entities so far -/
  next : Nat
  /-- the scopes, innermost first; the last one is the file scope -/
  scopes : List (List (N × Ref T))
  /-- the entities with linkage; 6.2.2p2: one per name -/
  linked : List (N × Linked T)

def State.initial : State N T := ⟨0, [[]], []⟩

namespace State

def fileScope (s : State N T) : Bool := s.scopes.length == 1

/-- 6.2.1p4: the declaration of the innermost scope that has one. -/
def visible (s : State N T) (n : N) : Option (Ref T) :=
  s.scopes.findSome? (fun sc => lookup sc n)

def here (s : State N T) (n : N) : Option (Ref T) :=
  match s.scopes with
  | sc :: _ => lookup sc n
  | [] => none

/-- The innermost scope has a declaration of `n`, and it has no linkage. -/
def hereUnlinked (s : State N T) (n : N) : Bool :=
  match s.here n with
  | some r => r.linkage == .none
  | none => false

/-- Bind `n` in the innermost scope. -/
def bind (s : State N T) (n : N) (r : Ref T) : State N T :=
  match s.scopes with
  | sc :: rest => { s with scopes := put sc n r :: rest }
  | [] => s

end State

inductive Outcome (S R : Type)
  | next (state : S) (reply : R)
  | reject
  | undefined

/-- A reply to an item. -/
inductive Reply (T : Type)
  | done
  | refers (r : Ref T)
  | rejected
  deriving DecidableEq, Repr

def Reply.untyped : Reply T → Reply Unit
  | .done => .done
  | .refers r => .refers r.untyped
  | .rejected => .rejected

def Storage.thread : Storage → Bool
  | .threadLocal | .externThread | .staticThread => true
  | _ => false

def Storage.isExtern : Storage → Bool
  | .extern | .externThread => true
  | _ => false

def Storage.isStatic : Storage → Bool
  | .static | .staticThread => true
  | _ => false

/-- Constraints on the specifiers of one declaration, independent of other declarations: 6.7.1p3, p4, p7 (storage
classes by scope), 6.7.4p1, p2 (function specifiers), 6.7.5p2 (alignment specifiers), 6.7.9p3, p5 (initializers),
6.9p2. -/
def specifiersOk (ty : Types T) (file : Bool) (d : Declaration N T) : Bool :=
  if ty.isFunction d.type then
    !d.aligned && d.init.isNone &&
      match d.storage with
      | .typedef => !(d.inline || d.noreturn)
      | .none | .extern => true
      | .static => file
      | _ => false
  else
    !(d.inline || d.noreturn) &&
      match d.storage with
      | .typedef => !d.aligned && d.init.isNone
      | .extern | .externThread => file || d.init.isNone
      | .static | .staticThread | .none => true
      | .threadLocal => file
      | .auto => !file
      | .register => !file && !d.aligned

/-- 6.2.2p3–p6. -/
def linkageOf (ty : Types T) (file : Bool) (visible : Option (Ref T)) (d : Declaration N T) : Linkage :=
  let asExtern : Linkage :=
    match visible with
    | some r => if r.linkage = .none then .external else r.linkage
    | none => .external
  if d.storage = .typedef then .none
  else if ty.isFunction d.type then
    if d.storage.isStatic then .internal else asExtern
  else if d.storage.isExtern then asExtern
  else if file then (if d.storage.isStatic then .internal else .external)
  else .none

/-- The type an initializer, if any, leaves behind. -/
def complete (init : Option (T → T)) (t : T) : T :=
  match init with
  | some f => f t
  | none => t

/-- 6.2.4: storage durations. -/
def durationOf (linkage : Linkage) (storage : Storage) : Duration :=
  if storage.thread then .thread
  else if linkage ≠ .none || storage.isStatic then .static
  else if storage = .register then .register
  else .automatic

/-- A declaration of an identifier without linkage: a typedef name or a block-scope object. -/
def declareUnlinked (ty : Types T) (file : Bool) (s : State N T) (d : Declaration N T) :
    Outcome (State N T) (Reply T) :=
  if d.storage = .typedef then
    -- 6.7.6.2p2: variably modified types have block scope
    if file && ty.variablyModified d.type then .reject
    else match s.here d.name with
      | some (.typedefName id old) =>
        -- 6.7p3: may be redefined to denote the same type, unless variably modified
        if ty.same old d.type && !ty.variablyModified d.type then
          let r := Ref.typedefName id (if ty.incomplete old && !ty.incomplete d.type then d.type else old)
          .next (s.bind d.name r) (.refers r)
        else .reject
      | some _ => .reject
      | none =>
        let r := Ref.typedefName s.next d.type
        .next { (s.bind d.name r) with next := s.next + 1 } (.refers r)
  else
    let t := complete d.init d.type
    -- 6.7.6.2p2, 6.7.9p3: no static or initialized variable length array
    if ty.variableLength d.type && (d.storage.isStatic || d.init.isSome) then .reject
    -- 6.7p7: complete at the end of the declarator or initializer
    else if ty.incomplete t then .reject
    else match s.here d.name with
      | some _ => .reject                      -- 6.7p3
      | none =>
        let r := Ref.object s.next .none (durationOf .none d.storage) t
        .next { (s.bind d.name r) with next := s.next + 1 } (.refers r)

/-- How far a declaration introduces the entity: 6.9.2p1, p2.  A file-scope `_Thread_local` declaration without
`extern` is read as a tentative definition too. -/
def statusOf (isFunction defines : Bool) (d : Declaration N T) : Status :=
  if isFunction then (if defines then .defined else .declared)
  else if d.init.isSome then .defined
  else if d.storage.isExtern then .declared
  else .tentative

/-- The designation of an entity with linkage, seen with type `t`. -/
def Linked.ref (e : Linked T) (t : T) : Ref T :=
  if e.isFunction then .function e.id e.linkage t
  else .object e.id e.linkage (if e.thread then .thread else .static) t

/-- The type under which a declaration makes the entity visible: 6.2.7p4. -/
def visibleType (ty : Types T) (s : State N T) (d : Declaration N T) : T :=
  match s.visible d.name with
  | some r =>
    if r.linkage = .none then complete d.init d.type
    else match r.type? with
      | some t => complete d.init (ty.composite t d.type)
      | none => complete d.init d.type
  | none => complete d.init d.type

/-- A declaration of an identifier with linkage. -/
def declareLinked (ty : Types T) (file defines : Bool) (l : Linkage) (s : State N T) (d : Declaration N T) :
    Outcome (State N T) (Reply T) :=
  let fn := ty.isFunction d.type
  -- 6.7.6.2p2
  if ty.variablyModified d.type then .reject
  -- 6.7p3 with 6.2.1p4: the name already denotes something without linkage in this scope
  else if s.hereUnlinked d.name then .reject
  else
    -- 6.9.2p3
    let badTentative := !fn && l == .internal && d.storage.isStatic && d.init.isNone && ty.incomplete d.type
    let inl := !file || (d.inline && d.storage ≠ .extern)
    match lookup s.linked d.name with
    | none =>
      if badTentative then .undefined
      else
        let e : Linked T :=
          { id := s.next, isFunction := fn, linkage := l, thread := d.storage.thread,
            status := statusOf fn defines d, inlineOnly := inl, type := complete d.init d.type }
        let r := e.ref (visibleType ty s d)
        .next { (s.bind d.name r) with next := s.next + 1, linked := put s.linked d.name e } (.refers r)
    | some e =>
      -- 6.2.2p7
      if e.linkage ≠ l then .undefined
      else if e.isFunction ≠ fn then
        -- 6.7p4 in one scope, 6.2.7p2 otherwise
        (if (s.here d.name).isSome then .reject else .undefined)
      else if badTentative then .undefined
      -- 6.7.1p3
      else if e.thread ≠ d.storage.thread then .reject
      -- 6.7p4
      else if !ty.compatible e.type d.type then .reject
      -- 6.9p3, p5
      else if e.status = .defined ∧ statusOf fn defines d = .defined then .reject
      else
        let e' : Linked T :=
          { e with status := e.status.join (statusOf fn defines d), inlineOnly := e.inlineOnly && inl,
                   type := complete d.init (ty.composite e.type d.type) }
        let r := e'.ref (visibleType ty s d)
        .next { (s.bind d.name r) with linked := put s.linked d.name e' } (.refers r)

/-- A declaration, or the declaration part of a function definition. -/
def declare (ty : Types T) (defines : Bool) (s : State N T) (d : Declaration N T) :
    Outcome (State N T) (Reply T) :=
  if !specifiersOk ty s.fileScope d then .reject
  else
    match linkageOf ty s.fileScope (s.visible d.name) d with
    | .none => declareUnlinked ty s.fileScope s d
    | l => declareLinked ty s.fileScope defines l s d

/-- An enumeration constant: 6.7.2.2, 6.7p3. -/
def declareConstant (s : State N T) (n : N) (v : Int) : Outcome (State N T) (Reply T) :=
  match s.here n with
  | some _ => .reject
  | none =>
    let r := Ref.constant s.next v
    .next { (s.bind n r) with next := s.next + 1 } (.refers r)

/-- Parameters of a function definition are declared like objects of the outermost block of the body
(6.2.1p4, 6.9.1p9): complete types (6.7.6.3p4), no name twice (6.7p3). -/
def paramDecl (p : N × T × Bool) : Declaration N T :=
  { name := p.1, type := p.2.1, storage := if p.2.2 then .register else .none,
    inline := false, noreturn := false, aligned := false, init := none }

def declareParams (ty : Types T) (s : State N T) : List (N × T × Bool) → Option (State N T)
  | [] => some s
  | p :: ps =>
    if ty.isFunction p.2.1 then none
    else match declare ty false s (paramDecl p) with
      | .next s' _ => declareParams ty s' ps
      | _ => none

/-- The file-scope declaration made by a function definition. -/
def Definition.toDecl (f : Definition N T) : Declaration N T :=
  { name := f.name, type := f.type, storage := f.storage, inline := f.inline, noreturn := f.noreturn,
    aligned := false, init := none }

def step (ty : Types T) (s : State N T) : Item N T → Outcome (State N T) (Reply T)
  | .declare d => declare ty false s d
  | .constant n v => declareConstant s n v
  | .define f =>
    -- 6.9.1p2, p4; definitions do not nest
    if !s.fileScope then .reject
    else if !ty.isFunction f.type then .reject
    else if !(f.storage = .none || f.storage = .extern || f.storage = .static) then .reject
    else
      -- the parameters live in the outermost block of the body
      match declareParams ty { s with scopes := [] :: s.scopes } f.params with
      | none => .reject
      | some sp =>
        match declare ty true { sp with scopes := s.scopes } f.toDecl with
        | .next s' r => .next { s' with scopes := sp.scopes.take 1 ++ s'.scopes } r
        | .reject => .reject
        | .undefined => .undefined
  | .endDefinition =>
    if s.scopes.length = 2 then .next { s with scopes := s.scopes.tail } .done else .reject
  | .openBlock =>
    if s.fileScope then .reject else .next { s with scopes := [] :: s.scopes } .done
  | .closeBlock =>
    if s.scopes.length ≤ 2 then .reject else .next { s with scopes := s.scopes.tail } .done
  | .use n =>
    match s.visible n with
    | some r => .next s (.refers r)
    | none => .reject

/-- What a history of items prescribes: the replies up to the first rejection, and the state at the end if nothing
was rejected.  `none` when undefined behaviour is met. -/
def run (ty : Types T) (s : State N T) : List (Item N T) → Option (List (Reply T) × Option (State N T))
  | [] => some ([], some s)
  | i :: is =>
    match step ty s i with
    | .undefined => none
    | .reject => some ([.rejected], none)
    | .next s' r => (run ty s' is).map (fun p => (r :: p.1, p.2))

/-- The symbols a translation unit provides to others: 6.9p5, 6.9.2p2 (a tentative definition becomes a
definition), 6.7.4p7 (an inline definition is not an external definition). -/
def State.provides (s : State N T) (n : N) : Prop :=
  ∃ e, lookup s.linked n = some e ∧ e.linkage = .external ∧
    (e.status = .defined ∨ (!e.isFunction ∧ e.status = .tentative)) ∧ ¬ (e.isFunction ∧ e.inlineOnly)

/-- The symbols it expects from others. -/
def State.requires (s : State N T) (n : N) : Prop :=
  ∃ e, lookup s.linked n = some e ∧ e.linkage = .external ∧ e.status = .declared

/-- An inline definition occurs. -/
def State.inlineDefinition (s : State N T) (n : N) : Prop :=
  ∃ e, lookup s.linked n = some e ∧ e.linkage = .external ∧ e.isFunction ∧ e.status = .defined ∧ e.inlineOnly

end Kefir.Decl
