import Verif.Decl.Emit
import Verif.Decl.Covered

/-!
# Properties of declarations

* `C65_declarations_partial`: kefir accepts and rejects the same declarations as C17, and every accepted declaration
  and every use of a name refers to the same entity, with the same linkage, storage duration and value.
* `C65_types_partial`: with the same types, too, if no identifier with linkage is declared inside a function.
* `C67_symbols_partial`: the symbols that the translation unit exports and imports.

The conditions under which this holds are collected in `Verif/Decl/Covered.lean`.  Each `C65_…_false` below is a program
that shows that one of these conditions cannot be dropped.
-/

namespace Kefir.Decl

open Model (Ctx symbols)

variable {N T : Type} [DecidableEq N] [DecidableEq T]

/-- C65, for every translation unit (of any length, nesting depth and set of names and types) to which C17 gives a
meaning and that avoids the declarations listed in `coveredDecl`. -/
theorem C65_declarations_partial (ty : Types T) (items : List (Item N T)) (rs : List (Reply T))
    (final : Option (State N T)) (hcov : covered false ty .initial items = true)
    (hrun : run ty .initial items = some (rs, final)) :
    (Model.run ty Model.initial items).1.map Reply.untyped = rs.map Reply.untyped ∧
    (Model.run ty Model.initial items).2.isSome = final.isSome := by
  obtain ⟨h1, _, h3, h4⟩ := sim_run false ty items _ _ (sim_initial false) hcov rs final hrun
  refine ⟨h1, ?_⟩
  cases final with
  | none => rw [h3 rfl]; rfl
  | some s' => obtain ⟨c', hc, _⟩ := h4 s' rfl; rw [hc]; rfl

/-- C65 including the types, if moreover no identifier with linkage is declared in a block. -/
theorem C65_types_partial (ty : Types T) (items : List (Item N T)) (rs : List (Reply T))
    (final : Option (State N T)) (hcov : covered true ty .initial items = true)
    (hrun : run ty .initial items = some (rs, final)) :
    (Model.run ty Model.initial items).1 = rs :=
  (sim_run true ty items _ _ (sim_initial true) hcov rs final hrun).2.1 rfl

/-- C67: after an accepted translation unit, the global symbols are those that C17 makes external definitions plus the
inline definitions (which should not be there, see `C67_inline_false`), the external symbols are those declared but
not defined, and neither list has duplicates. -/
theorem C67_symbols_partial (ty : Types T) (items : List (Item N T)) (rs : List (Reply T)) (s : State N T)
    (hcov : covered false ty .initial items = true) (hrun : run ty .initial items = some (rs, some s)) :
    ∃ c : Ctx N T, (Model.run ty Model.initial items).2 = some c ∧
      (∀ n, n ∈ (symbols c.global).globals ↔ (s.provides n ∨ s.inlineDefinition n)) ∧
      (∀ n, n ∈ (symbols c.global).externals ↔ s.requires n) ∧
      (symbols c.global).globals.Nodup ∧ (symbols c.global).externals.Nodup := by
  obtain ⟨_, _, _, h4⟩ := sim_run false ty items _ _ (sim_initial false) hcov rs _ hrun
  obtain ⟨c, hc, hrel⟩ := h4 s rfl
  have hi := hrel.inv
  refine ⟨c, hc, fun n => ?_, hi.externals, hi.nodup.1, hi.nodup.2⟩
  rw [hi.globals]
  constructor
  · rintro ⟨e, he, hx, hd⟩
    cases hf : e.isFunction with
    | true =>
      rw [hf] at hd
      have hd' : e.status = .defined := by simpa using hd
      cases hio : e.inlineOnly with
      | true => exact .inr ⟨e, he, hx, hf, hd', hio⟩
      | false => exact .inl ⟨e, he, hx, .inl hd', by simp [hio]⟩
    | false =>
      rw [hf] at hd
      refine .inl ⟨e, he, hx, ?_, by simp [hf]⟩
      cases hs : e.status with
      | declared => simp [hs] at hd
      | tentative => exact .inr ⟨by simp [hf], rfl⟩
      | defined => exact .inl rfl
  · rintro (⟨e, he, hx, hd, _⟩ | ⟨e, he, hx, hf, hd, _⟩)
    · refine ⟨e, he, hx, ?_⟩
      cases hf : e.isFunction with
      | true =>
        rcases hd with hd | ⟨hd, _⟩
        · simpa using hd
        · simp [hf] at hd
      | false =>
        rcases hd with hd | ⟨_, hd⟩ <;> simp [hd]
    · exact ⟨e, he, hx, by rw [hf]; simpa using hd⟩

/-! ### A concrete set of types -/

namespace Example

inductive Ty
  | int
  | pointer (t : Ty)
  | array (len : Option Nat) (t : Ty)
  | vla (t : Ty)
  | function (ret : Ty)
  deriving DecidableEq, Repr

namespace Ty
def isFunction : Ty → Bool
  | function _ => true
  | _ => false

def incomplete : Ty → Bool
  | array none _ => true
  | _ => false

def variablyModified : Ty → Bool
  | int => false
  | pointer t | array _ t | function t => variablyModified t
  | vla _ => true

def variableLength : Ty → Bool
  | vla _ => true
  | array _ t => variableLength t
  | _ => false

def isPointer : Ty → Bool
  | pointer _ => true
  | _ => false

def compatible : Ty → Ty → Bool
  | int, int => true
  | pointer a, pointer b | function a, function b | vla a, vla b => compatible a b
  | array _ a, vla b | vla a, array _ b => compatible a b
  | array m a, array n b => (m.isNone || n.isNone || m == n) && compatible a b
  | _, _ => false

def composite : Ty → Ty → Ty
  | pointer a, pointer b => pointer (composite a b)
  | function a, function b => function (composite a b)
  | array m a, array n b => array (m <|> n) (composite a b)
  | array m a, _ => array m a
  | _, array n b => array n b
  | a, _ => a

end Ty

def types : Types Ty :=
  ⟨Ty.isFunction, Ty.incomplete, Ty.variablyModified, Ty.variableLength, Ty.isPointer, Ty.compatible,
   fun a b => a == b, Ty.composite⟩

/-- What an initializer list with `n` elements does to the type. -/
def elements (n : Nat) : Ty → Ty
  | .array none t => .array (some n) t
  | t => t

def decl (st : Storage) (n : String) (t : Ty) (init : Option (Ty → Ty) := none) : Item String Ty :=
  .declare ⟨n, t, st, false, false, false, init⟩

def func (st : Storage) (n : String) (ps : List (String × Ty × Bool)) (inl := false) : Item String Ty :=
  .define ⟨n, .function .int, st, inl, false, ps⟩

/-- What C17 says about the items: the replies. -/
def c17 (items : List (Item String Ty)) : Option (List (Reply Ty)) := (run types .initial items).map Prod.fst

/-- What kefir says. -/
def kefir (items : List (Item String Ty)) : List (Reply Ty) := (Model.run types Model.initial items).1

/-- Two replies differ in more than the type. -/
def differ (rs : Option (List (Reply Ty))) (rs' : List (Reply Ty)) : Bool :=
  match rs with
  | some rs => decide (rs.map Reply.untyped ≠ rs'.map Reply.untyped)
  | none => false

/-- ```
extern int a[]; int a[5]; static int f(…); typedef int I; typedef int I; enum { K = 7 };
int *q; static int x; extern int x; extern int y;
static int f(int p, register int r) {
  int a;
  { extern int x; static int s; int K; a; x; K; p; f; }
  K; x;
}
… a …
int z[] = { …, … }; extern int g(…);
``` -/
def program : List (Item String Ty) :=
  [decl .extern "a" (.array none .int), decl .none "a" (.array (some 5) .int),
   decl .static "f" (.function .int), decl .typedef "I" .int, decl .typedef "I" .int, .constant "K" 7,
   decl .none "q" (.pointer .int), decl .static "x" .int, decl .extern "x" .int, decl .extern "y" .int,
   func .static "f" [("p", .int, false), ("r", .int, true)],
   decl .none "a" .int, .openBlock,
   decl .extern "x" .int, decl .static "s" .int, decl .none "K" .int,
   .use "a", .use "x", .use "K", .use "p", .use "f", .closeBlock,
   .use "K", .use "x", .endDefinition, .use "a",
   decl .none "z" (.array none .int) (some (elements 2)), decl .extern "g" (.function .int)]

/-- The program is covered, C17 gives it a meaning and accepts all of it. -/
example : covered false types .initial program = true ∧
    (run types .initial program).map (fun p => (p.1.length, p.2.isSome)) = some (28, true) := by decide

/-- The declaration of `a` with a size refers to the entity declared first and completes its type; the inner `a` is a
new, automatic, object; `x` in the block is the object with internal linkage; after the function `a` is the array. -/
example : (c17 program).map (fun rs => [rs[1]?, rs[11]?, rs[17]?, rs[25]?]) =
    some [some (.refers (.object 0 .external .static (.array (some 5) .int))),
          some (.refers (.object 9 .none .automatic .int)),
          some (.refers (.object 5 .internal .static .int)),
          some (.refers (.object 0 .external .static (.array (some 5) .int)))] := by decide

/-- A strictly covered program: the same without the `extern` in the block. -/
def program' : List (Item String Ty) := program.take 13 ++ program.drop 14

example : covered true types .initial program' = true ∧
    (run types .initial program').map (fun p => (p.1.length, p.2.isSome)) = some (27, true) := by decide

/-- Programs that C17 rejects are covered as well. -/
example : ([[decl .none "x" .int, decl .none "x" (.pointer .int)],
            [decl .none "x" .int (some id), decl .none "x" .int (some id)],
            [decl .typedef "x" .int, decl .none "x" .int],
            [func .none "f" [("p", .int, false)], decl .none "p" .int],
            [func .none "f" [], .endDefinition, func .none "f" []],
            [.use "x"]] : List (List (Item String Ty))).map
      (fun p => (covered true types .initial p, (c17 p).map (·.getLast?))) =
    List.replicate 6 (true, some (some .rejected)) := by decide

/-- The symbols of the program: `a`, `q`, `z` are provided, `y`, `g` required, `x` and `f` are internal. -/
example : (Model.run types Model.initial program).2.map
      (fun c => ((symbols c.global).globals, (symbols c.global).externals)) =
    some (["z", "q", "a"], ["y", "g"]) := by decide

end Example

open Example

/-! ### Why the conditions are needed -/

/-- `extern _Thread_local int x;` in a block: kefir drops the `_Thread_local`. -/
theorem C65_block_extern_thread_false : ∃ items,
    c17 items = some [.refers (.object 0 .external .thread .int), .refers (.function 1 .external (.function .int)),
      .refers (.object 0 .external .thread .int)] ∧ differ (c17 items) (kefir items) = true :=
  ⟨[decl .externThread "x" .int, func .none "f" [], decl .externThread "x" .int], by decide, by decide⟩

/-- `static int x; extern int x = 5;` is valid (6.2.2p4) and rejected by kefir. -/
theorem C65_extern_initialized_false : ∃ items,
    c17 items = some [.refers (.object 0 .internal .static .int), .refers (.object 0 .internal .static .int)] ∧
    (kefir items).getLast? = some .rejected :=
  ⟨[decl .static "x" .int, decl .extern "x" .int (some id)], by decide, by decide⟩

/-- `typedef int A[]; typedef int A[5];` violates 6.7p3 (compatible, but not the same type) and is accepted. -/
theorem C65_typedef_same_false : ∃ items,
    (c17 items).map List.getLast? = some (some .rejected) ∧ Reply.rejected ∉ kefir items :=
  ⟨[decl .typedef "A" (.array none .int), decl .typedef "A" (.array (some 5) .int)], by decide, by decide⟩

/-- A variably modified typedef name is redefined in one block: 6.7p3 forbids it, kefir accepts. -/
theorem C65_typedef_variably_modified_false : ∃ items,
    (c17 items).map List.getLast? = some (some .rejected) ∧ Reply.rejected ∉ kefir items :=
  ⟨[func .none "f" [("n", .int, false)], decl .typedef "A" (.vla .int), decl .typedef "A" (.vla .int)],
   by decide, by decide⟩

/-- `static int (*a[2])[n];` in a block is valid (6.7.6.2p2) and rejected by kefir. -/
theorem C65_static_pointers_false : ∃ items,
    (c17 items).map List.getLast? =
      some (some (.refers (.object 2 .none .static (.array (some 2) (.pointer (.vla .int)))))) ∧
    (kefir items).getLast? = some .rejected :=
  ⟨[func .none "f" [("n", .int, false)], decl .static "a" (.array (some 2) (.pointer (.vla .int)))],
   by decide, by decide⟩

/-- `int (*p)[n] = 0;` in a block is valid and rejected by kefir. -/
theorem C65_initialized_pointer_false : ∃ items,
    (c17 items).map List.getLast? = some (some (.refers (.object 2 .none .automatic (.pointer (.vla .int))))) ∧
    (kefir items).getLast? = some .rejected :=
  ⟨[func .none "f" [("n", .int, false)], decl .none "p" (.pointer (.vla .int)) (some id)], by decide, by decide⟩

/-- `register _Alignas(8) int x;` violates 6.7.5p2 and is accepted. -/
theorem C65_aligned_register_false : ∃ items,
    (c17 items).map List.getLast? = some (some .rejected) ∧ Reply.rejected ∉ kefir items :=
  ⟨[func .none "f" [], .declare ⟨"x", .int, .register, false, false, true, none⟩], by decide, by decide⟩

/-- `typedef int A = 5;` has no meaning in C (6.7.9p2, only objects are initialized) and is accepted. -/
theorem C65_typedef_initializer_false : ∃ items,
    (c17 items).map List.getLast? = some (some .rejected) ∧ Reply.rejected ∉ kefir items :=
  ⟨[decl .typedef "A" .int (some id)], by decide, by decide⟩

/-- `extern int a[5]; int a[] = {1, 2};` declares an array of 5 (6.2.7p4), kefir makes it an array of 2. -/
theorem C65_composite_initializer_false : ∃ items,
    (c17 items).map List.getLast? = some (some (.refers (.object 0 .external .static (.array (some 5) .int)))) ∧
    (kefir items).getLast? = some (.refers (.object 0 .external .static (.array (some 2) .int))) :=
  ⟨[decl .extern "a" (.array (some 5) .int), decl .none "a" (.array none .int) (some (elements 2))],
   by decide, by decide⟩

/-- `extern int a[]; int f(void) { { extern int a[5]; } a }`: after the inner block the visible declaration is the
first, so `a` has incomplete type (6.2.7p4); kefir remembers the size. -/
theorem C65_block_composite_false : ∃ items,
    (c17 items).map List.getLast? = some (some (.refers (.object 0 .external .static (.array none .int)))) ∧
    (kefir items).getLast? = some (.refers (.object 0 .external .static (.array (some 5) .int))) :=
  ⟨[decl .extern "a" (.array none .int), func .none "f" [], .openBlock,
    decl .extern "a" (.array (some 5) .int), .closeBlock, .use "a"], by decide, by decide⟩

/-- `inline int f(void) {…}` alone is an inline definition: the symbol is not provided (6.7.4p7), kefir exports it. -/
theorem C67_inline_false : ∃ (items : List (Item String Ty)) (rs : List (Reply Ty)) (s : State String Ty)
    (c : Ctx String Ty), covered true types .initial items = true ∧ run types .initial items = some (rs, some s) ∧
      (Model.run types Model.initial items).2 = some c ∧ ¬ s.provides "f" ∧ "f" ∈ (symbols c.global).globals := by
  refine ⟨[func .none "f" [] (inl := true), .endDefinition], _, _, _, by decide, rfl, rfl, ?_, by decide⟩
  rintro ⟨e, he, _, _, h⟩
  have he' : e = ⟨0, true, .external, false, .defined, true, .function .int⟩ := (Option.some.inj he).symm
  subst he'
  exact h ⟨rfl, rfl⟩

end Kefir.Decl
