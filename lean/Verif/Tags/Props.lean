import Verif.Tags.Unit

/-
C89: the tag in a specifier names the type C17 says it names, and accesses use the definition of that type.
-/
namespace Verif.Tags

/-- **C89** (partial).  For every translation unit that the cases of `covered` do not exclude: Kefir refuses it
exactly if it violates a constraint on tags, on members or on accesses, and otherwise every arrow of every
access uses the definition that completes the type of its left side.  The refutations below show that each
exclusion is needed. -/
theorem C89_tags_partial (xs : List Ext) (h : covered xs = true) : compile xs = (means .empty xs).map (·.2) :=
  compile_eq h

/-! A translation unit that is covered: a forward declaration, two types that refer to each other, a list, a
type of the same name in an inner scope, and accesses to all of them.

```
struct A;
struct B { struct A *a; struct B *next; };
struct A { struct B *b; };
struct A *x;
void f() {
  struct B *y;
  x->b->next->a->m;
  {
    union A { struct { } *m; };
    union A *x;
    x->m->n;
    enum B { … };
  }
  x->b->m;
  y->m;
}
```
-/
section
def linked : List Ext := [
  .decl (.alone (.ref .struct "A")),
  .decl (.alone (.define false (some "B") 1 (.cons "a" (.ref .struct "A") (.cons "next" (.ref .struct "B") .nil)))),
  .decl (.alone (.define false (some "A") 2 (.cons "b" (.ref .struct "B") .nil))),
  .decl (.object "x" (.ref .struct "A")),
  .function (
    .decl (.object "y" (.ref .struct "B")) <|
    .access "x" ["b", "next", "a"] <|
    .block (
      .decl (.alone (.define true (some "A") 3 (.cons "m" (.define false none 4 .nil) .nil))) <|
      .decl (.object "x" (.ref .union "A")) <|
      .access "x" ["m"] <|
      .decl (.alone (.enumerate (some "B") 5)) .nil) <|
    .access "x" ["b"] <|
    .access "y" [] .nil)]

example : covered linked = true := by decide +kernel
example : (means .empty linked).map (·.2) = some [2, 1, 1, 2, 3, 4, 2, 1, 1] := by decide +kernel
example : compile linked = some [2, 1, 1, 2, 3, 4, 2, 1, 1] := by
  rw [C89_tags_partial _ (by decide +kernel)]
  decide +kernel

/-- Covered, and not valid: `struct A { … }; union A *x;` -/
example : covered [.decl (.alone (.define false (some "A") 1 .nil)), .decl (.object "x" (.ref .union "A"))] = true ∧
    means .empty [.decl (.alone (.define false (some "A") 1 .nil)), .decl (.object "x" (.ref .union "A"))] = none :=
  ⟨by decide +kernel, by rfl⟩
end

/-- An object declared before its type is completed is accessed through the definition that comes later, in
any covered unit; here with `struct A *x; struct A { … }; void f() { x->m; }`. -/
example : covered [.decl (.object "x" (.ref .struct "A")), .decl (.alone (.define false (some "A") 1 .nil)),
    .function (.access "x" [] .nil)] = true ∧
    compile [.decl (.object "x" (.ref .struct "A")), .decl (.alone (.define false (some "A") 1 .nil)),
    .function (.access "x" [] .nil)] = some [1] := ⟨by decide +kernel, by decide +kernel⟩

/-! ### Refutations -/

/-- `struct A { … }; void f() { struct A; struct A *x; struct A { … }; x->m; }`: `struct A;` declares a new type in
the block (6.7.2.3p7), Kefir takes it for the outer one, and uses the layout of the outer definition. -/
theorem C89_alone_false : ∃ xs o o', (means .empty xs).map (·.2) = some [o] ∧ compile xs = some [o'] ∧ o ≠ o' :=
  ⟨[.decl (.alone (.define false (some "A") 1 .nil)),
    .function (.decl (.alone (.ref .struct "A")) <| .decl (.object "x" (.ref .struct "A")) <|
      .decl (.alone (.define false (some "A") 2 .nil)) <| .access "x" [] .nil)], 2, 1,
    by decide +kernel, by decide +kernel, by decide⟩

/-- `struct A { … }; void f() { struct A { struct A *next; }; struct A *x; x->next->m; }`: the tag of the inner
definition is in scope in its own members (6.2.1p7); Kefir declares it after them, so that the member points to
the outer type. -/
theorem C89_self_false : ∃ xs o o', (means .empty xs).map (·.2) = some [o, o] ∧ compile xs = some [o, o'] ∧ o ≠ o' :=
  ⟨[.decl (.alone (.define false (some "A") 1 .nil)),
    .function (.decl (.alone (.define false (some "A") 2 (.cons "next" (.ref .struct "A") .nil))) <|
      .decl (.object "x" (.ref .struct "A")) <| .access "x" ["next"] .nil)], 2, 1,
    by decide +kernel, by decide +kernel, by decide⟩

/-- The same with an outer `union A`: a valid program is refused. -/
theorem C89_self_refused_false : ∃ xs os, (means .empty xs).map (·.2) = some os ∧ compile xs = none :=
  ⟨[.decl (.alone (.define true (some "A") 1 .nil)),
    .function (.decl (.alone (.define false (some "A") 2 (.cons "next" (.ref .struct "A") .nil))) <|
      .decl (.object "x" (.ref .struct "A")) <| .access "x" ["next"] .nil)], [2, 2],
    by decide +kernel, by decide +kernel⟩

/-- `enum E *x;` without a definition of `enum E` violates 6.7.2.3p3 and is accepted. -/
theorem C89_enum_false : ∃ xs os, (means .empty xs).map (·.2) = none ∧ compile xs = some os :=
  ⟨[.decl (.object "x" (.ref .enum "E"))], [], by decide +kernel, by decide +kernel⟩

/-- `struct A *x; void f() { struct A { … }; x->m; }`: the type of `x` is never completed; Kefir takes the inner
type of the same name for it. -/
theorem C89_hidden_false : ∃ xs os, (means .empty xs).map (·.2) = none ∧ compile xs = some os :=
  ⟨[.decl (.object "x" (.ref .struct "A")),
    .function (.decl (.alone (.define false (some "A") 1 .nil)) <| .access "x" [] .nil)], [1],
    by decide +kernel, by decide +kernel⟩

/-- The inner type does not even have to be of the same kind: `struct A *x; void f() { union A { … }; x->m; }`. -/
theorem C89_hidden_kind_false : ∃ xs os, (means .empty xs).map (·.2) = none ∧ compile xs = some os :=
  ⟨[.decl (.object "x" (.ref .struct "A")),
    .function (.decl (.alone (.define true (some "A") 1 .nil)) <| .access "x" [] .nil)], [1],
    by decide +kernel, by decide +kernel⟩

/-- `void f() { { struct A *x; struct A { … }; x->m; } }`: a valid program is refused when it is translated,
because the translator looks for `A` outside of the blocks of the function. -/
theorem C89_block_false : ∃ xs os, (means .empty xs).map (·.2) = some os ∧ compile xs = none :=
  ⟨[.function (.block (.decl (.object "x" (.ref .struct "A")) <| .decl (.alone (.define false (some "A") 1 .nil)) <|
      .access "x" [] .nil) .nil)], [1],
    by decide +kernel, by decide +kernel⟩

/-- `struct A *x; struct A { … }; void f() { x->m; struct A { … }; }`: the access uses the layout of a structure that
is declared after it. -/
theorem C89_later_false : ∃ xs o o', (means .empty xs).map (·.2) = some [o] ∧ compile xs = some [o'] ∧ o ≠ o' :=
  ⟨[.decl (.object "x" (.ref .struct "A")), .decl (.alone (.define false (some "A") 1 .nil)),
    .function (.access "x" [] <| .decl (.alone (.define false (some "A") 2 .nil)) .nil)], 1, 2,
    by decide +kernel, by decide +kernel, by decide⟩

end Verif.Tags
