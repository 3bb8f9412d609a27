import Verif.Init.Length
import Verif.Init.Contents
import Verif.Init.Examples

/-!
# Initialisers

Properties C68 (which subobject gets which value) and C69 (arrays of unknown size), with respect to
`Verif/Init/Spec.lean`.
-/

namespace Kefir.Init

open Model

variable {E : Type}

/-! ### The specification on the examples of C17 6.7.9 -/

section
open Examples

/-- Example 3: `int y[4][3] = { { 1, 3, 5 }, { 2, 4, 6 }, { 3, 5, 7 } };` -/
example : initialise env (arr 4 (arr 3 int)) (br [br [n 1, n 3, n 5], br [n 2, n 4, n 6], br [n 3, n 5, n 7]]) =
    .ok [.zero [], .zero [0], .value [0, 0] (.num 1), .value [0, 1] (.num 3), .value [0, 2] (.num 5),
      .zero [1], .value [1, 0] (.num 2), .value [1, 1] (.num 4), .value [1, 2] (.num 6),
      .zero [2], .value [2, 0] (.num 3), .value [2, 1] (.num 5), .value [2, 2] (.num 7)] := rfl

/-- Example 3, the other form: `int y[4][3] = { 1, 3, 5, 2, 4, 6, 3, 5, 7 };` -/
example : initialise env (arr 4 (arr 3 int)) (br [n 1, n 3, n 5, n 2, n 4, n 6, n 3, n 5, n 7]) =
    .ok [.zero [], .value [0, 0] (.num 1), .value [0, 1] (.num 3), .value [0, 2] (.num 5),
      .value [1, 0] (.num 2), .value [1, 1] (.num 4), .value [1, 2] (.num 6),
      .value [2, 0] (.num 3), .value [2, 1] (.num 5), .value [2, 2] (.num 7)] := rfl

/-- Example 4: `int z[4][3] = { { 1 }, { 2 }, { 3 }, { 4 } };` -/
example : initialise env (arr 4 (arr 3 int)) (br [br [n 1], br [n 2], br [n 3], br [n 4]]) =
    .ok [.zero [], .zero [0], .value [0, 0] (.num 1), .zero [1], .value [1, 0] (.num 2),
      .zero [2], .value [2, 0] (.num 3), .zero [3], .value [3, 0] (.num 4)] := rfl

/-- Example 5: `struct { int a[3], b; } w[] = { { 1 }, 2 };` -/
example : initialise env (.array none (.record false 7 (named 0 [arr 3 int, int]))) (br [br [n 1], n 2]) =
    .ok [.zero [], .zero [0], .value [0, 0, 0] (.num 1), .value [1, 0, 0] (.num 2)] := rfl

/-- Example 9: `struct { int a[3], b; } w[] = { [0].a = {1}, [1].a[0] = 2 };`, an array of two
elements. -/
example : (initialise env (.array none (.record false 7 (named 0 [arr 3 int, int])))
    (dbr [([.index 0, .field 0], br [n 1]), ([.index 1, .field 0, .index 0], n 2)])).map arrayLength =
    .ok 2 := rfl

/-- Example 7, `short q[4][3][2] = { { 1 }, { 2, 3 }, { 4, 5, 6 } };` -/
example : initialise env (arr 4 (arr 3 (arr 2 int))) (br [br [n 1], br [n 2, n 3], br [n 4, n 5, n 6]]) =
    .ok [.zero [], .zero [0], .value [0, 0, 0] (.num 1), .zero [1], .value [1, 0, 0] (.num 2),
      .value [1, 0, 1] (.num 3), .zero [2], .value [2, 0, 0] (.num 4), .value [2, 0, 1] (.num 5),
      .value [2, 1, 0] (.num 6)] := rfl

/-- Example 8: `char s[] = "abc", t[3] = "abc";` -/
example : initialise env (.array none char) (.expr (.str 4)) = .ok [.text [] (.str 4) 4] ∧
    initialise env (arr 3 char) (.expr (.str 4)) = .ok [.text [] (.str 4) 3] ∧
    initialise env (arr 2 char) (.expr (.str 4)) = .error .excess := ⟨rfl, rfl, rfl⟩

/-- Example 12: `int a[MAX] = { 1, 3, 5, 7, 9, [MAX-5] = 8, 6, 4, 2, 0 };` for `MAX` = 10. -/
example : initialise env (arr 10 int) (dbr [([], n 1), ([], n 3), ([], n 5), ([], n 7), ([], n 9),
      ([.index 5], n 8), ([], n 6), ([], n 4), ([], n 2), ([], n 0)]) =
    .ok [.zero [], .value [0] (.num 1), .value [1] (.num 3), .value [2] (.num 5), .value [3] (.num 7),
      .value [4] (.num 9), .value [5] (.num 8), .value [6] (.num 6), .value [7] (.num 4),
      .value [8] (.num 2), .value [9] (.num 0)] := rfl

/-- Example 13: any member of a union can be initialised; a union has one initialiser. -/
example : initialise env (.record true 7 (named 0 [int, arr 2 int])) (dbr [([.field 1], br [n 1, n 2])]) =
      .ok [.zero [], .zero [1], .value [1, 0] (.num 1), .value [1, 1] (.num 2)] ∧
    initialise env (.record true 7 (named 0 [int, arr 2 int])) (br [n 1, n 2]) = .error .excess :=
  ⟨rfl, rfl⟩

/-- Overriding, 6.7.9p19. -/
example : (initialise env (arr 2 int) (dbr [([.index 0], n 1), ([.index 1], n 2), ([.index 0], n 3)])).map
    (fun s => (lastStore s [0], lastStore s [1])) =
    .ok (some (.value [0] (.num 3)), some (.value [1] (.num 2))) := rfl

theorem env_lawful : env.Lawful where
  array e n t := by cases e <;> rfl
  record e u tag fs h := by
    cases e with
    | num v => cases h
    | str k => cases h
    | arr => cases h
    | rec' k => exact ⟨rfl, rfl, rfl⟩
  elem e t hs he := by
    cases e with
    | str k =>
      cases t with
      | scalar c =>
        refine ⟨⟨c, rfl⟩, ?_⟩
        match c with
        | 1 => rfl
        | 0 => cases he
        | c + 2 => cases he
      | array n t => cases he
      | record u tag fs => cases he
      | qualified t => cases he
    | num v => cases hs
    | rec' k => cases hs
    | arr => cases hs

end

/-! ### The theorems -/

/-- C68: for every type, every initialiser that C17 accepts and every storage duration, kefir accepts
the initialiser, and the effects of the code and of the data it produces are those of the
specification, one by one and in the same order; for static storage duration those that say that
something is zero are left out.  Partial: `Ty.good` and `covered` exclude what the `C68_…_false`
theorems are about. -/
theorem C68_initialisers_partial {cfg : Cfg} {env : Env E} (hl : env.Lawful) (hk : Constant cfg env)
    {t : Ty} {i : Init E} {s : List (Store E)} (hg : t.good = true) (h : initialise env t i = .ok s)
    (hcov : covered cfg env t i) {fuel : Nat} (hfuel : t.depth < fuel) :
    object cfg env fuel t i = .ok (t.bare, if cfg.isStatic then s.filter (fun x => !x.isZero) else s) := by
  have huu : unqual (unqual t) = t.bare := by
    rw [← bare_eq_unqual hg]
    exact unqual_of_plain (bare_plain t)
  rw [object, analyze_ok hl hg h hcov hfuel]
  simp only [Res.bind, emit_ok hl hk hg huu h hcov hfuel, bare_eq_unqual hg]
  rfl

/-- C68: what an object of static storage duration contains. -/
theorem C68_static_contents_partial {cfg : Cfg} {env : Env E} (hl : env.Lawful) (hk : Constant cfg env)
    (hstatic : cfg.isStatic = true) {t : Ty} {i : Init E} {s : List (Store E)} (hg : t.good = true)
    (h : initialise env t i = .ok s) (hcov : covered cfg env t i) (hreset : NoReset s)
    {fuel : Nat} (hfuel : t.depth < fuel) :
    ∃ s', object cfg env fuel t i = .ok (t.bare, s') ∧ ∀ p, contents s' p = contents s p := by
  refine ⟨_, C68_initialisers_partial hl hk hg h hcov hfuel, ?_⟩
  intro p
  simp only [hstatic, if_true]
  exact contents_filter s p hreset

/-- C69: an array of unknown size gets the length that the largest initialised subscript determines,
and is initialised like an array of this length. -/
theorem C69_unknown_size_partial {cfg : Cfg} {env : Env E} (hl : env.Lawful) (hk : Constant cfg env)
    {el : Ty} {i : Init E} {s : List (Store E)} (hg : el.good = true)
    (h : initialise env (.array none el) i = .ok s) (hcov : covered cfg env (.array none el) i)
    (hpos : 0 < arrayLength s) (hsh : ∀ its, i = .list its → shallow its = true)
    {fuel : Nat} (hfuel : el.depth + 1 < fuel) :
    object cfg env fuel (.array none el) i =
      .ok (.array (some (arrayLength s)) el, if cfg.isStatic then s.filter (fun x => !x.isZero) else s) := by
  obtain ⟨h', hcov'⟩ := initialise_known h hcov hpos
  have hg' : (Ty.array (some (arrayLength s)) el).good = true := by
    simp [Ty.good, hpos, hg]
  rw [object, analyze_unknown hl hg h hcov hsh hfuel]
  simp only [Res.bind, emit_ok (v := .array (some (arrayLength s)) el) hl hk hg' rfl h' hcov' hfuel]
  rfl

/-! ### The hypotheses can be met -/

/-- `coveredItems`, as a check. -/
def checkItems (cfg : Cfg) (env : Env E) : Items E → Ty → Option Path → Bool
  | .nil, _, _ => true
  | .cons d i rest, t, next =>
    match (if d = [] then next else t.resolve d) with
    | none => true
    | some p =>
      match t.sub p with
      | none => true
      | some u =>
        match i with
        | .list its =>
          t.clear p && fitsBraced cfg env u its && checkItems cfg env its u.bare (u.first.map fun j => [j]) &&
            checkItems cfg env rest t (t.after p)
        | .expr e =>
          match u.place env e with
          | none => true
          | some q =>
            t.clear (p ++ q) && (d.isEmpty || q.isEmpty) &&
              (env.isString e || env.isScalar e || decide (q.length ≤ 1)) &&
              checkItems cfg env rest t (t.after (p ++ q))

theorem checkItems_sound (cfg : Cfg) (env : Env E) : ∀ (its : Items E) (t : Ty) (c : Option Path),
    checkItems cfg env its t c = true → coveredItems cfg env its t c
  | .nil, _, _, _ => by simp only [coveredItems]
  | .cons d (.list its) rest, t, c, h => by
    intro p u hp hu
    rw [checkItems] at h
    simp only [hp, hu, Bool.and_eq_true] at h
    exact ⟨h.1.1.1, h.1.1.2, checkItems_sound cfg env its _ _ h.1.2, checkItems_sound cfg env rest _ _ h.2⟩
  | .cons d (.expr e) rest, t, c, h => by
    intro p u hp hu q hq
    rw [checkItems] at h
    simp only [hp, hu, hq, Bool.and_eq_true, Bool.or_eq_true, decide_eq_true_eq, List.isEmpty_iff] at h
    refine ⟨h.1.1.1, h.1.1.2, ?_, checkItems_sound cfg env rest _ _ h.2⟩
    rcases h.1.2 with (h | h) | h
    · exact Or.inl h
    · exact Or.inr (Or.inl h)
    · exact Or.inr (Or.inr h)

section
open Examples

/-- `struct P { int x, y; char name[4]; }`. -/
abbrev P : Ty := .record false 7 (named 0 [int, int, arr 4 char])
/-- `struct { struct P a[2]; const int b; union { int i; struct P p; } u; }`. -/
abbrev Q : Ty :=
  .record false 8 (named 0 [arr 2 P, .qualified int, .record true 9 (named 0 [int, P])])
/-- `{ 1, 2, "ab", { .name = "abc", .x = 3 }, 4, .u.p = { 5 } }`. -/
abbrev q : Init Ex :=
  dbr [([], n 1), ([], n 2), ([], .expr (.str 3)), ([], dbr [([.field 2], .expr (.str 4)), ([.field 0], n 3)]),
    ([], n 4), ([.field 2, .field 1], br [n 5])]
/-- What it does. -/
abbrev qs : List (Store Ex) :=
  [.zero [], .value [0, 0, 0] (.num 1), .value [0, 0, 1] (.num 2), .text [0, 0, 2] (.str 3) 3,
    .zero [0, 1], .text [0, 1, 2] (.str 4) 4, .value [0, 1, 0] (.num 3), .value [1] (.num 4),
    .zero [2, 1], .value [2, 1, 0] (.num 5)]

theorem q_covered (cfg : Cfg) : covered cfg env Q q :=
  ⟨rfl, checkItems_sound cfg env _ _ _ (by
    rcases cfg with ⟨a, b⟩
    cases a <;> cases b <;> decide)⟩

/-- The hypotheses of `C68_initialisers_partial`, and what follows. -/
example : object auto env 10 Q q = .ok (Q, qs) :=
  C68_initialisers_partial env_lawful (by intro h; cases h) (by decide) (by rfl) (q_covered auto) (by decide)

/-- The expressions without those of structure type. -/
def constants : Env Ex := { env with assign := fun e t => match e with | .rec' _ => false | _ => env.assign e t }

/-- The hypotheses of `C68_static_contents_partial`. -/
example : ∃ s', object stat constants 10 Q q = .ok (Q, s') ∧ ∀ p, contents s' p = contents qs p := by
  have hl : constants.Lawful :=
    { array := by intro e n t; cases e <;> first | rfl | exact env_lawful.array _ n t
      record := by
        intro e u tag fs h
        cases e <;> first | cases h
      elem := by
        intro e t hs he
        have := env_lawful.elem e t hs he
        refine ⟨this.1, ?_⟩
        cases e <;> first | rfl | exact this.2 }
  refine C68_static_contents_partial hl ?_ rfl (by decide) (by rfl) ?_ ?_ (by decide)
  · intro _ e b tag fs
    cases e <;> rfl
  · exact ⟨rfl, checkItems_sound stat constants _ _ _ (by decide)⟩
  · simp [NoReset, Store.isZero, Store.path, qs]

/-- The hypotheses of `C69_unknown_size_partial`:
`struct P a[] = { [2] = { 1 }, 2, [0].y = 3 };` has 4 elements. -/
example : ∃ s, object auto env 10 (.array none P)
      (dbr [([.index 2], br [n 1]), ([], n 2), ([.index 0, .field 1], n 3)]) = .ok (arr 4 P, s) := by
  refine ⟨_, C69_unknown_size_partial (s := [.zero [], .zero [2], .value [2, 0] (.num 1), .value [3, 0] (.num 2),
    .value [0, 1] (.num 3)]) env_lawful (by intro h; cases h) (by decide) (by rfl) ?_ (by decide) ?_ (by decide)⟩
  · exact ⟨rfl, checkItems_sound auto env _ _ _ (by decide)⟩
  · intro its h
    cases h
    rfl

set_option smartUnfolding false

/-! ### Where kefir departs from C17 -/

/-- `int a[2] = { 1, 2, 3 };` violates 6.7.9p2; kefir accepts it and drops the 3. -/
theorem C68_excess_false :
    initialise env (arr 2 int) (br [n 1, n 2, n 3]) = .error .excess ∧
    object auto env 10 (arr 2 int) (br [n 1, n 2, n 3]) =
      .ok (arr 2 int, [.zero [], .value [0] (.num 1), .value [1] (.num 2)]) := ⟨rfl, rfl⟩

/-- `int x = { 1, 2 };` violates 6.7.9p2 and p11, `int x = { { 1 } };` p11; kefir accepts both. -/
theorem C68_scalar_braces_false :
    initialise env int (br [n 1, n 2]) = .error .scalarBraces ∧
    object auto env 10 int (br [n 1, n 2]) = .ok (int, [.value [] (.num 1)]) ∧
    initialise env int (br [br [n 1]]) = .error .scalarBraces ∧
    object auto env 10 int (br [br [n 1]]) = .ok (int, [.value [] (.num 1)]) := ⟨rfl, rfl, rfl, rfl⟩

/-- `char a[4] = { [1] = "b" };` is not acceptable; kefir takes the literal for the whole array. -/
theorem C68_designated_string_false :
    initialise env (arr 4 char) (dbr [([.index 1], .expr (.str 2))]) = .error .mismatch ∧
    object auto env 10 (arr 4 char) (dbr [([.index 1], .expr (.str 2))]) =
      .ok (arr 4 char, [.text [] (.str 2) 2]) := ⟨rfl, rfl⟩

/-- `struct { int a; int : 3; } x[2] = { 1, 2 };` reads through a null pointer: the member after the
last one is an unnamed bit-field. -/
theorem C68_trailing_bitfield_false :
    initialise env (arr 2 (.record false 7 (.cons (some 0) false int (.cons none true int .nil))))
        (br [n 1, n 2]) = .ok [.zero [], .value [0, 0] (.num 1), .value [1, 0] (.num 2)] ∧
    object auto env 10 (arr 2 (.record false 7 (.cons (some 0) false int (.cons none true int .nil))))
        (br [n 1, n 2]) = .ub := ⟨rfl, rfl⟩

/-- `union { int : 3; int a; } x = { .a = 1 };` is rejected. -/
theorem C68_union_bitfield_false :
    initialise env (.record true 7 (.cons none true int (.cons (some 0) false int .nil)))
        (dbr [([.field 0], n 1)]) = .ok [.zero [], .value [1] (.num 1)] ∧
    object auto env 10 (.record true 7 (.cons none true int (.cons (some 0) false int .nil)))
        (dbr [([.field 0], n 1)]) = .err := ⟨rfl, rfl⟩

/-- `struct { int a; struct { int b, c; }; int d; }`. -/
abbrev A : Ty :=
  .record false 8 (members [(some 0, int), (none, .record false 9 (members [(some 1, int), (some 2, int)])),
    (some 3, int)])

/-- `x = { .c = 3, 4 }` for this structure: the 4 belongs to `d`, kefir stores it to `a`. -/
theorem C68_after_anonymous_false :
    initialise env A (dbr [([.field 2], n 3), ([], n 4)]) =
      .ok [.zero [], .value [1, 1] (.num 3), .value [2] (.num 4)] ∧
    object auto env 10 A (dbr [([.field 2], n 3), ([], n 4)]) =
      .ok (A, [.zero [], .value [1, 1] (.num 3), .value [0] (.num 4)]) := ⟨rfl, rfl⟩

/-- `x = { 1, { 2 }, 4 }` for this structure: the 4 belongs to `d`, kefir stores it to `c`. -/
theorem C68_anonymous_braces_false :
    initialise env A (br [n 1, br [n 2], n 4]) =
      .ok [.zero [], .value [0] (.num 1), .zero [1], .value [1, 0] (.num 2), .value [2] (.num 4)] ∧
    object auto env 10 A (br [n 1, br [n 2], n 4]) =
      .ok (A, [.zero [], .value [0] (.num 1), .value [1, 0] (.num 2), .value [1, 1] (.num 4)]) := ⟨rfl, rfl⟩

/-- `struct T { int b; struct { int a; struct { int b; }; } s; } t = { 1, 2, 3 };`: the 3 belongs to
`t.s.b`, kefir stores it to `t.b`. -/
theorem C68_anonymous_base_false :
    (∃ p, initialise env (.record false 10 (members [(some 1, int), (some 5, .record false 8 (members
        [(some 0, int), (none, .record false 9 (members [(some 1, int)]))]))])) (br [n 1, n 2, n 3]) =
      .ok [.zero [], .value [0] (.num 1), .value [1, 0] (.num 2), .value p (.num 3)] ∧ p = [1, 1, 0]) ∧
    (∃ p t, object auto env 10 (.record false 10 (members [(some 1, int), (some 5, .record false 8 (members
        [(some 0, int), (none, .record false 9 (members [(some 1, int)]))]))])) (br [n 1, n 2, n 3]) =
      .ok (t, [.zero [], .value [0] (.num 1), .value [1, 0] (.num 2), .value p (.num 3)]) ∧ p = [0]) :=
  ⟨⟨_, rfl, rfl⟩, ⟨_, _, rfl, rfl⟩⟩

/-- `struct { const struct { int x, y; } p; int z; } v = { 1, 2, 3 };` is rejected: kefir does not
look into qualified structures. -/
theorem C68_qualified_false :
    initialise env (.record false 8 (named 0 [.qualified (.record false 7 (named 0 [int, int])), int]))
        (br [n 1, n 2, n 3]) =
      .ok [.zero [], .value [0, 0] (.num 1), .value [0, 1] (.num 2), .value [1] (.num 3)] ∧
    object auto env 10 (.record false 8 (named 0 [.qualified (.record false 7 (named 0 [int, int])), int]))
        (br [n 1, n 2, n 3]) = .err := ⟨rfl, rfl⟩

/-- `struct { struct { int x, y; } p; int z; }`. -/
abbrev W : Ty := .record false 8 (named 0 [.record false 7 (named 0 [int, int]), int])

/-- `w = { .p = 1, 2, 3 }`: without the option for missing braces, rejected; with it, the value after
it is stored relative to `w.p`.  The 2 belongs to `w.p.y` (path 0, 1) and goes to the path
0, 0, 1, the 3 belongs to `w.z` (path 1) and goes to the path 0, 1. -/
theorem C68_designated_aggregate_false :
    initialise env W (dbr [([.field 0], n 1), ([], n 2), ([], n 3)]) =
      .ok [.zero [], .value [0, 0] (.num 1), .value [0, 1] (.num 2), .value [1] (.num 3)] ∧
    object auto env 10 W (dbr [([.field 0], n 1), ([], n 2), ([], n 3)]) = .err ∧
    object ⟨false, true⟩ env 10 W (dbr [([.field 0], n 1), ([], n 2), ([], n 3)]) =
      .ok (W, [.zero [], .zero [0], .value [0, 0] (.num 1), .value [0, 0, 1] (.num 2),
        .value [0, 1] (.num 3)]) := ⟨rfl, rfl, rfl⟩

/-- `struct { struct { char t[4]; } s; } x = { .s = "abc" };`: the translator reads the element type
of a structure. -/
theorem C68_designated_literal_false :
    initialise env (.record false 8 (named 0 [.record false 7 (named 0 [arr 4 char])]))
        (dbr [([.field 0], .expr (.str 4))]) = .ok [.zero [], .text [0, 0] (.str 4) 4] ∧
    object auto env 10 (.record false 8 (named 0 [.record false 7 (named 0 [arr 4 char])]))
        (dbr [([.field 0], .expr (.str 4))]) = .ub := ⟨rfl, rfl⟩

/-- `struct P a[2] = { p };` with an expression `p` of type `struct P` is accepted,
`struct P a[2][2][2] = { p };` is rejected: only the first direct subobject of the next one is tried. -/
theorem C68_nested_structure_false :
    object auto env 10 (arr 2 P) (br [.expr (.rec' 7)]) =
      .ok (arr 2 P, [.zero [], .value [0] (.rec' 7)]) ∧
    initialise env (arr 2 (arr 2 (arr 2 P))) (br [.expr (.rec' 7)]) =
      .ok [.zero [], .value [0, 0, 0] (.rec' 7)] ∧
    object auto env 10 (arr 2 (arr 2 (arr 2 P))) (br [.expr (.rec' 7)]) = .err := ⟨rfl, rfl, rfl⟩

/-- `char a[2] = "ab";` with automatic storage duration: three characters are written. -/
theorem C68_string_overflow_false :
    initialise env (arr 2 char) (.expr (.str 3)) = .ok [.text [] (.str 3) 2] ∧
    object auto env 10 (arr 2 char) (.expr (.str 3)) = .ok (arr 2 char, [.text [] (.str 3) 3]) :=
  ⟨rfl, rfl⟩

/-- `static int a[2][2] = { [0][1] = 5, [0] = { 1 } };`: `a[0][1]` is zero in C17, 5 in kefir. -/
theorem C68_static_reset_false :
    (∃ s, initialise env (arr 2 (arr 2 int)) (dbr [([.index 0, .index 1], n 5), ([.index 0], br [n 1])]) =
      .ok s ∧ contents s [0, 1] = none) ∧
    (∃ s, object stat env 10 (arr 2 (arr 2 int)) (dbr [([.index 0, .index 1], n 5), ([.index 0], br [n 1])]) =
      .ok (arr 2 (arr 2 int), s) ∧ contents s [0, 1] = some (.value [0, 1] (.num 5))) :=
  ⟨⟨_, rfl, rfl⟩, ⟨_, rfl, rfl⟩⟩

/-- `struct { int x, y; } a[] = { [3].x = 1, [0].y = 2 };` has 4 elements; kefir forgets the first
designation when it comes to the second, takes the array to have one element and rejects the
initialiser. -/
theorem C69_lost_length_false :
    (initialise env (.array none (.record false 7 (named 0 [int, int])))
        (dbr [([.index 3, .field 0], n 1), ([.index 0, .field 1], n 2)])).map arrayLength = .ok 4 ∧
    analyze env 10 (.array none (.record false 7 (named 0 [int, int])))
        (dbr [([.index 3, .field 0], n 1), ([.index 0, .field 1], n 2)]) =
      .ok (arr 1 (.record false 7 (named 0 [int, int]))) ∧
    object auto env 10 (.array none (.record false 7 (named 0 [int, int])))
        (dbr [([.index 3, .field 0], n 1), ([.index 0, .field 1], n 2)]) = .err := ⟨rfl, rfl, rfl⟩

end

end Kefir.Init
