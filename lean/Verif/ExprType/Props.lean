import Verif.ExprType.Complete
import Verif.ExprType.Mono
import Verif.Compat.Props
import Verif.Types.Props

/-! C75-C77: the types of expressions, and the constraints on them. -/
namespace Kefir.ExprType
open Kefir.Types (Basic)
open Kefir.Compat Kefir.Compat.Spec
open Model

/-- C75: whatever obeys the rules that the compiler shares with C17 is accepted, with the type the rules give, and what
the rules call an lvalue, addressable or constant is so for the compiler. -/
theorem C75_complete_partial (Γ : Env) (e : Expr) (d : Desc) (h : Typed common Γ e d) :
    ∃ d', analyze Γ e = some d' ∧ d'.type = d.type ∧ d'.bits = d.bits ∧ (d.lvalue = true → d'.lvalue = true) ∧
      (d.addressable = true → d'.addressable = true) ∧ (d.const = true → d'.const = true) ∧
      (d.static = true → d'.static = true) := by
  obtain ⟨d', h1, h2⟩ := analyze_complete Γ e d h
  exact ⟨d', h1, h2.type, h2.bits, h2.lvalue, h2.addressable, h2.const, h2.static⟩

/-- The shared rules are rules of C17, and rules of the compiler. -/
theorem C75_shared (Γ : Env) (e : Expr) (d : Desc) (h : Typed common Γ e d) :
    Typed (c17 .int) Γ e d ∧ Typed kefir Γ e d :=
  ⟨common_c17.typed e d h, common_kefir.typed e d h⟩

/-- Where the shared rules ask the compiler for compatible types, C17 alone decides for plain types (those for which
C61 is proved). -/
theorem C75_compatible_partial (v : Class) (a b : Ty) (ha : Plain v a) (hb : Plain v b) (s : Basic) :
    common.compatible a b ↔ (c17 s).compatible a b :=
  ⟨fun h => ⟨h.1, fun k => (by cases k)⟩, fun h => ⟨h.1, fun _ => (compat_iff ha hb).2 (h.1 rfl)⟩⟩

/-- So does it for promotions of integers that are not bit-fields. -/
theorem C75_promotes (b p : Basic) (hb : C17.isInteger b = true) (s : Basic) :
    common.promotes b none p ↔ (c17 s).promotes b none p := by
  refine ⟨fun h => ⟨h.1, fun k => (by cases k)⟩, fun h => ⟨h.1, fun _ => ?_⟩⟩
  obtain ⟨q, h1, h2⟩ := Types.C12_promotion b none hb (fun _ k => (by cases k))
  have h := h.1 rfl
  rw [h1]
  congr 1
  unfold C17.Promotes at h h2
  split at h
  · rename_i hr
    rw [if_pos hr] at h2
    by_cases hi : C17.intRepresents b none
    · rw [h.1 hi, h2.1 hi]
    · rw [h.2 hi, h2.2 hi]
  · rename_i hr
    rw [if_neg hr] at h2
    exact h2.trans h.symm

/-- C76: whatever is accepted obeys the rules of the compiler's language: those of C17, apart from the listed features. -/
theorem C76_sound_partial (Γ : Env) (e : Expr) (d : Desc) (h : analyze Γ e = some d) : Typed kefir Γ e d :=
  analyze_sound Γ e d h

/-- C76, together with C75: the analysis is exactly the rules of the compiler where they coincide with C17: if it accepts
an expression that obeys the shared rules, the type is the C17 one. -/
theorem C76_type (Γ : Env) (e : Expr) (d d' : Desc) (h : Typed common Γ e d) (ha : analyze Γ e = some d') :
    d'.type = d.type ∧ Typed kefir Γ e d' := by
  obtain ⟨x, h1, h2⟩ := analyze_complete Γ e d h
  rw [ha] at h1
  cases h1
  exact ⟨h2.type, analyze_sound Γ e d' ha⟩

/-- C77: a `return` statement that obeys the shared rules is accepted. -/
theorem C77_return_complete_partial (Γ : Env) (t : Ty) (e : Option Expr) (h : ReturnRule common Γ t e) :
    returnStatement Γ t e = true := return_complete h

/-- C77: a `return` statement that is accepted obeys the rules of the compiler: a value exactly in functions that do not
return `void`, and one that can be assigned to the type of the function. -/
theorem C77_return_sound_partial (Γ : Env) (t : Ty) (e : Option Expr) (h : returnStatement Γ t e = true) :
    ReturnRule kefir Γ t e := return_sound h

/-! ### Concrete cases -/

/-- Declarations, tags and the values of constants. -/
def env (ids : List (String × Entity)) (tags : List (String × Bool × Fields)) (eval : Expr → Eval) : Env :=
  ⟨fun x => ids.lookup x, fun x => tags.lookup x, eval⟩

def constants : Expr → Eval
  | .const _ v => .int v
  | .cast (.pointer (.prim .void)) (.const _ v) => .address (v == 0)
  | .cast _ (.const _ v) => .int v
  | _ => .notConstant

def object (t : Ty) : Entity := .object t false true
abbrev num (n : Int) : Expr := .const .int n
abbrev one (name : String) (t : Ty) : Fields := .cons (some name) 0 none t .nil
abbrev complete (tag : String) (fs : Fields) : Ty := .struct (some tag) (.complete fs)
/-- `enum E { A }`, compatible with `unsigned int`. -/
abbrev enumE : Ty := .enum (some "E") (some [("A", none)])
abbrev incompleteStruct (tag : String) : Ty := .struct (some tag) .incomplete
abbrev function (r : Ty) (ps : TyList) : Ty := .func r (.types ps) false

/-- `int i; int *p; int a[3]; struct S { int x; } s, *ps; int f(int); void v(void); struct S t(void);`, some more. -/
def demo : Env := env
  [("i", object .int), ("p", object (.pointer .int)), ("a", object (.array (.fixed false 3) none .int)),
   ("s", object (complete "S" (one "x" .int))), ("ps", object (.pointer (complete "S" (one "x" .int)))),
   ("r", .object (complete "S" (one "x" .int)) true false),
   ("k", object (complete "K" (one "x" (.qualified .c .int)))),
   ("ca", object (.qualified .c (complete "A" (one "a" (.array (.fixed false 3) none .int))))),
   ("pa", object (.pointer (.array (.fixed false 3) none .int))),
   ("po", object (.pointer (incompleteStruct "O"))), ("pl", object (.pointer (incompleteStruct "L"))), ("vp", object (.pointer void)),
   ("qa", object (complete "Q" (.cons none 0 none (.qualified .c (.struct none (.complete (one "x" .int)))) .nil))),
   ("e", object enumE),
   ("f", .function (function .int (.cons .int none .nil))), ("g", .function (.func .int .empty false)),
   ("v", .function (function void (.cons void none .nil))),
   ("t", .function (function (complete "S" (one "x" .int)) (.cons void none .nil)))]
  [("L", false, one "x" .int)] constants

/-- The subscript of an array: `a[i]` is an `int` lvalue, and C17 says so. -/
example : Typed common demo (.index (.ident "a") (.ident "i")) ⟨.int, true, true, false, false, none⟩ := by
  refine ⟨⟨.array (.fixed false 3) none .int, false, true, true, true, none⟩, _,
    ⟨.int, true, true, false, true, none⟩, .int, ⟨_, rfl, ?_⟩, .array, ⟨_, rfl, ?_⟩, .value rfl rfl, ?_, ?_, rfl,
    fun k => (by cases k), rfl⟩
  · exact .object rfl rfl (fun k => by cases k) (fun _ => rfl) (fun _ => rfl) (fun _ => ⟨rfl, _, _, _, rfl⟩)
  · exact .object rfl rfl (fun _ _ _ _ k => by cases k) (fun _ => rfl) (fun _ => rfl) (fun k => by cases k)
  · exact .inl ⟨rfl, .int, rfl, rfl⟩
  · exact .inl (.complete rfl rfl)
example : (analyze demo (.index (.ident "a") (.ident "i"))).map (·.type) = some .int := by rfl
/-- `p = 0`, `f(i)`, `ps->x`, `s.x += 1`, `i ? p : (void *) 0`. -/
example : ([.assign (.ident "p") (num 0), .call (.ident "f") (.cons (.ident "i") .nil), .arrow (.ident "ps") "x",
    .assignOp .add (.dot (.ident "s") "x") (num 1),
    .cond (.ident "i") (.ident "p") (.cast (.pointer void) (num 0))].all
      fun e => (analyze demo e).isSome) = true := by decide +kernel
/-- `return 0;` is accepted in a function that returns a pointer and obeys the shared rules. -/
example : ReturnRule common demo (.pointer .int) (some (num 0)) ∧
    returnStatement demo (.pointer .int) (some (num 0)) = true := by
  have h : ReturnRule common demo (.pointer .int) (some (num 0)) :=
    .value (by simp [unqualified]) (x := value .int true) ⟨rfl, rfl, rfl, rfl, rfl, fun _ => trivial⟩ (.value rfl rfl)
      (.null (.int (b := .int) rfl ⟨rfl, rfl⟩ rfl) (.inl rfl))
  exact ⟨h, C77_return_complete_partial _ _ _ h⟩

/-! ### What the compiler accepts that C17 does not -/

theorem c17_has {s : Basic} {f : Feature} (hf : f.c17Only = false) : ¬ (c17 s).has f := by
  unfold Lang.has
  rw [hf]
  simp [c17]

theorem typed_object {L : Lang} {Γ : Env} {x : String} {d : Desc} {t : Ty} {r s : Bool}
    (hx : Γ.ident x = some (.object t r s)) (h : Typed L Γ (.ident x) d) :
    d.type = t ∧ d.bits = none ∧ (d.addressable = true → r = false) := by
  obtain ⟨en, h1, h2⟩ := h
  rw [hx] at h1
  cases h1
  cases h2 with
  | object h1 h2 _ h4 => exact ⟨h1, h2, h4⟩

theorem typed_function {L : Lang} {Γ : Env} {x : String} {d : Desc} {t : Ty}
    (hx : Γ.ident x = some (.function t)) (h : Typed L Γ (.ident x) d) : d.type = t ∧ d.bits = none := by
  obtain ⟨en, h1, h2⟩ := h
  rw [hx] at h1
  cases h1
  cases h2 with
  | function h1 h2 _ => exact ⟨h1, h2⟩

theorem conv_pointer {L : Lang} {a t : Ty} (h : Conv L (.pointer a) t) : t = .pointer a := by
  cases h with
  | vaList k => cases k
  | function k => cases k
  | value => rfl

theorem conv_basic {L : Lang} {b : Basic} {t : Ty} (h : Conv L (.arith b) t) : t = .arith b := by
  cases h with
  | vaList k => cases k
  | function k => cases k
  | value => rfl

theorem conv_function {L : Lang} {r t : Ty} {ps : Params} {e : Bool} (h : Conv L (.func r ps e) t) :
    t = .pointer (.func r ps e) := by
  cases h with
  | vaList k => cases k
  | function k => cases k; rfl
  | value _ k => cases k

theorem conv_array {L : Lang} {e t : Ty} {b : Bound} {qs : Option Qual} (h : Conv L (.array b qs e) t) :
    t = .pointer e := by
  cases h with
  | array => rfl
  | vaList k => cases k
  | function k => cases k
  | value k => cases k

theorem memberType_array {s : Basic} {q : Qual} {t u : Ty} (h : MemberType (c17 s) (some q) t u)
    (ha : isArray (unqualified t) = true) : u = qualify q t := by
  cases h with
  | qualified k => rw [ha] at k; cases k
  | array => rfl
  | lost k => exact absurd k (c17_has rfl)

theorem not_null_one {s : Basic} {d : Desc} : ¬ Null (c17 s) demo (num 1) d := by
  intro h
  cases h with
  | int _ _ k => exact absurd k (by decide)
  | constant k => exact absurd k (c17_has rfl)

/-- Finding: `p = 1;` is accepted. -/
theorem C76_integer_to_pointer_false : let e := Expr.assign (.ident "p") (num 1)
    (analyze demo e).isSome = true ∧ ∀ s d, ¬ Typed (c17 s) demo e d := by
  refine ⟨by decide +kernel, fun s d h => ?_⟩
  obtain ⟨x, _, y, _, hx, hs, ⟨hy, _⟩, ht, _, ha, _⟩ := h
  rw [(typed_object rfl hx).1] at hs
  rw [hy] at ht
  cases conv_pointer hs
  cases conv_basic ht
  cases ha with
  | arith k => exact k rfl
  | record k => cases k
  | pointer k => cases k
  | void k => cases k
  | null k => exact not_null_one k
  | integer k => exact c17_has rfl k

/-- Finding: `p == 1` is accepted. -/
theorem C76_compare_false : let e := Expr.bin .eq (.ident "p") (num 1)
    (analyze demo e).isSome = true ∧ ∀ s d, ¬ Typed (c17 s) demo e d := by
  refine ⟨by decide +kernel, fun s d h => ?_⟩
  obtain ⟨x, _, y, _, hx, hs, ⟨hy, _⟩, ht, r, hr, _⟩ := h
  rw [(typed_object rfl hx).1] at hs
  rw [hy] at ht
  cases conv_pointer hs
  cases conv_basic ht
  cases hr with
  | arith k | integer k | shift k | pointerInt k | order k | orderPointers k | logical k => simp at k
  | equal _ k => exact k rfl
  | equalPointers _ _ k => cases k
  | equalVoid _ _ k => cases k
  | equalNull _ _ k => exact not_null_one k
  | nullEqual _ _ k => cases k
  | equalInteger k => exact c17_has rfl k
  | integerEqual k => exact c17_has rfl k

/-- Finding: a structure with a `const` member can be assigned to. -/
theorem C76_const_member_false : let e := Expr.assign (.ident "k") (.ident "k")
    (analyze demo e).isSome = true ∧ ∀ s d, ¬ Typed (c17 s) demo e d := by
  refine ⟨by decide +kernel, fun s d h => ?_⟩
  obtain ⟨x, _, y, _, hx, hs, _, _, hm, _⟩ := h
  have := hm.members.resolve_right (c17_has rfl)
  rw [(typed_object rfl hx).1] at this
  exact absurd this (by decide +kernel)

/-- Finding: the members of a structure that a function returns can be assigned to, as in `t().x = 1`. -/
theorem C76_rvalue_member_false : let e := Expr.assign (.dot (.call (.ident "t") .nil) "x") (num 1)
    (analyze demo e).isSome = true ∧ ∀ s d, ¬ Typed (c17 s) demo e d := by
  refine ⟨by decide +kernel, fun s d h => ?_⟩
  obtain ⟨x, _, y, _, hx, _, _, _, hm, _⟩ := h
  obtain ⟨z, fs, t, w, hz, _, _, _, _, hl, _⟩ := hx
  obtain ⟨_, _, _, _, _, _, _, _, _, _, _, _, _, hl', _⟩ := hz
  have := (hl hm.lvalue).resolve_right (c17_has rfl)
  rw [hl'] at this
  cases this

/-- Finding: the address of a member of a `register` object can be taken. -/
theorem C76_register_false : let e := Expr.addr (.dot (.ident "r") "x")
    (analyze demo e).isSome = true ∧ ∀ s d, ¬ Typed (c17 s) demo e d := by
  refine ⟨by decide +kernel, fun s d h => ?_⟩
  obtain ⟨x, hx, ha, _⟩ := h
  obtain ⟨z, fs, t, w, hz, _, _, _, _, _, hl, _⟩ := hx
  have := (hl ha).2.resolve_right (c17_has rfl)
  exact absurd ((typed_object rfl hz).2.2 this) (by decide)

/-- Finding: the qualifiers of a structure are lost in its array members: with `const struct { int a[3]; } ca;` the
assignment `ca.a[0] = 1` is accepted. -/
theorem C76_lost_qualifiers_false : let e := Expr.assign (.index (.dot (.ident "ca") "a") (num 0)) (num 1)
    (analyze demo e).isSome = true ∧ ∀ s d, ¬ Typed (c17 s) demo e d := by
  refine ⟨by decide +kernel, fun s d h => ?_⟩
  obtain ⟨x, _, y, _, hx, _, _, _, hm, _⟩ := h
  obtain ⟨z, _, w, _, hz, hc, ⟨hw, _⟩, hc', hi, _⟩ := hx
  obtain ⟨q, fs, t, wd, hq, hf, ⟨hmem, _⟩, ht, _⟩ := hz
  rw [(typed_object rfl hq).1] at hf ht
  cases hf
  cases hmem with
  | later k => cases k
  | here =>
    have hz : z.type = .array (.fixed false 3) none (.qualified .c .int) := memberType_array ht rfl
    rw [hz] at hc
    rw [hw] at hc'
    cases conv_basic hc'
    rcases hi with ⟨rfl, _⟩ | ⟨_, k⟩
    · have : x.type = .qualified .c .int := Ty.pointer.inj (conv_array hc)
      have hn := hm.notConst
      rw [this] at hn
      cases hn
    · cases k

/-- Finding: an array that is not a declared object can be assigned to, as in `*pa = *pa`. -/
theorem C76_array_target_false : let e := Expr.assign (.deref (.ident "pa")) (.deref (.ident "pa"))
    (analyze demo e).isSome = true ∧ ∀ s d, ¬ Typed (c17 s) demo e d := by
  refine ⟨by decide +kernel, fun s d h => ?_⟩
  obtain ⟨x, _, y, _, ⟨z, hz, hc, _⟩, _, _, _, hm, _⟩ := h
  rw [(typed_object rfl hz).1] at hc
  have := conv_pointer hc
  have hn := hm.notArray.resolve_right (c17_has rfl)
  simp only [Ty.pointer.injEq] at this
  rw [this] at hn
  cases hn

/-- Finding: arithmetic on functions, `f + 1`, is accepted. -/
theorem C76_function_arithmetic_false : let e := Expr.bin .add (.ident "f") (num 1)
    (analyze demo e).isSome = true ∧ ∀ s d, ¬ Typed (c17 s) demo e d := by
  refine ⟨by decide +kernel, fun s d h => ?_⟩
  obtain ⟨x, _, y, _, hx, hs, ⟨hy, _⟩, ht, r, hr, _⟩ := h
  rw [(typed_function rfl hx).1] at hs
  rw [hy] at ht
  cases conv_function hs
  cases conv_basic ht
  cases hr with
  | arith _ k => cases k
  | integer k | shift k | order k | orderPointers k | equal k | equalPointers k | equalVoid k | equalNull k
  | nullEqual k | logical k => simp at k
  | equalInteger _ k | integerEqual _ k => simp at k
  | intPointer k => cases k.1
  | pointerInt _ k1 k2 =>
    cases k1
    cases k2 with
    | complete k => cases k
    | late _ k => cases k
    | function k => exact c17_has rfl k

/-- Finding: functions can be ordered, as in `f < f`. -/
theorem C76_function_order_false : let e := Expr.bin .lt (.ident "f") (.ident "f")
    (analyze demo e).isSome = true ∧ ∀ s d, ¬ Typed (c17 s) demo e d := by
  refine ⟨by decide +kernel, fun s d h => ?_⟩
  obtain ⟨x, _, y, _, hx, hs, hy, ht, r, hr, _⟩ := h
  rw [(typed_function rfl hx).1] at hs
  rw [(typed_function rfl hy).1] at ht
  cases conv_function hs
  cases conv_function ht
  cases hr with
  | arith k | integer k | shift k | pointerInt k | equal k | equalPointers k | equalVoid k | equalNull k
  | nullEqual k | logical k => simp at k
  | equalInteger _ k | integerEqual _ k => simp at k
  | order _ k => exact k rfl
  | orderPointers _ k1 _ _ k =>
    cases k1
    exact absurd (k.resolve_right (c17_has rfl)).1 (by decide)

/-- Finding: pointers to incomplete structures can be incremented. -/
theorem C76_incomplete_arithmetic_false : let e := Expr.incdec .postInc (.ident "po")
    (analyze demo e).isSome = true ∧ ∀ s d, ¬ Typed (c17 s) demo e d := by
  refine ⟨by decide +kernel, fun s d h => ?_⟩
  obtain ⟨x, hx, _, hs, _⟩ := h
  rw [(typed_object rfl hx).1] at hs
  rcases hs with k | ⟨a, ha, k⟩
  · exact k rfl
  · cases ha
    cases k.resolve_right (c17_has rfl) with
    | complete _ k => exact absurd k (by unfold Complete; decide)
    | late _ _ k => exact absurd k (by unfold Complete; decide +kernel)
    | function k => exact c17_has rfl k

/-- Finding: a function can be assigned to a pointer to `void`. -/
theorem C76_void_function_false : let e := Expr.assign (.ident "vp") (.ident "f")
    (analyze demo e).isSome = true ∧ ∀ s d, ¬ Typed (c17 s) demo e d := by
  refine ⟨by decide +kernel, fun s d h => ?_⟩
  obtain ⟨x, _, y, _, hx, hs, hy, ht, _, ha, _⟩ := h
  rw [(typed_object rfl hx).1] at hs
  rw [(typed_function rfl hy).1] at ht
  cases conv_pointer hs
  cases conv_function ht
  cases ha with
  | arith k => exact k rfl
  | record k => cases k
  | pointer k1 k2 => cases k1; cases k2.1 rfl
  | void k1 k2 =>
    cases k1
    rcases k2 with ⟨_, k⟩ | ⟨k, _⟩
    · exact absurd (k.resolve_right (c17_has rfl)) (by decide)
    · cases k
  | null k =>
    cases k with
    | int k => cases k
    | constant k => exact c17_has rfl k
  | integer k => exact c17_has rfl k

/-- Finding: an argument may be `void`, as in `g(v())`, if the function has no prototype. -/
theorem C76_void_argument_false : let e := Expr.call (.ident "g") (.cons (.call (.ident "v") .nil) .nil)
    (analyze demo e).isSome = true ∧ ∀ s d, ¬ Typed (c17 s) demo e d := by
  refine ⟨by decide +kernel, fun s d h => ?_⟩
  obtain ⟨x, r, ps, more, xs, hx, hc, hxs, hr, _⟩ := h
  rw [(typed_function rfl hx).1] at hc
  cases conv_function hc
  obtain ⟨y, t, ys, hy, hyt, _, rfl⟩ := hxs
  obtain ⟨z, r', ps', more', zs, hz, hzc, _, _, _, _, hv⟩ := hy
  rw [(typed_function rfl hz).1] at hzc
  cases conv_function hzc
  rw [hv.1] at hyt
  have ht : t = void := by cases hyt with
    | vaList k => cases k
    | function k => cases k
    | value => rfl
  subst ht
  cases hr with
  | empty k =>
    exact absurd ((k _ (.head _)).resolve_right (c17_has rfl))
      (show ¬ incomplete (unqualified (demo.fill void)) = false by decide +kernel)

/-- Finding: a generic selection may have several associations for a type. -/
theorem C76_generic_false : let e := Expr.generic (num 1) (.cons .int (num 1) (.cons .int (.ident "p") .nil)) .none
    (analyze demo e).isSome = true ∧ ∀ s d, ¬ Typed (c17 s) demo e d := by
  refine ⟨by decide +kernel, fun s d h => ?_⟩
  obtain ⟨x, t, ds, r, _, _, hds, ⟨_, hp⟩, _⟩ := h
  obtain ⟨y, ys, _, ⟨z, zs, _, _, rfl⟩, rfl⟩ := hds
  have := hp.resolve_right (c17_has rfl)
  exact (List.rel_of_pairwise_cons this (.head _)) (.prim ..)

/-- Finding: `sizeof` gives an `int`; `size_t` is an unsigned type (C17 7.19p2). -/
theorem C76_sizeof_false (s : Basic) (hs : C17.signed s = false) : let e := Expr.sizeofType .int
    ∀ d, Typed (c17 s) demo e d → (analyze demo e).map (·.type) ≠ some d.type := by
  intro e d h
  obtain ⟨_, h, _⟩ := h
  rw [h]
  intro k
  have : s = .int := by cases k; rfl
  rw [this] at hs
  cases hs

/-! ### What C17 accepts and the compiler does not -/

theorem demo_object {L : Lang} {x : String} {t : Ty} (h : demo.ident x = some (object t)) (ha : arrayTag t = false) :
    Typed L demo (.ident x) ⟨t, true, true, false, true, none⟩ := by
  refine ⟨_, h, .object rfl rfl ?_ (fun _ => rfl) (fun _ => rfl) (fun k => by cases k)⟩
  rintro - b qs e rfl
  cases ha

theorem typed_num {L : Lang} (n : Int) : Typed L demo (num n) (value .int true) :=
  ⟨rfl, rfl, rfl, rfl, rfl, fun _ => trivial⟩

/-- Finding: arithmetic on a pointer to a structure that was completed after the declaration of the pointer is
refused. -/
theorem C75_late_completion_false : let e := Expr.bin .add (.ident "pl") (num 1)
    (∀ s, ∃ d, Typed (c17 s) demo e d) ∧ analyze demo e = none := by
  refine ⟨fun s => ⟨value (.pointer (incompleteStruct "L")) false, ?_⟩, by rfl⟩
  refine ⟨_, .pointer (incompleteStruct "L"), _, .int, demo_object rfl rfl, .value rfl rfl, typed_num 1, .value rfl rfl,
    .pointer (incompleteStruct "L"), .pointerInt (b := .int) (.inl rfl) rfl (.late rfl rfl rfl) ⟨rfl, rfl⟩, rfl, rfl, rfl, rfl, rfl,
    fun k => by cases k⟩

/-- Finding: the address of a string literal is refused. -/
theorem C75_string_address_false : let e := Expr.addr (.str .char 4)
    (∀ s, ∃ d, Typed (c17 s) demo e d) ∧ analyze demo e = none := by
  refine ⟨fun s => ⟨value (.pointer (.array (.fixed false 4) none (.arith .char))) false, ?_⟩, by rfl⟩
  exact ⟨⟨_, false, true, false, false, none⟩, ⟨rfl, rfl, rfl, fun _ => rfl, rfl⟩, rfl, rfl, rfl, rfl, rfl, rfl,
    fun k => by cases k⟩

/-- Finding: a cast to `const void` is refused. -/
theorem C75_void_cast_false : let e := Expr.cast (.qualified .c void) (.ident "s")
    (∀ s, ∃ d, Typed (c17 s) demo e d) ∧ analyze demo e = none := by
  refine ⟨fun s => ⟨value void false, ?_⟩, by rfl⟩
  exact ⟨_, _, demo_object rfl rfl, .value rfl rfl, .qualifiedVoid rfl, rfl, rfl, rfl, rfl, rfl, fun k => by cases k⟩

/-- Finding: a null pointer constant of enumerated type is refused, as in `p = (enum E) 0`. -/
theorem C75_enum_null_false : let e := Expr.assign (.ident "p") (.cast enumE (num 0))
    (∀ s, ∃ d, Typed (c17 s) demo e d) ∧ analyze demo e = none := by
  refine ⟨fun s => ⟨value (.pointer .int) false, ?_⟩, by rfl⟩
  refine ⟨_, .pointer .int, value enumE true, enumE, demo_object rfl rfl,
    .value rfl rfl, ⟨_, .int, typed_num 0, .value rfl rfl, .arith ?_ ?_, rfl, rfl, rfl, rfl, rfl, fun _ => rfl⟩,
    .value rfl rfl, ⟨rfl, rfl, .inl rfl, .inl rfl, .inl rfl⟩,
    .null (.int (b := .uint) ⟨⟨.uint, rfl, rfl⟩, .inl rfl⟩ ⟨rfl, rfl⟩ rfl) (.inr rfl), rfl, rfl, rfl, rfl, rfl,
    fun k => by cases k⟩
  · intro k; cases k
  · intro k; cases k

/-- Finding: the members of a qualified anonymous structure are not found. -/
theorem C75_anonymous_false : let e := Expr.dot (.ident "qa") "x"
    (∀ s, ∃ d, Typed (c17 s) demo e d) ∧ analyze demo e = none := by
  refine ⟨fun s => ⟨⟨.qualified .c .int, true, true, false, false, none⟩, ?_⟩, by rfl⟩
  refine ⟨_, _, .qualified .c .int, none, demo_object rfl rfl, rfl, ⟨.qualifiedStruct (L := c17 s) (q := .c) rfl .here, .inl ⟨?_, ?_⟩⟩,
    .unqualified, rfl, fun _ => .inl rfl, fun _ => ⟨rfl, .inl rfl⟩, fun _ => rfl, rfl⟩
  · exact ⟨fun _ => trivial, trivial⟩
  · intro t w h
    cases h with
    | later k => cases k
    | qualifiedStruct _ k =>
      cases k with
      | here => exact ⟨rfl, rfl⟩
      | later k => cases k

/-- Finding: an array member of a `const` structure does not have `const` elements: `_Generic(ca.a, const int *: 1)`
is refused. -/
theorem C75_array_member_false :
    let e := Expr.generic (.dot (.ident "ca") "a") (.cons (.pointer (.qualified .c .int)) (num 1) .nil) .none
    (∀ s, ∃ d, Typed (c17 s) demo e d) ∧ analyze demo e = none := by
  refine ⟨fun s => ⟨value .int true, ?_⟩, by decide +kernel⟩
  refine ⟨⟨.array (.fixed false 3) none (.qualified .c .int), false, true, false, false, none⟩, _,
    [(.pointer (.qualified .c .int), value .int true)], none, ?_, .array,
    ⟨_, _, typed_num 1, rfl, rfl⟩, ⟨.inl ?_, .inl ?_⟩, .inl rfl, _, .matching [] ?_ ⟨fun _ => ?_, fun k => by cases k⟩
      (.inl ?_), rfl⟩
  · refine ⟨_, _, .array (.fixed false 3) none .int, none, demo_object rfl rfl, rfl, ⟨.here, .inl ⟨?_, ?_⟩⟩, ?_, rfl,
      (fun k => by cases k), fun _ => ⟨rfl, .inl rfl⟩, (fun k => by cases k), rfl⟩
    · exact ⟨fun k => (by cases k), trivial⟩
    · intro t w h
      cases h with
      | here => exact ⟨rfl, rfl⟩
      | later k => cases k
    · exact .array (t := .array (.fixed false 3) none .int) rfl rfl
  · intro t ht
    cases ht with
    | head => exact ⟨rfl, rfl, rfl⟩
    | tail _ k => cases k
  · exact List.pairwise_singleton _ _
  · intro a ha; cases ha
  · exact .pointer (.qualified (.prim ..))
  · intro a ha; cases ha

end Kefir.ExprType
