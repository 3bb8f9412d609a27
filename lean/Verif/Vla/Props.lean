import Verif.Expr.Props
import Verif.Vla.Lemmas

/-!
# C104: variable length arrays

Specification: `Verif.Vla.Spec`.
-/

namespace Kefir.Vla
open Kefir.IR Kefir.Expr Kefir.CSpec Kefir.C17

/-- Partial: `sizeof` of a variable length array type, however many of its dimensions are variable, is the product of the
values that the lengths have and the size of the elements, for all lengths, types and memories.  Excluded: arrays of known
length with elements of variable length (`C104_inner_false`), and lengths whose code is wrong for other reasons
(`Kefir.Expr.good`). -/
theorem C104_size_partial (E : Env) (L : Lawful E.fp) (t : VTy) (ht : Regular t) (m m' : Mem) (n : Nat)
    (hs : size (ctxOf E) t m = some (n, m')) (s : List Word) :
    (sizeofCode t).run E s m = some (BitVec.ofNat 64 n :: s, m') :=
  size_run E L t ht m m' n hs s

/-- Partial: the code of a declaration asks for storage of the size of the array and of its alignment (the two topmost
words when `ALLOCA` is reached, above the address of the compiler's own variable), and keeps the size; `sizeof` applied to
the name of the array gives that size ever after, whatever happens to the variables in the length, as long as nothing
writes to the compiler's own variable. -/
theorem C104_declaration_partial (E : Env) (L : Lawful E.fp) (t : VTy) (ht : Regular t) (offs : List Nat) (m m' : Mem)
    (n : Nat) (hs : size (ctxOf E) t m = some (n, m')) (s : List Word) :
    ∃ m1, (declareCode offs t).run E s m =
        some (BitVec.ofNat 64 (align t) :: BitVec.ofNat 64 n :: offsetBy E.locals offs :: s, m1) ∧
      (∀ a, 8 ≤ (a - (offsetBy E.locals offs + 8)).toNat → m1 a = m' a) ∧
      ∀ m2, (∀ k : Nat, k < 8 → m2 (offsetBy E.locals offs + 8 + BitVec.ofNat 64 k) =
          m1 (offsetBy E.locals offs + 8 + BitVec.ofNat 64 k)) →
        ∀ s2, (sizeofName offs).run E s2 m2 = some (BitVec.ofNat 64 n :: s2, m2) := by
  refine ⟨storeLE m' (offsetBy E.locals offs + 8) 8 (BitVec.ofNat 64 n), ?_, ?_, ?_⟩
  · have h0 := field_run E offs 0 s m
    have h1 := size_run E L t ht m m' n hs (offsetBy E.locals offs :: s)
    have h2 := field_run E offs 8 (BitVec.ofNat 64 n :: offsetBy E.locals offs :: s) m'
    have hz : offsetBy E.locals offs + BitVec.ofNat 64 0 = offsetBy E.locals offs := by simp
    rw [hz] at h0
    simp only [declareCode, SC.run, h0, Option.bind_some, h1]
    rw [List.append_assoc, execs_append, h2, Option.bind_some]
    simp only [alignofCode, List.cons_append, List.nil_append, execs_cons, execs_nil, exec_pick1, Option.bind_some, exec_store,
      exec_push, regular_align t ht]
    rfl
  · intro a ha
    simp only [storeLE]
    rw [if_neg (by omega)]
  · intro m2 hm s2
    have h2 := field_run E offs 8 s2 m2
    have hl : loadLE m2 (offsetBy E.locals offs + 8) 8 = BitVec.ofNat 64 n := by
      rw [← load_store m' (offsetBy E.locals offs + 8) (BitVec.ofNat 64 n)]
      apply BitVec.eq_of_getLsbD_eq
      intro i hi
      rw [getLsbD_loadLE, getLsbD_loadLE]
      simp only [bitOf]
      rw [hm (i / 8) (by omega)]
    simp only [sizeofName, SC.run]
    rw [execs_append, h2, Option.bind_some]
    simp only [execs_cons, execs_nil, exec_load, Option.bind_some]
    have e8 : (BitVec.ofNat 64 8 : Word) = 8 := rfl
    rw [e8, hl]
    rfl

/-- `int a[n][3]` with `n` of 5. -/
example : size (ctxOf toyEnv) (.vla (.const .int 5) (.array 3 (.fixed 4 4))) (fun _ => 0) = some (60, fun _ => 0) := rfl
example : Regular (.vla (.const .int 5) (.array 3 (.fixed 4 4))) := ⟨rfl, ⟨.int, rfl, rfl⟩, trivial⟩

/-- False in general: `sizeof (int[3][n])`, with `n` of 5, is 48 instead of 60: an array of known length with elements of
variable length is not taken for one of variable length, and its elements count as two words. -/
theorem C104_inner_false :
    size (ctxOf toyEnv) (.array 3 (.vla (.const .int 5) (.fixed 4 4))) (fun _ => 0) = some (60, fun _ => 0) ∧
      (sizeofCode (.array 3 (.vla (.const .int 5) (.fixed 4 4)))).run toyEnv [] (fun _ => 0) = some ([48], fun _ => 0) :=
  ⟨rfl, rfl⟩

/-- Partial: at every moment, the arrays that are alive have no byte in common, each is aligned, and each is between the
bottom of the storage in use and the top of the stack: for all functions, all sizes and alignments, however deep the blocks
nest, however often they are entered and left, and with calls of the built-in function in between.  Missing: blocks
that are left in front of their first declaration (`C104_jump_false`). -/
theorem C104_storage_partial (top : Nat) (es : List Event) (hp : proper [] es = true) (s : State)
    (objs : List (List Object)) (hr : run (initial top) [] es = some (s, objs)) :
    objs.flatten.Pairwise Disjoint ∧
      ∀ o ∈ objs.flatten, o.start % o.align = 0 ∧ s.base ≤ o.start ∧ o.start + o.size ≤ top := by
  obtain ⟨o', hi⟩ := inv_run top es (initial top) s [] objs []
    ⟨Nat.le_refl _, by simp, trivial, rfl, rfl, by intro b hb; cases hb⟩ hp hr
  refine ⟨chain_disjoint _ _ _ hi.chain, fun o ho => ⟨hi.aligned o ho, ?_⟩⟩
  exact chain_mem _ _ _ hi.chain o ho

/-- Two blocks, three arrays and a call of the built-in function; the inner block is left and entered again. -/
example : proper [] [.enter true 7, .declare 20 4, .enter true 9, .declare 8 8, .builtin 5 16, .declare 1 1, .leave,
      .enter true 3, .declare 40 32] = true ∧
    run (initial 1000) [] [.enter true 7, .declare 20 4, .enter true 9, .declare 8 8, .builtin 5 16, .declare 1 1, .leave,
      .enter true 3, .declare 40 32] =
      some (⟨896, 960, [⟨true, 3, [1000]⟩, ⟨true, 7, [0]⟩]⟩, [[⟨896, 40, 32⟩], [⟨976, 20, 4⟩]]) := by
  decide +kernel

/-- Partial: blocks with one declaration each, in each other or one after the other, in any number, for example all the
iterations of a loop, leave the storage as it was.  Missing: blocks with more than one (`C104_leak_false`). -/
theorem C104_released_partial (es : List Event) (h : Single es) (top : Nat) (s : State) (objs : List (List Object))
    (hr : run (initial top) [] es = some (s, objs)) : s = initial top ∧ objs = [] :=
  single_run es h _ _ _ _ rfl hr

/-- The same from any state in between. -/
theorem C104_released_inner_partial (es : List Event) (h : Single es) (s s' : State) (objs objs' : List (List Object))
    (hl : objs.length = s.blocks.length) (hr : run s objs es = some (s', objs')) : s' = s ∧ objs' = objs :=
  single_run es h s s' objs objs' hl hr

example : Single [.enter true 7, .enter false 0, .leave, .declare 20 4, .enter true 9, .declare 8 8, .leave, .leave] :=
  .one (a := [.enter false 0, .leave]) (b := [.enter true 9, .declare 8 8, .leave]) (c := [])
    (.plain (a := []) (b := []) .nil .nil) (.one (a := []) (b := []) (c := []) .nil .nil .nil) .nil
example : (run (initial 1000) [] [.enter true 7, .enter false 0, .leave, .declare 20 4, .enter true 9, .declare 8 8, .leave,
    .leave]).isSome = true := by decide +kernel

/-- A block with two arrays, as the body of a loop with `k` iterations. -/
def twice : Nat → List Event
  | 0 => []
  | k + 1 => .enter true 0 :: .declare 8 8 :: .declare 8 8 :: .leave :: twice k

/-- False for blocks with two declarations: only the last array is released, so every iteration loses the storage of the
others, for any number of iterations, until the stack is exhausted. -/
theorem C104_leak_false (k : Nat) :
    run (initial (8 * (k + 2))) [] (twice k) = some (initial 16, []) := by
  induction k with
  | zero => rfl
  | succ k ih =>
    have p1 : place (8 * (k + 1 + 2)) 8 8 = 8 * (k + 2) := by
      simp only [place, floorTo]
      rw [if_neg (by decide)]
      omega
    have p2 : place (8 * (k + 2)) 8 8 = 8 * (k + 1) := by
      simp only [place, floorTo]
      rw [if_neg (by decide)]
      omega
    have c1 : 8 ≤ 8 * (k + 1 + 2) ∧ 0 < 8 * (k + 2) := by omega
    have c2 : 8 ≤ 8 * (k + 2) ∧ 0 < 8 * (k + 1) := by omega
    have c3 : ¬ 8 * (k + 2) = 0 := by omega
    simp only [twice, run, step, initial, pushscope, alloca, p1, p2, if_pos c1, if_pos c2, alive, popscope, if_neg c3,
      Block.head, List.nil_append, List.cons_append, List.headD_cons, if_true]
    exact ih

theorem C104_released_false :
    ¬ ∀ (top : Nat) (es : List Event), proper [] es = true → ∀ s, run (initial top) [] es = some (s, []) →
      s.base = top := by
  intro h
  have := h 24 (twice 1) (by decide +kernel) _ (C104_leak_false 1)
  exact absurd this (by decide)

/-- False for blocks that are left by a jump in front of their declaration: the array of the block around it is released
although it is alive, and the next array is put at the same place. -/
theorem C104_jump_false :
    run (initial 1000) [] [.enter true 0, .declare 8 8, .enter true 0, .leave] = some (⟨1000, 0, [⟨true, 0, [0]⟩]⟩,
        [[⟨992, 8, 8⟩]]) ∧
      run (initial 1000) [] [.enter true 0, .declare 8 8, .enter true 0, .leave, .enter true 0, .declare 8 8] =
        some (⟨992, 1000, [⟨true, 0, [0]⟩, ⟨true, 0, [0]⟩]⟩, [[⟨992, 8, 8⟩], [⟨992, 8, 8⟩]]) := by
  decide +kernel

/-- Partial: what the built-in function gave lasts until the function returns: no array and no other call gets a byte of it,
and it stays above the bottom of the storage in use, whatever blocks are entered and left, provided that no block declares
a second array.  Without that it is false (`C104_builtin_false`). -/
theorem C104_builtin_partial (top : Nat) (es : List Event) (hp : proper [] es = true) (ho : once [] es = true)
    (ks : List Object) (s : State) (objs : List (List Object))
    (hr : runKept (initial top) [] [] es = some (ks, s, objs)) :
    (objs.flatten ++ ks).Pairwise Disjoint ∧ ∀ k ∈ ks, s.base ≤ k.start ∧ k.start + k.size ≤ top := by
  have hrun : run (initial top) [] es = some (s, objs) := by
    rw [← runKept_run es _ [] _, hr]
    rfl
  obtain ⟨o', hi⟩ := kinv_run top es (initial top) s [] ks [] objs
    ⟨⟨[], Nat.le_refl _, by simp, trivial, rfl, rfl, by intro b hb; cases hb⟩, by simp, List.Pairwise.nil, by simp, trivial,
      rfl⟩ hp ho hr
  refine ⟨?_, hi.above⟩
  rw [List.pairwise_append]
  exact ⟨(C104_storage_partial top es hp s objs hrun).1, hi.disj, hi.cross⟩

example : proper [] [.enter true 7, .declare 20 4, .enter true 9, .declare 8 8, .builtin 5 0, .leave, .builtin 3 0, .enter true 0,
      .declare 8 8] = true ∧
    once [] [.enter true 7, .declare 20 4, .enter true 9, .declare 8 8, .builtin 5 0, .leave, .builtin 3 0, .enter true 0,
      .declare 8 8] = true ∧
    (runKept (initial 1000) [] [] [.enter true 7, .declare 20 4, .enter true 9, .declare 8 8, .builtin 5 0, .leave, .builtin 3 0,
      .enter true 0, .declare 8 8]).map (fun r => (r.1, r.2.2)) =
      some ([⟨952, 3, 0⟩, ⟨960, 5, 0⟩], [[⟨944, 8, 8⟩], [⟨976, 20, 4⟩]]) := by
  decide +kernel

/-- False for the storage that the built-in function gives, which is to last until the function returns: the arrays of
the inner block are declared around the call; at the end of the outer block the 64 bytes at 920 are below the bottom. -/
theorem C104_builtin_false :
    (step ⟨984, 992, [⟨true, 0, [1000]⟩, ⟨true, 0, [0]⟩]⟩ (.builtin 64 8)).map (·.2) = some 920 ∧
    run (initial 1000) [] [.enter true 0, .declare 8 8, .enter true 0, .declare 8 8] =
      some (⟨984, 992, [⟨true, 0, [1000]⟩, ⟨true, 0, [0]⟩]⟩, [[⟨984, 8, 8⟩], [⟨992, 8, 8⟩]]) ∧
    run (initial 1000) [] [.enter true 0, .declare 8 8, .enter true 0, .declare 8 8, .builtin 64 8, .declare 8 8, .leave,
      .leave] = some (initial 1000, []) := by
  decide +kernel

end Kefir.Vla
