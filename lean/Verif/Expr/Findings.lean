import Verif.Expr.Props

/-! Where the claims about expressions fail: concrete programs on which the compiled code departs from C17, for every
machine environment (any floating-point unit), surrounding code and stack.  Each theorem gives what C prescribes (by the
specification of `Spec.lean`) and what the code does. -/
namespace Kefir.Expr
open Kefir.Types (Basic)
open Kefir.C17 Kefir.CSpec
open Kefir.IR

def k (v : Int) : Expr := .const .int v
def ku (v : Int) : Expr := .const .uint v
def var (o : Nat) (b : Basic) : LV := .auto [o] (.arith b)

/-! ### C13: the conditional operator does not convert its branches -/

/-- `(long)(1 ? -1 : 0u)` is 4294967295 in C; the code yields -1. -/
theorem C13_conditional_unconverted_false (E : Env) (m : Mem) :
    eval (ctxOf E) (.cast (.arith .long) (.cond (k 1) (k (-1)) (ku 0))) m = some (.int 4294967295, m) ∧
    Runs E (.cast (.arith .long) (.cond (k 1) (k (-1)) (ku 0))) m [-1] m :=
  ⟨rfl, runs_of fun _ => rfl⟩

/-- `1 ? 1 : 2.0` has type `double`; the code leaves the integer 1, whose bits are another `double`
(4.9e-324, the bit pattern 1) than the value 1.0. -/
theorem C13_conditional_int_as_double_false (E : Env) (m : Mem) (two : BitVec 64) :
    cty (.cond (k 1) (k 1) (.fconst .f64 two)) = some (.arith .double) ∧
    eval (ctxOf E) (.cond (k 1) (k 1) (.fconst .f64 two)) m = some (.fl .f64 (E.fp.ofInt .f64 1), m) ∧
    Runs E (.cond (k 1) (k 1) (.fconst .f64 two)) m [1] m :=
  ⟨rfl, rfl, runs_of fun _ => rfl⟩

/-- `sizeof` is typed `int` instead of `unsigned long`: `(sizeof(int) - 5) > 0` is true in C; here it is false. -/
theorem C13_sizeof_signed_false (E : Env) (m : Mem) :
    eval (ctxOf E) (.bin .gt (.bin .sub (.sizeof (.arith .int)) (k 5)) (k 0)) m = some (.int 1, m) ∧
    Runs E (.bin .gt (.bin .sub (.sizeof (.arith .int)) (k 5)) (k 0)) m [0] m :=
  ⟨rfl, runs_of fun _ => rfl⟩

theorem C47_sizeof_false : cty (.sizeof (.arith .int)) = some (.arith .ulong) ∧
    kty (.sizeof (.arith .int)) = some (.arith .int) := ⟨rfl, rfl⟩

/-! ### C15, C16: truth of `float` and `double` -/

/-- `!(-0.0)` is 1 in C; the code yields 0. -/
theorem C16_negative_zero_false (E : Env) (m : Mem) :
    eval (ctxOf E) (.un .lnot (.fconst .f64 0x8000000000000000#64)) m = some (.int 1, m) ∧
    Runs E (.un .lnot (.fconst .f64 0x8000000000000000#64)) m [0] m :=
  ⟨rfl, runs_of fun _ => rfl⟩

/-- The same for `float`. -/
theorem C16_negative_zero_float_false (E : Env) (m : Mem) :
    eval (ctxOf E) (.un .lnot (.fconst .f32 0x80000000#32)) m = some (.int 1, m) ∧
    Runs E (.un .lnot (.fconst .f32 0x80000000#32)) m [0] m :=
  ⟨rfl, runs_of fun _ => rfl⟩

/-- `(_Bool)x` for a nonzero `double` that truncates to 0 (such as 0.5) is 1 in C; the code yields 0. -/
theorem C16_bool_conversion_false (E : Env) (m : Mem) (x : BitVec 64) (hz : isZero .f64 x = false)
    (ht : E.fp.trunc .f64 x = some 0) :
    eval (ctxOf E) (.cast (.arith .bool) (.fconst .f64 x)) m = some (.int 1, m) ∧
    Runs E (.cast (.arith .bool) (.fconst .f64 x)) m [0] m := by
  refine ⟨?_, runs_of fun s => ?_⟩
  · simp only [eval, Option.bind_some, conv, fmtOf, if_true, hz]; rfl
  · have : (tr (.cast (.arith .bool) (.fconst .f64 x))).run E s m =
        some (Un.exec .trunc1 (toInt64 (E.fp.trunc .f64 x)) :: s, m) := rfl
    rw [this, ht]
    rfl

/-- `-0.0 && (x = 1)` must not evaluate its right operand; the code stores to `x` and yields 1. -/
theorem C15_float_false (E : Env) (m : Mem) :
    eval (ctxOf E) (.land (.fconst .f64 0x8000000000000000#64) (.assign (var 0 .int) (k 1))) m = some (.int 0, m) ∧
    ∃ m', Runs E (.land (.fconst .f64 0x8000000000000000#64) (.assign (var 0 .int) (k 1))) m [1] m' ∧
      load (.arith .int) none m' E.locals = some (.int 1) := by
  refine ⟨rfl, storeLE m E.locals 4 1, runs_of fun _ => rfl, ?_⟩
  rw [storeLE_eq _ _ _ (by omega)]
  simp only [load, fmtOf, basicSize, readBits_writeBits m E.locals 0 (8 * 4) _ (by omega)]
  rfl

/-! ### C19: bit-fields of width 64 -/

/-- Reading a 64-bit wide `unsigned long` bit-field gives 0 whatever memory holds. -/
theorem C19_width64_false (E : Env) (m : Mem) (a : Word) (s : List Word) :
    execs E (resolveLvalue (.arith .ulong) (some (0, 64))) (a :: s) m = some (0 :: s, m) := by
  have : execs E (resolveLvalue (.arith .ulong) (some (0, 64))) (a :: s) m =
      some (extubits 0 64 (loadLE m (a + 0) 8) :: s, m) := rfl
  rw [this]
  simp [extubits, shlx]

/-! ### C37: `long double` and the conditional operator -/

/-- `c ? 1 : 2.0L` has type `long double`, which takes two words; with a true condition the code leaves one. -/
theorem C37_long_double_branch_false (E : Env) (m : Mem) (two : BitVec 80) :
    kty (.cond (k 1) (k 1) (.fconst .f80 two)) = some (.arith .ldouble) ∧ slots (.arith .ldouble) = 2 ∧
    Runs E (.cond (k 1) (k 1) (.fconst .f80 two)) m [1] m :=
  ⟨rfl, rfl, runs_of fun _ => rfl⟩

/-- `1.0L ? 7 : 8` has type `int`, one word; the code leaves two, the word below the result being a half of the
condition. -/
theorem C37_long_double_condition_false (E : Env) (m : Mem) :
    kty (.cond (.fconst .f80 0x3fff8000000000000000#80) (k 7) (k 8)) = some (.arith .int) ∧ slots (.arith .int) = 1 ∧
    Runs E (.cond (.fconst .f80 0x3fff8000000000000000#80) (k 7) (k 8)) m [7, 0x3fff] m :=
  ⟨rfl, rfl, runs_of fun _ => rfl⟩

/-! ### C39: compound assignments -/

/-- Memory whose bytes are all `b`. -/
def all (b : BitVec 8) : Mem := fun _ => b

theorem loadLE_all (b : BitVec 8) (a : Word) (n : Nat) : loadLE (all b) a n = loadLE (all b) 0 n := by
  induction n generalizing a with
  | zero => rfl
  | succ n ih => simp only [loadLE, ih (a + 1), ih (0 + 1)]; rfl

theorem load8_ff (a : Word) : loadLE (all 0xff) a 8 = -1 := by rw [loadLE_all]; rfl
theorem load4_ff (a : Word) : loadLE (all 0xff) a 4 = 0xffffffff := by rw [loadLE_all]; rfl
theorem load1_ff (a : Word) : loadLE (all 0xff) a 1 = 0xff := by rw [loadLE_all]; rfl
theorem load1_1 (a : Word) : loadLE (all 1) a 1 = 1 := by rw [loadLE_all]; rfl

theorem read_all (b : BitVec 8) (a : Word) (off n : Nat) : readBits (all b) a off n = readBits (all b) 0 off n := rfl

theorem eval_compound (E : Env) (op : BinOp) (b c : Basic) (v cur r r1 : Int) (m : Mem) (hi : isInteger b = true) (h3 : ct (.const c v) = .arith c)
    (hl : ∀ a, load (.arith b) none m a = some (.int cur))
    (hb : binV E.fp op (.arith b) none (.int cur) (.arith c) none (.int v) = some (.int r)) (hw : wrap b r = r1) :
    ∃ m', eval (ctxOf E) (.assignOp op (var 0 b) (.const c v)) m = some (.int r1, m') := by
  have h1 : evalL (ctxOf E) (var 0 b) m = some (E.locals + 0, m) := rfl
  have h2 : clt (var 0 b) = .arith b := rfl
  have h4 : (var 0 b).bf = none := rfl
  have h5 : (Expr.const c v).bfw = none := rfl
  simp only [eval, Option.bind_some, h1, h2, h3, h4, h5, hl, Option.map_none, show (ctxOf E).fp = E.fp from rfl, hb, conv_int _ hi, hw,
    store, Option.map_some, assigned]
  exact ⟨_, rfl⟩

theorem load_ulong_ff (a : Word) : load (.arith .ulong) none (all 0xff) a = some (.int 18446744073709551615) := by
  have : valOf (signed .ulong) (readBits (all 0xff) a 0 (8 * basicSize .ulong)) = 18446744073709551615 :=
    (by decide +kernel : valOf (signed .ulong) (readBits (all 0xff) 0 0 (8 * basicSize .ulong)) = 18446744073709551615)
  simp only [load, fmtOf, this]
  rfl

theorem load_uint_ff (a : Word) : load (.arith .uint) none (all 0xff) a = some (.int 4294967295) := by
  have : valOf (signed .uint) (readBits (all 0xff) a 0 (8 * basicSize .uint)) = 4294967295 :=
    (by decide +kernel : valOf (signed .uint) (readBits (all 0xff) 0 0 (8 * basicSize .uint)) = 4294967295)
  simp only [load, fmtOf, this]
  rfl

theorem load_bool_1 (a : Word) : load (.arith .bool) none (all 1) a = some (.int 1) := by
  have : valOf (signed .bool) (readBits (all 1) a 0 (8 * basicSize .bool)) = 1 :=
    (by decide +kernel : valOf (signed .bool) (readBits (all 1) 0 0 (8 * basicSize .bool)) = 1)
  simp only [load, fmtOf, this]
  rfl

/-- `x %= 10` for an `unsigned long` `x` holding 18446744073709551615: 5 in C; the code divides as signed and yields
(and stores) 18446744073709551615, because it looks at the type of the right operand only. -/
theorem C39_mod_signedness_false (E : Env) :
    (∃ m', eval (ctxOf E) (.assignOp .mod (var 0 .ulong) (k 10)) (all 0xff) = some (.int 5, m')) ∧
    ∃ m', Runs E (.assignOp .mod (var 0 .ulong) (k 10)) (all 0xff) [-1] m' := by
  refine ⟨eval_compound E .mod .ulong .int 10 18446744073709551615 5 5 (all 0xff) rfl rfl load_ulong_ff rfl rfl,
    storeLE (all 0xff) E.locals 8 (-1), runs_of fun s => ?_⟩
  have h1 : tr (.assignOp .mod (var 0 .ulong) (k 10)) = .prim [.push 10] ;; .prim [] ;; .prim [.getlocals] ;;
    .prim [.pick 0, .load 8 false, .xchg 1, .xchg 2, .bin .imod, .xchg 1, .pick 1, .store 8] := by rfl
  have h2 : Bin.exec .imod (-1) 10 = some (-1) := by decide
  simp only [h1, SC.run, execs_cons, execs_nil, Option.bind_some, exec_pick0, exec_load, exec_xchg1, exec_xchg2, exec_pick1,
    exec_store, exec_push, exec_getlocals, exec_bin, load8_ff, Bool.false_eq_true, if_false, h2, Option.map_some]
  rfl

/-- `x >>= 1` for the same `x`: 9223372036854775807 in C; the code shifts arithmetically and yields 18446744073709551615. -/
theorem C39_shr_signedness_false (E : Env) :
    (∃ m', eval (ctxOf E) (.assignOp .shr (var 0 .ulong) (k 1)) (all 0xff) = some (.int 9223372036854775807, m')) ∧
    ∃ m', Runs E (.assignOp .shr (var 0 .ulong) (k 1)) (all 0xff) [-1] m' := by
  refine ⟨eval_compound E .shr .ulong .int 1 18446744073709551615 9223372036854775807 _ (all 0xff) rfl rfl load_ulong_ff rfl rfl,
    storeLE (all 0xff) E.locals 8 (-1), runs_of fun s => ?_⟩
  have h1 : tr (.assignOp .shr (var 0 .ulong) (k 1)) = .prim [.push 1] ;; .prim [] ;; .prim [.getlocals] ;;
    .prim [.pick 0, .load 8 false, .xchg 1, .xchg 2, .bin .sar, .xchg 1, .pick 1, .store 8] := by rfl
  have h2 : Bin.exec .sar (-1) 1 = some (-1) := by decide
  simp only [h1, SC.run, execs_cons, execs_nil, Option.bind_some, exec_pick0, exec_load, exec_xchg1, exec_xchg2, exec_pick1,
    exec_store, exec_push, exec_getlocals, exec_bin, load8_ff, Bool.false_eq_true, if_false, h2, Option.map_some]
  rfl

/-- `(x += 1u) == 0` for an `unsigned` `x` holding 4294967295: 1 in C; the code yields 0. -/
theorem C39_add_unsigned_result_false (E : Env) :
    (∃ m', eval (ctxOf E) (.bin .eq (.assignOp .add (var 0 .uint) (ku 1)) (ku 0)) (all 0xff) = some (.int 1, m')) ∧
    ∃ m', Runs E (.bin .eq (.assignOp .add (var 0 .uint) (ku 1)) (ku 0)) (all 0xff) [0] m' := by
  refine ⟨?_, storeLE (all 0xff) E.locals 4 0x100000000, runs_of fun s => ?_⟩
  · obtain ⟨m', h⟩ := eval_compound E .add .uint .uint 1 4294967295 0 0 (all 0xff) rfl rfl load_uint_ff rfl rfl
    have h2 : ct (ku 0) = .arith .uint := rfl
    have h3 : eval (ctxOf E) (ku 0) m' = some (.int 0, m') := rfl
    simp only [eval, h2, show ku 1 = .const .uint 1 from rfl] at h ⊢
    simp only [h, h3, Option.bind_some]
    exact ⟨_, rfl⟩
  have h1 : tr (.bin .eq (.assignOp .add (var 0 .uint) (ku 1)) (ku 0)) =
    (.prim [.push 1] ;; .prim [] ;; .prim [.getlocals] ;;
      .prim [.pick 0, .load 4 false, .xchg 1, .xchg 2, .bin .add, .xchg 1, .pick 1, .store 4]) ;;
     .prim [] ;; .prim [.push 0] ;; .prim [.bin .eq] := by rfl
  have h2 : Bin.exec .add 0xffffffff 1 = some 0x100000000 := by decide
  have h3 : Bin.exec .eq 0x100000000 0 = some 0 := by decide
  simp only [h1, SC.run, execs_cons, execs_nil, Option.bind_some, exec_pick0, exec_load, exec_xchg1, exec_xchg2, exec_pick1,
    exec_store, exec_push, exec_getlocals, exec_bin, load4_ff, Bool.false_eq_true, if_false, h2, h3, Option.map_some]
  rfl

/-- `b += 4294967295u` for a `_Bool` holding 1: 0 in C (the sum is 0 modulo 2^32); the code yields and stores 1. -/
theorem C39_add_bool_false (E : Env) :
    (∃ m', eval (ctxOf E) (.assignOp .add (var 0 .bool) (ku 4294967295)) (all 1) = some (.int 0, m')) ∧
    ∃ m', Runs E (.assignOp .add (var 0 .bool) (ku 4294967295)) (all 1) [1] m' := by
  refine ⟨eval_compound E .add .bool .uint 4294967295 1 0 0 (all 1) rfl rfl load_bool_1 rfl rfl,
    storeLE (all 1) E.locals 1 1, runs_of fun s => ?_⟩
  have h1 : tr (.assignOp .add (var 0 .bool) (ku 4294967295)) = .prim [.push 4294967295] ;; .prim [] ;; .prim [.getlocals] ;;
    .prim [.pick 0, .load 1 false, .push 0xffffffff, .bin .and, .xchg 1, .xchg 2, .bin .add, .un .trunc1, .xchg 1, .pick 1, .store 1] := by rfl
  have h2 : Bin.exec .add 1 4294967295 = some 0x100000000 := by decide
  have h0 : Bin.exec .and 1 0xffffffff = some 1 := by decide
  have h3 : Un.exec .trunc1 0x100000000 = 1 := by decide
  simp only [h1, SC.run, execs_cons, execs_nil, Option.bind_some, exec_pick0, exec_load, exec_xchg1, exec_xchg2, exec_pick1,
    exec_store, exec_push, exec_getlocals, exec_bin, exec_un, load1_1, Bool.false_eq_true, if_false, h0, h2, h3, Option.map_some]
  rfl

theorem ext_ff : extubits 0 5 0xff + 1 = 32 := by decide
theorem and_32 : Bin.exec .and 32 0xffffffff = some 32 := by decide

theorem run_prefix (E : Env) (m : Mem) (s : List Word) (hl : loadLE m E.locals 1 = 0xff) :
    (tr (.incdec false false (.member (.lval (.auto [0] (.agg 0 4))) [0] (.arith .uint) (some (0, 5))))).run E s m =
      some (32 :: s, storeLE m E.locals 1 (insertbits 0 5 (loadLE m E.locals 1) 32)) := by
  have h1 : tr (.incdec false false (.member (.lval (.auto [0] (.agg 0 4))) [0] (.arith .uint) (some (0, 5)))) =
      ((.prim [.getlocals] ;; .prim []) ;; .prim []) ;;
        .prim ([.pick 0, .iadd1 0, .load 1 false, .extubits 0 5, .iadd1 1, .push 0xffffffff, .bin .and] ++ [.xchg 1, .pick 1,
          .pick 1, .iadd1 0, .load 1 false, .xchg 1, .insertbits 0 5, .xchg 1, .iadd1 0, .xchg 1, .store 1]) := by rfl
  have e1 : execs E [.pick 0, .iadd1 0, .load 1 false, .extubits 0 5, .iadd1 1, .push 0xffffffff, .bin .and] (E.locals :: s) m =
      some (32 :: E.locals :: s, m) := by
    simp only [execs_cons, execs_nil, Option.bind_some, exec_pick0, exec_load, exec_iadd1, exec_extubits, exec_push, exec_bin,
      Bool.false_eq_true, if_false]
    have : E.locals + 0 = E.locals := BitVec.add_zero _
    rw [this, hl, ext_ff, and_32]
    rfl
  have e2 : ∀ w : Word, execs E [.xchg 1, .pick 1, .pick 1, .iadd1 0, .load 1 false, .xchg 1, .insertbits 0 5, .xchg 1,
      .iadd1 0, .xchg 1, .store 1] (w :: E.locals :: s) m =
      some (w :: s, storeLE m E.locals 1 (insertbits 0 5 (loadLE m E.locals 1) w)) := by
    intro w
    have : E.locals + 0 = E.locals := BitVec.add_zero _
    simp only [execs_cons, execs_nil, Option.bind_some, exec_pick1, exec_xchg1, exec_load, exec_iadd1, exec_insertbits, exec_store,
      Bool.false_eq_true, if_false, this]
  rw [h1]
  generalize [Instr.pick 0, .iadd1 0, .load 1 false, .extubits 0 5, .iadd1 1, .push 0xffffffff, .bin .and] = c1 at e1 ⊢
  generalize [Instr.xchg 1, .pick 1, .pick 1, .iadd1 0, .load 1 false, .xchg 1, .insertbits 0 5, .xchg 1,
      .iadd1 0, .xchg 1, .store 1] = c2 at e2 ⊢
  simp only [SC.run, execs_cons, execs_nil, Option.bind_some, exec_getlocals, execs_append, e1, e2]

theorem eval_prefix (C : Ctx) (l : LV) (m : Mem) (a : Word) (b : Basic) (w : Nat) (cur r : Int) (h1 : evalL C l m = some (a, m))
    (h3 : clt l = .arith b) (h4 : l.bf = some (0, w)) (hbits : valOf (signed b) (readBits m a 0 w) = cur)
    (h2 : incdecV C.fp (.arith b) (some w) false (.int cur) = some (.int r)) :
    ∃ m', eval C (.incdec false false l) m = some (.int (valOf (signed b) (BitVec.ofInt w r)), m') := by
  simp only [eval, h1, Option.bind_some, h3, h4, Option.map_some, load, hbits, h2, store, assigned, Bool.false_eq_true, if_false]
  exact ⟨_, rfl⟩

/-- `++s.f` for a 5-bit `unsigned` bit-field holding 31: 0 in C; the code yields 32. -/
theorem C39_prefix_bitfield_false (E : Env) :
    (∃ m', eval (ctxOf E) (.incdec false false (.member (.lval (.auto [0] (.agg 0 4))) [0] (.arith .uint) (some (0, 5)))) (all 0xff) =
      some (.int 0, m')) ∧
    ∃ m', Runs E (.incdec false false (.member (.lval (.auto [0] (.agg 0 4))) [0] (.arith .uint) (some (0, 5)))) (all 0xff) [32] m' := by
  have h0 : readBits (all 0xff) 0 0 5 = 31#5 := by decide +kernel
  have hbits : ∀ a, valOf (signed .uint) (readBits (all 0xff) a 0 5) = 31 := fun a => by
    rw [read_all 0xff a 0 5, h0]; decide
  obtain ⟨m', h⟩ := eval_prefix (ctxOf E) (.member (.lval (.auto [0] (.agg 0 4))) [0] (.arith .uint) (some (0, 5))) (all 0xff)
    _ .uint 5 31 32 rfl rfl rfl (hbits _) rfl
  have hz : valOf (signed .uint) (BitVec.ofInt 5 32) = 0 := by decide
  rw [hz] at h
  exact ⟨⟨m', h⟩, _, runs_of fun s => run_prefix E (all 0xff) s (load1_ff _)⟩

end Kefir.Expr
