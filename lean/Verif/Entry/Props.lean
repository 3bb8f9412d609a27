import Verif.Entry.Sound
import Verif.Expr.Plain
import Verif.Stmt.Props

/-!
# C97: when the body of a function begins, each parameter holds the value of its argument

`Kefir.Entry.Spec` says which words the caller passes (`Called`, `pushed`) and what the parameters hold (`Received`).
-/

namespace Kefir.Entry
open Kefir.Types (Basic)
open Kefir.IR
open Kefir.Expr Kefir.CSpec Kefir.C17
open Kefir.Stmt

/-- C97: for every list of parameters and every list of values passed as the ABI prescribes, the entry code consumes exactly the
words of the arguments, gives every named parameter the value of its argument, converted to its type, and changes no byte
outside the storage of the parameters.
Missing from the full property: `Faithful` excludes qualified `long double` parameters in an identifier list and unnamed ones
in a prototype (`C97_qualified_false`, `C97_unnamed_false`); `CleanBool` asks for extended words for a `_Bool` in an identifier
list (`C97_bool_false`); size expressions of variably modified parameters are not modelled. -/
theorem C97_parameters_partial (E : Env) (style : Style) (ps : List Param) (vs : List Val) (wss : List (List Word))
    (hcall : Called style ps vs wss) (hwf : ∀ p ∈ ps, WellFormed style p) (hf : ∀ p ∈ ps, Faithful style p)
    (hb : All3 (CleanBool style) ps vs wss) (hapart : (storage E.locals ps).Pairwise Apart)
    (hsrc : SourcesApart E.locals ps vs wss) (s0 : List Word) (m : Mem) :
    ∃ m', execs E (entry style ps) (pushed wss ++ s0) m = some (s0, m') ∧ Received E.fp E.locals m m' ps vs ∧
      ∀ x, (∀ r ∈ storage E.locals ps, ¬ InObj r.1 r.2 x) → m' x = m x :=
  all_ok E (storage E.locals ps) hcall (fun _ h => h) hwf hf hb hsrc hapart s0 m

theorem plain_storeParam (style : Style) (p : Param) : Plain (storeParam style p) := by
  have hx : ∀ q t, Plain (xchgParamAddress q t) := by
    intro q t; unfold xchgParamAddress; split <;> exact plain_of rfl
  have hl : ∀ o, Plain (objectLvalue o) := fun o => Plain.app (a := [.getlocals]) (plain_of rfl) (plain_offsets o)
  cases style with
  | prototype =>
    simp only [storeParam, storePrototype]
    split
    · exact plain_of rfl
    · split
      · exact ((hl _).app (hx _ _)).app (plain_store p.ty none)
      · split <;> exact plain_of rfl
  | identifiers =>
    simp only [storeParam, storeIdentifier]
    split
    · refine (((hl _).app (hx _ _)).app ?_).app (plain_store p.ty none)
      split
      · exact plain_typeconv _ _
      · exact plain_of rfl
    · exact plain_of rfl

theorem plain_entry (style : Style) (ps : List Param) : Plain (entry style ps) := by
  intro i hi
  simp only [entry, List.mem_flatMap] at hi
  obtain ⟨p, -, hp⟩ := hi
  exact plain_storeParam style p i hp

/-- C97, calls: the code of a whole function, entered at its beginning with the words of the arguments on the stack, reaches
the body with the parameters set; and if the body, executed as C17 6.8 prescribes from that memory, returns, then the code
reaches a `ret` cell with the value on the stack. -/
theorem C97_call_partial (E : Env) (L : Lawful E.fp) (rt : Ty) (style : Style) (ps : List Param) (body : Stmt) (P : List Instr)
    (hc : compile rt (entry style ps) body = some P) (hok : okS rt false none body = true) (vs : List Val)
    (wss : List (List Word)) (hcall : Called style ps vs wss) (hwf : ∀ p ∈ ps, WellFormed style p)
    (hf : ∀ p ∈ ps, Faithful style p) (hb : All3 (CleanBool style) ps vs wss) (hapart : (storage E.locals ps).Pairwise Apart)
    (hsrc : SourcesApart E.locals ps vs wss) (s0 : List Word) (m : Mem) :
    ∃ m1, Received E.fp E.locals m m1 ps vs ∧ (∀ x, (∀ r ∈ storage E.locals ps, ¬ InObj r.1 r.2 x) → m1 x = m x) ∧
      ∀ v m', Returns (ctxOf E) rt body m1 v m' →
        ∃ pc ws junk, Steps E P ⟨0, pushed wss ++ s0, m⟩ ⟨pc, ws ++ junk ++ s0, m'⟩ ∧ P[pc]? = some .ret ∧
          (∀ x, v = some x → Rep x ws) ∧ (v = none → ws = []) := by
  obtain ⟨m1, hx, hr, ho⟩ := C97_parameters_partial E style ps vs wss hcall hwf hf hb hapart hsrc s0 m
  refine ⟨m1, hr, ho, fun v m' hret => ?_⟩
  obtain ⟨a, T, ad, -, -, hP, -⟩ := compile_spec hc
  obtain ⟨pc, ws, junk, hs, h1, h2, h3⟩ := C36_returns_partial E L rt _ P body hc hok m1 m' v hret s0
  refine ⟨pc, ws, junk, Steps.trans ?_ hs, h1, h2, h3⟩
  have := (SC.steps_prim E (entry style ps) (plain_entry style ps) [] (code rt ad a (entry style ps).length ++ [.ret])
    (pushed wss ++ s0) m s0 m1 hx).steps
  simp only [List.nil_append, List.length_nil, Nat.zero_add, ← List.append_assoc] at this
  rw [hP]
  exact this

/-! ### Concrete calls -/

theorem apart_of {a b : Word} {n k : Nat} (h : n ≤ (b - a).toNat ∧ k ≤ (a - b).toNat) : Apart (a, n) (b, k) := by
  intro x ⟨h1, h2⟩
  simp only [InObj] at h1 h2
  have e1 := BitVec.toNat_sub x a
  have e2 := BitVec.toNat_sub x b
  have e3 := BitVec.toNat_sub b a
  have e4 := BitVec.toNat_sub a b
  have := a.isLt
  have := b.isLt
  have := x.isLt
  omega

/-- `int f(char c, long double d, struct {…12 bytes…} s, const float, double e, int *p)`. -/
def demoParams : List Param :=
  [⟨some [0], .arith .char, true⟩, ⟨some [16], .arith .ldouble, true⟩, ⟨some [32], .agg 0 12, false⟩, ⟨none, .arith .float, true⟩,
    ⟨some [48], .arith .double, false⟩, ⟨some [56], .ptr (.arith .int), false⟩]

def demoValues : List Val :=
  [.int (-3), .fl .f80 (0x3fff8000000000000000 : BitVec 80), .int 0x5000, .fl .f32 (0x3f800000 : BitVec 32),
    .fl .f64 (0x4000000000000000 : BitVec 64), .int 0x6000]

/-- The upper bits of the words of `c`, `d` and the `float` are arbitrary. -/
def demoWords : List (List Word) :=
  [[0x1234567800abcdfd], [0x8000000000000000, 0xabcdef0000003fff], [0x5000], [0xffffffff3f800000], [0x4000000000000000], [0x6000]]

theorem demo_called : Called .prototype demoParams demoValues demoWords :=
  .cons ⟨rfl, by decide, _, rfl, rfl⟩ <| .cons ⟨rfl, _, _, rfl, by decide⟩ <| .cons ⟨by decide, rfl⟩ <|
    .cons ⟨rfl, _, rfl, by decide⟩ <| .cons ⟨rfl, rfl⟩ <| .cons ⟨by decide, rfl⟩ .nil

theorem demo_wf : ∀ p ∈ demoParams, WellFormed .prototype p := by
  intro p hp
  simp only [demoParams, List.mem_cons, List.not_mem_nil, or_false] at hp
  rcases hp with rfl | rfl | rfl | rfl | rfl | rfl <;> exact ⟨nofun, nofun, nofun⟩

theorem demo_faithful : ∀ p ∈ demoParams, Faithful .prototype p := by
  intro p hp
  simp only [demoParams, List.mem_cons, List.not_mem_nil, or_false] at hp
  rcases hp with rfl | rfl | rfl | rfl | rfl | rfl <;> (unfold Faithful; simp)

theorem demo_clean : All3 (CleanBool .prototype) demoParams demoValues demoWords :=
  .cons nofun <| .cons nofun <| .cons nofun <| .cons nofun <| .cons nofun <| .cons nofun .nil

theorem demo_storage : storage toyEnv.locals demoParams = [(0x1000, 1), (0x1010, 16), (0x1020, 12), (0x1030, 8), (0x1038, 8)] := rfl

theorem demo_apart : (storage toyEnv.locals demoParams).Pairwise Apart := by
  rw [demo_storage]
  have : ∀ l : List (Word × Nat), l.Pairwise (fun r s => r.2 ≤ (s.1 - r.1).toNat ∧ s.2 ≤ (r.1 - s.1).toNat) → l.Pairwise Apart :=
    fun l h => h.imp fun h => apart_of h
  exact this _ (by decide)

theorem demo_sources : SourcesApart toyEnv.locals demoParams demoValues demoWords := by
  refine .cons nofun <| .cons nofun <| .cons ?_ <| .cons nofun <| .cons nofun <| .cons nofun .nil
  intro g n src ht hv r hr
  cases ht; cases hv
  rw [demo_storage] at hr
  have : ∀ r ∈ ([(0x1000, 1), (0x1010, 16), (0x1020, 12), (0x1030, 8), (0x1038, 8)] : List (Word × Nat)),
      12 ≤ (r.1 - BitVec.ofInt 64 0x5000).toNat ∧ r.2 ≤ (BitVec.ofInt 64 0x5000 - r.1).toNat := by decide
  exact apart_of (this r hr)

/-- The call meets the hypotheses of `C97_parameters_partial`, with any memory. -/
example (m : Mem) : ∃ m', execs toyEnv (entry .prototype demoParams) (pushed demoWords ++ [99]) m = some ([99], m') ∧
    Received toyEnv.fp toyEnv.locals m m' demoParams demoValues :=
  let ⟨m', h1, h2, _⟩ := C97_parameters_partial toyEnv .prototype demoParams demoValues demoWords demo_called demo_wf demo_faithful
    demo_clean demo_apart demo_sources [99] m
  ⟨m', h1, h2⟩

/-- `int f(c, n) char c; int n; { return c + n; }` -/
def sumParams : List Param := [⟨some [0], .arith .char, false⟩, ⟨some [4], .arith .int, true⟩]
def sumBody : Stmt := .seq (.ret (some (.bin .add (.lval (.auto [0] (.arith .char))) (.lval (var 1)))) false) .skip

/-- Called as `f(300, 5)`. -/
theorem sum_called : Called .identifiers sumParams [.int 300, .int 5] [[0xabc0000012c], [5]] :=
  .cons ⟨rfl, by decide, _, rfl, by decide⟩ <| .cons ⟨rfl, by decide, _, rfl, by decide⟩ .nil

def sumMem : Mem := ((execs toyEnv (entry .identifiers sumParams) [5, 0xabc0000012c] (fun _ => 0)).getD ([], fun _ => 0)).2

/-- It returns 44 + 5. -/
example : ∃ P, compile int (entry .identifiers sumParams) sumBody = some P ∧ okS int false none sumBody = true ∧
    ∃ pc junk m', Steps toyEnv P ⟨0, pushed [[0xabc0000012c], [5]] ++ [], fun _ => 0⟩ ⟨pc, [49] ++ junk ++ [], m'⟩ ∧
      P[pc]? = some .ret := by
  have hsome : (compile int (entry .identifiers sumParams) sumBody).isSome = true := by decide +kernel
  obtain ⟨P, hP⟩ := Option.isSome_iff_exists.1 hsome
  have hok : okS int false none sumBody = true := by decide +kernel
  refine ⟨P, hP, hok, ?_⟩
  have hwf : ∀ p ∈ sumParams, WellFormed .identifiers p := by
    intro p hp
    simp only [sumParams, List.mem_cons, List.not_mem_nil, or_false] at hp
    rcases hp with rfl | rfl <;> exact ⟨nofun, nofun, fun _ => rfl⟩
  have hf : ∀ p ∈ sumParams, Faithful .identifiers p := by
    intro p hp
    simp only [sumParams, List.mem_cons, List.not_mem_nil, or_false] at hp
    rcases hp with rfl | rfl <;> (unfold Faithful; simp)
  have hap : (storage toyEnv.locals sumParams).Pairwise Apart := by
    have e : storage toyEnv.locals sumParams = [(0x1000, 1), (0x1004, 4)] := rfl
    rw [e]
    refine .cons ?_ (.cons nofun .nil)
    intro r hr
    cases List.mem_singleton.1 hr
    exact apart_of (by decide)
  obtain ⟨m1, hx, -, -⟩ := C97_parameters_partial toyEnv .identifiers sumParams _ _ sum_called hwf hf (.cons nofun (.cons nofun .nil))
    hap (.cons nofun (.cons nofun .nil)) [] (fun _ => 0)
  have hm1 : m1 = sumMem := by
    have hx' : execs toyEnv (entry .identifiers sumParams) [5, 0xabc0000012c] (fun _ => 0) = some ([], m1) := hx
    rw [sumMem, hx']; rfl
  obtain ⟨m', hret⟩ : ∃ m', Returns (ctxOf toyEnv) int sumBody sumMem (some (.int 49)) m' := returns_of 200 (by decide +kernel)
  obtain ⟨a, T, ad, -, -, hcode, -⟩ := compile_spec hP
  obtain ⟨pc, ws, junk, hs, h1, h2, -⟩ := C36_returns_partial toyEnv toyFP_lawful int _ P sumBody hP hok sumMem m' _ hret []
  have hws : ws = [49] := h2 _ rfl
  subst hws
  refine ⟨pc, junk, m', Steps.trans ?_ hs, h1⟩
  have := (SC.steps_prim toyEnv (entry .identifiers sumParams) (plain_entry _ _) []
    (code int ad a (entry .identifiers sumParams).length ++ [.ret]) _ _ _ _ hx).steps
  simp only [List.nil_append, List.length_nil, Nat.zero_add, ← List.append_assoc] at this
  rw [hcode, ← hm1]
  exact this

/-! ### What kefir gets wrong -/

deriving instance DecidableEq for Val

theorem lost {F : FP} {frame : Word} {m m' : Mem} {p : Param} {ps : List Param} {v u u' : Val} {vs : List Val} {o : List Nat}
    (ho : p.place = some o) (hs : ∀ g n, p.ty ≠ .agg g n) (hc : conv F p.ty v = some u)
    (hl : load p.ty none m' (offsetBy frame o) = some u') (hne : u ≠ u') : ¬ Received F frame m m' (p :: ps) (v :: vs) := by
  intro h
  cases h with
  | cons h _ =>
    have := h o ho
    unfold Holds at this
    split at this
    · rename_i e; exact hs _ _ e
    · obtain ⟨w, h1, h2⟩ := this
      rw [hc] at h1
      rw [hl] at h2
      cases h1
      cases h2
      exact hne rfl

/-- `void f(d) const long double d; {…}` called as `f(1.0L)`: the words of the value are not both moved behind the address, the
upper word of the value is taken for the address, and `d` is not set. -/
theorem C97_qualified_false :
    ∃ (p : Param) (v : Val) (ws : List Word) (m' : Mem), WellFormed .identifiers p ∧ Called .identifiers [p] [v] [ws] ∧
      execs toyEnv (entry .identifiers [p]) (pushed [ws]) (fun _ => 0) = some ([], m') ∧
      ¬ Received toyEnv.fp toyEnv.locals (fun _ => 0) m' [p] [v] ∧ m' 0x4006 ≠ 0 := by
  refine ⟨⟨some [0], .arith .ldouble, true⟩, .fl .f80 (0x3fff8000000000000000 : BitVec 80), [0x8000000000000000, 0x3fff],
    _, ⟨nofun, nofun, fun _ => rfl⟩, .cons ⟨rfl, _, _, rfl, by decide⟩ .nil, rfl, ?_, ?_⟩
  · exact lost (u := .fl .f80 (0x3fff8000000000000000 : BitVec 80)) (u' := .fl .f80 (0 : BitVec 80)) rfl nofun
      (conv_self (t := .arith .ldouble) rfl) (by decide +kernel) (by decide)
  · decide +kernel

/-- `void f(int n, const long double) {…}` called as `f(7, 1.0L)`: one word of two is dropped, so `n` becomes the upper word of
the `long double` and the 7 stays on the stack. -/
theorem C97_unnamed_false :
    ∃ (ps : List Param) (vs : List Val) (wss : List (List Word)) (m' : Mem), (∀ p ∈ ps, WellFormed .prototype p) ∧
      Called .prototype ps vs wss ∧ execs toyEnv (entry .prototype ps) (pushed wss) (fun _ => 0) = some ([7], m') ∧
      ¬ Received toyEnv.fp toyEnv.locals (fun _ => 0) m' ps vs ∧
      load (.arith .int) none m' toyEnv.locals = some (.int 0x3fff) := by
  refine ⟨[⟨some [0], .arith .int, false⟩, ⟨none, .arith .ldouble, true⟩], [.int 7, .fl .f80 (0x3fff8000000000000000 : BitVec 80)],
    [[7], [0x8000000000000000, 0x3fff]], _, ?_, .cons ⟨rfl, by decide, _, rfl, by decide⟩ (.cons ⟨rfl, _, _, rfl, by decide⟩ .nil),
    rfl, ?_, by decide +kernel⟩
  · intro p hp
    simp only [List.mem_cons, List.not_mem_nil, or_false] at hp
    rcases hp with rfl | rfl <;> exact ⟨nofun, nofun, nofun⟩
  · exact lost (u := .int 7) (u' := .int 0x3fff) rfl nofun (by decide) (by decide +kernel) (by decide)

/-- `void f(b) _Bool b; {…}` called as `f(0)` with other bits than zero in the upper half of the register: `b` becomes 1. -/
theorem C97_bool_false :
    ∃ (p : Param) (ws : List Word) (m' : Mem), WellFormed .identifiers p ∧ Faithful .identifiers p ∧
      Called .identifiers [p] [.int 0] [ws] ∧
      execs toyEnv (entry .identifiers [p]) (pushed [ws]) (fun _ => 0) = some ([], m') ∧
      ¬ Received toyEnv.fp toyEnv.locals (fun _ => 0) m' [p] [.int 0] := by
  refine ⟨⟨some [0], .arith .bool, false⟩, [0x100000000], _, ⟨nofun, nofun, fun _ => rfl⟩, by unfold Faithful; simp,
    .cons ⟨rfl, by decide, _, rfl, by decide⟩ .nil, rfl, ?_⟩
  exact lost (u := .int 0) (u' := .int 1) rfl nofun (by decide) (by decide +kernel) (by decide)

end Kefir.Entry
