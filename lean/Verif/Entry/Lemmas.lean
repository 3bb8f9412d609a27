import Verif.Entry.Model
import Verif.Expr.Props

/-! Lemmas on the entry of a function. -/

namespace Kefir.Entry
open Kefir.Types (Basic)
open Kefir.IR
open Kefir.Expr Kefir.CSpec Kefir.C17

theorem noBf (t : Ty) : bfOk t none := by intro off w h; cases h

theorem setWidth64 {w : Word} {v : Int} (h : w.setWidth 64 = BitVec.ofInt 64 v) : w = BitVec.ofInt 64 v := by
  simpa using h

/-- Only the low bytes of a word are stored. -/
theorem storeLE_low (m : Mem) (a : Word) {n : Nat} (hn : n ≤ 8) {w : Word} {v : Int}
    (h : w.setWidth (8 * n) = BitVec.ofInt (8 * n) v) : storeLE m a n w = storeLE m a n (BitVec.ofInt 64 v) := by
  rw [storeLE_eq _ _ _ hn, storeLE_eq _ _ _ hn, h, setWidth_ofInt (by omega)]

theorem storeLE_out (m : Mem) (a : Word) (n : Nat) (w x : Word) (h : ¬ InObj a n x) : storeLE m a n w x = m x := by
  simp only [storeLE, InObj] at *; rw [if_neg h]

/-- Stored and read back, an integer. -/
theorem load_storeInt {b : Basic} (hi : isInteger b = true) {v : Int} (hr : InRange b v) (m : Mem) (a w : Word)
    (hw : w.setWidth (8 * basicSize b) = BitVec.ofInt (8 * basicSize b) v) :
    load (.arith b) none (storeLE m a (basicSize b) w) a = some (.int v) := by
  have hs : basicSize b ≤ 8 := by cases b <;> simp [isInteger] at hi <;> decide
  rw [storeLE_eq _ _ _ hs, hw]
  have hg : storeGood (.arith b) = true := by cases b <;> simp [isInteger] at hi <;> rfl
  have := (store_facts (t := .arith b) (bf := none) (m := m) (a := a) (v := .int v) rfl hg (noBf _) ⟨hi, hr⟩ rfl).1
  simpa [assigned] using this

theorem store_int {b : Basic} (hi : isInteger b = true) : storeValue (.arith b) = [.store (basicSize b)] := by
  cases b <;> simp [isInteger] at hi <;> rfl

/-- Reading depends on the bytes of the object only. -/
theorem readBits_congr {m m' : Mem} {a : Word} {w n : Nat} (hw : w ≤ 8 * n)
    (h : ∀ x, InObj a n x → m' x = m x) : readBits m' a 0 w = readBits m a 0 w := by
  apply BitVec.eq_of_getLsbD_eq
  intro i hi
  rw [getLsbD_readBits, getLsbD_readBits]
  simp only [hi, decide_true, Bool.true_and, bitOf, Nat.zero_add]
  rw [h]
  simp only [InObj]
  rw [BitVec.add_comm, BitVec.add_sub_cancel, BitVec.toNat_ofNat]
  have : (i / 8) % 2 ^ 64 ≤ i / 8 := Nat.mod_le _ _
  omega

theorem load_congr {t : Ty} {m m' : Mem} {a : Word} (h : ∀ x, InObj a t.size x → m' x = m x) :
    load t none m' a = load t none m a := by
  cases t with
  | void => rfl
  | agg => rfl
  | arr => rfl
  | ptr u => simp only [load, readBits_congr (w := 64) (n := 8) (by omega) h]
  | arith b =>
    have e : ∀ f, fmtOf b = some f → f.bits ≤ 8 * basicSize b := by cases b <;> simp [fmtOf] <;> decide
    simp only [load]
    cases hf : fmtOf b with
    | some f => simp only [readBits_congr (n := basicSize b) (e f hf) h]
    | none => simp only [readBits_congr (n := basicSize b) (Nat.le_refl _) h]

/-- A `long double`, stored and read back. -/
theorem load_storeLd (m : Mem) (a w0 w1 : Word) :
    load (.arith .ldouble) none (storeLE (storeLE m a 8 w0) (a + 8) 8 w1) a = some (.fl .f80 (w1.setWidth 16 ++ w0)) := by
  simp only [load, fmtOf]
  refine congrArg some (congrArg (Val.fl .f80) ?_)
  apply BitVec.eq_of_getLsbD_eq
  intro i hi
  have hi : i < 80 := hi
  rw [storeLE_eq _ _ _ (by omega), storeLE_eq _ _ _ (by omega)]
  have hr := getLsbD_readBits (writeBits (writeBits m a 0 (8 * 8) (w0.setWidth (8 * 8))) (a + 8) 0 (8 * 8)
    (w1.setWidth (8 * 8))) a 0 80 i
  refine hr.trans ?_
  have hlt : i / 8 < 10 := by omega
  simp only [hi, decide_true, Bool.true_and, bitOf, Nat.zero_add]
  rw [bit_writeBits _ _ _ _ _ _ _ (Nat.mod_lt _ (by omega)), bit_writeBits _ _ _ _ _ _ _ (Nat.mod_lt _ (by omega))]
  have e1 : (a + BitVec.ofNat 64 (i / 8) - a).toNat = i / 8 := by
    rw [BitVec.add_comm, BitVec.add_sub_cancel, BitVec.toNat_ofNat, Nat.mod_eq_of_lt (by omega)]
  have e2 := toNat_sub8 (a + BitVec.ofNat 64 (i / 8)) a
  rw [e1] at e2
  rw [e1, e2, BitVec.getLsbD_append]
  simp only [BitVec.getLsbD_setWidth]
  by_cases h : i < 64
  · rw [if_neg (by omega), if_pos (by omega)]
    simp only [h, if_true, Nat.sub_zero]
    rw [show 8 * (i / 8) + i % 8 = i by omega]
    simp [h]
  · rw [if_pos (by omega)]
    simp only [h, if_false, Nat.sub_zero]
    have : 8 * ((i / 8 + (2 ^ 64 - 8)) % 2 ^ 64) + i % 8 = i - 64 := by omega
    rw [this]
    have h16 : i - 64 < 16 := by omega
    have h64 : i - 64 < 64 := by omega
    simp [h16, h64]

theorem storeLd_out (m : Mem) (a w0 w1 x : Word) (h : ¬ InObj a 16 x) :
    storeLE (storeLE m a 8 w0) (a + 8) 8 w1 x = m x := by
  have e := toNat_sub8 x a
  have := (x - a).isLt
  simp only [InObj] at h
  rw [storeLE_out, storeLE_out]
  · simp only [InObj]; omega
  · simp only [InObj]; omega

theorem lvalue_ok (E : Env) (offs : List Nat) (s : List Word) (m : Mem) :
    execs E (objectLvalue offs) s m = some (offsetBy E.locals offs :: s, m) := by
  simp only [objectLvalue, execs_cons, exec_getlocals, Option.bind_some, offsets_ok]

theorem xchg_word (E : Env) {q : Bool} {t : Ty} (h : t ≠ .arith .ldouble) (a w : Word) (s : List Word) (m : Mem) :
    execs E (xchgParamAddress q t) (a :: w :: s) m = some (w :: a :: s, m) := by
  have : isLongDouble q t = false := by simp [isLongDouble, h]
  simp [xchgParamAddress, this, execs_cons, execs_nil, exec_xchg1]

theorem xchg_ext (E : Env) (a w0 w1 : Word) (s : List Word) (m : Mem) :
    execs E (xchgParamAddress false (.arith .ldouble)) (a :: w0 :: w1 :: s) m = some (w0 :: w1 :: a :: s, m) := by
  have : isLongDouble false (.arith .ldouble) = true := by decide
  simp [xchgParamAddress, this, execs_cons, execs_nil, exec_xchg1, exec_xchg2]

/-! ### Storing one value -/

/-- The outcome of storing an argument at `a`. -/
def Stored (E : Env) (is : List Instr) (ws : List Word) (t : Ty) (a : Word) (v : Val) : Prop :=
  ∀ (s : List Word) (m : Mem), ∃ m', execs E is (ws ++ s) m = some (s, m') ∧ Holds E.fp m m' a t v ∧
    ∀ x, ¬ InObj a t.size x → m' x = m x

/-- Integers, by a prototype. -/
theorem stored_int (E : Env) (offs : List Nat) (q : Bool) {b : Basic} (hi : isInteger b = true) {v : Int} (hr : InRange b v)
    {w : Word} (hw : w.setWidth (8 * basicSize b) = BitVec.ofInt (8 * basicSize b) v) :
    Stored E (objectLvalue offs ++ xchgParamAddress q (.arith b) ++ storeValue (.arith b)) [w] (.arith b)
      (offsetBy E.locals offs) (.int v) := by
  intro s m
  have hne : Ty.arith b ≠ .arith .ldouble := by rintro ⟨⟩; cases hi
  refine ⟨storeLE m (offsetBy E.locals offs) (basicSize b) w, ?_, ?_, fun x hx => storeLE_out _ _ _ _ _ hx⟩
  · rw [execs_append, execs_append, lvalue_ok]
    simp only [Option.bind_some, List.cons_append, List.nil_append, xchg_word E hne, store_int hi, execs_cons, execs_nil,
      exec_store]
  · refine ⟨.int v, ?_, load_storeInt hi hr _ _ _ hw⟩
    exact conv_self (t := .arith b) (v := .int v) ⟨hi, hr⟩

theorem stored_ptr (E : Env) (offs : List Nat) (q : Bool) (u : Ty) {v : Int} (hv : 0 ≤ v ∧ v < 2 ^ 64) :
    Stored E (objectLvalue offs ++ xchgParamAddress q (.ptr u) ++ storeValue (.ptr u)) [BitVec.ofInt 64 v] (.ptr u)
      (offsetBy E.locals offs) (.int v) := by
  intro s m
  refine ⟨storeLE m (offsetBy E.locals offs) 8 (BitVec.ofInt 64 v), ?_, ?_, fun x hx => storeLE_out _ _ _ _ _ hx⟩
  · rw [execs_append, execs_append, lvalue_ok]
    simp only [Option.bind_some, List.cons_append, List.nil_append, xchg_word E (show Ty.ptr u ≠ .arith .ldouble from nofun),
      storeValue, execs_cons, execs_nil, exec_store]
  · refine ⟨.int v, conv_self (t := .ptr u) (v := .int v) hv, ?_⟩
    rw [storeLE_eq _ _ _ (by decide)]
    have := (store_facts (t := .ptr u) (bf := none) (v := .int v) (m := m) (a := offsetBy E.locals offs) rfl rfl (noBf _) hv rfl).1
    simpa [assigned] using this

theorem stored_agg (E : Env) (offs : List Nat) (q : Bool) (g n : Nat) {v : Int} (s : List Word) (m : Mem)
    (hap : Apart (BitVec.ofInt 64 v, n) (offsetBy E.locals offs, n)) :
    ∃ m', execs E (objectLvalue offs ++ xchgParamAddress q (.agg g n) ++ storeValue (.agg g n)) ([BitVec.ofInt 64 v] ++ s) m =
      some (s, m') ∧ Holds E.fp m m' (offsetBy E.locals offs) (.agg g n) (.int v) ∧
      ∀ x, ¬ InObj (offsetBy E.locals offs) n x → m' x = m x := by
  have hno : NoOverlap (offsetBy E.locals offs) (BitVec.ofInt 64 v) n := by
    rcases Nat.eq_zero_or_pos n with rfl | hn
    · exact .inr ⟨Nat.zero_le _, Nat.zero_le _⟩
    · have self : ∀ a : Word, InObj a n a := by intro a; simp [InObj, hn]
      have h1 := hap (offsetBy E.locals offs)
      have h2 := hap (BitVec.ofInt 64 v)
      simp only [self, and_true, true_and] at h1 h2
      simp only [InObj] at h1 h2
      exact .inr ⟨by omega, by omega⟩
  have hc := bcopy_copyBytes (m := m) hno
  refine ⟨copyBytes m (offsetBy E.locals offs) (BitVec.ofInt 64 v) n, ?_, ?_, ?_⟩
  · rw [execs_append, execs_append, lvalue_ok]
    simp only [Option.bind_some, List.cons_append, List.nil_append, xchg_word E (show Ty.agg g n ≠ .arith .ldouble from nofun),
      storeValue, Ty.size, execs_cons, execs_nil, exec_bcopy, hc]
  · intro i hi
    simp only [copyBytes]
    have e : offsetBy E.locals offs + BitVec.ofNat 64 i - offsetBy E.locals offs = BitVec.ofNat 64 i := by
      rw [BitVec.add_comm, BitVec.add_sub_cancel]
    rw [e, if_pos]
    rw [BitVec.toNat_ofNat]
    exact Nat.lt_of_le_of_lt (Nat.mod_le _ _) hi
  · intro x hx
    simp only [copyBytes]
    simp only [InObj] at hx
    rw [if_neg hx]

theorem stored_float (E : Env) (offs : List Nat) (q : Bool) {x : BitVec 32} {w : Word} (hw : w.setWidth 32 = x) :
    Stored E (objectLvalue offs ++ xchgParamAddress q (.arith .float) ++ storeValue (.arith .float)) [w] (.arith .float)
      (offsetBy E.locals offs) (.fl .f32 x) := by
  intro s m
  refine ⟨storeLE m (offsetBy E.locals offs) 4 w, ?_, ?_, fun x hx => storeLE_out _ _ _ _ _ hx⟩
  · rw [execs_append, execs_append, lvalue_ok]
    simp only [Option.bind_some, List.cons_append, List.nil_append,
      xchg_word E (show Ty.arith Basic.float ≠ .arith .ldouble from nofun), storeValue, execs_cons, execs_nil, exec_store]
  · refine ⟨.fl .f32 x, conv_self (t := .arith .float) (v := .fl .f32 x) rfl, ?_⟩
    rw [storeLE_eq _ _ _ (by decide)]
    have := (store_facts (t := .arith .float) (bf := none) (v := .fl .f32 x) (m := m) (a := offsetBy E.locals offs) rfl rfl
      (noBf _) rfl rfl).1
    subst hw
    exact this

theorem stored_double (E : Env) (offs : List Nat) (q : Bool) (x : BitVec 64) :
    Stored E (objectLvalue offs ++ xchgParamAddress q (.arith .double) ++ storeValue (.arith .double)) [x] (.arith .double)
      (offsetBy E.locals offs) (.fl .f64 x) := by
  intro s m
  refine ⟨storeLE m (offsetBy E.locals offs) 8 x, ?_, ?_, fun x hx => storeLE_out _ _ _ _ _ hx⟩
  · rw [execs_append, execs_append, lvalue_ok]
    simp only [Option.bind_some, List.cons_append, List.nil_append,
      xchg_word E (show Ty.arith Basic.double ≠ .arith .ldouble from nofun), storeValue, execs_cons, execs_nil, exec_store]
  · refine ⟨.fl .f64 x, conv_self (t := .arith .double) (v := .fl .f64 x) rfl, ?_⟩
    rw [storeLE_eq _ _ _ (by decide)]
    have := (store_facts (t := .arith .double) (bf := none) (v := .fl .f64 x) (m := m) (a := offsetBy E.locals offs) rfl rfl
      (noBf _) rfl rfl).1
    simpa [assigned] using this

theorem stored_ldouble (E : Env) (offs : List Nat) {x : BitVec 80} {w0 w1 : Word} (hw : w1.setWidth 16 ++ w0 = x) :
    Stored E (objectLvalue offs ++ xchgParamAddress false (.arith .ldouble) ++ storeValue (.arith .ldouble)) [w0, w1]
      (.arith .ldouble) (offsetBy E.locals offs) (.fl .f80 x) := by
  intro s m
  refine ⟨storeLE (storeLE m (offsetBy E.locals offs) 8 w0) (offsetBy E.locals offs + 8) 8 w1, ?_, ?_,
    fun x hx => storeLd_out _ _ _ _ _ hx⟩
  · rw [execs_append, execs_append, lvalue_ok]
    simp only [Option.bind_some, List.cons_append, List.nil_append, xchg_ext, storeValue, execs_cons, execs_nil, exec_storeld]
  · exact ⟨.fl .f80 x, conv_self (t := .arith .ldouble) (v := .fl .f80 x) rfl, hw ▸ load_storeLd _ _ _ _⟩

/-! ### Parameters of an identifier list -/

theorem promotion_eq (b : Basic) :
    (Basic.defaultArgPromotion b).getD b = if b = .float then .double else promoteW b none := by
  cases b <;> rfl

theorem low_congr {w : Word} {v : Int} (h : w.setWidth (8 * 4) = BitVec.ofInt (8 * 4) v) (n : Nat) (hn : n ∣ 2 ^ 32) :
    w.toInt % n = v % n := by
  have h1 := congrArg BitVec.toNat h
  rw [BitVec.toNat_setWidth, BitVec.toNat_ofInt] at h1
  have h2 : w.toInt % 2 ^ 32 = v % 2 ^ 32 := by
    rw [BitVec.toInt_eq_toNat_cond]
    split <;> omega
  have hd : (n : Int) ∣ 2 ^ 32 := by exact_mod_cast hn
  rw [← Int.emod_emod_of_dvd w.toInt hd, h2, Int.emod_emod_of_dvd v hd]

/-- The word after the conversion from the promoted type. -/
theorem typeconv_low (E : Env) {b : Basic} (hi : isInteger b = true) {v : Int} {w : Word} (hv : InRange (promoteW b none) v)
    (hw : w.setWidth (8 * basicSize (promoteW b none)) = BitVec.ofInt (8 * basicSize (promoteW b none)) v)
    (hb : b = .bool → w = BitVec.ofInt 64 v) :
    ∃ w' : Word, w'.setWidth (8 * basicSize b) = BitVec.ofInt (8 * basicSize b) (wrap b v) ∧
      ∀ s m, execs E (typeconv (.arith (promoteW b none)) (.arith b)) (w :: s) m = some (w' :: s, m) := by
  by_cases hp : promoteW b none = b
  · rw [hp] at hv hw
    refine ⟨w, ?_, fun s m => by rw [hp]; simp [typeconv, execs_nil]⟩
    rw [hw, wrap_of_inRange hv hi]
  · have hpi : promoteW b none = .int := by cases b <;> first | rfl | exact absurd rfl hp
    have hcode : typeconv (.arith (promoteW b none)) (.arith b) = reduceTo b := by
      cases b <;> first | rfl | exact absurd rfl hp
    rw [hpi] at hv hw
    have hsz : 8 * basicSize b ≤ 64 := by cases b <;> simp [isInteger] at hi <;> decide
    refine ⟨BitVec.ofInt 64 (wrap b v), setWidth_ofInt hsz _, fun s m => ?_⟩
    rw [hcode]
    by_cases hbool : b = .bool
    · rw [hb hbool]
      refine reduceTo_ok E b hi v (fun _ => ?_) s m
      have : (-2147483648 : Int) ≤ v ∧ v ≤ 2147483647 := hv
      constructor <;> omega
    · have e : w = BitVec.ofInt 64 w.toInt := by simp
      have := reduceTo_ok E b hi w.toInt (fun h => absurd h hbool) s m
      rw [← e] at this
      rw [this, wrap_congr hbool (w := v)]
      have hd : 2 ^ width b ∣ 2 ^ 32 := by
        cases b <;> first | exact absurd rfl hp | (simp [isInteger] at hi; done) | decide
      have := low_congr hw (2 ^ width b) hd
      simpa using this

theorem stored_promoted (E : Env) (offs : List Nat) (q : Bool) {b : Basic} (hi : isInteger b = true) {v : Int} {w : Word}
    (hv : InRange (promoteW b none) v)
    (hw : w.setWidth (8 * basicSize (promoteW b none)) = BitVec.ofInt (8 * basicSize (promoteW b none)) v)
    (hb : b = .bool → w = BitVec.ofInt 64 v) :
    Stored E (objectLvalue offs ++ xchgParamAddress q (.arith b) ++ typeconv (.arith (promoteW b none)) (.arith b) ++
      storeValue (.arith b)) [w] (.arith b) (offsetBy E.locals offs) (.int v) := by
  intro s m
  obtain ⟨w', hw', hx⟩ := typeconv_low E hi hv hw hb
  have hne : Ty.arith b ≠ .arith .ldouble := by rintro ⟨⟩; cases hi
  refine ⟨storeLE m (offsetBy E.locals offs) (basicSize b) w', ?_, ?_, fun x hx => storeLE_out _ _ _ _ _ hx⟩
  · rw [execs_append, execs_append, execs_append, lvalue_ok]
    simp only [Option.bind_some, List.cons_append, List.nil_append, xchg_word E hne, hx, store_int hi, execs_cons, execs_nil,
      exec_store]
  · refine ⟨.int (wrap b v), ?_, load_storeInt hi (wrap_inRange b hi v) _ _ _ hw'⟩
    have : fmtOf b = none := by cases b <;> simp [isInteger] at hi <;> rfl
    simp only [conv, this]

theorem stored_promotedFloat (E : Env) (offs : List Nat) (q : Bool) (x : BitVec 64) :
    Stored E (objectLvalue offs ++ xchgParamAddress q (.arith .float) ++ typeconv (.arith .double) (.arith .float) ++
      storeValue (.arith .float)) [x] (.arith .float) (offsetBy E.locals offs) (.fl .f64 x) := by
  intro s m
  obtain ⟨ws', ⟨w', rfl, hw'⟩, hx⟩ := fcf_ok E (f := .f64) (g := .f32) (by decide) (x := x) (ws := [x]) rfl
  have hcode : typeconv (.arith .double) (.arith .float) = [.fcf .f64 .f32] := rfl
  have hx' : execs E [.fcf .f64 .f32] (x :: offsetBy E.locals offs :: s) m = some (w' :: offsetBy E.locals offs :: s, m) :=
    hx (offsetBy E.locals offs :: s) m
  refine ⟨storeLE m (offsetBy E.locals offs) 4 w', ?_, ?_, fun x hx => storeLE_out _ _ _ _ _ hx⟩
  · rw [execs_append, execs_append, execs_append, lvalue_ok, hcode]
    simp only [Option.bind_some, List.cons_append, List.nil_append,
      xchg_word E (show Ty.arith Basic.float ≠ .arith .ldouble from nofun), hx']
    simp only [storeValue, execs_cons, execs_nil, exec_store, Option.bind_some]
  · refine ⟨.fl .f32 (E.fp.cvt .f64 .f32 x), rfl, ?_⟩
    rw [storeLE_eq _ _ _ (by decide)]
    have := (store_facts (t := .arith .float) (bf := none) (v := .fl .f32 (E.fp.cvt .f64 .f32 x)) (m := m)
      (a := offsetBy E.locals offs) rfl rfl (noBf _) rfl rfl).1
    have e : w'.setWidth (8 * 4) = E.fp.cvt .f64 .f32 x := hw'
    rw [e]
    exact this

/-! ### One parameter -/

/-- What the code for one parameter does. -/
def Done (E : Env) (is : List Instr) (p : Param) (v : Val) (ws : List Word) : Prop :=
  ∀ (s : List Word) (m : Mem),
    (∀ g n src, p.ty = .agg g n → v = .int src → ∀ r ∈ storage E.locals [p], Apart (BitVec.ofInt 64 src, n) r) →
    ∃ m', execs E is (ws ++ s) m = some (s, m') ∧ (∀ o, p.place = some o → Holds E.fp m m' (offsetBy E.locals o) p.ty v) ∧
      ∀ x, (∀ r ∈ storage E.locals [p], ¬ InObj r.1 r.2 x) → m' x = m x

theorem storage_some (frame : Word) (o : List Nat) (t : Ty) (q : Bool) :
    storage frame [⟨some o, t, q⟩] = [(offsetBy frame o, t.size)] := rfl

theorem storage_none (frame : Word) (t : Ty) (q : Bool) : storage frame [⟨none, t, q⟩] = [] := rfl

theorem mem_storage (frame : Word) (o : List Nat) (t : Ty) (q : Bool) :
    (offsetBy frame o, t.size) ∈ storage frame [⟨some o, t, q⟩] := by
  rw [storage_some]; exact List.mem_singleton.2 rfl

theorem holds_of_place {F : FP} {frame : Word} {m m' : Mem} {o : List Nat} {t : Ty} {v : Val} {p : Param}
    (hp : p.place = some o) (ht : p.ty = t) (h : Holds F m m' (offsetBy frame o) t v) :
    ∀ o', p.place = some o' → Holds F m m' (offsetBy frame o') p.ty v := by
  intro o' ho
  rw [hp] at ho
  cases ho
  rw [ht]
  exact h

theorem done_of_stored {E : Env} {is : List Instr} {o : List Nat} {t : Ty} {q : Bool} {v : Val} {ws : List Word}
    (h : Stored E is ws t (offsetBy E.locals o) v) : Done E is ⟨some o, t, q⟩ v ws := by
  intro s m _
  obtain ⟨m', h1, h2, h3⟩ := h s m
  exact ⟨m', h1, holds_of_place rfl rfl h2, fun x hx => h3 x (hx (offsetBy E.locals o, t.size) (mem_storage _ _ _ _))⟩

theorem done_agg {E : Env} {o : List Nat} {g n : Nat} {q q' : Bool} {v : Int} :
    Done E (objectLvalue o ++ xchgParamAddress q (.agg g n) ++ storeValue (.agg g n)) ⟨some o, .agg g n, q'⟩ (.int v)
      [BitVec.ofInt 64 v] := by
  intro s m hap
  obtain ⟨m', h1, h2, h3⟩ := stored_agg E o q g n (v := v) s m
    (hap g n v rfl rfl (offsetBy E.locals o, n) (mem_storage _ _ _ _))
  exact ⟨m', h1, holds_of_place rfl rfl h2, fun x hx => h3 x (hx (offsetBy E.locals o, n) (mem_storage _ _ _ _))⟩

theorem done_void (E : Env) (q : Bool) (v : Val) (t : Ty) : Done E [] ⟨none, t, q⟩ v [] := by
  intro s m _
  exact ⟨m, by simp [execs_nil], nofun, fun _ _ => rfl⟩

theorem done_pop1 (E : Env) (q : Bool) (v : Val) (t : Ty) (w : Word) : Done E [.pop] ⟨none, t, q⟩ v [w] := by
  intro s m _
  exact ⟨m, rfl, nofun, fun _ _ => rfl⟩

theorem done_pop2 (E : Env) (q : Bool) (v : Val) (t : Ty) (w w' : Word) : Done E [.pop, .pop] ⟨none, t, q⟩ v [w, w'] := by
  intro s m _
  exact ⟨m, rfl, nofun, fun _ _ => rfl⟩

end Kefir.Entry
