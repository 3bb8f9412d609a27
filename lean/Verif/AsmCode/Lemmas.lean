import Verif.AsmData.Render
import Verif.AsmCode.Model

/-! # Assembly text of code: entries -/

namespace Kefir.AsmCode
open Kefir.StaticData Kefir.AsmData

/-! ### Routines -/

theorem findHandler_none {op : Nat} : {l : List (Nat × String)} → (∀ p ∈ l, p.1 ≠ op) → findHandler op l = none
  | [], _ => rfl
  | (o, h) :: l, hp => by
    rw [findHandler, if_neg (hp (o, h) List.mem_cons_self), findHandler_none (fun p m => hp p (List.mem_cons_of_mem _ m))]

theorem lookup_none {op : Nat} : {l : List (Nat × String)} → (∀ p ∈ l, p.1 ≠ op) → l.lookup op = none
  | [], _ => rfl
  | (o, h) :: l, hp => by
    have : (op == o) = false := by
      have := hp (o, h) List.mem_cons_self
      simp only [ne_eq] at this
      simp [Ne.symm this]
    rw [List.lookup, this]
    exact lookup_none (fun p m => hp p (List.mem_cons_of_mem _ m))

/-- The table of the code generator and that of the run-time agree. -/
theorem handler_routine (op : Nat) : iropcodeHandler op = routine op := by
  by_cases h : op < 256
  · have : ∀ o : Fin 256, iropcodeHandler o = routine o := by decide +kernel
    exact this ⟨op, h⟩
  · have h1 : ∀ p ∈ opcodeHandlers, p.1 < 256 := by decide +kernel
    have h2 : ∀ p ∈ routines, p.1 < 256 := by decide +kernel
    rw [iropcodeHandler, routine, findHandler_none, lookup_none]
    · intro p hp; have := h2 p hp; omega
    · intro p hp; have := h1 p hp; omega

theorem routine_name {op : Nat} {r : String} (h : routine op = some r) : isName r.toList = true := by
  by_cases ho : op < 256
  · have : ∀ o : Fin 256, ∀ r ∈ routine o, isName r.toList = true := by decide +kernel
    exact this ⟨op, ho⟩ r h
  · have h2 : ∀ p ∈ routines, p.1 < 256 := by decide +kernel
    rw [routine, lookup_none (fun p hp => by have := h2 p hp; omega)] at h
    cases h

/-! ### Names -/

theorem decS_eq (n : Nat) : decS n = toString n := by rw [decS, dec_repr]; rfl

theorem isName_append {a b : List Char} (ha : isName a = true) (hb : b.all wordChar = true) : isName (a ++ b) = true := by
  cases a with
  | nil => simp [isName] at ha
  | cons c cs =>
    simp only [List.cons_append, isName, List.all_append, Bool.and_eq_true] at ha ⊢
    exact ⟨ha.1, ha.2, hb⟩

theorem name_all {a : List Char} (ha : isName a = true) : a.all wordChar = true := (name_word ha).2

theorem toString_word (n : Nat) : (toString n).toList.all wordChar = true := by
  rw [← decS_eq, decS, String.toList_ofList]
  exact (dec_facts n).1

/-! ### Bytes -/

theorem le8_mod (v : Nat) : le 8 (v % 2 ^ 64) = le 8 v := by
  simp only [le, List.range, List.range.loop, List.map_cons, List.map_nil]
  congr 1
  · congr 1; omega
  congr 1
  · congr 1; omega
  congr 1
  · congr 1; omega
  congr 1
  · congr 1; omega
  congr 1
  · congr 1; omega
  congr 1
  · congr 1; omega
  congr 1
  · congr 1; omega
  congr 1
  congr 1; omega

theorem le4_le4 (v : Nat) : le 4 (v % 2 ^ 32) ++ le 4 (v / 2 ^ 32 % 2 ^ 32) = le 8 v := by
  simp only [le, List.range, List.range.loop, List.map_cons, List.map_nil, List.cons_append, List.nil_append]
  congr 1
  · congr 1; omega
  congr 1
  · congr 1; omega
  congr 1
  · congr 1; omega
  congr 1
  · congr 1; omega
  congr 1
  · congr 1; omega
  congr 1
  · congr 1; omega
  congr 1
  · congr 1; omega
  congr 1
  congr 1; omega

/-! ### Calls and the bytes they stand for -/

/-- The calls are well-formed and stand for the bytes. -/
def Emits (cs : List Call) (cells : List Cell) : Prop :=
  (∀ c ∈ cs, callOK c) ∧ cs.flatMap callItems = cells.map .cell

theorem Emits.append {a b : List Call} {x y : List Cell} (ha : Emits a x) (hb : Emits b y) : Emits (a ++ b) (x ++ y) := by
  refine ⟨fun c hc => ?_, ?_⟩
  · rcases List.mem_append.mp hc with h | h
    · exact ha.1 c h
    · exact hb.1 c h
  · rw [List.flatMap_append, ha.2, hb.2, List.map_append]

theorem Emits.nil : Emits [] [] := ⟨by simp, rfl⟩

/-- An operand of eight bytes. -/
def Opnd (a : Arg) (bs : List Cell) : Prop := argOK .quad a ∧ (argCells 8 a).map named = bs

theorem opnd_name {s : String} (h : isName s.toList = true) : Opnd (nameArg s) (addressBytes (.symbol s) 0) := by
  exact ⟨⟨rfl, h⟩, (named_address (.symbol s) 0).trans
    (congrArg (fun x => addressBytes (.symbol x) 0) String.ofList_toList)⟩

theorem opnd_dec (v : Nat) : Opnd (.dec (v % 2 ^ 64)) (le 8 v) := by
  refine ⟨by simp [argOK], ?_⟩
  rw [argCells, le_directive, Nat.mod_mod, le8_mod]

theorem opnd_zero : Opnd zeroArg (le 8 0) := opnd_dec 0

theorem opnd_hex (v : Nat) : Opnd (.hex 16 (v % 2 ^ 64)) (le 8 v) := by
  refine ⟨⟨by simp, by decide, by have := Nat.mod_lt v (show 0 < 2 ^ 64 by decide); omega⟩, ?_⟩
  rw [argCells, le_directive, Nat.mod_mod, le8_mod]

theorem signed_mod (v : Nat) : (signed v % 2 ^ 64).toNat = v % 2 ^ 64 := by
  unfold signed
  simp only
  split <;> omega

theorem opnd_int (v : Nat) : Opnd (.int (signed v)) (le 8 v) := by
  refine ⟨by simp [argOK], ?_⟩
  rw [argCells, le_named, signed_mod, le8_mod]

theorem opnd_sum {s : String} (h : isName s.toList = true) {v : Nat} : Opnd (.sum s.toList v) (toLabel s v) := by
  exact ⟨⟨rfl, h⟩, (named_address (.symbol (String.ofList s.toList)) (v : Int)).trans
    (congrArg (fun x => addressBytes (.symbol x) (v : Int)) (String.ofList_toList.trans String.ofList_toList))⟩

theorem raw_items (w : Width) (as : List Arg) :
    callItems (.raw w as) = ((as.flatMap (argCells (widthOf w))).map named).map .cell := by
  rw [List.map_map]; rfl

theorem emits_quad {s : String} (h : isName s.toList = true) {a : Arg} {bs : List Cell} (ha : Opnd a bs) :
    Emits [quad (nameArg s) a] (addressBytes (.symbol s) 0 ++ bs) := by
  have hs := opnd_name h
  refine ⟨?_, ?_⟩
  · intro c hc
    obtain rfl := List.mem_singleton.mp hc
    intro x hx
    rcases List.mem_cons.mp hx with rfl | hx
    · exact hs.1
    · obtain rfl := List.mem_singleton.mp hx
      exact ha.1
  · rw [List.flatMap_cons, List.flatMap_nil, List.append_nil]
    unfold quad
    rw [raw_items]
    show ((argCells 8 (nameArg s) ++ (argCells 8 a ++ [])).map named).map Item.cell = _
    rw [List.append_nil, List.map_append, hs.2, ha.2]

theorem emits_words {s : String} (h : isName s.toList = true) {a b : Arg} {x y : List Cell}
    (ha : argOK .double a) (hb : argOK .double b) (hx : (argCells 4 a).map named = x) (hy : (argCells 4 b).map named = y) :
    Emits [.raw .quad [nameArg s], .raw .double [a, b]] (addressBytes (.symbol s) 0 ++ (x ++ y)) := by
  have hs := opnd_name h
  refine ⟨?_, ?_⟩
  · intro c hc
    rcases List.mem_cons.mp hc with rfl | hc
    · intro z hz
      obtain rfl := List.mem_singleton.mp hz
      exact hs.1
    · obtain rfl := List.mem_singleton.mp hc
      intro z hz
      rcases List.mem_cons.mp hz with rfl | hz
      · exact ha
      · obtain rfl := List.mem_singleton.mp hz
        exact hb
  · rw [List.flatMap_cons, List.flatMap_cons, List.flatMap_nil, List.append_nil, raw_items, raw_items]
    show ((argCells 8 (nameArg s) ++ []).map named).map Item.cell ++
      ((argCells 4 a ++ (argCells 4 b ++ [])).map named).map Item.cell = _
    rw [List.append_nil, List.append_nil, hs.2, List.map_append, hx, hy, List.map_append, List.map_append, List.map_append]

end Kefir.AsmCode
