import Verif.AsmData.Sim
import Mathlib.Data.List.Forall2
import Verif.StaticData.Props

/-! # Properties of the assembly text of data (C93) -/

namespace Kefir.AsmData
open Kefir.StaticData Kefir.Layout Kefir.Abi

/-! ### Lemmas -/

/-- A literal whose elements fit its elements' width. -/
def LiteralOK (l : Literal) : Prop := (l.width = 1 ∨ l.width = 2 ∨ l.width = 4) ∧ ∀ e ∈ l.elements, e < 256 ^ l.width

/-- An object of the program that the compiler has as `x`. -/
structure Represents (x : Datum) (o : Obj) : Prop where
  name : o.name = x.name
  threadLocal : o.threadLocal = x.threadLocal
  hasValues : o.hasValues = x.data.defined
  alignment : o.alignment = totalAlignment x.layouts
  image : staticData x.data x.types x.layouts = .ok o.image

/-- Names are names, bytes are bytes. -/
def DatumOK (x : Datum) : Prop := isName x.name.toList = true ∧ dataOK x.data

theorem object_calls {x : Datum} {o : Obj} (hx : DatumOK x) (h : Represents x o) :
    ∃ cs, staticDataC x.data x.types x.layouts x.name.toList = .ok cs ∧ (∀ c ∈ cs, callOK c) ∧
      cs.flatMap callItems = objectItems o.name o.alignment o.image := by
  rcases staticDataC_sim hx.2 x.types x.layouts hx.1 with ⟨cs, img, h1, h2, h3, h4⟩ | ⟨e, _, h2⟩
  · refine ⟨cs, h1, h3, ?_⟩
    rw [h.image] at h2
    injection h2 with h2
    rw [h4, String.ofList_toList, h.name, h.alignment, h2]
  · rw [h.image] at h2; cases h2

theorem objects_calls : {xs : List Datum} → {os : List Obj} → (∀ x ∈ xs, DatumOK x) → List.Forall₂ Represents xs os →
    ∃ cs, objectCalls xs = .ok cs ∧ (∀ c ∈ cs, callOK c) ∧
      cs.flatMap callItems = os.flatMap fun o => objectItems o.name o.alignment o.image
  | _, _, _, .nil => ⟨[], rfl, by simp, rfl⟩
  | x :: xs, o :: os, hx, .cons h hs => by
    obtain ⟨cs, h1, h2, h3⟩ := object_calls (hx x List.mem_cons_self) h
    obtain ⟨cs', i1, i2, i3⟩ := objects_calls (fun y hy => hx y (List.mem_cons_of_mem _ hy)) hs
    refine ⟨cs ++ cs', ?_, ?_, ?_⟩
    · simp only [objectCalls, h1, i1]
    · intro c hc
      rcases List.mem_append.mp hc with hc | hc
      · exact h2 c hc
      · exact i2 c hc
    · rw [List.flatMap_append, h3, i3, List.flatMap_cons]

theorem filter_represents (t d : Bool) : {xs : List Datum} → {os : List Obj} → List.Forall₂ Represents xs os →
    List.Forall₂ Represents (xs.filter fun x => x.threadLocal == t && x.data.defined == d)
      (os.filter fun o => o.threadLocal == t && o.hasValues == d)
  | _, _, .nil => .nil
  | x :: xs, o :: os, .cons h hs => by
    have ih := filter_represents t d hs
    simp only [List.filter_cons, h.threadLocal, h.hasValues]
    split
    · exact .cons h ih
    · exact ih

theorem storage_calls (t d : Bool) {sect : String} (hs : isName sect.toList = true) {xs : List Datum} {os : List Obj}
    (hx : ∀ x ∈ xs, DatumOK x) (h : List.Forall₂ Represents xs os) :
    ∃ cs, storageCalls xs t d sect.toList = .ok cs ∧ (∀ c ∈ cs, callOK c) ∧
      cs.flatMap callItems = sectionItems sect (os.filter fun o => o.threadLocal == t && o.hasValues == d) := by
  have hf := filter_represents t d h
  have hx' : ∀ x ∈ xs.filter fun x => x.threadLocal == t && x.data.defined == d, DatumOK x :=
    fun x hm => hx x (List.mem_filter.mp hm).1
  unfold storageCalls sectionItems
  revert hf hx'
  generalize (xs.filter fun x => x.threadLocal == t && x.data.defined == d) = xs'
  generalize (os.filter fun o => o.threadLocal == t && o.hasValues == d) = os'
  intro hf hx'
  cases hf with
  | nil => exact ⟨[], rfl, by simp, rfl⟩
  | cons h1 h2 =>
    obtain ⟨cs, i1, i2, i3⟩ := objects_calls hx' (.cons h1 h2)
    refine ⟨.sect sect.toList :: cs, ?_, ?_, ?_⟩
    · simp only [i1]
    · intro c hc
      rcases List.mem_cons.mp hc with rfl | hc
      · exact hs
      · exact i2 c hc
    · rw [List.flatMap_cons, i3]
      simp [callItems]

theorem name_literal (id : Nat) :
    String.ofList ("__kefirrt_string_literal".toList ++ dec id) = literalName id := by
  rw [String.ofList_append, dec_repr, String.ofList_toList]
  rfl

theorem le_one {b : Nat} (h : b < 256) : le 1 b = [.byte b] := by
  simp [le, List.range_succ]; exact h

theorem named_le (n v : Nat) : (le n v).map named = le n v := by
  unfold le; rw [List.map_map]; rfl

theorem dec_call (w : Width) (hw : w ≠ .ascii) (es : List Nat) : callOK (.raw w (es.map .dec)) := by
  cases w <;> first
    | exact absurd rfl hw
    | (intro a ha; obtain ⟨e, _, rfl⟩ := List.mem_map.mp ha; exact hw)

theorem dec_items (w : Width) (es : List Nat) (h : ∀ e ∈ es, e < 256 ^ widthOf w) :
    callItems (.raw w (es.map .dec)) = (es.flatMap fun e => le (widthOf w) e).map .cell := by
  show ((es.map Arg.dec).flatMap (argCells (widthOf w))).map (fun x => Item.cell (named x)) = _
  induction es with
  | nil => rfl
  | cons e es ih =>
    rw [List.map_cons, List.flatMap_cons, List.map_append, ih (fun x hx => h x (List.mem_cons_of_mem _ hx)),
      List.flatMap_cons, List.map_append]
    congr 1
    have : e % 2 ^ (8 * widthOf w) = e := by
      apply Nat.mod_eq_of_lt
      rw [Nat.pow_mul]
      exact h e List.mem_cons_self
    show (directive (widthOf w) e).map (fun x => Item.cell (named x)) = _
    unfold directive
    rw [this]
    conv => rhs; rw [← named_le]
    rw [List.map_map]
    rfl

theorem literal_calls {l : Literal} (h : LiteralOK l) :
    (∀ c ∈ literalCalls l, callOK c) ∧ (literalCalls l).flatMap callItems = literalItems l := by
  obtain ⟨hw, he⟩ := h
  have key : ∀ c, callOK c → callItems c = (l.elements.flatMap fun e => le l.width e).map .cell →
      (∀ x ∈ [Call.label ("__kefirrt_string_literal".toList ++ dec l.id), c], callOK x) ∧
      [Call.label ("__kefirrt_string_literal".toList ++ dec l.id), c].flatMap callItems = literalItems l := by
    intro c hc hi
    refine ⟨?_, ?_⟩
    · intro x hx
      simp only [List.mem_cons, List.not_mem_nil, or_false] at hx
      rcases hx with rfl | rfl
      · exact literal_name l.id
      · exact hc
    · rw [List.flatMap_cons, List.flatMap_cons, hi]
      show [Item.label _] ++ _ = _
      rw [name_literal]
      simp [literalItems]
  unfold literalCalls
  apply key
  · rcases hw with hw | hw | hw
    · rw [if_pos hw]
      exact ⟨_, rfl, fun b hb => by have := he b hb; rw [hw] at this; exact this⟩
    · rw [if_neg (by omega), if_pos hw]
      exact dec_call _ (by decide) _
    · rw [if_neg (by omega), if_neg (by omega)]
      exact dec_call _ (by decide) _
  · rcases hw with hw | hw | hw
    · rw [if_pos hw, hw]
      have he' : ∀ b ∈ l.elements, b < 256 := fun b hb => by have := he b hb; rw [hw] at this; exact this
      show (([Arg.str l.elements]).flatMap (argCells 1)).map (fun x => Item.cell (named x)) = _
      rw [List.flatMap_cons, List.flatMap_nil, List.append_nil]
      show (l.elements.map Cell.byte).map _ = _
      revert he'
      generalize l.elements = es
      intro he'
      induction es with
      | nil => rfl
      | cons e es ih =>
        rw [List.flatMap_cons, List.map_append, ← ih (fun b hb => he' b (List.mem_cons_of_mem _ hb)),
          le_one (he' e List.mem_cons_self)]
        rfl
    · rw [if_neg (by omega), if_pos hw, hw]
      exact dec_items .word l.elements (fun e h => by have := he e h; rw [hw] at this; exact this)
    · rw [if_neg (by omega), if_neg (by omega), hw]
      exact dec_items .double l.elements (fun e h => by have := he e h; rw [hw] at this; exact this)

theorem literals_calls : (ls : List Literal) → (∀ l ∈ ls, LiteralOK l) →
    (∀ c ∈ ls.flatMap literalCalls, callOK c) ∧ (ls.flatMap literalCalls).flatMap callItems = ls.flatMap literalItems
  | [], _ => ⟨by simp, rfl⟩
  | l :: ls, h => by
    obtain ⟨h1, h2⟩ := literal_calls (h l List.mem_cons_self)
    obtain ⟨i1, i2⟩ := literals_calls ls (fun x hx => h x (List.mem_cons_of_mem _ hx))
    refine ⟨?_, ?_⟩
    · intro c hc
      rw [List.flatMap_cons] at hc
      rcases List.mem_append.mp hc with hc | hc
      · exact h1 c hc
      · exact i1 c hc
    · rw [List.flatMap_cons, List.flatMap_append, h2, i2, List.flatMap_cons]

theorem string_calls (ls : List Literal) (h : ∀ l ∈ ls, LiteralOK l) :
    (∀ c ∈ stringCalls ls, callOK c) ∧ (stringCalls ls).flatMap callItems =
      if ls.isEmpty then [] else .sect ".rodata" :: ls.flatMap literalItems := by
  cases ls with
  | nil => exact ⟨by simp [stringCalls], rfl⟩
  | cons l ls =>
    obtain ⟨h1, h2⟩ := literals_calls (l :: ls) h
    refine ⟨?_, ?_⟩
    · intro c hc
      rcases List.mem_cons.mp hc with rfl | hc
      · show isName _ = true; decide +kernel
      · exact h1 c hc
    · unfold stringCalls
      rw [List.flatMap_cons, h2]
      show [Item.sect (String.ofList ".rodata".toList)] ++ _ = _
      rw [String.ofList_toList]
      rfl

/-! ### The values are kept -/

theorem setAll_ok : {ws : List (Nat × Value)} → {d d' : DataMap} → (∀ w ∈ ws, valueOK w.2) → dataOK d →
    setAll d ws = .ok d' → dataOK d'
  | [], d, d', _, hd, h => by
    rw [setAll] at h; injection h with h; rw [← h]; exact hd
  | (slot, v) :: ws, d, d', hw, hd, h => by
    rw [setAll] at h
    cases hs : setValue d slot v with
    | error e => rw [hs] at h; cases h
    | ok d1 =>
      rw [hs] at h
      refine setAll_ok (fun w hm => hw w (List.mem_cons_of_mem _ hm)) ?_ h
      unfold setValue at hs
      split at hs
      · cases hs
      · injection hs with hs
        rw [← hs]
        intro j
        simp only [DataMap.setVal]
        split
        · exact hw (slot, v) List.mem_cons_self
        · exact hd j

theorem setFlag_ok {d : DataMap} (h : dataOK d) (slot : Nat) (b : Bool) : dataOK (d.setFlag slot b) := h

theorem setAggregate_ok {d : DataMap} (h : dataOK d) (slot : Nat) : dataOK (d.setVal slot .aggregate) := by
  intro j
  simp only [DataMap.setVal]
  split
  · trivial
  · exact h j

theorem finLeaf_keeps {k : Leaf} {n : Nat} {s s' : Fin} (h : dataOK s.data) (he : finLeaf k n s = .ok s') :
    dataOK s'.data := by
  unfold finLeaf at he
  split at he
  · injection he with he; rw [← he]; exact h
  · split at he
    · cases he
    · split at he
      · cases he
      · injection he with he; rw [← he]; exact h
  · split at he
    · injection he with he; rw [← he]; exact h
    · injection he with he; rw [← he]; exact h

theorem finLoop_keeps {f : Fin → Abi.Out Fin} (hf : ∀ s s', dataOK s.data → f s = .ok s' → dataOK s'.data)
    (n es stop : Nat) : (fuel i : Nat) → {s s' : Fin} → dataOK s.data → finLoop f n es stop fuel i s = .ok s' →
    dataOK s'.data
  | 0, _, s, s', h, he => by rw [finLoop] at he; injection he with he; rw [← he]; exact h
  | fuel + 1, i, s, s', h, he => by
    rw [finLoop] at he
    split at he
    · simp only at he
      split at he
      · injection he with he; rw [← he]; exact h
      · split at he
        · split at he
          · refine finLoop_keeps hf n es stop fuel _ ?_ he; exact h
          · refine finLoop_keeps hf n es stop fuel _ ?_ he; exact h
        · split at he
          · rename_i s1 h1
            refine finLoop_keeps hf n es stop fuel _ (hf _ s1 ?_ h1) he
            exact h
          · cases he
    · injection he with he; rw [← he]; exact h

theorem finAggregate_keeps {entry : Bool} {slot : Nat} {b : Bool} {sub : Fin} (h : dataOK sub.data) :
    dataOK (finAggregate entry slot b sub).data := by
  unfold finAggregate
  simp only
  split
  · split
    · exact setAggregate_ok (setFlag_ok h _ _) _
    · exact h
  · exact h

theorem finArray_keeps {entry : Bool} {slot : Nat} {b : Bool} {sub s' : Fin} (h : dataOK sub.data)
    (he : finArray entry slot b sub = .ok s') : dataOK s'.data := by
  unfold finArray at he
  split at he
  · simp only at he
    split at he
    · split at he
      · cases he
      · injection he with he; rw [← he]; exact setAggregate_ok (setFlag_ok h _ _) _
    · injection he with he; rw [← he]; exact h
  · injection he with he; rw [← he]; exact h

mutual
theorem fin_keeps : (t : Ty) → {s s' : Fin} → dataOK s.data → fin t s = .ok s' → dataOK s'.data
  | .leaf k a n, s, s', h, he => by rw [fin] at he; exact finLeaf_keeps h he
  | .struct a ms, s, s', h, he => by
    rw [fin] at he
    split at he
    · cases he
    · split at he
      · rename_i sub hsub
        injection he with he
        rw [← he]
        exact finAggregate_keeps (finAll_keeps ms (s := { s with slot := s.slot + 1, defined := false }) h hsub)
      · cases he
  | .union a ms, s, s', h, he => by
    rw [fin] at he
    split at he
    · cases he
    · split at he
      · rename_i sub hsub
        injection he with he
        rw [← he]
        exact finAggregate_keeps (finAll_keeps ms (s := { s with slot := s.slot + 1, defined := false }) h hsub)
      · cases he
  | .array a n e, s, s', h, he => by
    rw [fin] at he
    split at he
    · rename_i sub hsub
      exact finArray_keeps (finLoop_keeps (fun s1 s2 h1 h2 => fin_keeps e h1 h2) n _ _ n 0
        (s := { s with slot := s.slot + 1, defined := false }) h hsub) he
    · cases he

theorem finAll_keeps : (ts : List Ty) → {s s' : Fin} → dataOK s.data → finAll ts s = .ok s' → dataOK s'.data
  | [], s, s', h, he => by rw [finAll] at he; injection he with he; rw [← he]; exact h
  | t :: ts, s, s', h, he => by
    rw [finAll] at he
    split at he
    · rename_i s1 h1
      exact finAll_keeps ts (fin_keeps t h h1) he
    · cases he
end

theorem finalize_keeps {ts : List Ty} {d d' : DataMap} (h : dataOK d) (he : finalize ts d = .ok d') : dataOK d' := by
  unfold finalize at he
  split at he
  · rename_i s hs
    injection he with he
    rw [← he]
    exact finAll_keeps ts (s := ⟨d, 0, false, d.blocks⟩) h hs
  · cases he

/-! ### Offsets -/

theorem offsets_cells : (cs : List Cell) → (o : Nat) → (is : List Item) →
    offsets o (cs.map .cell ++ is) = offsets (o + cs.length) is
  | [], _, _ => rfl
  | c :: cs, o, is => by
    rw [List.map_cons, List.cons_append, offsets, offsets_cells cs, List.length_cons]
    congr 1
    omega

theorem offsets_object (o : Obj) (ha : 0 < o.alignment) (k : Nat) (is : List Item) :
    ∃ p k', offsets k (objectItems o.name o.alignment o.image ++ is) = (o.name, p) :: offsets k' is ∧
      o.alignment ∣ p := by
  unfold objectItems
  by_cases h : o.alignment > 1
  · rw [if_pos h]
    refine ⟨(k + (o.alignment - 1)) / o.alignment * o.alignment,
      (k + (o.alignment - 1)) / o.alignment * o.alignment + (o.image.map named).length, ?_, Nat.dvd_mul_left _ _⟩
    simp only [List.cons_append, List.nil_append, offsets]
    rw [offsets_cells]
  · rw [if_neg h]
    refine ⟨k, k + (o.image.map named).length, ?_, ?_⟩
    · simp only [List.cons_append, List.nil_append, offsets]
      rw [offsets_cells]
    · rw [show o.alignment = 1 by omega]; exact Nat.one_dvd _

theorem offsets_objects : (os : List Obj) → (∀ o ∈ os, 0 < o.alignment) → (k : Nat) → (is : List Item) →
    ∃ ps k', offsets k ((os.flatMap fun o => objectItems o.name o.alignment o.image) ++ is) = ps ++ offsets k' is ∧
      List.Forall₂ (fun (p : String × Nat) (o : Obj) => p.1 = o.name ∧ o.alignment ∣ p.2) ps os
  | [], _, k, is => ⟨[], k, rfl, .nil⟩
  | o :: os, h, k, is => by
    obtain ⟨p, k1, h1, h2⟩ := offsets_object o (h o List.mem_cons_self) k
      ((os.flatMap fun o => objectItems o.name o.alignment o.image) ++ is)
    obtain ⟨ps, k2, i1, i2⟩ := offsets_objects os (fun x hx => h x (List.mem_cons_of_mem _ hx)) k1 is
    refine ⟨(o.name, p) :: ps, k2, ?_, .cons ⟨rfl, h2⟩ i2⟩
    rw [List.flatMap_cons, List.append_assoc, h1, i1]
    rfl

theorem offsets_section (sect : String) (os : List Obj) (h : ∀ o ∈ os, 0 < o.alignment) (k : Nat) (is : List Item) :
    ∃ ps k', offsets k (sectionItems sect os ++ is) = ps ++ offsets k' is ∧
      List.Forall₂ (fun (p : String × Nat) (o : Obj) => p.1 = o.name ∧ o.alignment ∣ p.2) ps os := by
  cases os with
  | nil => exact ⟨[], k, rfl, .nil⟩
  | cons o os =>
    obtain ⟨ps, k', h1, h2⟩ := offsets_objects (o :: os) h 0 is
    refine ⟨ps, k', ?_, h2⟩
    rw [← h1]
    rfl

theorem offsets_literals : (ls : List Literal) → (k : Nat) → ∀ p ∈ offsets k (ls.flatMap literalItems),
    ∃ l ∈ ls, p.1 = literalName l.id
  | [], k, p, h => by simp [offsets] at h
  | l :: ls, k, p, h => by
    rw [List.flatMap_cons, literalItems, List.cons_append, offsets, offsets_cells] at h
    rcases List.mem_cons.mp h with rfl | h
    · exact ⟨l, List.mem_cons_self, rfl⟩
    · obtain ⟨x, hx, hp⟩ := offsets_literals ls _ p h
      exact ⟨x, List.mem_cons_of_mem _ hx, hp⟩

theorem forall₂_left {α β} {R : α → β → Prop} {as : List α} {bs : List β} (h : List.Forall₂ R as bs) :
    ∀ a ∈ as, ∃ b ∈ bs, R a b := by
  induction h with
  | nil => simp
  | cons h _ ih =>
    intro a ha
    rcases List.mem_cons.mp ha with rfl | ha
    · exact ⟨_, List.mem_cons_self, h⟩
    · obtain ⟨b, hb, hr⟩ := ih a ha
      exact ⟨b, List.mem_cons_of_mem _ hb, hr⟩

theorem forall₂_right {α β} {R : α → β → Prop} {as : List α} {bs : List β} (h : List.Forall₂ R as bs) :
    ∀ b ∈ bs, ∃ a ∈ as, R a b := by
  induction h with
  | nil => simp
  | cons h _ ih =>
    intro a ha
    rcases List.mem_cons.mp ha with rfl | ha
    · exact ⟨_, List.mem_cons_self, h⟩
    · obtain ⟨b, hb, hr⟩ := ih a ha
      exact ⟨b, List.mem_cons_of_mem _ hb, hr⟩

/-! ### C93 -/

/-- C93: the assembly text of the data of a program defines its objects and string literals.  For every list of objects
of any types and any values, and every list of string literals, the assembler reads the text that the compiler writes
after the code as: the section of initialised objects, and in it for each of them, in order, its alignment, its name and
the bytes of its image; the same for the sections of thread-local, of not initialised and of not initialised
thread-local objects; and the section of literals, with the name and the elements of each.  Nothing is missing, nothing
is added, and no number, name, address or character is read as something else. -/
theorem C93_data (items : List Datum) (objs : List Obj) (hr : List.Forall₂ Represents items objs)
    (hok : ∀ x ∈ items, DatumOK x) (literals : List Literal) (hl : ∀ l ∈ literals, LiteralOK l)
    (g : Gen) (hg : g.empty = false) (ho : g.out = []) :
    ∃ calls, dataCalls items literals = .ok calls ∧
      assemble (dataText g calls) = some (dataItems objs literals) := by
  obtain ⟨a, a1, a2, a3⟩ := storage_calls false true (sect := ".data") (by decide +kernel) hok hr
  obtain ⟨b, b1, b2, b3⟩ := storage_calls true true (sect := ".tdata") (by decide +kernel) hok hr
  obtain ⟨c, c1, c2, c3⟩ := storage_calls false false (sect := ".bss") (by decide +kernel) hok hr
  obtain ⟨d, d1, d2, d3⟩ := storage_calls true false (sect := ".tbss") (by decide +kernel) hok hr
  obtain ⟨s1, s2⟩ := string_calls literals hl
  refine ⟨a ++ b ++ c ++ d ++ stringCalls literals, ?_, ?_⟩
  · simp only [dataCalls, a1, b1, c1, d1]
  · rw [assemble_calls g hg ho]
    · simp only [List.flatMap_append, a3, b3, c3, d3, s2, dataItems]
      have e1 : ∀ b : Bool, (b == true) = b := by decide
      have e2 : ∀ b : Bool, (b == false) = !b := by decide
      simp only [e1, e2]
    · intro x hx
      simp only [List.mem_append] at hx
      rcases hx with (((hx | hx) | hx) | hx) | hx
      · exact a2 x hx
      · exact b2 x hx
      · exact c2 x hx
      · exact d2 x hx
      · exact s1 x hx

/-- C93: an object with an initialiser.  For an object of any type whose initialiser assigns values that fit its parts
(the hypotheses of `C40_image_partial`, of which this is the continuation down to the text), the text defines the name of
the object, at its alignment, as the bytes that the initialiser says: the values of the parts at their offsets and zeros
elsewhere.

Missing: as in `C40_image_partial`. -/
theorem C93_object_partial (name : String) (hn : isName name.toList = true) (t : Ty) (l : LTree)
    (hw : WFAll [t]) (hl : LaidAll [t] [l]) (hc : Consecutive 0 [t] [l]) (hu : UnpackedAll [t] [l])
    (hb : t.isBits = false) (writes : List (Nat × Value)) (hna : ∀ w ∈ writes, w.2 ≠ .aggregate) (hg : NoGaps writes)
    (hs : SuitsAll (valueOf writes) [t] [l] 0) (hv : ∀ w ∈ writes, valueOK w.2)
    (g : Gen) (hge : g.empty = false) (hgo : g.out = []) :
    ∃ d d' calls, setAll (alloc (objects t)) writes = .ok d ∧ finalize [t] d = .ok d' ∧
      staticDataC d' [t] [l] name.toList = .ok calls ∧
      assemble (dataText g calls) =
        some (objectItems name l.data.alignment (place (lastStop [l]) (pieces (valueOf writes) [t] [l] 0))) := by
  obtain ⟨d, d', h1, h2, h3⟩ := C40_image_partial [t] [l] hw hl hc hu (by simpa using hb) writes hna hg hs
  have e : objectsAll [t] = objects t := by simp [objectsAll]
  rw [e] at h1
  have hd : dataOK d' := finalize_keeps (setAll_ok hv (d := alloc (objects t)) (fun _ => trivial) h1) h2
  rcases staticDataC_sim hd [t] [l] hn with ⟨cs, img, i1, i2, i3, i4⟩ | ⟨x, _, i2⟩
  · refine ⟨d, d', cs, h1, h2, i1, ?_⟩
    rw [h3] at i2
    injection i2 with i2
    rw [assemble_calls g hge hgo cs i3, i4, String.ofList_toList, i2]
    simp [totalAlignment]
  · rw [h3] at i2; cases i2

/-- C93: every object lies at a multiple of its alignment in its section (and its section, the assembler takes care, at a
multiple of all alignments in it), whatever objects precede it; there are no other names than those of the objects and
the literals. -/
theorem C93_aligned (objs : List Obj) (literals : List Literal) (ha : ∀ o ∈ objs, 0 < o.alignment) :
    (∀ o ∈ objs, ∃ offset, (o.name, offset) ∈ offsets 0 (dataItems objs literals) ∧ o.alignment ∣ offset) ∧
    (∀ p ∈ offsets 0 (dataItems objs literals),
      (∃ o ∈ objs, p.1 = o.name ∧ o.alignment ∣ p.2) ∨ ∃ l ∈ literals, p.1 = literalName l.id) := by
  have hf : ∀ f : Obj → Bool, ∀ o ∈ objs.filter f, 0 < o.alignment := fun f o ho => ha o (List.mem_filter.mp ho).1
  unfold dataItems
  simp only [List.append_assoc]
  obtain ⟨ps1, k1, a1, b1⟩ := offsets_section ".data" _ (hf fun o => !o.threadLocal && o.hasValues) 0 _
  rw [a1]
  obtain ⟨ps2, k2, a2, b2⟩ := offsets_section ".tdata" _ (hf fun o => o.threadLocal && o.hasValues) k1 _
  rw [a2]
  obtain ⟨ps3, k3, a3, b3⟩ := offsets_section ".bss" _ (hf fun o => !o.threadLocal && !o.hasValues) k2 _
  rw [a3]
  obtain ⟨ps4, k4, a4, b4⟩ := offsets_section ".tbss" _ (hf fun o => o.threadLocal && !o.hasValues) k3 _
  rw [a4]
  constructor
  · intro o ho
    simp only [List.mem_append]
    have get : ∀ {f : Obj → Bool} {ps : List (String × Nat)},
        List.Forall₂ (fun (p : String × Nat) (o : Obj) => p.1 = o.name ∧ o.alignment ∣ p.2) ps (objs.filter f) →
        f o = true → ∃ offset, (o.name, offset) ∈ ps ∧ o.alignment ∣ offset := by
      intro f ps h hfo
      obtain ⟨p, hp, hn, hd⟩ := forall₂_right h o (List.mem_filter.mpr ⟨ho, hfo⟩)
      exact ⟨p.2, by rw [← hn]; exact hp, hd⟩
    cases ht : o.threadLocal <;> cases hv : o.hasValues
    · obtain ⟨x, h1, h2⟩ := get b3 (by simp [ht, hv])
      exact ⟨x, Or.inr (Or.inr (Or.inl h1)), h2⟩
    · obtain ⟨x, h1, h2⟩ := get b1 (by simp [ht, hv])
      exact ⟨x, Or.inl h1, h2⟩
    · obtain ⟨x, h1, h2⟩ := get b4 (by simp [ht, hv])
      exact ⟨x, Or.inr (Or.inr (Or.inr (Or.inl h1))), h2⟩
    · obtain ⟨x, h1, h2⟩ := get b2 (by simp [ht, hv])
      exact ⟨x, Or.inr (Or.inl h1), h2⟩
  · intro p hp
    simp only [List.mem_append] at hp
    have get : ∀ {f : Obj → Bool} {ps : List (String × Nat)},
        List.Forall₂ (fun (p : String × Nat) (o : Obj) => p.1 = o.name ∧ o.alignment ∣ p.2) ps (objs.filter f) →
        p ∈ ps → ∃ o ∈ objs, p.1 = o.name ∧ o.alignment ∣ p.2 := by
      intro f ps h hp
      obtain ⟨o, ho, hr⟩ := forall₂_left h p hp
      exact ⟨o, (List.mem_filter.mp ho).1, hr⟩
    rcases hp with hp | hp | hp | hp | hp
    · exact Or.inl (get b1 hp)
    · exact Or.inl (get b2 hp)
    · exact Or.inl (get b3 hp)
    · exact Or.inl (get b4 hp)
    · right
      cases literals with
      | nil => simp [offsets] at hp
      | cons l ls =>
        simp only [List.isEmpty_cons, Bool.false_eq_true, if_false, offsets] at hp
        exact offsets_literals (l :: ls) 0 p hp

/-! ### Examples -/

/-- The state of the generator after some code. -/
def afterCode : Gen := ⟨false, 0, []⟩

/-- `struct { char c; char *p; } v = { 'A', "hi" + 1 }; _Thread_local int t;`. -/
def sampleData : DataMap :=
  ⟨3, [0], fun | 0 => .aggregate | 1 => .integer 65 | 2 => .pointer (.literal 0) 1 | _ => .undefined,
    fun i => decide (i < 3), true, true⟩

def sampleItems : List Datum :=
  [⟨"v", false, sampleData, [.struct 0 [.leaf .char 0 0, .leaf .word 0 0]],
      [.node ⟨16, 8, true, 0⟩ [.node ⟨1, 1, true, 0⟩ [], .node ⟨8, 8, true, 8⟩ []]]⟩,
    ⟨"t", true, ⟨1, [], fun _ => .undefined, fun _ => false, true, false⟩, [.leaf .int 0 0],
      [.node ⟨4, 4, true, 0⟩ []]⟩]

def sampleLiterals : List Literal := [⟨0, 1, [104, 105, 0]⟩]

/-- The text. -/
example : (dataCalls sampleItems sampleLiterals).toOption.map (fun cs => String.ofList (dataText afterCode cs)) = some
    "\n.section .data\n    .align 8\nv:\n    .byte 0x41\n    .zero 7\n    .quad __kefirrt_string_literal0 + 1\n\n.section .tbss\n    .align 4\nt:\n    .long 0x00000000\n\n.section .rodata\n__kefirrt_string_literal0:\n    .ascii \"hi\\000\"\n" := by
  decide +kernel

/-- What it defines, by `C93_data`: the hypotheses hold. -/
example : ∃ calls, dataCalls sampleItems sampleLiterals = .ok calls ∧ assemble (dataText afterCode calls) = some
    (dataItems
      [⟨"v", false, true, 8, .byte 65 :: (zeros 7 ++ addressBytes (.literal 0) 1)⟩, ⟨"t", true, false, 4, zeros 4⟩]
      sampleLiterals) := by
  refine C93_data sampleItems _ ?_ ?_ sampleLiterals ?_ afterCode rfl rfl
  · exact .cons ⟨rfl, rfl, rfl, rfl, rfl⟩ (.cons ⟨rfl, rfl, rfl, rfl, rfl⟩ .nil)
  · intro x hx
    simp only [sampleItems, List.mem_cons, List.not_mem_nil, or_false] at hx
    rcases hx with rfl | rfl
    · refine ⟨by decide +kernel, ?_⟩
      intro j
      match j with
      | 0 => trivial
      | 1 => trivial
      | 2 => trivial
      | _ + 3 => trivial
    · exact ⟨by decide +kernel, fun _ => trivial⟩
  · intro l hl
    simp only [sampleLiterals, List.mem_cons, List.not_mem_nil, or_false] at hl
    subst hl
    exact ⟨Or.inl rfl, by decide⟩

/-- `long x = 258;`: the hypotheses of `C93_object_partial` hold (a larger object is in `StaticData.Props`). -/
example : ∃ d d' calls, setAll (alloc 1) [(0, .integer 258)] = .ok d ∧ finalize [.leaf .long 0 0] d = .ok d' ∧
    staticDataC d' [.leaf .long 0 0] [.node ⟨8, 8, true, 0⟩ []] "x".toList = .ok calls ∧
    assemble (dataText afterCode calls) = some (.align 8 :: .label "x" ::
      [2, 1, 0, 0, 0, 0, 0, 0].map fun b => .cell (.byte b)) := by
  have h := C93_object_partial "x" (by decide +kernel) (.leaf .long 0 0) (.node ⟨8, 8, true, 0⟩ [])
    (.cons (.leaf (by simp)) .nil) (.cons (.leaf rfl rfl) .nil)
    (.cons (Nat.le_refl _) (by simp [LTree.data, Ty.isBits]) (by simp [LTree.data, Ty.isBits]) (by simp [LTree.data, Ty.isBits]) .nil)
    (.cons (.leaf (Or.inl rfl) (by decide)) .nil) rfl [(0, .integer 258)] (by simp) (by
      intro w hw b hb
      simp only [List.mem_singleton] at hw
      subst hw
      simp [blockCapacity] at hb) (by simp [SuitsAll, Suits, LeafSuits, valueOf]) (by simp [valueOK])
    afterCode rfl rfl
  exact h

/-! ### Where C93 fails -/

/-- Wide string literals are not aligned: in the text of `"ab"` and `U"x"` the second one starts three bytes after the
first, while its elements have the type `char32_t`, of alignment four. -/
theorem C93_literal_alignment_false :
    ∃ calls items, dataCalls [] [⟨0, 1, [97, 98, 0]⟩, ⟨1, 4, [120, 0]⟩] = .ok calls ∧
      assemble (dataText afterCode calls) = some items ∧ (literalName 1, 3) ∈ offsets 0 items := by
  obtain ⟨calls, h1, h2⟩ := C93_data [] [] .nil (by simp) [⟨0, 1, [97, 98, 0]⟩, ⟨1, 4, [120, 0]⟩] (by
    intro l hl
    simp only [List.mem_cons, List.not_mem_nil, or_false] at hl
    rcases hl with rfl | rfl
    · exact ⟨Or.inl rfl, by decide⟩
    · exact ⟨Or.inr (Or.inr rfl), by decide⟩) afterCode rfl rfl
  exact ⟨calls, _, h1, h2, by decide +kernel⟩

end Kefir.AsmData
