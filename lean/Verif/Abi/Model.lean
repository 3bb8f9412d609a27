import Verif.Abi.Spec
import Verif.Layout.Model

/-!
# Model of parameter classification and allocation

`source/codegen/amd64/system-v/abi/qwords.c`, `source/codegen/amd64/system-v/abi/registers.c`, the slot
counting of `source/ir/type.c`, the `va_list` callbacks of `abi/builtins/vararg.c` and
`function_alloc_return`/`function_alloc_params` of `abi/function.c`.  Allocation failure is not
modelled; sizes are natural numbers.
-/

namespace Kefir.Abi

open Kefir.Layout

/-- What can go wrong: an error code, undefined behaviour (a null pointer is dereferenced, a division by
zero), or an error of `immediate_array_unwrap`/`immediate_union_unwrap`, which their callers ignore
(`registers.c:508`, `:562`); what happens after the last is not modelled. -/
inductive Fault where
  | err (e : Err)
  | undefined
  | ignored
  deriving DecidableEq, Repr

abbrev Out (α : Type) := Except Fault α

/-- `headers/kefir/codegen/amd64/system-v/abi/qwords.h:32-37`, `kefir_amd64_sysv_abi_qword` (without
`index`, which is its position). -/
structure Qword where
  klass : Class
  location : Nat
  currentOffset : Nat
  deriving DecidableEq, Repr

/-- `qwords.h:44-47`, `kefir_amd64_sysv_abi_qwords`. -/
structure Qwords where
  qwords : List Qword
  current : Nat
  deriving DecidableEq, Repr

/-- `qwords.h:39-42`, `kefir_amd64_sysv_abi_qword_ref`; the pointer to a qword is its position. -/
structure Ref where
  qword : Nat
  offset : Nat
  deriving DecidableEq, Repr

/-- `qwords.h:49-52`, `kefir_amd64_sysv_abi_qword_position`. -/
structure Pos where
  index : Nat
  offset : Nat
  deriving DecidableEq, Repr

/-- `qwords.c:53-69`, `kefir_amd64_sysv_abi_qwords_alloc`. -/
def qwordsAlloc (n : Nat) : Qwords := ⟨List.replicate n ⟨.noClass, 0, 0⟩, 0⟩

/-- `qwords.c:76-100`, `derive_dataclass`. -/
def deriveDataclass (first second : Class) : Class :=
  if first = second then first
  else if first = .noClass then second
  else if second = .noClass then first
  else if first = .memory ∨ second = .memory then .memory
  else if first = .integer ∨ second = .integer then .integer
  else if (first = .x87 ∨ second = .x87) ∨ (first = .x87up ∨ second = .x87up) ∨
      (first = .complexX87 ∨ second = .complexX87) then .memory
  else .sse

/-- `qwords.c:102-114`, `next_qword`: the position of the qword, `none` for a null pointer. -/
def nextQword (q : Qwords) (alignment : Nat) : Out (Qwords × Option Nat) :=
  match q.qwords[q.current]? with
  | none => .error .undefined
  | some w =>
    if alignment = 0 then .error .undefined
    else
      let unalign := w.currentOffset % alignment
      let pad := if unalign > 0 then alignment - unalign else 0
      if w.currentOffset + pad ≥ 8 then
        .ok ({ q with current := q.current + 1 },
          if q.current + 1 < q.qwords.length then some (q.current + 1) else none)
      else
        .ok ({ q with qwords := q.qwords.set q.current { w with currentOffset := w.currentOffset + pad } },
          some q.current)

/-- The body of the loops `qwords.c:125-136`, `:153-162` once `current` (position `i`) is known. -/
def takeChunk (q : Qwords) (i : Nat) (w : Qword) (dataclass : Class) (size : Nat) : Qwords × Nat :=
  let chunk := min (8 - w.currentOffset) size
  let w := { w with currentOffset := w.currentOffset + chunk, klass := deriveDataclass w.klass dataclass }
  ({ q with qwords := q.qwords.set i w }, size - chunk)

/-- What `next_qword` does to the measure of the loops. -/
theorem nextQword_measure {q q' : Qwords} {a i : Nat} {w : Qword}
    (h : nextQword q a = .ok (q', some i)) (hw : q'.qwords[i]? = some w) :
    (q'.current = q.current + 1 ∧ q.current + 1 < q.qwords.length ∧ q'.qwords.length = q.qwords.length) ∨
    (q'.current = q.current ∧ q'.qwords.length = q.qwords.length ∧ w.currentOffset < 8) := by
  unfold nextQword at h
  split at h
  · cases h
  · rename_i w0 h0
    split at h
    · cases h
    · simp only at h
      generalize hp : (if w0.currentOffset % a > 0 then a - w0.currentOffset % a else 0) = pad at h
      split at h
      · simp only [Except.ok.injEq, Prod.mk.injEq] at h
        obtain ⟨rfl, h2⟩ := h
        split at h2
        · left; exact ⟨rfl, by assumption, rfl⟩
        · cases h2
      · simp only [Except.ok.injEq, Prod.mk.injEq, Option.some.injEq] at h
        obtain ⟨rfl, rfl⟩ := h
        right
        have hlt : q.current < q.qwords.length := by
          rw [List.getElem?_eq_some_iff] at h0; exact h0.1
        simp only [List.getElem?_set_self hlt, Option.some.injEq] at hw
        subst hw
        refine ⟨rfl, by simp, ?_⟩
        simp only; omega

/-- At most `fuel` iterations of the loop below. -/
def nextLoopN (fuel : Nat) (q : Qwords) (dataclass : Class) (size alignment : Nat) (first : Option Ref) :
    Out (Qwords × Option Ref) :=
  if size = 0 then .ok (q, first)
  else
    match fuel with
    | 0 => .error .undefined
    | fuel + 1 =>
      match nextQword q alignment with
      | .error f => .error f
      | .ok (_, none) => .error (.err .invalidRequest)
      | .ok (q', some i) =>
        match q'.qwords[i]? with
        | none => .error .undefined
        | some w =>
          let first := match first with
            | none => some ⟨i, w.currentOffset⟩
            | some r => some r
          nextLoopN fuel (takeChunk q' i w dataclass size).1 dataclass (takeChunk q' i w dataclass size).2 1 first

/-- The loop of `kefir_amd64_sysv_abi_qwords_next` (`qwords.c:123-137`) and, with alignment 1, of
`kefir_amd64_sysv_abi_qwords_next_bitfield` (`:150-163`).  `first` is the reference that has been
written.  An iteration takes a byte or moves to the next eightbyte, so that the number of iterations given
here suffices (`nextLoopN_enough`). -/
def nextLoop (q : Qwords) (dataclass : Class) (size alignment : Nat) (first : Option Ref) :
    Out (Qwords × Option Ref) :=
  nextLoopN (size + (q.qwords.length - q.current)) q dataclass size alignment first

/-- More iterations than `nextLoop` allows change nothing. -/
theorem nextLoopN_enough : ∀ (m n : Nat) (q : Qwords) (c : Class) (s a : Nat) (f : Option Ref),
    s + (q.qwords.length - q.current) ≤ m → s + (q.qwords.length - q.current) ≤ n →
    nextLoopN m q c s a f = nextLoopN n q c s a f := by
  intro m
  induction m with
  | zero =>
    intro n q c s a f h1 h2
    have : s = 0 := by omega
    subst this
    rw [nextLoopN.eq_def, nextLoopN.eq_def]; simp
  | succ m ih =>
    intro n q c s a f h1 h2
    by_cases hs : s = 0
    · subst hs; rw [nextLoopN.eq_def, nextLoopN.eq_def]; simp
    · obtain ⟨n, rfl⟩ : ∃ n', n = n' + 1 := ⟨n - 1, by omega⟩
      rw [nextLoopN.eq_def, nextLoopN.eq_def]
      simp only [if_neg hs]
      cases hq : nextQword q a with
      | error e => rfl
      | ok r =>
        obtain ⟨q', i⟩ := r
        cases i with
        | none => rfl
        | some i =>
          simp only
          cases hw : q'.qwords[i]? with
          | none => rfl
          | some w =>
            have hm := nextQword_measure hq hw
            refine ih _ _ _ _ _ _ ?_ ?_ <;> simp only [takeChunk, List.length_set] <;> omega

/-- `qwords.c:116-139`, `kefir_amd64_sysv_abi_qwords_next`. -/
def qwordsNext (q : Qwords) (dataclass : Class) (size alignment : Nat) : Out (Qwords × Ref) :=
  if size > 0 then do
    let (q, r) ← nextLoop q dataclass size alignment none
    match r with
    | some r => pure (q, r)
    | none => .error .undefined
  else .error (.err .invalidParameter)

/-- `qwords.c:141-165`, `kefir_amd64_sysv_abi_qwords_next_bitfield`. -/
def qwordsNextBitfield (q : Qwords) (dataclass : Class) (width : Nat) : Out (Qwords × Ref) :=
  if width > 0 then qwordsNext q dataclass (width / 8 + (if width % 8 ≠ 0 then 1 else 0)) 1
  else .error (.err .invalidParameter)

/-- `qwords.c:181-189`, `kefir_amd64_sysv_abi_qwords_save_position`. -/
def savePosition (q : Qwords) : Out Pos :=
  match q.qwords[q.current]? with
  | some w => .ok ⟨q.current, w.currentOffset⟩
  | none => .error .undefined

/-- The loop of `qwords.c:200-207`. -/
def resetOffsets (ws : List Qword) (i : Nat) (p : Pos) : List Qword :=
  match ws with
  | [] => []
  | w :: ws =>
    (if i < p.index then w
     else if i = p.index then { w with currentOffset := p.offset } else { w with currentOffset := 0 }) ::
      resetOffsets ws (i + 1) p

/-- `qwords.c:191-210`, `kefir_amd64_sysv_abi_qwords_restore_position`. -/
def restorePosition (q : Qwords) (p : Pos) : Out Qwords :=
  if p.index ≤ q.qwords.length ∧
      ((p.offset ≤ 8 ∧ p.index < q.qwords.length) ∨ (p.offset = 0 ∧ p.index = q.qwords.length)) then
    .ok ⟨resetOffsets q.qwords 0 p, p.index⟩
  else .error (.err .outOfBounds)

/-- `qwords.c:212-224`, `kefir_amd64_sysv_abi_qwords_max_position`. -/
def maxPosition (first second : Pos) : Pos :=
  if first.index > second.index ∨ (first.index = second.index ∧ first.offset ≥ second.offset) then first
  else second

/-! ## Allocations -/

/-- `headers/kefir/codegen/amd64/system-v/abi/registers.h:42-48`. -/
inductive ParamType where
  | immediate | nested | owningContainer | container | skip
  deriving DecidableEq, Repr

/-- `registers.h:58-67`, `kefir_amd64_sysv_parameter_location_requirements`. -/
structure Requirements where
  integer : Nat := 0
  sse : Nat := 0
  sseup : Nat := 0
  x87 : Nat := 0
  memSize : Nat := 0
  memAlignment : Nat := 0
  deriving DecidableEq, Repr

/-- `registers.h:52-56`, `kefir_amd64_sysv_parameter_location`. -/
structure Location where
  int : Nat
  sse : Nat
  stack : Nat
  deriving DecidableEq, Repr

/-- `registers.h:50`, `KEFIR_AMD64_SYSV_PARAMETER_LOCATION_NONE`. -/
def locationNone : Nat := 2 ^ 64 - 1

/-- The union in `kefir_amd64_sysv_parameter_allocation` (`registers.h:73-76`). -/
inductive Content where
  | none
  | qwords (q : Qwords)
  | ref (r : Ref)
  deriving DecidableEq, Repr

/-- `registers.h:69-79`, `kefir_amd64_sysv_parameter_allocation`. -/
structure Alloc where
  type : ParamType
  klass : Class
  index : Nat
  content : Content
  requirements : Requirements
  location : Location
  deriving DecidableEq, Repr

/-- `registers.c:596-605`: the entries of a new allocation vector. -/
def Alloc.fresh : Alloc :=
  { type := .skip, klass := .noClass, index := 0, content := .none, requirements := {}
    location := ⟨locationNone, locationNone, locationNone⟩ }

/-- The allocation vector and the next slot. -/
structure Slots where
  vec : List Alloc
  slot : Nat
  deriving DecidableEq, Repr

/-- `kefir_vector_at(…, slot++)` and the assignments through the pointer. -/
def Slots.write (s : Slots) (f : Alloc → Alloc) : Out Slots :=
  match s.vec[s.slot]? with
  | some a => .ok ⟨s.vec.set s.slot (f a), s.slot + 1⟩
  | none => .error .undefined

/-- `kefir_vector_at(layout, index)`. -/
def layoutAt (layout : List (Option Data)) (i : Nat) : Out Data :=
  match layout[i]? with
  | some (some d) => .ok d
  | _ => .error .undefined

/-- `registers.c:162-165`. -/
def scalarClass : Leaf → Class
  | .float32 | .float64 => .sse
  | _ => .integer

/-- `registers.c:151-213`, `:294-309`: `assign_nested_scalar`, `assign_nested_long_double`,
`assign_nested_memory` (also for padding, `:357`), `assign_nested_builtin` with `builtins/vararg.c:39-52`:
what they take from the container of the aggregate. -/
def nestedLeaf (k : Leaf) (param : Nat) (d : Data) (q : Qwords) : Out (Qwords × Ref) :=
  match k with
  | .longDouble => do
    let (q, _) ← qwordsNext q .x87 8 d.alignment
    qwordsNext q .x87up 8 d.alignment
  | .memory | .pad => qwordsNext q .memory d.size d.alignment
  | .builtin => if param < 1 then qwordsNext q .integer 8 8 else .error (.err .internalError)
  | .bits => qwordsNextBitfield q (scalarClass .bits) param
  | k => qwordsNext q (scalarClass k) d.size d.alignment

/-- The members of `struct recursive_aggregate_allocation` (`registers.c:139-149`) that differ between
traversals: whether the visitor has the posthook `union_reset_hook`, the depth, and the positions. -/
structure Info where
  hook : Bool
  nested : Nat
  init : Pos
  max : Pos
  deriving DecidableEq, Repr

/-- The container of the aggregate (`top_allocation->container`), kept apart from the vector while the
members are visited, and the vector. -/
structure NState where
  info : Info
  q : Qwords
  slots : Slots
  deriving DecidableEq, Repr

/-- `registers.c:232-248`, `union_reset_hook`, if it is installed. -/
def posthook (s : NState) : Out NState :=
  if s.info.hook ∧ s.info.nested = 0 then do
    let p ← savePosition s.q
    let q ← restorePosition s.q s.info.init
    pure { s with info := { s.info with max := maxPosition s.info.max p }, q := q }
  else .ok s

/-- A loop with a fixed number of rounds. -/
def times {α : Type} : Nat → (α → Out α) → α → Out α
  | 0, _, s => .ok s
  | n + 1, f, s => do
    let s ← f s
    times n f s

/-- `kefir_ir_type_visitor_list_nodes` with the visitor of `nested_visitor_init`
(`registers.c:352-363`): the callbacks `assign_nested_*` (`:151-309`). -/
def nestedNodes (t : List Entry) (layout : List (Option Data)) (i count : Nat) (s : NState) : Out NState :=
  match count with
  | 0 => .ok s
  | n + 1 =>
    if _h : i < t.length then do
      let e := t[i]
      let s ← (match e.code with
        | .struct =>
          if e.param > 0 then do
            let slots ← s.slots.write (fun a => { a with type := .container, klass := .noClass, index := i })
            let s := { s with slots := slots, info := { s.info with nested := s.info.nested + 1 } }
            let s ← nestedNodes t layout (i + 1) e.param s
            pure { s with info := { s.info with nested := s.info.nested - 1 } }
          else .error (.err .invalidState)
        | .union =>
          if e.param > 0 then do
            let slots ← s.slots.write (fun a => { a with type := .container, klass := .noClass, index := i })
            let p ← savePosition s.q
            let s' ← nestedNodes t layout (i + 1) e.param ⟨⟨true, 0, p, p⟩, s.q, slots⟩
            let q ← restorePosition s'.q s'.info.max
            pure ⟨s.info, q, s'.slots⟩
          else .error (.err .invalidState)
        | .array => do
          let slots ← s.slots.write (fun a => { a with type := .container, klass := .noClass, index := i })
          let s := { s with slots := slots, info := { s.info with nested := s.info.nested + 1 } }
          let s ← times e.param (fun s => nestedNodes t layout (i + 1) 1 s) s
          pure { s with info := { s.info with nested := s.info.nested - 1 } }
        | .leaf k => do
          let d ← layoutAt layout i
          let (q, r) ← nestedLeaf k e.param d s.q
          let slots ← s.slots.write
            (fun a => { a with type := .nested, klass := .noClass, index := i, content := .ref r })
          pure { s with q := q, slots := slots })
      let s ← posthook s
      nestedNodes t layout (i + nodeLen t i) n s
    else .ok s
termination_by (t.length - i, count)
decreasing_by
  all_goals first
    | (apply Prod.Lex.left; omega)
    | (apply lex_of_le <;> omega)

/-- The loop of `aggregate_postmerger` (`registers.c:323-343`); `none`: the aggregate is passed in
memory.  The remaining qwords start at position `i`. -/
def postmergeLoop (ws : List Qword) (i : Nat) (previousX87 : Option Nat) (ssecount : Nat)
    (hadNonsseup : Bool) : Option (List Qword × Bool) :=
  match ws with
  | [] => some ([], hadNonsseup)
  | w :: ws =>
    let had := hadNonsseup || (decide (i > 0) && decide (w.klass ≠ .sseup))
    match w.klass with
    | .memory => none
    | .x87 => (postmergeLoop ws (i + 1) (some i) ssecount had).map (fun r => (w :: r.1, r.2))
    | .x87up =>
      if i = 0 ∨ some (i - 1) ≠ previousX87 then none
      else (postmergeLoop ws (i + 1) previousX87 ssecount had).map (fun r => (w :: r.1, r.2))
    | .sse => (postmergeLoop ws (i + 1) previousX87 (ssecount + 1) had).map (fun r => (w :: r.1, r.2))
    | .sseup =>
      if ssecount = 0 then
        (postmergeLoop ws (i + 1) previousX87 ssecount had).map (fun r => ({ w with klass := .sse } :: r.1, r.2))
      else (postmergeLoop ws (i + 1) previousX87 (ssecount - 1) had).map (fun r => (w :: r.1, r.2))
    | _ => (postmergeLoop ws (i + 1) previousX87 ssecount had).map (fun r => (w :: r.1, r.2))

/-- `registers.c:318-350`, `aggregate_postmerger`; `none` if it calls `aggregate_disown`. -/
def postmerger (q : Qwords) : Option Qwords :=
  match postmergeLoop q.qwords 0 none 0 false with
  | none => none
  | some (ws, had) =>
    if ws.length > 2 ∧ ((ws.head?.map (·.klass)) ≠ some .sse ∨ had = true) then none
    else some { q with qwords := ws }

/-- The loop of `calculate_qword_requirements` (`registers.c:402-438`). -/
def qwordRequirements (ws : List Qword) (r : Requirements) : Out Requirements :=
  match ws with
  | [] => .ok r
  | w :: ws =>
    match w.klass with
    | .integer => qwordRequirements ws { r with integer := r.integer + 1 }
    | .sse => qwordRequirements ws { r with sse := r.sse + 1 }
    | .sseup => qwordRequirements ws { r with sseup := r.sseup + 1 }
    | .noClass => qwordRequirements ws r
    | .x87 =>
      match ws with
      | [] => .error (.err .invalidState)
      | w' :: ws =>
        if w'.klass = .x87up then
          qwordRequirements ws { r with memSize := r.memSize + 16, memAlignment := max r.memAlignment 16 }
        else .error (.err .invalidState)
    | _ => .error (.err .internalError)

/-- `registers.c:371-374`, `:469-472`, `:521-524`. -/
def qwordCount (size : Nat) : Nat := size / 8 + (if size % 8 ≠ 0 then 1 else 0)

/-- `registers.c:365-393`, `:462-493`, `:514-547`: `immediate_struct_unwrap`, `immediate_array_unwrap`,
`immediate_union_unwrap` before the call of `aggregate_postmerger`.  The slot of the aggregate has been
taken. -/
def unwrap (t : List Entry) (layout : List (Option Data)) (i : Nat) (e : Entry) (d : Data) (slots : Slots) :
    Out (Qwords × Slots) :=
  let q := qwordsAlloc (qwordCount d.size)
  match e.code with
  | .struct => do
    let s ← nestedNodes t layout (i + 1) e.param ⟨⟨false, 0, ⟨0, 0⟩, ⟨0, 0⟩⟩, q, slots⟩
    pure (s.q, s.slots)
  | .array => do
    let s ← times e.param (fun s => nestedNodes t layout (i + 1) 1 s) ⟨⟨false, 0, ⟨0, 0⟩, ⟨0, 0⟩⟩, q, slots⟩
    pure (s.q, s.slots)
  | _ => do
    let p ← savePosition q
    let s ← nestedNodes t layout (i + 1) e.param ⟨⟨true, 0, p, p⟩, q, slots⟩
    let q ← restorePosition s.q s.info.max
    pure (q, s.slots)

/-- `registers.c:508-509`, `:562-563`: the error of the unwrapping of arrays and unions is ignored. -/
def ignoring {α : Type} (isStruct : Bool) (x : Out α) : Out α :=
  match x with
  | .ok a => .ok a
  | .error (.err e) => if isStruct then .error (.err e) else .error .ignored
  | .error f => .error f

/-! ## Slots -/

/-- `source/ir/type.c:174-224`: the traversal of `kefir_ir_type_node_slots` and
`kefir_ir_type_total_slots`. -/
def slotsNodes (t : List Entry) (i count acc : Nat) : Res Nat :=
  match count with
  | 0 => .ok acc
  | n + 1 =>
    if _h : i < t.length then do
      let e := t[i]
      let acc ← (match e.code with
        | .struct => if e.param > 0 then slotsNodes t (i + 1) e.param (acc + 1) else .error .invalidState
        | .union => if e.param > 0 then slotsNodes t (i + 1) e.param (acc + 1) else .error .invalidState
        | .array => do
          let nested ← slotsNodes t (i + 1) 1 0
          pure (acc + 1 + nested * e.param)
        | .leaf _ => .ok (acc + 1))
      slotsNodes t (i + nodeLen t i) n acc
    else .ok acc
termination_by (t.length - i, count)
decreasing_by
  all_goals first
    | (apply Prod.Lex.left; omega)
    | (apply lex_of_le <;> omega)

/-- `source/ir/type.c:201-211`, `kefir_ir_type_node_slots`. -/
def nodeSlots (t : List Entry) (i : Nat) : Nat :=
  match slotsNodes t i 1 0 with
  | .ok n => n
  | .error _ => 0

/-- `source/ir/type.c:213-224`, `kefir_ir_type_total_slots`. -/
def totalSlots (t : List Entry) : Nat :=
  match slotsNodes t 0 (nodes t) 0 with
  | .ok n => n
  | .error _ => 0

/-- `source/ir/type.c:285-305`, `:316-327`, `kefir_ir_type_iterator_goto` with `iter_visitor`: the slot of
the node `target`. -/
def gotoSlot (t : List Entry) (target : Nat) (i count slot : Nat) : Out Nat :=
  match count with
  | 0 => .error (.err .notFound)
  | n + 1 =>
    if _h : i < t.length then
      if (t[i].code = .struct ∨ t[i].code = .union) ∧ t[i].param = 0 then .error (.err .invalidState)
      else if i < target then gotoSlot t target (i + nodeLen t i) n (slot + nodeSlots t i)
      else if i = target then .ok slot
      else .error (.err .notFound)
    else .error (.err .notFound)

/-! ## Classification -/

/-- `registers.c:443-460`, `:495-512`, `:549-566`: `assign_immediate_struct`, `assign_immediate_array`,
`assign_immediate_union`, with the call of `calculate_qword_requirements` (`:395-441`) they end with.
`kefir_ir_type_node_slots` is 0 only for a type with an empty structure or union, which has no layout; the
subtraction does not wrap around here. -/
def classifyAggregate (t : List Entry) (layout : List (Option Data)) (i : Nat) (e : Entry) (s : Slots) :
    Out Slots := do
  let d ← layoutAt layout i
  let top := s.slot
  let s ← s.write (fun a => { a with type := .container, index := i })
  if d.size > 8 * 8 ∨ ¬ d.aligned then do
    let slot := s.slot + (nodeSlots t i - 1)
    let r : Requirements := { memSize := d.size, memAlignment := d.alignment }
    pure ⟨s.vec.modify top (fun a => { a with klass := .memory, requirements := r }), slot⟩
  else do
    let (q, s) ← ignoring (e.code = .struct) (unwrap t layout i e d s)
    match postmerger q with
    | none =>
      let r : Requirements := { memSize := d.size, memAlignment := d.alignment }
      let f := fun (a : Alloc) => { a with type := .container, klass := .memory, requirements := r }
      pure { s with vec := s.vec.modify top f }
    | some q => do
      let r ← qwordRequirements q.qwords {}
      let f := fun (a : Alloc) =>
        { a with type := .owningContainer, klass := .noClass, content := .qwords q, requirements := r }
      pure { s with vec := s.vec.modify top f }

/-- `registers.c:66-137`, `:568-581` with `builtins/vararg.c:54-64`: the objects without parts. -/
def classifyLeaf (k : Leaf) (i param : Nat) (d : Data) (a : Alloc) : Out Alloc :=
  match k with
  | .float32 | .float64 =>
    .ok { a with type := .immediate, klass := .sse, index := i, requirements := { a.requirements with sse := 1 } }
  | .longDouble =>
    .ok { a with
      type := .immediate, klass := .x87, index := i
      requirements := { a.requirements with x87 := 1, memSize := 16, memAlignment := 16 } }
  | .memory =>
    .ok { a with
      type := .immediate, klass := .memory, index := i
      requirements := { a.requirements with memSize := d.size, memAlignment := d.alignment } }
  | .pad => .ok { a with type := .skip, klass := .noClass, index := i }
  | .builtin =>
    if param < 1 then
      .ok { a with
        type := .immediate, klass := .integer, index := i
        requirements := { a.requirements with integer := 1 } }
    else .error (.err .internalError)
  | _ =>
    .ok { a with
      type := .immediate, klass := .integer, index := i, requirements := { a.requirements with integer := 1 } }

/-- `registers.c:606-618`: the traversal with the callbacks `assign_immediate_*`. -/
def classifyNodes (t : List Entry) (layout : List (Option Data)) (i count : Nat) (s : Slots) : Out Slots :=
  match count with
  | 0 => .ok s
  | n + 1 =>
    if _h : i < t.length then do
      let e := t[i]
      let s ← (match e.code with
        | .struct => if e.param > 0 then classifyAggregate t layout i e s else .error (.err .invalidState)
        | .union => if e.param > 0 then classifyAggregate t layout i e s else .error (.err .invalidState)
        | .array => classifyAggregate t layout i e s
        | .leaf k => do
          let d ← layoutAt layout i
          match s.vec[s.slot]? with
          | some a => do
            let a ← classifyLeaf k i e.param d a
            pure ⟨s.vec.set s.slot a, s.slot + 1⟩
          | none => .error .undefined)
      classifyNodes t layout (i + nodeLen t i) n s
    else .ok s

/-- `registers.c:583-624`, `kefir_amd64_sysv_parameter_classify`. -/
def parameterClassify (t : List Entry) (layout : List (Option Data)) : Out (List Alloc) := do
  let s ← classifyNodes t layout 0 (nodes t) ⟨List.replicate (totalSlots t) Alloc.fresh, 0⟩
  pure s.vec

/-! ## Allocation -/

/-- `registers.c:28-32`, `:34-38`. -/
def integerRegisters : Nat := 6
def sseRegisters : Nat := 8

/-- The stack part of `integer_allocate`, `sse_allocate` and `vararg_allocate_immediate_argument`
(`registers.c:661-665`, `:686-690`, `builtins/vararg.c:80-84`), `memory_allocate` (`registers.c:736-739`)
and `long_double_allocate` (`:706-710`): the location after it and the stack offset. -/
def stackAllocate (cur : Location) (alignment size : Nat) : Location × Nat :=
  let off := padAligned cur.stack alignment
  ({ cur with stack := off + size }, off)

/-- `registers.c:645-741`, `:806-821` with `builtins/vararg.c:66-87`: objects without parts. -/
def allocateLeaf (k : Leaf) (param : Nat) (cur : Location) (a : Alloc) : Out (Location × Alloc) :=
  let r := a.requirements
  match k with
  | .float32 | .float64 =>
    if r.integer = 0 ∧ r.sse = 1 ∧ r.sseup = 0 ∧ r.memSize = 0 then
      if cur.sse + 1 ≤ sseRegisters then
        .ok ({ cur with sse := cur.sse + 1 }, { a with location := { a.location with sse := cur.sse } })
      else
        let (cur, off) := stackAllocate cur (max r.memAlignment 8) 8
        .ok (cur, { a with klass := .memory, location := { a.location with stack := off } })
    else .error (.err .internalError)
  | .longDouble =>
    let (cur, off) := stackAllocate cur (max r.memAlignment 16) 16
    .ok (cur, { a with klass := .memory, location := { a.location with stack := off } })
  | .pad => .ok (cur, a)
  | .memory =>
    if r.integer = 0 ∧ r.sse = 0 ∧ r.sseup = 0 ∧ r.memSize > 0 then
      let (cur, off) := stackAllocate cur (max r.memAlignment 8) r.memSize
      .ok (cur, { a with location := { a.location with stack := off } })
    else .error (.err .internalError)
  | .builtin =>
    if param < 1 then
      if cur.int + 1 ≤ integerRegisters then
        .ok ({ cur with int := cur.int + 1 }, { a with location := { a.location with int := cur.int } })
      else
        let (cur, off) := stackAllocate cur (max r.memAlignment 8) 8
        .ok (cur, { a with klass := .memory, location := { a.location with stack := off } })
    else .error (.err .internalError)
  | _ =>
    if r.integer = 1 ∧ r.sse = 0 ∧ r.sseup = 0 ∧ r.memSize = 0 then
      if cur.int + 1 ≤ integerRegisters then
        .ok ({ cur with int := cur.int + 1 }, { a with location := { a.location with int := cur.int } })
      else
        let (cur, off) := stackAllocate cur (max r.memAlignment 8) 8
        .ok (cur, { a with klass := .memory, location := { a.location with stack := off } })
    else .error (.err .internalError)

/-- The loop `registers.c:775-793`. -/
def placeQwords (ws : List Qword) (int sse : Nat) : Out (List Qword) :=
  match ws with
  | [] => .ok []
  | w :: ws =>
    match w.klass with
    | .integer => do
      let r ← placeQwords ws (int + 1) sse
      pure ({ w with location := int } :: r)
    | .sse => do
      let r ← placeQwords ws int (sse + 1)
      pure ({ w with location := sse } :: r)
    | .sseup => do
      let r ← placeQwords ws int sse
      pure ({ w with location := sse } :: r)
    | _ => .error (.err .internalError)

/-- `registers.c:743-804`, `aggregate_allocate` with `aggregate_register_allocate` and
`aggregate_disown`. -/
def allocateAggregate (d : Data) (cur : Location) (a : Alloc) : Out (Location × Alloc) :=
  let r := a.requirements
  if a.type = .owningContainer ∧ a.klass = .noClass ∧ cur.int + r.integer ≤ integerRegisters ∧
      cur.sse + r.sse ≤ sseRegisters ∧ r.memSize = 0 then
    let loc := { a.location with int := if r.integer > 0 then cur.int else a.location.int }
    let loc := { loc with sse := if r.sse > 0 then cur.sse else a.location.sse }
    let cur := { cur with
      int := if r.integer > 0 then cur.int + r.integer else cur.int
      sse := if r.sse > 0 then cur.sse + r.sse else cur.sse }
    match a.content with
    | .qwords q => do
      let ws ← placeQwords q.qwords loc.int loc.sse
      pure (cur, { a with location := loc, content := .qwords { q with qwords := ws } })
    | _ => .error .undefined
  else
    let a := if a.type = .owningContainer then
        { a with type := .container, klass := .memory, content := .none } else a
    let (cur, off) := stackAllocate cur (max d.alignment 8) d.size
    .ok (cur, { a with location := { a.location with stack := off } })

/-- `registers.c:831-843`: the traversal with the callbacks `*_allocate`. -/
def allocateNodes (t : List Entry) (layout : List (Option Data)) (i count : Nat) (cur : Location)
    (vec : List Alloc) : Out (Location × List Alloc) :=
  match count with
  | 0 => .ok (cur, vec)
  | n + 1 =>
    if _h : i < t.length then do
      let e := t[i]
      if (e.code = .struct ∨ e.code = .union) ∧ e.param = 0 then .error (.err .invalidState)
      else do
        -- `pad_allocate` (`:714-721`) does nothing
        if e.code = .leaf .pad then allocateNodes t layout (i + nodeLen t i) n cur vec
        else do
          let slot ← gotoSlot t i 0 t.length 0
          match vec[slot]? with
          | none => .error .undefined
          | some a => do
            let (cur, a) ← (match e.code with
              | .leaf k => allocateLeaf k e.param cur a
              | _ => do
                let d ← layoutAt layout i
                allocateAggregate d cur a)
            allocateNodes t layout (i + nodeLen t i) n cur (vec.set slot a)
    else .ok (cur, vec)

/-- `registers.c:823-845`, `kefir_amd64_sysv_parameter_allocate`. -/
def parameterAllocate (t : List Entry) (layout : List (Option Data)) (vec : List Alloc) (loc : Location) :
    Out (Location × List Alloc) :=
  allocateNodes t layout 0 (nodes t) loc vec

/-- Errors of the computation of layouts. -/
def liftRes {α : Type} : Res α → Out α
  | .ok a => .ok a
  | .error e => .error (.err e)

/-- `source/codegen/amd64/system-v/abi/function.c:179-196`, `function_alloc_return`: the allocation of the
result and whether its address is an implicit first parameter. -/
def functionAllocReturn (result : List Entry) : Out (List Alloc × Bool) :=
  if nodes result ≤ 1 then do
    let layout ← liftRes (typeLayout result)
    let vec ← parameterClassify result layout
    if nodes result > 0 then
      match vec[0]? with
      | some a => pure (vec, decide (a.klass = .memory))
      | none => .error .undefined
    else pure (vec, false)
  else .error (.err .invalidState)

/-- `function.c:198-219`, `function_alloc_params`. -/
def functionAllocParams (params : List Entry) (implicit : Bool) : Out (Location × List Alloc) := do
  let layout ← liftRes (typeLayout params)
  let vec ← parameterClassify params layout
  parameterAllocate params layout vec ⟨if implicit then 1 else 0, 0, 0⟩

/-! ## The places the arguments of a call are stored to -/

/-- `source/codegen/amd64/system-v/abi/invoke.c:164-193`, `register_aggregate_argument`. -/
def qwordPlaces (ws : List Qword) : Out (List Place) :=
  match ws with
  | [] => .ok []
  | w :: ws =>
    match w.klass with
    | .integer => do
      let r ← qwordPlaces ws
      pure (.int w.location :: r)
    | .sse => do
      let r ← qwordPlaces ws
      pure (.sse w.location :: r)
    | _ => .error (.err .notSupported)

/-- `invoke.c:130-162`, `:195-213`, `memory_aggregate_argument` and `aggregate_argument`. -/
def aggregatePlaces (d : Data) (a : Alloc) : Out (List Place) :=
  if a.klass = .memory then .ok [.stack a.location.stack d.size]
  else match a.content with
    | .qwords q => qwordPlaces q.qwords
    | _ => .error .undefined

/-- `invoke.c:51-94`, `:96-128`, `:215-240` and `builtins/vararg.c:124-151`: `scalar_argument`,
`long_double_argument`, `visit_pad`, `builtin_argument` with `vararg_store_function_argument`. -/
def leafPlaces (k : Leaf) (param : Nat) (d : Data) (a : Alloc) : Out (List Place) :=
  match k with
  | .pad => .ok []
  | .memory => aggregatePlaces d a
  | .longDouble =>
    if a.klass = .memory then .ok [.stack a.location.stack 16] else .error (.err .invalidState)
  | .builtin =>
    if param < 1 then
      match a.klass with
      | .integer => .ok [.int a.location.int]
      | .memory => .ok [.stack a.location.stack 8]
      | _ => .error (.err .invalidState)
    else .error (.err .internalError)
  | _ =>
    match a.klass with
    | .integer => .ok [.int a.location.int]
    | .sse => .ok [.sse a.location.sse]
    | .memory => .ok [.stack a.location.stack 8]
    | _ => .error (.err .internalError)

/-- `invoke.c:242-280`, `invoke_prologue`: for each node of the parameters, the places its argument is
stored to.  The number of nodes visited there is the number of words of the arguments, which is at least
the number of nodes. -/
def invokeNodes (t : List Entry) (layout : List (Option Data)) (vec : List Alloc) (i count : Nat) :
    Out (List (List Place)) :=
  match count with
  | 0 => .ok []
  | n + 1 =>
    if _h : i < t.length then do
      let e := t[i]
      if (e.code = .struct ∨ e.code = .union) ∧ e.param = 0 then .error (.err .invalidState)
      else do
        let ps ← (if e.code = .leaf .pad then .ok []
          else do
            let slot ← gotoSlot t i 0 t.length 0
            match vec[slot]? with
            | none => .error .undefined
            | some a => do
              let d ← layoutAt layout i
              match e.code with
              | .leaf k => leafPlaces k e.param d a
              | _ => aggregatePlaces d a)
        let r ← invokeNodes t layout vec (i + nodeLen t i) n
        pure (ps :: r)
    else .ok []

/-- Where the arguments of a call are stored, and the number of bytes reserved for them on the stack. -/
def callPlaces (params : List Entry) (implicit : Bool) : Out (List (List Place) × Nat) := do
  let (loc, vec) ← functionAllocParams params implicit
  let layout ← liftRes (typeLayout params)
  let ps ← invokeNodes params layout vec 0 (nodes params)
  pure (ps, loc.stack)

end Kefir.Abi
