import Verif.Base

/-!
# Model of `source/core/list.c` on an explicit heap

Entries live in a heap of cells indexed by addresses; several lists share the heap.  Every operation
returns `none` when the C code would dereference NULL or an address that is not an allocated entry
(undefined behaviour), or would not terminate.

Simplifications: NULL-parameter checks of the list pointer are not modelled; `length` is a natural
number (in C a `size_t`, which cannot overflow before memory is exhausted); `KEFIR_MALLOC` succeeds
and returns the address given as argument; the removal callback is modelled by the sequence of
entries it receives and never fails.
-/

namespace Kefir.LinkedList

abbrev Addr := Nat

/-- `struct kefir_list_entry`, `headers/kefir/core/list.h:28-32`. -/
structure Cell (V : Type) where
  prev : Option Addr
  next : Option Addr
  value : V

/-- `struct kefir_list`, `headers/kefir/core/list.h:34-42`. -/
structure Hdr where
  head : Option Addr
  tail : Option Addr
  length : Nat
  deriving DecidableEq

abbrev Heap (V : Type) := Addr → Option (Cell V)

/-- The heap and the list headers (indexed by natural numbers). -/
structure World (V : Type) where
  heap : Heap V
  lists : Nat → Hdr

variable {V : Type}

def Heap.set (h : Heap V) (a : Addr) (c : Option (Cell V)) : Heap V :=
  fun b => if b = a then c else h b

def World.setHdr (w : World V) (i : Nat) (hd : Hdr) : World V :=
  { w with lists := fun j => if j = i then hd else w.lists j }

/-- `p->next = q` -/
def setNext (h : Heap V) (p : Addr) (q : Option Addr) : Option (Heap V) := do
  let c ← h p
  return h.set p (some { c with next := q })

/-- `p->prev = q` -/
def setPrev (h : Heap V) (p : Addr) (q : Option Addr) : Option (Heap V) := do
  let c ← h p
  return h.set p (some { c with prev := q })

/-- `if (p != NULL) p->prev = q` -/
def setPrevOpt (h : Heap V) (p : Option Addr) (q : Option Addr) : Option (Heap V) :=
  match p with
  | some p => setPrev h p q
  | none => some h

/-- `if (p != NULL) p->next = q` -/
def setNextOpt (h : Heap V) (p : Option Addr) (q : Option Addr) : Option (Heap V) :=
  match p with
  | some p => setNext h p q
  | none => some h

/-- `kefir_list_init`, `source/core/list.c:25-33`. -/
def initHdr : Hdr := ⟨none, none, 0⟩

/-- `kefir_list_insert_after`, `source/core/list.c:66-98`; `a` is the address returned by
`KEFIR_MALLOC`. -/
def insertAfter (h : Heap V) (l : Hdr) (iter : Option Addr) (v : V) (a : Addr) :
    Option (Heap V × Hdr) :=
  match iter with
  | none => do
    let h := h.set a (some ⟨none, l.head, v⟩)
    let h ← setPrevOpt h l.head (some a)
    return (h, ⟨some a, (match l.tail with | none => some a | some t => some t), l.length + 1⟩)
  | some i => do
    let h := h.set a (some ⟨none, none, v⟩)
    let ci ← h i
    let h := h.set a (some ⟨some i, ci.next, v⟩)
    let h ← setNext h i (some a)
    let h ← setPrevOpt h ci.next (some a)
    return (h, ⟨l.head, (if l.tail = some i then some a else l.tail), l.length + 1⟩)

/-- `kefir_list_pop`, `source/core/list.c:100-122`, returning also the value the removal callback
sees (lines 104-106). -/
def pop (h : Heap V) (l : Hdr) (i : Addr) : Option (Heap V × Hdr × V) := do
  let c ← h i
  let head := if l.head = some i then c.next else l.head
  let tail := if l.tail = some i then c.prev else l.tail
  let h ← setPrevOpt h c.next c.prev
  let c' ← h i
  let h ← setNextOpt h c'.prev c'.next
  return (h.set i none, ⟨head, tail, l.length - 1⟩, c.value)

/-- The loop of `kefir_list_clear`, `source/core/list.c:124-144`, returning the values passed to the
removal callback in order. -/
def clear (h : Heap V) (l : Hdr) : Option (Heap V × Hdr × List V) := do
  match l.head with
  | none => return (h, l, [])
  | some e =>
    let c ← h e
    let h ← setPrevOpt h c.next none
    let tail := if l.tail = some e then none else l.tail
    let (h, l, vs) ← clear (h.set e none) ⟨c.next, tail, l.length - 1⟩
    return (h, l, c.value :: vs)
partial_fixpoint

/-- The loop of `kefir_list_free`, `source/core/list.c:39-47`. -/
def freeLoop (h : Heap V) (current : Option Addr) : Option (Heap V × List V) := do
  match current with
  | none => return (h, [])
  | some e =>
    let c ← h e
    let (h, vs) ← freeLoop (h.set e none) c.next
    return (h, c.value :: vs)
partial_fixpoint

/-- `kefir_list_free`, `source/core/list.c:35-50`: only `head` is reset. -/
def free (h : Heap V) (l : Hdr) : Option (Heap V × Hdr × List V) := do
  let (h, vs) ← freeLoop h l.head
  return (h, { l with head := none }, vs)

/-- `kefir_list_at`, `source/core/list.c:156-163`. -/
def atLoop (h : Heap V) : Nat → Option Addr → Option (Option Addr)
  | 0, e => some e
  | _ + 1, none => some none
  | n + 1, some e => do
    let c ← h e
    atLoop h n c.next

/-- `kefir_list_at`, `source/core/list.c:156-163`. -/
def at' (h : Heap V) (l : Hdr) (index : Nat) : Option (Option Addr) := atLoop h index l.head

/-- `kefir_list_next`, `source/core/list.c:165-173`: the value of the current entry and the new
cursor. -/
def next (h : Heap V) (current : Option Addr) : Option (Option V × Option Addr) :=
  match current with
  | none => some (none, none)
  | some e => do
    let c ← h e
    return (some c.value, c.next)

/-- `kefir_list_move_all`, `source/core/list.c:175-199`.  `src` and `dst` are read and written
through the world because they may be the same list. -/
def moveAll (w : World V) (dst src : Nat) : Option (World V) :=
  let s := w.lists src
  match s.head with
  | none => some w
  | some sh => do
    let w := w.setHdr src ⟨none, none, 0⟩
    let d := w.lists dst
    match d.tail with
    | some dt => do
      let h ← setNext w.heap dt (some sh)
      let h ← setPrev h sh (some dt)
      let w := { w with heap := h }
      return w.setHdr dst ⟨d.head, s.tail, d.length + s.length⟩
    | none => return w.setHdr dst ⟨some sh, s.tail, d.length + s.length⟩

end Kefir.LinkedList
