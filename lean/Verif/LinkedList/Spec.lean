import Verif.LinkedList.Model

/-!
# Specification: lists as finite sequences of (entry pointer, value) pairs
-/

namespace Kefir.LinkedList

variable {V : Type}

/-- One call on one of the lists. -/
inductive Call (V : Type) where
  /-- `kefir_list_insert_after`; the last argument is the address the allocator returns. -/
  | insertAfter (l : Nat) (iter : Option Addr) (v : V) (fresh : Addr)
  | pop (l : Nat) (iter : Addr)
  | clear (l : Nat)
  /-- `kefir_list_free` followed by `kefir_list_init`. -/
  | reinit (l : Nat)
  | moveAll (dst src : Nat)
  | length (l : Nat)
  | head (l : Nat)
  | tail (l : Nat)
  | at (l : Nat) (index : Nat)
  /-- `kefir_list_next` on a cursor. -/
  | next (l : Nat) (cursor : Addr)
  /-- the `prev` member of an entry. -/
  | prev (l : Nat) (entry : Addr)

/-- What a call reports (`pop`, `clear` and `reinit` report the values the callback received). -/
inductive Reply (V : Type) where
  | done
  | values (vs : List V)
  | nat (n : Nat)
  | ptr (p : Option Addr)
  | item (v : V) (p : Option Addr)
  deriving DecidableEq

/-- Abstract state: each list is a sequence of entries. -/
abbrev Seqs (V : Type) := Nat → List (Addr × V)

def Seqs.set (s : Seqs V) (i : Nat) (l : List (Addr × V)) : Seqs V :=
  fun j => if j = i then l else s j

/-- The pointer to the first/last entry of a sequence. -/
def first (l : List (Addr × V)) : Option Addr := l.head?.map Prod.fst
def last (l : List (Addr × V)) : Option Addr := l.getLast?.map Prod.fst

/-- `A ++ x :: B` with `x` the entry at address `i`. -/
def splitAt (i : Addr) : List (Addr × V) → Option (List (Addr × V) × V × List (Addr × V))
  | [] => none
  | (a, v) :: l =>
    if a = i then some ([], v, l)
    else (splitAt i l).map (fun (A, x, B) => ((a, v) :: A, x, B))

/-- Client obligations: entry pointers passed in belong to the list, the allocator returns an address
not in use. -/
def Valid (s : Seqs V) : Call V → Prop
  | .insertAfter l iter _ fresh =>
    (∀ i, iter = some i → i ∈ (s l).map Prod.fst) ∧ ∀ j, fresh ∉ (s j).map Prod.fst
  | .pop l i => i ∈ (s l).map Prod.fst
  | .next l i => i ∈ (s l).map Prod.fst
  | .prev l i => i ∈ (s l).map Prod.fst
  | _ => True

/-- Abstract semantics. -/
def specStep (s : Seqs V) : Call V → Seqs V × Reply V
  | .insertAfter l none v a => (s.set l ((a, v) :: s l), .done)
  | .insertAfter l (some i) v a =>
    match splitAt i (s l) with
    | some (A, x, B) => (s.set l (A ++ (i, x) :: (a, v) :: B), .done)
    | none => (s, .done)
  | .pop l i =>
    match splitAt i (s l) with
    | some (A, x, B) => (s.set l (A ++ B), .values [x])
    | none => (s, .done)
  | .clear l => (s.set l [], .values ((s l).map Prod.snd))
  | .reinit l => (s.set l [], .values ((s l).map Prod.snd))
  | .moveAll dst src =>
    if dst = src then (s, .done) else ((s.set dst (s dst ++ s src)).set src [], .done)
  | .length l => (s, .nat (s l).length)
  | .head l => (s, .ptr (first (s l)))
  | .tail l => (s, .ptr (last (s l)))
  | .at l n => (s, .ptr (first ((s l).drop n)))
  | .next l i =>
    match splitAt i (s l) with
    | some (_, x, B) => (s, .item x (first B))
    | none => (s, .done)
  | .prev l i =>
    match splitAt i (s l) with
    | some (A, _, _) => (s, .ptr (last A))
    | none => (s, .done)

/-- The same call on the model of the C code. -/
def implStep (w : World V) : Call V → Option (World V × Reply V)
  | .insertAfter l iter v a => do
    let (h, hd) ← insertAfter w.heap (w.lists l) iter v a
    return ({ w with heap := h }.setHdr l hd, .done)
  | .pop l i => do
    let (h, hd, v) ← pop w.heap (w.lists l) i
    return ({ w with heap := h }.setHdr l hd, .values [v])
  | .clear l => do
    let (h, hd, vs) ← clear w.heap (w.lists l)
    return ({ w with heap := h }.setHdr l hd, .values vs)
  | .reinit l => do
    let (h, _, vs) ← free w.heap (w.lists l)
    return ({ w with heap := h }.setHdr l initHdr, .values vs)
  | .moveAll dst src => do
    let w ← moveAll w dst src
    return (w, .done)
  | .length l => some (w, .nat (w.lists l).length)
  | .head l => some (w, .ptr (w.lists l).head)
  | .tail l => some (w, .ptr (w.lists l).tail)
  | .at l n => do
    let p ← at' w.heap (w.lists l) n
    return (w, .ptr p)
  | .next _ i => do
    let (v, p) ← next w.heap (some i)
    match v with
    | some v => return (w, .item v p)
    | none => return (w, .done)
  | .prev _ i => do
    let c ← w.heap i
    return (w, .ptr c.prev)

/-- Run a history; `none` if some call has undefined behaviour. -/
def implRun : World V → List (Call V) → Option (World V × List (Reply V))
  | w, [] => some (w, [])
  | w, c :: cs => do
    let (w, r) ← implStep w c
    let (w, rs) ← implRun w cs
    return (w, r :: rs)

def specRun : Seqs V → List (Call V) → Seqs V × List (Reply V)
  | s, [] => (s, [])
  | s, c :: cs =>
    let (s', r) := specStep s c
    let (s'', rs) := specRun s' cs
    (s'', r :: rs)

/-- Every call of the history is valid in the state it is made in. -/
def ValidRun : Seqs V → List (Call V) → Prop
  | _, [] => True
  | s, c :: cs => Valid s c ∧ ValidRun (specStep s c).1 cs

/-- Nothing allocated, every list initialised. -/
def World.init : World V := ⟨fun _ => none, fun _ => initHdr⟩

end Kefir.LinkedList
