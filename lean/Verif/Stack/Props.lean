import Verif.Stack.Model
import Verif.LinkedList.Lemmas

namespace Kefir.Stack

open LinkedList

variable {V : Type}

inductive Call (V : Type) where
  | push (v : V) (fresh : Addr)
  | pop
  | peek

/-- Specification: a stack is a list with its top first; popping or peeking an empty stack gives
NULL. -/
def specStep (s : List V) : Call V → List V × Option V
  | .push v _ => (v :: s, none)
  | .pop => (s.tail, s.head?)
  | .peek => (s, s.head?)

def implStep (w : World V) : Call V → Option (World V × Option V)
  | .push v a => do
    let w ← push w 0 v a
    return (w, none)
  | .pop => pop w 0
  | .peek => do
    let v ← peek w 0
    return (w, v)

def implRun : World V → List (Call V) → Option (World V × List (Option V))
  | w, [] => some (w, [])
  | w, c :: cs => do
    let (w, r) ← implStep w c
    let (w, rs) ← implRun w cs
    return (w, r :: rs)

def specRun : List V → List (Call V) → List V × List (Option V)
  | s, [] => (s, [])
  | s, c :: cs =>
    let (s', r) := specStep s c
    let (s'', rs) := specRun s' cs
    (s'', r :: rs)

/-- The allocator never returns an address in use (for simplicity: never twice). -/
def FreshRun : List Addr → List (Call V) → Prop
  | _, [] => True
  | used, .push _ a :: cs => a ∉ used ∧ FreshRun (a :: used) cs
  | used, _ :: cs => FreshRun used cs

/-- Addresses handed out after a call. -/
def usedAfter (used : List Addr) : Call V → List Addr
  | .push _ a => a :: used
  | _ => used

/-- The stack is list 0; all other lists are empty. -/
structure SRel (w : World V) (s : List V) (used : List Addr) : Prop where
  ex : ∃ q : Seqs V, WRepr w q ∧ ((q 0).map Prod.snd).reverse = s ∧ (∀ j, j ≠ 0 → q j = []) ∧
    ∀ a ∈ (q 0).map Prod.fst, a ∈ used

theorem splitAt_last {l : List (Addr × V)} {a : Addr} {v : V}
    (hn : ((l ++ [(a, v)]).map Prod.fst).Nodup) : splitAt a (l ++ [(a, v)]) = some (l, v, []) := by
  induction l with
  | nil => simp [splitAt]
  | cons x l ih =>
    obtain ⟨b, w⟩ := x
    simp only [List.cons_append, List.map_cons, List.nodup_cons] at hn
    have hne : b ≠ a := by
      rintro rfl; apply hn.1; simp
    simp [splitAt, hne, ih hn.2]

theorem step_refines {w : World V} {s : List V} {used : List Addr} (h : SRel w s used) (c : Call V)
    (hf : FreshRun used [c]) :
    ∃ w', implStep w c = some (w', (specStep s c).2) ∧
      SRel w' (specStep s c).1 (usedAfter used c) := by
  obtain ⟨q, hw, hs, ho, hu⟩ := h.ex
  have ht := (hw.repr 0).tail
  have hnod := (hw.repr 0).nodup
  rcases List.eq_nil_or_concat (q 0) with hq | ⟨l, x, hq⟩
  · -- empty stack
    rw [hq] at ht hs
    simp only [last_nil] at ht
    simp only [List.map_nil, List.reverse_nil] at hs
    subst hs
    cases c with
    | push v a =>
      simp only [FreshRun] at hf
      obtain ⟨w', e1, e2⟩ := LinkedList.step_refines hw (c := .insertAfter 0 none v a)
        ⟨by simp, by intro j; by_cases hj : j = 0
                     · subst hj; simp [hq]
                     · simp [ho j hj]⟩
      simp only [implStep, push, ht, e1, Option.bind_eq_bind, Option.bind_some]
      refine ⟨w', rfl, ⟨_, e2, ?_, ?_, ?_⟩⟩
      · simp [LinkedList.specStep, Seqs.set, hq, specStep]
      · intro j hj; simp [LinkedList.specStep, Seqs.set, hj, ho j hj]
      · simp [LinkedList.specStep, Seqs.set, hq, usedAfter]
    | pop =>
      refine ⟨w, by simp [implStep, pop, ht, specStep], ⟨q, hw, by simp [hq, specStep], ho, hu⟩⟩
    | peek =>
      refine ⟨w, by simp [implStep, peek, ht, specStep], ⟨q, hw, by simp [hq, specStep], ho, hu⟩⟩
  · obtain ⟨a0, v0⟩ := x
    rw [List.concat_eq_append] at hq
    rw [hq] at ht hs hu
    have hl : last (l ++ [(a0, v0)]) = some a0 := by simp [last]
    rw [hl] at ht
    have hsplit := splitAt_last (l := l) (a := a0) (v := v0) (by rw [← hq]; exact hnod)
    have hmem : a0 ∈ (q 0).map Prod.fst := by rw [hq]; simp
    have hcell : w.heap a0 = some ⟨last l, none, v0⟩ := by
      have := (hw.repr 0).seg
      rw [hq, Seg_append] at this
      simpa using this.2.1
    subst hs
    cases c with
    | push v a =>
      simp only [FreshRun] at hf
      obtain ⟨w', e1, e2⟩ := LinkedList.step_refines hw (c := .insertAfter 0 (some a0) v a)
        ⟨by intro i hi; cases hi; exact hmem, by
          intro j; by_cases hj : j = 0
          · subst hj; intro hm; rw [hq] at hm; exact hf.1 (hu _ hm)
          · simp [ho j hj]⟩
      simp only [implStep, push, ht, e1, Option.bind_eq_bind, Option.bind_some]
      have hres : (LinkedList.specStep q (.insertAfter 0 (some a0) v a)).1 =
          q.set 0 (l ++ (a0, v0) :: (a, v) :: []) := by
        simp [LinkedList.specStep, hq, hsplit]
      rw [hres] at e2
      refine ⟨w', rfl, ⟨_, e2, ?_, ?_, ?_⟩⟩
      · simp [Seqs.set, specStep]
      · intro j hj; simp [Seqs.set, hj, ho j hj]
      · intro b hb
        simp [Seqs.set] at hb
        rcases hb with hb | hb | hb
        · exact List.mem_cons_of_mem _ (hu b (by simp [hb]))
        · exact List.mem_cons_of_mem _ (hu b (by simp [hb]))
        · simp [hb, usedAfter]
    | pop =>
      obtain ⟨w', e1, e2⟩ := LinkedList.step_refines hw (c := .pop 0 a0) hmem
      simp only [implStep, pop, ht, hcell, e1, Option.bind_eq_bind, Option.bind_some]
      have hres : (LinkedList.specStep q (.pop 0 a0)).1 = q.set 0 l := by
        simp [LinkedList.specStep, hq, hsplit]
      rw [hres] at e2
      refine ⟨w', by simp [specStep], ⟨_, e2, ?_, ?_, ?_⟩⟩
      · simp [Seqs.set, specStep]
      · intro j hj; simp [Seqs.set, hj, ho j hj]
      · intro b hb
        simp [Seqs.set] at hb
        exact hu b (by simp [hb])
    | peek =>
      refine ⟨w, by simp [implStep, peek, ht, hcell, specStep],
        ⟨q, hw, by simp [hq, specStep], ho, by rw [hq]; exact hu⟩⟩

theorem FreshRun.head {used : List Addr} {c : Call V} {cs : List (Call V)}
    (h : FreshRun used (c :: cs)) :
    FreshRun used [c] ∧ FreshRun (usedAfter used c) cs := by
  cases c <;> simp only [FreshRun, usedAfter, and_true, true_and] at h ⊢ <;> exact h

theorem run_refines {w : World V} {s : List V} {used : List Addr} (h : SRel w s used)
    (cs : List (Call V)) (hf : FreshRun used cs) :
    ∃ w', implRun w cs = some (w', (specRun s cs).2) := by
  induction cs generalizing w s used with
  | nil => exact ⟨w, rfl⟩
  | cons c cs ih =>
    obtain ⟨hf1, hf2⟩ := hf.head
    obtain ⟨w1, e1, r1⟩ := step_refines h c hf1
    obtain ⟨w2, e2⟩ := ih r1 hf2
    exact ⟨w2, by simp only [implRun, e1, Option.bind_eq_bind, Option.bind_some, e2, specRun]; rfl⟩

/-- C46.  Every history of pushes, pops and peeks on a linked stack returns what a last-in-first-out
stack returns, never touching freed memory; an empty stack gives NULL. -/
theorem C46_linked_stack_lifo (history : List (Call V)) (hf : FreshRun [] history) :
    ∃ w, implRun World.init history = some (w, (specRun [] history).2) :=
  run_refines ⟨fun _ => [], WRepr.init, by simp, by simp, by simp⟩ history hf

example : FreshRun (V := String) [] [.push "a" 1, .push "b" 2, .pop, .push "c" 3, .pop, .pop, .pop] ∧
    (specRun (V := String) [] [.push "a" 1, .push "b" 2, .pop, .push "c" 3, .pop, .pop, .pop]).2 =
      [none, none, some "b", none, some "c", some "a", none] := by
  simp [FreshRun, specRun, specStep]

end Kefir.Stack
