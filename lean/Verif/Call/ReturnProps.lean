import Verif.Call.ReturnLemmas
import Verif.Call.Props

/-!
# C87: a call yields the value the function returns
-/

namespace Kefir.Call

open Kefir.Layout Kefir.Abi

/-- The storage for the result in the frame of the calling function, `cf` is the address of the frame. -/
def resultStorage (cf size : Nat) : Region := ⟨cf + 16, 8 * eightbytes size⟩

/-- The value a function of the type returns arrives where the function has been called.  The called function
has its frame at `ff` and the value `v` on its operand stack; if the address of the storage for the result is an
implicit parameter, the function has stored it at the beginning of its frame (this is part of C85).  An object
that is returned does not overlap with the storage for the result unless it is that storage (C17 6.5.16.1p3).
Then both functions are compiled, the calling function has the value, and apart from the storage for the result
no byte of memory has changed. -/
def ResultArrives (t : Ty) : Prop :=
  ∀ (vec : List Alloc) (implicit : Bool), functionAllocReturn (flatten t) = .ok (vec, implicit) →
  ∀ layout, typeLayout (flatten t) = .ok layout →
  ∀ v, ArgFor t v → ∀ stack, OnTop stack v.pushed → ∀ (cf ff : Nat), cf + 16 < 2 ^ 64 →
  ∀ before : Machine, (implicit = true → Mem.load before.mem ff = Word.ofNat (cf + 16)) →
  (∀ w l, v = .word w → Laid t l →
    w.toNat = cf + 16 ∨ Region.Disjoint ⟨w.toNat, l.data.size⟩ ⟨cf + 16, l.data.size⟩) →
  ∀ junk : Word,
  ∃ l s r, Laid t l ∧ functionEpilogue ⟨flatten t, layout⟩ vec ff stack before = .ok s ∧
    invokeEpilogue ⟨flatten t, layout⟩ vec cf junk s = .ok r ∧
    Returned before.mem r.mem t (if implicit = false ∧ hasLong t = true then min 10 l.data.size else l.data.size)
      v r.pushed ∧
    ∀ x, ¬ (resultStorage cf l.data.size).Has x → r.mem x = before.mem x

/-- All eightbytes of a result in registers have got a class. -/
def Filled (vec : List Alloc) : Prop :=
  ∀ a q, vec[0]? = some a → a.content = .qwords q → ∀ w ∈ q.qwords, w.klass ≠ .noClass

theorem qwordCount_eq (n : Nat) : qwordCount n = eightbytes n := by
  simp only [qwordCount, eightbytes]; split <;> omega

theorem disjoint_or {a b n : Nat} (h : a = b ∨ Region.Disjoint ⟨a, n⟩ ⟨b, n⟩) : b ≤ a ∨ a + n ≤ b := by
  rcases h with rfl | h
  · omega
  · have h1 := h a
    have h2 := h b
    simp only at h1 h2
    omega

/-- The two ends of an aggregate that is returned. -/
theorem aggregate_returned {t : Ty} {a : Alloc}
    (ha : a = memoryEntry 0 (ownLayout t).data ∨ (a.klass = .memory) ∨
      ∃ q rq, a = registerEntry 0 q rq ∧ NoUp q.qwords ∧ q.qwords.length ≤ 2 ∧
        q.qwords.length = qwordCount (ownLayout t).data.size ∧ qwordRequirements q.qwords {} = .ok rq ∧
        (hasLong t = false → NoX87 q.qwords))
    (hfull : ∀ q, a.content = .qwords q → ∀ w ∈ q.qwords, w.klass ≠ .noClass)
    {w : Word} {stack : Nat → Word} (hst : stack 0 = w) {cf ff : Nat} (hcf : cf + 16 < 2 ^ 64) (before : Machine)
    (himp : a.klass = .memory → Mem.load before.mem ff = Word.ofNat (cf + 16))
    (hdis : w.toNat = cf + 16 ∨
      Region.Disjoint ⟨w.toNat, (ownLayout t).data.size⟩ ⟨cf + 16, (ownLayout t).data.size⟩) (e : Entry) :
    ∃ s r, returnAggregate ff stack e (ownLayout t).data a before = .ok s ∧
      aggregateReturn cf s e (ownLayout t).data a ⟨s.mem, []⟩ = .ok r ∧
      (∃ b : Word, r.pushed = [b] ∧
        ∀ i < (if decide (a.klass = .memory) = false ∧ hasLong t = true then min 10 (ownLayout t).data.size
          else (ownLayout t).data.size), r.mem (b.toNat + i) = before.mem (w.toNat + i)) ∧
      ∀ x, ¬ (resultStorage cf (ownLayout t).data.size).Has x → r.mem x = before.mem x := by
  by_cases hk : a.klass = .memory
  · refine ⟨returnMemoryAggregate ff stack (ownLayout t).data before,
      ⟨(returnMemoryAggregate ff stack (ownLayout t).data before).mem, [Word.ofNat (cf + 16)]⟩, ?_, ?_,
      ⟨Word.ofNat (cf + 16), rfl, ?_⟩, ?_⟩
    · simp only [returnAggregate, hk, if_true]
    · simp only [aggregateReturn, hk, if_true, returnMemoryAggregate, setReg, List.nil_append, Nat.zero_mul,
        Nat.add_zero, himp hk]
    · intro i hi
      simp only [hk, decide_true, Bool.true_eq_false, false_and, if_false] at hi
      simp only [returnMemoryAggregate, Nat.zero_mul, Nat.add_zero, himp hk, toNat_ofNat hcf, hst]
      exact movsb_in _ _ _ _ (disjoint_or hdis) i hi
    · intro x hx
      simp only [returnMemoryAggregate, Nat.zero_mul, Nat.add_zero, himp hk, toNat_ofNat hcf, hst]
      apply movsb_out
      intro hx'
      apply hx
      simp only [Region.Has, resultStorage, eightbytes]
      omega
  rcases ha with rfl | hk' | ⟨q, rq, rfl, hn, hlen, hcount, hrq, hx⟩
  · exact absurd rfl hk
  · exact absurd hk' hk
  · obtain ⟨s, m, h1, h2, h3, h4, h5⟩ := qwords_returned hn hlen hrq (hfull q rfl) w.toNat (cf + 16) before
    rw [hcount, qwordCount_eq] at h4 h5
    refine ⟨s, ⟨m, [Word.ofNat (cf + 16)]⟩, ?_, ?_, ⟨Word.ofNat (cf + 16), rfl, ?_⟩, ?_⟩
    · simp only [returnAggregate, registerEntry, reduceCtorEq, if_false, hst, h1]
    · simp only [aggregateReturn, registerEntry, reduceCtorEq, if_false, bind, Except.bind, internalBound,
        Nat.reduceMul, h3, pure, Except.pure, List.nil_append]
    · intro i hi
      rw [toNat_ofNat hcf]
      have hsz : i < (ownLayout t).data.size ∧ (hasLong t = true → i < 10) := by
        cases hL : hasLong t
        · simp [hL] at hi; exact ⟨hi, by simp⟩
        · simp [hL, registerEntry] at hi; exact ⟨by omega, fun _ => by omega⟩
      apply h5 i (by simp only [eightbytes]; omega)
      intro hno
      apply hsz.2
      cases hL : hasLong t
      · exact absurd (hx hL) hno
      · rfl
    · intro x hx
      exact h4 x hx

/-- What the classification of an aggregate says about its eightbytes. -/
theorem aggregate_shape {t : Ty} (hw : WF t) (ht : Ty.isLeaf t = false) {a rest}
    (h : classify t (ownLayout t) 0 = .ok (a :: rest)) :
    a = memoryEntry 0 (ownLayout t).data ∨ a.klass = .memory ∨
      ∃ q rq, a = registerEntry 0 q rq ∧ NoUp q.qwords ∧ q.qwords.length ≤ 2 ∧
        q.qwords.length = qwordCount (ownLayout t).data.size ∧ qwordRequirements q.qwords {} = .ok rq ∧
        (hasLong t = false → NoX87 q.qwords) := by
  have hl := laid_one hw
  have hc : classifyAgg t (ownLayout t) 0 = .ok (a :: rest) := by
    cases t with
    | leaf => simp [Ty.isLeaf] at ht
    | struct => exact h
    | union => exact h
    | array => exact h
  unfold classifyAgg at hc
  split at hc
  · simp only [Except.ok.injEq, List.cons.injEq] at hc
    exact .inl hc.1.symm
  · obtain ⟨v, h1, h2⟩ := bind_inv hc
    have hn : nest t (ownLayout t) 0 (qwordsAlloc (qwordCount (ownLayout t).data.size)) = .ok v := by
      cases hx : nest t (ownLayout t) 0 (qwordsAlloc (qwordCount (ownLayout t).data.size)) with
      | ok a => rw [hx] at h1; simpa [ignoring] using h1
      | error f => rw [hx] at h1; cases f <;> simp [ignoring] at h1; split at h1 <;> cases h1
    obtain ⟨⟨hlen, hup⟩, hobj⟩ := nest_keeps t _ hl _ _ _ hn
    have hup := hup (by intro w hw; simp only [qwordsAlloc, List.mem_replicate] at hw; rw [hw.2]; decide)
    split at h2
    · simp only [Except.ok.injEq, List.cons.injEq] at h2
      exact .inl h2.1.symm
    · rename_i q hq
      have hs := postmerger_same hup hq
      subst hs
      obtain ⟨rq, h3, h4⟩ := bind_inv h2
      simp only [Except.ok.injEq, List.cons.injEq] at h4
      refine .inr (.inr ⟨v.1, rq, h4.1.symm, hup, ?_, by rw [hlen]; simp [qwordsAlloc], h3, ?_⟩)
      · rcases Nat.lt_or_ge 2 v.1.qwords.length with hgt | hle
        · rw [postmerger_large hup hgt] at hq; cases hq
        · exact hle
      · intro hL
        obtain ⟨⟨_, hx⟩, _⟩ := nest_keepsX t _ hl hL _ _ _ hn
        exact hx (by intro w hw; simp only [qwordsAlloc, List.mem_replicate] at hw; rw [hw.2]; decide)

/-- C87 for all types of results whose eightbytes have got classes.  What is missing: results with an eightbyte
that consists of padding only (`C87_padding_false`). -/
theorem C87_result_arrives_partial (t : Ty) (hw : WF t) (hpad : ∀ al p, t ≠ .leaf .pad al p)
    (hva : ∀ al p, t ≠ .leaf .builtin al p)
    (hfull : ∀ vec implicit, functionAllocReturn (flatten t) = .ok (vec, implicit) → Filled vec) : ResultArrives t := by
  intro vec implicit halloc layout hlay v hv stack hst cf ff hcf before himp hdis junk
  have hfull := hfull vec implicit halloc
  obtain ⟨a, rest, hc, rfl, rfl⟩ := allocReturn_inv hw halloc
  have hl := laid_one hw
  have hlay := layout_one hw hlay
  subst hlay
  have hfull : ∀ q, a.content = .qwords q → ∀ w ∈ q.qwords, w.klass ≠ .noClass := fun q hq => hfull a q rfl hq
  have hn := nodes_one hw
  have he : ∀ s, functionEpilogue ⟨flatten t, (flatL [ownLayout t]).map some⟩ (a :: rest) ff stack s =
      returnEntry ⟨flatten t, (flatL [ownLayout t]).map some⟩ (a :: rest) ff stack 0 t.entry s := fun s => list_one hw _ s
  have hi : ∀ s, invokeEpilogue ⟨flatten t, (flatL [ownLayout t]).map some⟩ (a :: rest) cf junk s =
      fetchEntry ⟨flatten t, (flatL [ownLayout t]).map some⟩ (a :: rest) cf junk s 0 t.entry ⟨s.mem, []⟩ := fun s => by
    simp only [invokeEpilogue, hn, Nat.le_refl, if_true]
    exact list_one hw _ _
  have agg : ∀ w, v = .word w → (a = memoryEntry 0 (ownLayout t).data ∨ a.klass = .memory ∨
      ∃ q rq, a = registerEntry 0 q rq ∧ NoUp q.qwords ∧ q.qwords.length ≤ 2 ∧
        q.qwords.length = qwordCount (ownLayout t).data.size ∧ qwordRequirements q.qwords {} = .ok rq ∧
        (hasLong t = false → NoX87 q.qwords)) → _ := fun w hvw hsh =>
    aggregate_returned (ff := ff) hsh hfull (w := w) (stack := stack)
      (by subst hvw; exact hst 0 (by simp [Arg.pushed])) hcf before (fun h => himp (by simp [h]))
      (hdis w _ hvw hl) t.entry
  cases t with
  | leaf k al p =>
    by_cases hkl : k = .longDouble
    · subst hkl
      cases v with
      | word w => simp [ArgFor] at hv
      | ext low high =>
        have h0 := hst 1 (by simp [Arg.pushed])
        have h1 := hst 0 (by simp [Arg.pushed])
        simp only [Arg.pushed, List.length_cons, List.length_nil, Nat.reduceAdd, Nat.reduceSub,
          List.getElem_cons_zero, List.getElem_cons_succ] at h0 h1
        refine ⟨_, _, _, hl, he before, hi _, ?_, fun x _ => rfl⟩
        refine ⟨fun i => if h : i.val < 2 then high ⟨i.val, by omega⟩ else junk i, ?_, by simp, by simp⟩
        simp only [List.nil_append, List.cons.injEq, and_true]
        constructor
        · funext i
          by_cases h2 : i.val < 2
          · simp only [h2, dif_pos, h1]
            rw [dif_neg (by omega)]
            congr 1; apply Fin.ext; simp
          · simp only [h2, dif_neg, not_false_eq_true]
        · funext i
          simp only [i.isLt, dif_pos, h0]
    · cases v with
      | ext low high => cases k <;> simp [ArgFor] at hv hkl
      | word w =>
        have h0 : stack 0 = w := hst 0 (by simp [Arg.pushed])
        by_cases hm : k = .memory
        · subst hm
          simp only [classify, classifyLeaf, Except.bind, Except.ok.injEq, List.cons.injEq] at hc
          obtain ⟨s, r, h1, h2, h3, h4⟩ := agg w rfl (.inr (.inl (by rw [← hc.1])))
          refine ⟨_, s, r, hl, (he before).trans ?_, (hi s).trans ?_, h3, h4⟩
          · exact (withParam_one hw _ _ _ _).trans h1
          · exact (withParam_one hw _ _ _ _).trans h2
        · have hpad : k ≠ .pad := fun h => hpad al p (by rw [h])
          have hva : k ≠ .builtin := fun h => hva al p (by rw [h])
          cases k <;> first
            | (exact absurd rfl hkl)
            | (exact absurd rfl hm)
            | (exact absurd rfl hpad)
            | (exact absurd rfl hva)
            | (refine ⟨_, _, _, hl, he before, hi _, ?_, fun x _ => rfl⟩
               simp only [Returned, setReg, if_true, List.nil_append, h0])
  | struct al ms =>
    cases v with
    | ext low high => simp [ArgFor] at hv
    | word w =>
      obtain ⟨s, r, h1, h2, h3, h4⟩ := agg w rfl (aggregate_shape hw rfl hc)
      refine ⟨_, s, r, hl, (he before).trans ?_, (hi s).trans ?_, h3, h4⟩
      · exact (withParam_one hw _ _ _ _).trans h1
      · exact (withParam_one hw _ _ _ _).trans h2
  | union al ms =>
    cases v with
    | ext low high => simp [ArgFor] at hv
    | word w =>
      obtain ⟨s, r, h1, h2, h3, h4⟩ := agg w rfl (aggregate_shape hw rfl hc)
      refine ⟨_, s, r, hl, (he before).trans ?_, (hi s).trans ?_, h3, h4⟩
      · exact (withParam_one hw _ _ _ _).trans h1
      · exact (withParam_one hw _ _ _ _).trans h2
  | array al n e =>
    cases v with
    | ext low high => simp [ArgFor] at hv
    | word w =>
      obtain ⟨s, r, h1, h2, h3, h4⟩ := agg w rfl (aggregate_shape hw rfl hc)
      refine ⟨_, s, r, hl, (he before).trans ?_, (hi s).trans ?_, h3, h4⟩
      · exact (withParam_one hw _ _ _ _).trans h1
      · exact (withParam_one hw _ _ _ _).trans h2

/-! ## Examples -/

/-- The condition `Filled` computed. -/
def filled (t : Ty) : Bool :=
  match (classify t (ownLayout t) 0).toOption with
  | some (a :: _) =>
    match a.content with
    | .qwords q => q.qwords.all (·.klass != .noClass)
    | _ => true
  | _ => true

theorem filled_of {t : Ty} (hw : WF t) (h : filled t = true) :
    ∀ vec implicit, functionAllocReturn (flatten t) = .ok (vec, implicit) → Filled vec := by
  intro vec implicit ha a q hv hq w hmem
  obtain ⟨a', rest, hc, rfl, _⟩ := allocReturn_inv hw ha
  simp only [List.getElem?_cons_zero, Option.some.injEq] at hv
  subst hv
  simp only [filled, hc, Except.toOption, hq, List.all_eq_true, bne_iff_ne, ne_eq] at h
  exact h w hmem

theorem allocReturn_eq {t : Ty} (hw : WF t) {a rest} (h : classify t (ownLayout t) 0 = .ok (a :: rest)) :
    functionAllocReturn (flatten t) = .ok (a :: rest, decide (a.klass = .memory)) := by
  have hfl : flatten t = flattenAll [t] := by simp [flattenAll]
  have hl : LaidAll [t] [ownLayout t] := .cons (laid_one hw) .nil
  simp only [functionAllocReturn, nodes_one hw, Nat.le_refl, if_true]
  rw [hfl, typeLayout_eq [t] (.cons hw .nil), ownLayout_eq]
  simp only [liftRes, bind, Except.bind, parameterClassify_eq [t] (.cons hw .nil) _ hl, classifyAll, h]
  simp [pure, Except.pure]

/-- `struct { int a; double b; }`: returned in `rax` and `xmm0`. -/
def mixedResult : Ty := .struct 0 [.leaf .int 0 0, .leaf .float64 0 0]

/-- `struct { long double a; }`: returned in `st(0)`. -/
def longResult : Ty := .struct 0 [.leaf .longDouble 0 0]

/-- `struct { int a[9]; }`: returned in memory. -/
def largeResult : Ty := .struct 0 [.array 0 9 (.leaf .int 0 0)]

theorem mixedResult_wf : WF mixedResult := .struct (by simp) (.cons (.leaf (by simp)) (.cons (.leaf (by simp)) .nil))
theorem longResult_wf : WF longResult := .struct (by simp) (.cons (.leaf (by simp)) .nil)
theorem largeResult_wf : WF largeResult := .struct (by simp) (.cons (.array (.leaf (by simp))) .nil)

/-- The theorem applies to all of them, and there are memories and stacks as it demands: the object at address
1000, the frames at 2000 and 3000. -/
example : ResultArrives mixedResult ∧ ResultArrives longResult ∧ ResultArrives largeResult := by
  refine ⟨?_, ?_, ?_⟩
  · exact C87_result_arrives_partial _ mixedResult_wf (by simp [mixedResult]) (by simp [mixedResult])
      (filled_of mixedResult_wf (by decide +kernel))
  · exact C87_result_arrives_partial _ longResult_wf (by simp [longResult]) (by simp [longResult])
      (filled_of longResult_wf (by decide +kernel))
  · exact C87_result_arrives_partial _ largeResult_wf (by simp [largeResult]) (by simp [largeResult])
      (filled_of largeResult_wf (by decide +kernel))

example : ∃ vec, functionAllocReturn (flatten largeResult) = .ok (vec, true) ∧
    (∃ stack, OnTop stack (Arg.word (Word.ofNat 1000)).pushed) ∧
    (∃ mem : Mem, Mem.load mem 3000 = Word.ofNat (2000 + 16)) ∧
    ∀ w l, Arg.word (Word.ofNat 1000) = .word w → Laid largeResult l → l.data.size = 36 →
      Region.Disjoint ⟨w.toNat, l.data.size⟩ ⟨2000 + 16, l.data.size⟩ := by
  obtain ⟨a, rest, h, hk⟩ : ∃ a rest, classify largeResult (ownLayout largeResult) 0 = .ok (a :: rest) ∧
      a.klass = .memory := by
    have h : ((classify largeResult (ownLayout largeResult) 0).toOption.map fun l => l.head?.map (·.klass)) =
      some (some .memory) := by decide +kernel
    cases hc : classify largeResult (ownLayout largeResult) 0 with
    | error e => rw [hc] at h; simp [Except.toOption] at h
    | ok as =>
      rw [hc] at h
      cases as with
      | nil => simp [Except.toOption] at h
      | cons a rest => exact ⟨a, rest, rfl, by simpa [Except.toOption] using h⟩
  refine ⟨a :: rest, ?_, ⟨fun _ => Word.ofNat 1000, ?_⟩, ⟨Mem.store (fun _ => 0) 3000 (Word.ofNat 2016), load_store _ _ _⟩, ?_⟩
  · rw [allocReturn_eq largeResult_wf h, hk]; rfl
  · intro i h; simp [Arg.pushed]
  · intro w l hw _ hs
    simp only [Arg.word.injEq] at hw
    subst hw
    rw [toNat_ofNat (by decide), hs]
    decide

/-! ## Padding -/

/-- `struct { _Alignas(16) char c; }`: the second eightbyte is padding. -/
def paddedResult : Ty := .struct 0 [.leaf .char 16 0]

theorem paddedResult_wf : WF paddedResult := .struct (by simp) (.cons (.leaf (by simp)) .nil)

/-- C87 fails for results with an eightbyte of padding: the function that returns one cannot be compiled. -/
theorem C87_padding_false : ¬ ∀ t : Ty, WF t → (∀ k al p, t ≠ .leaf k al p) → ResultArrives t := by
  intro H
  have H := H paddedResult paddedResult_wf (by simp [paddedResult])
  have hw := paddedResult_wf
  obtain ⟨a, rest, q, h, hk, hq, hqs⟩ : ∃ a rest q, classify paddedResult (ownLayout paddedResult) 0 = .ok (a :: rest) ∧
      a.klass = .noClass ∧ a.content = .qwords q ∧ q.qwords.map (·.klass) = [.integer, .noClass] := by
    have h : ((classify paddedResult (ownLayout paddedResult) 0).toOption.map fun l => l.head?.map fun a =>
        (a.klass, match a.content with
          | .qwords q => q.qwords.map (·.klass)
          | _ => [])) = some (some (.noClass, [.integer, .noClass])) := by decide +kernel
    cases hc : classify paddedResult (ownLayout paddedResult) 0 with
    | error e => rw [hc] at h; simp [Except.toOption] at h
    | ok as =>
      rw [hc] at h
      cases as with
      | nil => simp [Except.toOption] at h
      | cons a rest =>
        simp only [Except.toOption, Option.map_some, List.head?_cons, Option.some.injEq, Prod.mk.injEq] at h
        cases hcon : a.content with
        | qwords q => rw [hcon] at h; exact ⟨a, rest, q, rfl, h.1, hcon, h.2⟩
        | none => rw [hcon] at h; simp at h
        | ref r => rw [hcon] at h; simp at h
  have halloc := allocReturn_eq hw h
  have hlay : typeLayout (flatten paddedResult) = .ok ((flatL [ownLayout paddedResult]).map some) := by
    have hfl : flatten paddedResult = flattenAll [paddedResult] := by simp [flattenAll]
    rw [hfl, typeLayout_eq [paddedResult] (.cons hw .nil), ownLayout_eq]
  obtain ⟨l, s, r, _, he, _⟩ := H _ _ halloc _ hlay (.word (Word.ofNat 2016)) (by simp [ArgFor, paddedResult])
    (fun _ => Word.ofNat 2016) (by intro i h; simp [Arg.pushed]) 2000 3000 (by decide)
    ⟨fun _ _ => 0, fun _ _ => 0, fun _ => 0, fun _ => 0⟩ (by simp [hk])
    (by intro w l hw _; simp only [Arg.word.injEq] at hw; subst hw; exact .inl (toNat_ofNat (by decide))) (fun _ => 0)
  have he := (list_one hw _ _).symm.trans he
  simp only [returnEntry, show paddedResult.entry.code = .struct from rfl] at he
  rw [withParam_one hw] at he
  simp only [returnAggregate, hk, reduceCtorEq, if_false, hq] at he
  obtain ⟨x, ws, hqq, hx, hqs⟩ := List.map_eq_cons_iff.1 hqs
  obtain ⟨y, ws, rfl, hy, hqs⟩ := List.map_eq_cons_iff.1 hqs
  rw [hqq] at he
  rw [returnQwords.eq_def] at he
  simp only [hx, integerReturnRegisters, ge_iff_le] at he
  rw [returnQwords.eq_def] at he
  simp only [hy] at he
  rw [if_neg (by decide)] at he
  cases he

end Kefir.Call
