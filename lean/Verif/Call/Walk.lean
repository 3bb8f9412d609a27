import Verif.Call.Model
import Verif.Abi.Collide

/-!
# Traversals over types
-/

namespace Kefir.Call

open Kefir.Layout Kefir.Abi

/-- `listNodes` over the parameters. -/
def visitAll {σ : Type} (g : Entry → Data → Alloc → σ → Out σ) :
    List Ty → List LTree → List (List Alloc) → σ → Out σ
  | t :: ts, l :: ls, (a :: _) :: ass, s => (g t.entry l.data a s).bind fun s => visitAll g ts ls ass s
  | _, _, _, s => .ok s

theorem visit_steps {σ : Type} (g : Entry → Data → Alloc → σ → Out σ) :
    ∀ (ts : List Ty), WFAll ts → ∀ (ls : List LTree), LaidAll ts ls →
    ∀ (ass : List (List Alloc)), Rows ts ass →
    ∀ (done : List Ty), WFAll done → ∀ (lpre : List (Option Data)), lpre.length = (flattenAll done).length →
    ∀ (vpre : List Alloc), vpre.length = objectsAll done → ∀ (count : Nat), ts.length ≤ count → ∀ s : σ,
    listNodes (withParam (flattenAll done ++ flattenAll ts) (lpre ++ (flatL ls).map some) (vpre ++ ass.flatten) g)
        (flattenAll done ++ flattenAll ts) (flattenAll done).length count s = visitAll g ts ls ass s
  | [], _, ls, hl, ass, hr, done, hd, lpre, hlen, vpre, hv, count, hc, s => by
    cases hl; cases hr
    cases count with
    | zero => rfl
    | succ n => rw [listNodes, dif_neg (by simp [flattenAll])]; rfl
  | t :: ts, hw, ls, hl, ass, hr, done, hd, lpre, hlen, vpre, hv, count, hc, s => by
    obtain ⟨hwt, hws⟩ : WF t ∧ WFAll ts := by cases hw; constructor <;> assumption
    obtain ⟨l, ls, rfl, hlt, hls⟩ : ∃ l ls', ls = l :: ls' ∧ Laid t l ∧ LaidAll ts ls' := by
      cases hl; exact ⟨_, _, rfl, by assumption, by assumption⟩
    obtain ⟨a, as, ass, rfl, hra, hrs⟩ : ∃ a as ass', ass = (a :: as) :: ass' ∧ (a :: as).length = objects t ∧
        Rows ts ass' := by cases hr; exact ⟨_, _, _, rfl, by assumption, by assumption⟩
    obtain ⟨count, rfl⟩ : ∃ n, count = n + 1 := ⟨count - 1, by simp at hc; omega⟩
    have hflat : l.flat.length = (flatten t).length := flat_length hlt
    have ih := visit_steps g ts hws ls hls ass hrs (done ++ [t])
      (allocate_steps.wfAll_append hd (.cons hwt .nil))
      (lpre ++ l.flat.map some) (by simp [hlen, hflat, Abi.flattenAll_append, flattenAll])
      (vpre ++ (a :: as)) (by simp [objectsAll_append, objectsAll, hv, ← hra]) count (by simp at hc; omega)
    simp only [Abi.flattenAll_append, flattenAll, List.append_nil, List.append_assoc, List.length_append] at ih
    have hlt' : (flattenAll done).length < (flattenAll done ++ (flatten t ++ flattenAll ts)).length := by
      simp [flatten_length]; omega
    have hn := nodeLen_flatten t (flattenAll done) (flattenAll ts)
    have hg := gotoSlot_param done t ts hd hwt
    have hdat : layoutAt (lpre ++ (l.flat.map some ++ (flatL ls).map some)) (flattenAll done).length =
        .ok l.data := by
      obtain ⟨d, ms⟩ := l
      simp only [LTree.flat, List.map_cons, List.cons_append, LTree.data]
      exact layoutAt_head _ _ _ _ hlen
    have hget : (vpre ++ (a :: as ++ ass.flatten))[objectsAll done]? = some a := by
      rw [← hv]; simp
    simp only [flattenAll, flatL, List.map_append, List.flatten_cons]
    rw [listNodes, dif_pos hlt']
    simp only [getElem_entry t _ _ hlt', if_neg (entry_ok t hwt), hn, visitAll, bind]
    have hf : withParam (flattenAll done ++ (flatten t ++ flattenAll ts))
        (lpre ++ (l.flat.map some ++ (flatL ls).map some)) (vpre ++ (a :: as ++ ass.flatten)) g
        (flattenAll done).length t.entry s = g t.entry l.data a s := by
      simp only [withParam, hg, bind, Except.bind, hget, hdat]
    rw [hf]
    cases g t.entry l.data a s with
    | error e => rfl
    | ok s' => exact ih s'

/-- `listNodes` without parameters. -/
def visitTypes {σ : Type} (f : Entry → Data → σ → Out σ) : List Ty → List LTree → σ → Out σ
  | t :: ts, l :: ls, s => (f t.entry l.data s).bind fun s => visitTypes f ts ls s
  | _, _, s => .ok s

theorem local_steps :
    ∀ (ts : List Ty), WFAll ts → ∀ (ls : List LTree), LaidAll ts ls →
    ∀ (done : List Ty), ∀ (lpre : List (Option Data)), lpre.length = (flattenAll done).length →
    ∀ (count : Nat), ts.length ≤ count → ∀ s : Frame,
    listNodes (frameLocal (lpre ++ (flatL ls).map some))
        (flattenAll done ++ flattenAll ts) (flattenAll done).length count s =
      visitTypes (fun _ d f => .ok (reserve d f)) ts ls s
  | [], _, ls, hl, done, lpre, hlen, count, hc, s => by
    cases hl
    cases count with
    | zero => rfl
    | succ n => rw [listNodes, dif_neg (by simp [flattenAll])]; rfl
  | t :: ts, hw, ls, hl, done, lpre, hlen, count, hc, s => by
    obtain ⟨hwt, hws⟩ : WF t ∧ WFAll ts := by cases hw; constructor <;> assumption
    obtain ⟨l, ls, rfl, hlt, hls⟩ : ∃ l ls', ls = l :: ls' ∧ Laid t l ∧ LaidAll ts ls' := by
      cases hl; exact ⟨_, _, rfl, by assumption, by assumption⟩
    obtain ⟨count, rfl⟩ : ∃ n, count = n + 1 := ⟨count - 1, by simp at hc; omega⟩
    have hflat : l.flat.length = (flatten t).length := flat_length hlt
    have ih := local_steps ts hws ls hls (done ++ [t])
      (lpre ++ l.flat.map some) (by simp [hlen, hflat, Abi.flattenAll_append, flattenAll])
      count (by simp at hc; omega)
    simp only [Abi.flattenAll_append, flattenAll, List.append_nil, List.append_assoc, List.length_append] at ih
    have hlt' : (flattenAll done).length < (flattenAll done ++ (flatten t ++ flattenAll ts)).length := by
      simp [flatten_length]; omega
    have hn := nodeLen_flatten t (flattenAll done) (flattenAll ts)
    have hdat : layoutAt (lpre ++ (l.flat.map some ++ (flatL ls).map some)) (flattenAll done).length =
        .ok l.data := by
      obtain ⟨d, ms⟩ := l
      simp only [LTree.flat, List.map_cons, List.cons_append, LTree.data]
      exact layoutAt_head _ _ _ _ hlen
    simp only [flattenAll, flatL, List.map_append]
    rw [listNodes, dif_pos hlt']
    simp only [getElem_entry t _ _ hlt', if_neg (entry_ok t hwt), hn, visitTypes, bind]
    have hf : frameLocal (lpre ++ (l.flat.map some ++ (flatL ls).map some))
        (flattenAll done).length t.entry s = .ok (reserve l.data s) := by
      simp only [frameLocal, hdat, bind, Except.bind, pure, Except.pure]
    rw [hf]
    exact ih _

/-- Number of words of the arguments. -/
def wordCount : List Ty → Nat
  | [] => 0
  | .leaf .longDouble _ _ :: ts => 2 + wordCount ts
  | _ :: ts => 1 + wordCount ts

theorem wordCount_cons (t : Ty) (ts : List Ty) : wordCount (t :: ts) = wordCount [t] + wordCount ts := by
  cases t with
  | leaf k al p => cases k <;> simp [wordCount]
  | _ => simp [wordCount]

theorem counter_steps :
    ∀ (ts : List Ty), WFAll ts → ∀ (done : List Ty) (count : Nat), ts.length ≤ count → ∀ n : Nat,
    listNodes argumentCounter (flattenAll done ++ flattenAll ts) (flattenAll done).length count n =
      .ok (n + wordCount ts)
  | [], _, done, count, hc, s => by
    cases count with
    | zero => rfl
    | succ n => rw [listNodes, dif_neg (by simp [flattenAll])]; rfl
  | t :: ts, hw, done, count, hc, s => by
    obtain ⟨hwt, hws⟩ : WF t ∧ WFAll ts := by cases hw; constructor <;> assumption
    obtain ⟨count, rfl⟩ : ∃ n, count = n + 1 := ⟨count - 1, by simp at hc; omega⟩
    have ih := counter_steps ts hws (done ++ [t]) count (by simp at hc; omega) (s + wordCount [t])
    simp only [Abi.flattenAll_append, flattenAll, List.append_nil, List.append_assoc, List.length_append] at ih
    have hlt' : (flattenAll done).length < (flattenAll done ++ (flatten t ++ flattenAll ts)).length := by
      simp [flatten_length]; omega
    have hn := nodeLen_flatten t (flattenAll done) (flattenAll ts)
    simp only [flattenAll]
    rw [listNodes, dif_pos hlt']
    simp only [getElem_entry t _ _ hlt', if_neg (entry_ok t hwt), hn, bind]
    have hf : argumentCounter (flattenAll done).length t.entry s = .ok (s + wordCount [t]) := by
      cases t with
      | leaf k al p => cases k <;> simp [argumentCounter, Ty.entry, wordCount]
      | _ => simp [argumentCounter, Ty.entry, wordCount]
    rw [hf, wordCount_cons t ts, ← Nat.add_assoc]
    exact ih

theorem length_le_wordCount : ∀ ts : List Ty, ts.length ≤ wordCount ts
  | [] => Nat.le_refl _
  | t :: ts => by
    have := length_le_wordCount ts
    rw [wordCount_cons, List.length_cons]
    have : 1 ≤ wordCount [t] := by
      cases t with
      | leaf k al p => cases k <;> simp [wordCount]
      | _ => simp [wordCount]
    omega

end Kefir.Call
