import Verif.LinkedList.Lemmas

namespace Kefir.LinkedList

variable {V : Type}

/-- C24.  Every history of valid calls on any number of lists sharing the heap runs without
dereferencing a dangling pointer, terminates, and every call reports what the corresponding operation
on finite sequences reports. -/
theorem C24_list_is_sequence (history : List (Call V)) (hv : ValidRun (fun _ => []) history) :
    ∃ w, implRun World.init history = some (w, (specRun (fun _ => []) history).2) := by
  obtain ⟨w, h, _⟩ := run_refines WRepr.init history hv
  exact ⟨w, h⟩

/-- C43.  After any history of valid calls the entries still allocated are exactly those reachable
in some list: nothing is leaked, and no list holds a freed entry. -/
theorem C43_list_no_leak (history : List (Call V)) (hv : ValidRun (fun _ => []) history) :
    ∃ w rs, implRun World.init history = some (w, rs) ∧
      ∀ a, w.heap a ≠ none ↔ ∃ i, a ∈ ((specRun (fun _ => []) history).1 i).map Prod.fst := by
  obtain ⟨w, h, hw⟩ := run_refines WRepr.init history hv
  refine ⟨w, _, h, fun a => ⟨hw.noleak a, ?_⟩⟩
  rintro ⟨i, hi⟩
  obtain ⟨A, x, B, _, h2⟩ := splitAt_spec hi
  have hr := (hw.repr i).seg
  rw [h2, Seg_append] at hr
  rw [hr.2.1]; simp

/-- The hypotheses are met by a history with two lists, insertion in the middle, removal of the
last entry, and concatenation. -/
example : ValidRun (V := String) (fun _ => [])
    [.insertAfter 0 none "a" 10, .insertAfter 0 (some 10) "c" 11, .insertAfter 0 (some 10) "b" 12,
     .insertAfter 1 none "d" 20, .pop 0 11, .moveAll 1 0, .at 1 2, .prev 1 10, .length 1,
     .clear 1] := by
  simp [ValidRun, Valid, specStep, Seqs.set, splitAt]
  grind

example : (specRun (V := String) (fun _ => [])
    [.insertAfter 0 none "a" 10, .insertAfter 0 (some 10) "c" 11, .insertAfter 0 (some 10) "b" 12,
     .insertAfter 1 none "d" 20, .pop 0 11, .moveAll 1 0, .at 1 2, .prev 1 10, .length 1,
     .clear 1]).2 =
    [.done, .done, .done, .done, .values ["c"], .done, .ptr (some 12), .ptr (some 20), .nat 3,
     .values ["d", "a", "b"]] := by decide

end Kefir.LinkedList
