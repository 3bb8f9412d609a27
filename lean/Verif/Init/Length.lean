import Verif.Init.Emit

/-!
# Arrays of unknown size

The array that gets its length from an initialiser is initialised like one declared with that length.
-/

namespace Kefir.Init

open Model

variable {E : Type}

/-- A subobject, if it is in the first `n` elements. -/
def cut (n : Nat) : Option Path → Option Path
  | some p => if hd p < n then some p else none
  | none => none

theorem cut_some {n : Nat} {c : Option Path} {p : Path} (h : cut n c = some p) : c = some p ∧ hd p < n := by
  cases c with
  | none => cases h
  | some q =>
    simp only [cut] at h
    split at h
    · cases h
      exact ⟨rfl, by assumption⟩
    · cases h

variable {el : Ty} {n : Nat}

theorem bounded_child {i : Nat} (h : i < n) :
    (Ty.array (some n) el).child i = (Ty.array none el).child i := by
  simp [Ty.child, Ty.bare, h]

theorem bounded_sub {p : Path} (hp : p ≠ []) (h : hd p < n) :
    (Ty.array (some n) el).sub p = (Ty.array none el).sub p := by
  cases p with
  | nil => exact absurd rfl hp
  | cons i p =>
    simp only [hd, List.headD_cons] at h
    simp only [Ty.sub, bounded_child h]

theorem bounded_clear {p : Path} (hp : p ≠ []) (h : hd p < n) :
    (Ty.array (some n) el).clear p = (Ty.array none el).clear p := by
  cases p with
  | nil => exact absurd rfl hp
  | cons i p =>
    simp only [hd, List.headD_cons] at h
    simp only [Ty.clear, bounded_child h, Ty.plain]

theorem bounded_after {p : Path} (hp : p ≠ []) (h : hd p < n) :
    (Ty.array (some n) el).after p = cut n ((Ty.array none el).after p) := by
  cases p with
  | nil => exact absurd rfl hp
  | cons i p =>
    simp only [hd, List.headD_cons] at h
    simp only [Ty.after, bounded_child h]
    have hc : (Ty.array none el).child i = some el := rfl
    simp only [hc]
    cases ha : el.after p with
    | some p' =>
      have hx : hd (i :: p') < n := h
      simp only [cut, if_pos hx]
    | none =>
      simp only [Ty.following, Ty.bare]
      by_cases hi : i + 1 < n
      · have hx : hd [i + 1] < n := hi
        rw [if_pos hi]
        simp only [cut, if_pos hx]
      · have hx : ¬ hd [i + 1] < n := hi
        rw [if_neg hi]
        simp only [cut, if_neg hx]

theorem bounded_resolve {d : List Desig} {p : Path} (hd0 : d ≠ [])
    (h : (Ty.array none el).resolve d = some p) (hn : hd p < n) :
    (Ty.array (some n) el).resolve d = some p := by
  cases d with
  | nil => exact absurd rfl hd0
  | cons a d =>
    cases a with
    | field m => simp [Ty.resolve, Ty.find] at h
    | index k =>
      have hc : (Ty.array none el).child k = some el := rfl
      simp only [Ty.resolve, Ty.bare, hc] at h
      obtain ⟨r, hr, rfl⟩ := Option.map_eq_some_iff.mp h
      simp only [hd, List.headD_cons] at hn
      simp only [Ty.resolve, Ty.bare, bounded_child hn, hc, hr, Option.map_some]

theorem resolve_bounded {d : List Desig} {p : Path} (hd0 : d ≠ [])
    (h : (Ty.array (some n) el).resolve d = some p) :
    (Ty.array none el).resolve d = some p ∧ hd p < n := by
  cases d with
  | nil => exact absurd rfl hd0
  | cons a d =>
    cases a with
    | field m => simp [Ty.resolve, Ty.find] at h
    | index k =>
      have hc : (Ty.array none el).child k = some el := rfl
      simp only [Ty.resolve, Ty.bare, Ty.child] at h
      split at h
      · cases h
      · rename_i u hu
        split at hu
        · rename_i hk
          cases hu
          obtain ⟨r, hr, rfl⟩ := Option.map_eq_some_iff.mp h
          refine ⟨?_, by simpa [hd] using hk⟩
          simp only [Ty.resolve, Ty.bare, hc, hr, Option.map_some]
        · cases hu

theorem path_bounded {d : List Desig} {c : Option Path} {p : Path}
    (h : (if d = [] then c else (Ty.array none el).resolve d) = some p) (hn : hd p < n) :
    (if d = [] then cut n c else (Ty.array (some n) el).resolve d) = some p := by
  split
  · rename_i hd0
    rw [if_pos hd0] at h
    subst h
    simp [cut, hn]
  · rename_i hd0
    rw [if_neg hd0] at h
    exact bounded_resolve hd0 h hn

theorem bounded_path {d : List Desig} {c : Option Path} {p : Path}
    (h : (if d = [] then cut n c else (Ty.array (some n) el).resolve d) = some p) :
    (if d = [] then c else (Ty.array none el).resolve d) = some p ∧ hd p < n := by
  split
  · rename_i hd0
    rw [if_pos hd0] at h
    exact cut_some h
  · rename_i hd0
    rw [if_neg hd0] at h
    exact resolve_bounded hd0 h

theorem path_ne_nil {t : Ty} {d : List Desig} {c : Option Path} {p : Path} (hc : ∀ p, c = some p → p ≠ [])
    (h : (if d = [] then c else t.resolve d) = some p) : p ≠ [] := by
  split at h
  · exact hc p h
  · rename_i hd0
    cases d with
    | nil => exact absurd rfl hd0
    | cons a d => exact resolve_ne_nil a d t p h

/-- The effects of a list on an array of unknown size are those on an array that is long enough. -/
theorem run_bounded (env : Env E) : ∀ (its : Items E) (c : Option Path) (s : List (Store E)),
    (∀ p, c = some p → p ≠ []) → run env its (.array none el) [] c = .ok s → arrayLength s ≤ n →
    run env its (.array (some n) el) [] (cut n c) = .ok s
  | .nil, c, s, _, h, _ => by
    simp only [run] at h ⊢
    exact h
  | .cons d (.list its) rest, c, s, hc, h, hlen => by
    obtain ⟨p, u, s1, s2, hpath, hu, hbr, hrun, rfl⟩ := run_list h
    have hp := path_ne_nil hc hpath
    rw [arrayLength_append] at hlen
    have hw := braces_within hp (fun s' hs' => run_within env its _ _ _ s' hp hs') hbr
    have hl := arrayLength_within s1 hw.2 hw.1
    have hn : hd p < n := by omega
    have ih := run_bounded env rest ((Ty.array none el).after p) s2
      (fun q hq => after_ne_nil p q _ hq) hrun (by omega)
    rw [run]
    simp only [path_bounded hpath hn, bounded_sub hp hn, hu, hbr, bounded_after hp hn, ih]
  | .cons d (.expr e) rest, c, s, hc, h, hlen => by
    obtain ⟨p, u, q, w, s1, s2, hpath, hu, hq, hw, hst, hrun, rfl⟩ := run_expr h
    have hp := path_ne_nil hc hpath
    have hpq : p ++ q ≠ [] := by simp [hp]
    rw [arrayLength_append] at hlen
    simp only [List.nil_append] at hst
    have hwi := storeAt_within hpq hst
    rw [hd_append hp] at hwi
    have hl := arrayLength_within s1 hwi.2 hwi.1
    have hn : hd p < n := by omega
    have hnq : hd (p ++ q) < n := by rw [hd_append hp]; exact hn
    have ih := run_bounded env rest ((Ty.array none el).after (p ++ q)) s2
      (fun q' hq' => after_ne_nil (p ++ q) q' _ hq') hrun (by omega)
    rw [run]
    simp only [path_bounded hpath hn, bounded_sub hp hn, hu, hq, hw, List.nil_append, hst,
      bounded_after hpq hnq, ih]

theorem covered_bounded (cfg : Cfg) (env : Env E) : ∀ (its : Items E) (c : Option Path),
    (∀ p, c = some p → p ≠ []) → coveredItems cfg env its (.array none el) c →
    coveredItems cfg env its (.array (some n) el) (cut n c)
  | .nil, _, _, _ => by simp only [coveredItems]
  | .cons d (.list its) rest, c, hc, h => by
    intro p u hpath hu
    obtain ⟨hpath', hn⟩ := bounded_path hpath
    have hp := path_ne_nil hc hpath'
    rw [bounded_sub hp hn] at hu
    obtain ⟨h1, h2, h3, h4⟩ := h p u hpath' hu
    refine ⟨by rw [bounded_clear hp hn]; exact h1, h2, h3, ?_⟩
    rw [bounded_after hp hn]
    exact covered_bounded cfg env rest _ (fun q hq => after_ne_nil p q _ hq) h4
  | .cons d (.expr e) rest, c, hc, h => by
    intro p u hpath hu q hq
    obtain ⟨hpath', hn⟩ := bounded_path hpath
    have hp := path_ne_nil hc hpath'
    have hpq : p ++ q ≠ [] := by simp [hp]
    have hnq : hd (p ++ q) < n := by rw [hd_append hp]; exact hn
    rw [bounded_sub hp hn] at hu
    obtain ⟨h1, h2, h3, h4⟩ := h p u hpath' hu q hq
    refine ⟨by rw [bounded_clear hpq hnq]; exact h1, h2, h3, ?_⟩
    rw [bounded_after hpq hnq]
    exact covered_bounded cfg env rest _ (fun q' hq' => after_ne_nil (p ++ q) q' _ hq') h4

/-- An array of unknown size: the length, and the array with this length. -/
theorem analyze_unknown {cfg : Cfg} {env : Env E} (hl : env.Lawful) {i : Init E}
    {s : List (Store E)} {fuel : Nat} (hg : el.good = true)
    (h : initialise env (.array none el) i = .ok s) (hcov : covered cfg env (.array none el) i)
    (hsh : ∀ its, i = .list its → shallow its = true) (hfuel : el.depth + 1 < fuel) :
    analyze env fuel (.array none el) i = .ok (.array (some (arrayLength s)) el) := by
  cases i with
  | expr e =>
    simp only [initialise] at h
    rcases storeAt_cases h with ⟨n, el', hb, hstr, hel, hs⟩ | ⟨ha, hna, rfl⟩
    · simp only [Ty.bare] at hb
      cases hb
      simp only at hs
      subst hs
      rw [bare_eq_unqual hg] at hel
      have hu : unqual (Ty.array none el) = .array none el := rfl
      have hwhole : wholeString env (.array none el) (some e) = some e := by
        simp [wholeString, stringStop, hstr, hel]
      simp [analyze, analyzeWith, hu, hwhole, arrayLength, Store.bound]
    · exact absurd rfl (hna none el)
  | list its =>
    simp only [initialise, braces, Ty.bare] at h
    simp only [analyze, analyzeWith, unqual]
    cases hbs : bracedString env (.array none el) its with
    | some e =>
      rw [hbs] at h
      simp only at h
      have hwhole := wholeString_of_braced hg rfl hbs
      simp only [hwhole.1]
      rcases storeAt_cases h with ⟨n', el', hb', _, _, h⟩ | ⟨_, h, _⟩
      · simp only [Ty.bare] at hb'
        cases hb'
        simp only at h
        subst h
        simp [arrayLength, Store.bound]
      · exact absurd rfl (h none el)
    | none =>
      rw [hbs] at h
      simp only at h
      have hfirst : (Ty.array none el).first = some 0 := rfl
      have hagg : isAggregateTy (Ty.array none el) = true := rfl
      have hfine : (Ty.array none el).fine = true := hg
      split at h
      · rename_i s' hs'
        cases h
        obtain ⟨r, hr, hlen⟩ := analyzeItems_ok hl its (.array none el) [] _ s'
          (pushLayer (.array none el) []) fuel 0 hfine rfl (at_first hfine hagg) hs' hcov.2 hfuel
        have h0 : freeLen 0 (pushLayer (Ty.array none el) []) = 0 := rfl
        have hlen' := hlen rfl (lenInv_first rfl hfine hfirst) (hsh its rfl) (Or.inl h0)
        rw [hfirst] at hs'
        have hw := wholeString_none hl hg hs'
        simp only [hw, hr, Res.bind, hlen', h0, arrayLength, Store.bound]
      · cases h

theorem initialise_known {cfg : Cfg} {env : Env E} {i : Init E} {s : List (Store E)}
    (h : initialise env (.array none el) i = .ok s) (hcov : covered cfg env (.array none el) i)
    (hpos : 0 < arrayLength s) :
    initialise env (.array (some (arrayLength s)) el) i = .ok s ∧
      covered cfg env (.array (some (arrayLength s)) el) i := by
  have hstring : ∀ e, storeAt env (.array none el) [] e = .ok s →
      storeAt env (.array (some (arrayLength s)) el) [] e = .ok s ∧
        fits cfg env (.array (some (arrayLength s)) el) e = true := by
    intro e h
    rcases storeAt_cases h with ⟨n, el', hb, hstr, hel, hs⟩ | ⟨ha, hna, rfl⟩
    · simp only [Ty.bare] at hb
      cases hb
      simp only at hs
      subst hs
      simp [storeAt, Ty.bare, hstr, hel, arrayLength, Store.bound, fits]
    · exact absurd rfl (hna none el)
  cases i with
  | expr e => exact hstring e h
  | list its =>
    simp only [initialise, braces, Ty.bare] at h ⊢
    have hbs' : bracedString env (.array (some (arrayLength s)) el) its =
        bracedString env (.array none el) its := by
      unfold bracedString
      split <;> rfl
    simp only [hbs', covered, fitsBraced, Ty.bare]
    cases hbs : bracedString env (.array none el) its with
    | some e =>
      rw [hbs] at h
      have := hstring e h
      refine ⟨this.1, this.2, ?_⟩
      obtain ⟨k, hk⟩ : ∃ k, arrayLength s = k + 1 := ⟨arrayLength s - 1, by omega⟩
      have hf : (Ty.array (some (arrayLength s)) el).first = some 0 := by rw [hk]; rfl
      rw [hf]
      have := covered_bounded (n := arrayLength s) cfg env its _
        (by intro p hp; cases hp; simp) hcov.2
      have hcut : cut (arrayLength s) (((Ty.array none el).first).map fun j => [j]) = some [0] := by
        simp [Ty.first, Ty.bare, cut, hd, hpos]
      rw [hcut] at this
      exact this
    | none =>
      rw [hbs] at h
      simp only at h
      obtain ⟨k, hk⟩ : ∃ k, arrayLength s = k + 1 := ⟨arrayLength s - 1, by omega⟩
      have hf : (Ty.array (some (arrayLength s)) el).first = some 0 := by rw [hk]; rfl
      have hcut : cut (arrayLength s) (((Ty.array none el).first).map fun j => [j]) = some [0] := by
        simp [Ty.first, Ty.bare, cut, hd, hpos]
      split at h
      · rename_i s' hs'
        have hsl : arrayLength s' ≤ arrayLength s := by
          cases h
          simp [arrayLength, Store.bound]
        have hrun := run_bounded (n := arrayLength s) env its _ s' (by intro p hp; cases hp; simp) hs' hsl
        have hc := covered_bounded (n := arrayLength s) cfg env its _
          (by intro p hp; cases hp; simp) hcov.2
        rw [hcut] at hrun hc
        rw [hf]
        simp only [Option.map_some, hrun, true_and]
        exact ⟨h, hc⟩
      · cases h

end Kefir.Init
