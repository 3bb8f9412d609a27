import Verif.Skip.Lines
/-!
# The loop of `kefir_preprocessor_skip_group`
-/

namespace Kefir.Skip

open Kefir.Lexer Kefir.Directive Kefir.PpToken

variable {c : Cursor} {flag f : Bool} {d n m : Nat}

theorem step_begin {k : Kind} (hm : matchDirective c = some (.ok (k, f), c.adv n))
    (hk : k = .ifD ∨ k = .ifdef ∨ k = .ifndef) (hl : skipLine (c.adv n) = some (.ok (), c.adv m)) :
    skipGroup flag d c = skipGroup true (d + 1) (c.adv m) := by
  rw [skipGroup, save_bind, bind_some hm]
  rcases hk with rfl | rfl | rfl <;> exact bind_some hl

theorem step_alternative {k : Kind} (hm : matchDirective c = some (.ok (k, f), c.adv n))
    (hk : k = .elif ∨ k = .elseD) :
    skipGroup flag d c = if d = 0 then some (.ok flag, c) else skipGroup f d (c.adv n) := by
  rw [skipGroup, save_bind, bind_some hm]
  rcases hk with rfl | rfl <;> dsimp only <;> split
  all_goals first | rfl | exact restore_bind ..

theorem step_stop (hm : matchDirective c = some (.ok (.endif, f), c.adv n)) :
    skipGroup flag 0 c = some (.ok flag, c) := by
  rw [skipGroup, save_bind, bind_some hm]
  dsimp only
  rw [if_neg (by omega)]
  exact restore_bind ..

theorem step_end (hm : matchDirective c = some (.ok (.endif, f), c.adv n)) (hd : d > 0)
    (hl : skipLine (c.adv n) = some (.ok (), c.adv m)) :
    skipGroup flag d c = skipGroup true (d - 1) (c.adv m) := by
  rw [skipGroup, save_bind, bind_some hm]
  dsimp only
  rw [if_pos hd]
  exact bind_some hl

theorem step_sentinel (hm : matchDirective c = some (.ok (.sentinel, f), c.adv n)) :
    skipGroup flag d c = some (.ok f, c.adv n) := by
  rw [skipGroup, save_bind, bind_some hm]
  rfl

theorem step_other {k : Kind} (hm : matchDirective c = some (.ok (k, f), c.adv n))
    (h1 : ¬ (k = .ifD ∨ k = .ifdef ∨ k = .ifndef)) (h2 : ¬ (k = .elif ∨ k = .elseD)) (h3 : k ≠ .endif)
    (h4 : k ≠ .sentinel) (hl : skipLine (c.adv n) = some (.ok (), c.adv m)) :
    skipGroup flag d c = skipGroup true d (c.adv m) := by
  rw [skipGroup, save_bind, bind_some hm]
  cases k <;> first | exact bind_some hl | simp at h1 h2 h3 h4

/-- The first line of a text. -/
theorem first_line {a : Line} {ls : List Line} (h0 : 0 ∉ c.text) (hl : lines c.text = a :: ls)
    (hp : ch '\n' ∉ a.raw.dropLast) :
    LineAt c a.raw ∧ lines (c.adv a.raw.length).text = ls ∧ (a.raw.getLast? ≠ some (ch '\n') → ls = [] ∧ c.text = a.raw) ∧
      ∃ r, c.text = a.raw ++ r := by
  rcases linesFrom_cons .code ⟨[], []⟩ c.text with ⟨h, _⟩ | ⟨a', ls', s1, s2, h1, h2, h3, h4⟩ | ⟨a', h1, h2, h3⟩
  · rw [lines, h] at hl; cases hl
  · rw [lines, h1] at hl
    injection hl with ha hls
    subst ha; subst hls
    rw [List.nil_append] at h3
    rw [h3, List.dropLast_concat] at hp
    refine ⟨⟨h0, Or.inl ⟨s1, s2, h3, hp, by rw [h2, h3]; simp⟩⟩, ?_, ?_, s2, by rw [h2, h3]; simp⟩
    · rw [Cursor.text_adv, h2, h3, h4, show s1 ++ ch '\n' :: s2 = (s1 ++ [ch '\n']) ++ s2 by simp, List.drop_left]
    · intro h
      rw [h3] at h
      simp at h
  · rw [lines, h1] at hl
    injection hl with ha hls
    subst ha; subst hls
    rw [List.nil_append] at h2
    refine ⟨⟨h0, ?_⟩, ?_, fun _ => ⟨rfl, h2.symm⟩, [], by rw [h2]; simp⟩
    · by_cases hlast : a'.raw.getLast? = some (ch '\n')
      · obtain ⟨b, hb⟩ := List.getLast?_eq_some_iff.mp hlast
        rw [hb, List.dropLast_concat] at hp
        exact Or.inl ⟨b, [], hb, hp, by rw [← h2]; simp⟩
      · refine Or.inr ⟨?_, h2.symm⟩
        intro hmem
        obtain ⟨b, x, hb⟩ : ∃ b x, a'.raw = b ++ [x] := ⟨_, _, (List.dropLast_concat_getLast h3).symm⟩
        rw [hb, List.dropLast_concat] at hp
        rw [hb] at hmem hlast
        rcases List.mem_append.mp hmem with h | h
        · exact hp h
        · rw [List.mem_singleton] at h
          rw [h] at hlast
          simp at hlast
    · rw [Cursor.text_adv, ← h2, List.drop_length]
      rfl

theorem matchText_sentinel {s : List Chr} (h : (matchText s).1 = .sentinel) : ch '\n' ∉ s := by
  have hd : dropBlanks s = [] := by
    cases hd : dropBlanks s with
    | nil => rfl
    | cons x r =>
      exfalso
      rw [matchText, hd] at h
      dsimp only at h
      split at h
      · cases h
      · split at h
        · cases h
        · split at h
          · rename_i e he
            exact (known_facts e (List.mem_of_find?_eq_some he)).2.2.2.2.2.2 h
          · cases h
  rw [blanks_drop s, hd, List.append_nil]
  exact blanks_newline s

/-- The line goes on with its newline from `n`, or it is the last. -/
theorem matchText_from {raw r : List Chr} (hr : c.text = raw ++ r)
    (hlast : raw.getLast? ≠ some (ch '\n') → c.text = raw)
    (hn : n + (if raw.getLast? = some (ch '\n') then 1 else 0) ≤ raw.length) :
    matchText (c.adv n).text = matchText (raw.drop n) := by
  rw [Cursor.text_adv]
  by_cases h : raw.getLast? = some (ch '\n')
  · obtain ⟨b, hb⟩ := List.getLast?_eq_some_iff.mp h
    rw [if_pos h] at hn
    rw [hr, List.drop_append_of_le_length (by omega)]
    apply matchText_append
    rw [hb, List.length_append, List.length_singleton] at hn
    rw [hb, List.drop_append_of_le_length (by omega)]
    simp
  · rw [hlast h]

theorem skip_lines (ls : List Line) (h0 : 0 ∉ c.text) (hl : lines c.text = ls)
    (hp : ∀ l ∈ ls.take ((group d ls).length + 1), PlainLine l) :
    skipGroup true d c = some (.ok true, c.adv (size (group d ls))) := by
  induction ls generalizing c d with
  | nil =>
    have ht : c.text = [] := by
      rcases linesFrom_cons .code ⟨[], []⟩ c.text with ⟨_, _, h⟩ | ⟨a', ls', s1, s2, h1, _⟩ | ⟨a', h1, _⟩
      · exact h
      · rw [lines, h1] at hl; cases hl
      · rw [lines, h1] at hl; cases hl
    have hm := matchDirective_pure h0
    rw [ht] at hm
    rw [step_sentinel hm]
    rfl
  | cons a ls ih =>
    have hpa : PlainLine a := hp a (by simp)
    obtain ⟨hline, hnext, hlast, r, hr⟩ := first_line h0 hl hpa.newline
    have h0' : 0 ∉ (c.adv a.raw.length).text := by
      rw [Cursor.text_adv]; exact fun h => h0 (List.mem_of_mem_drop h)
    have cl := matchText_plain hpa
    have hm := matchDirective_pure h0
    have hmt : matchText c.text = matchText a.raw := by
      by_cases h : a.raw.getLast? = some (ch '\n')
      · rw [hr]; exact matchText_append (List.mem_of_getLast? h) r
      · rw [(hlast h).2]
    rw [hmt] at hm
    generalize hk : (matchText a.raw).1 = k at cl hm
    generalize (matchText a.raw).2.1 = f at cl hm
    generalize (matchText a.raw).2.2 = n at cl hm
    have hlineend : k ≠ .sentinel → skipLine (c.adv n) = some (.ok (), c.adv a.raw.length) :=
      fun h => skipLine_from hline (cl.room h)
    have hsize : ∀ gs, c.adv (size (a :: gs)) = (c.adv a.raw.length).adv (size gs) := by
      intro gs
      rw [Cursor.adv_adv]
      rfl
    have next : ∀ d', group d (a :: ls) = a :: group d' ls →
        skipGroup true d' (c.adv a.raw.length) = some (.ok true, c.adv (size (group d (a :: ls)))) := by
      intro d' hg
      rw [hg, hsize]
      refine ih h0' hnext ?_
      intro l hlm
      refine hp l ?_
      rw [hg, List.length_cons, List.take_succ_cons]
      exact List.mem_cons_of_mem _ hlm
    have hgroup := group.eq_2 d a ls
    by_cases h1 : a.is begins
    · rw [if_pos h1] at hgroup
      have hk1 := cl.begins.mp h1
      have hs : k ≠ .sentinel := by rintro rfl; rcases hk1 with h | h | h <;> cases h
      rw [step_begin hm hk1 (hlineend hs)]
      exact next _ hgroup
    · rw [if_neg h1] at hgroup
      have hk1 : ¬ (k = .ifD ∨ k = .ifdef ∨ k = .ifndef) := fun h => h1 (cl.begins.mpr h)
      by_cases h2 : a.is alternatives
      · have hk2 := cl.alternatives.mp h2
        have hs : k ≠ .sentinel := by rintro rfl; rcases hk2 with h | h <;> cases h
        have h3 : ¬ a.is ends := by
          intro h
          have := cl.ends.mp h
          rw [this] at hk2
          rcases hk2 with h | h <;> cases h
        rw [step_alternative hm hk2]
        by_cases hd : d = 0
        · rw [if_pos ⟨hd, Or.inl h2⟩] at hgroup
          rw [if_pos hd, hgroup]
          simp [size, Cursor.adv_zero]
        · rw [if_neg (fun h => hd h.1), if_neg h3] at hgroup
          rw [if_neg hd, ← next _ hgroup]
          have hm2 := matchDirective_pure (c := c.adv n) (by
            rw [Cursor.text_adv]; exact fun h => h0 (List.mem_of_mem_drop h))
          rw [matchText_from hr (fun h => (hlast h).2) (cl.room hs)] at hm2
          rcases cl.rest hk2 with ⟨hpp, hz⟩ | ⟨hse, hfl, hn⟩
          · rw [hpp, hz] at hm2
            refine (step_other (m := a.raw.length - n) hm2 (by simp) (by simp) (by simp) (by simp) ?_).trans ?_
            · have hle : n ≤ a.raw.length := by have := cl.room hs; omega
              rw [Cursor.adv_zero, hlineend hs, Cursor.adv_adv, Nat.add_sub_cancel' hle]
            · have hle : n ≤ a.raw.length := by have := cl.room hs; omega
              rw [Cursor.adv_adv, Nat.add_sub_cancel' hle]
          · have hnl : a.raw.getLast? ≠ some (ch '\n') := by
              intro h
              have hroom := cl.room hs
              rw [if_pos h] at hroom
              refine matchText_sentinel hse ?_
              obtain ⟨b, hb⟩ := List.getLast?_eq_some_iff.mp h
              rw [hb, List.length_append, List.length_singleton] at hroom
              rw [hb, List.drop_append_of_le_length (by omega)]
              simp
            obtain ⟨hls, htext⟩ := hlast hnl
            rw [hse, hfl] at hm2
            rw [step_sentinel hm2, Cursor.adv_adv, hn, next _ hgroup, hgroup, hls]
            simp [size, group]
      · have hk2 : ¬ (k = .elif ∨ k = .elseD) := fun h => h2 (cl.alternatives.mpr h)
        by_cases h3 : a.is ends
        · have hk3 := cl.ends.mp h3
          subst hk3
          by_cases hd : d = 0
          · rw [if_pos ⟨hd, Or.inr h3⟩] at hgroup
            subst hd
            rw [step_stop hm, hgroup]
            simp [size, Cursor.adv_zero]
          · rw [if_neg (fun h => hd h.1), if_pos h3] at hgroup
            rw [step_end hm (by omega) (hlineend (by simp))]
            exact next _ hgroup
        · rw [if_neg (fun h => h.2.elim h2 h3), if_neg h3] at hgroup
          by_cases hs : k = .sentinel
          · subst hs
            obtain ⟨hn, hf⟩ := cl.sentinel rfl
            have hnl : a.raw.getLast? ≠ some (ch '\n') :=
              fun h => matchText_sentinel hk (List.mem_of_getLast? h)
            obtain ⟨hls, _⟩ := hlast hnl
            rw [step_sentinel hm, hn, hf, hgroup, hls]
            simp [size, group]
          · rw [step_other hm hk1 hk2 (fun h => h3 (cl.ends.mpr h)) hs (hlineend hs)]
            exact next _ hgroup

end Kefir.Skip
