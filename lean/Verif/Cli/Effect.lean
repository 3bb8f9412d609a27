import Verif.Cli.Loop

/-! # The effect of the options -/
namespace Kefir.Cli

/-- The options of the program as settings. -/
def view (o : Options) : Settings where
  action := decodeAction o.action
  input := o.inputFilepath
  output := o.outputFilepath
  target := o.targetProfile
  sourceId := o.sourceId
  jsonErrors := o.errorReportType = ERROR_REPORT_JSON
  detailed := o.detailedOutput
  skipPreprocessor := o.skipPreprocessor
  includeDirs := o.includePath
  includeFiles := o.includeFiles
  defines := o.defines
  timestamp := if o.defaultPpTimestamp then none else some o.ppTimestamp
  features := getFeature o.features

/-- What the options of the program are after the options `os`. -/
structure Inv (os : List Opt) (o : Options) : Prop where
  action : o.action = code (action os)
  input : o.inputFilepath = none
  output : o.outputFilepath = (os.filterMap outputOf).getLast?
  target : o.targetProfile = (os.filterMap targetOf).getLast?
  sourceId : o.sourceId = (os.filterMap sourceIdOf).getLast?
  errors : o.errorReportType = if (os.filterMap errorsOf).getLast?.getD false then 1 else 0
  detailed : o.detailedOutput = decide (.detailed ∈ os)
  skip : o.skipPreprocessor = decide (.skipPreprocessor ∈ os)
  dirs : o.includePath = os.filterMap includeDirOf
  files : o.includeFiles = os.filterMap includeFileOf
  defines : o.defines = os.filterMap defineOf
  time : (if o.defaultPpTimestamp then none else some o.ppTimestamp) =
    (os.filterMap timestampOf).getLast?.map strtoull
  features : ∀ f, getFeature o.features f = (os.filterMap (featureOf f)).getLast?.getD false

theorem inv_nil : Inv [] {} where
  action := rfl
  input := rfl
  output := rfl
  target := rfl
  sourceId := rfl
  errors := rfl
  detailed := rfl
  skip := rfl
  dirs := rfl
  files := rfl
  defines := rfl
  time := rfl
  features := fun f => by cases f <;> rfl

theorem inv_step {os o x o'} (h : Inv os o) (hs : step o x = .ok o') : Inv (os ++ [x]) o' := by
  cases x with
  | act a =>
    simp only [step] at hs
    split at hs
    · cases hs
    · cases hs
      constructor <;> simp [List.filterMap_append, action, actionOf, outputOf, targetOf, sourceIdOf, errorsOf,
        includeDirOf, includeFileOf, defineOf, timestampOf, featureOf, h.input, h.output, h.target, h.sourceId, h.errors,
        h.detailed, h.skip, h.dirs, h.files, h.defines, h.time, h.features]
  | skipPreprocessor =>
    simp only [step] at hs
    split at hs
    · cases hs
    · cases hs
      constructor <;> simp [List.filterMap_append, action, actionOf, outputOf, targetOf, sourceIdOf, errorsOf,
        includeDirOf, includeFileOf, defineOf, timestampOf, featureOf, h.input, h.output, h.target, h.sourceId, h.errors,
        h.detailed, h.skip, h.dirs, h.files, h.defines, h.time, h.features, h.action]
  | define s =>
    simp only [step] at hs
    split at hs
    · cases hs
    · cases hs
      constructor <;> simp [List.filterMap_append, action, actionOf, outputOf, targetOf, sourceIdOf, errorsOf,
        includeDirOf, includeFileOf, defineOf, timestampOf, featureOf, h.input, h.output, h.target, h.sourceId, h.errors,
        h.detailed, h.skip, h.dirs, h.files, h.defines, h.time, h.features, h.action]
  | feature f b =>
    cases hs
    constructor <;> simp [List.filterMap_append, action, actionOf, outputOf, targetOf, sourceIdOf, errorsOf,
      includeDirOf, includeFileOf, defineOf, timestampOf, featureOf, h.input, h.output, h.target, h.sourceId, h.errors,
      h.detailed, h.skip, h.dirs, h.files, h.defines, h.time, h.features, h.action, getFeature_set]
    intro f'
    by_cases hf : f = f' <;> simp [hf]
  | _ =>
    cases hs
    constructor <;> simp [List.filterMap_append, action, actionOf, outputOf, targetOf, sourceIdOf, errorsOf,
      includeDirOf, includeFileOf, defineOf, timestampOf, featureOf, h.input, h.output, h.target, h.sourceId, h.errors,
      h.detailed, h.skip, h.dirs, h.files, h.defines, h.time, h.features, h.action]

theorem conflict_append {os} (h : Conflict os) (ys : List Opt) : Conflict (os ++ ys) := by
  obtain ⟨pre, post, ⟨rfl, h⟩ | ⟨rfl, h⟩⟩ := h
  · exact ⟨pre, post ++ ys, .inl ⟨by simp, h⟩⟩
  · exact ⟨pre, post ++ ys, .inr ⟨by simp, h⟩⟩

theorem duplicate_append {os} (h : Duplicate os) (ys : List Opt) : Duplicate (os ++ ys) := by
  intro hn
  rw [List.filterMap_append, List.map_append] at hn
  exact h (List.nodup_append.1 hn).1

theorem append_eq_snoc {os pre post : List Opt} {x y : Opt} (h : os ++ [x] = pre ++ y :: post) :
    (post = [] ∧ os = pre ∧ x = y) ∨ ∃ post', os = pre ++ y :: post' := by
  rcases List.eq_nil_or_concat post with rfl | ⟨p, z, rfl⟩
  · obtain ⟨h1, h2⟩ := List.append_inj' h rfl
    exact .inl ⟨rfl, h1, by simpa using h2⟩
  · refine .inr ⟨p, ?_⟩
    have : os ++ [x] = (pre ++ y :: p) ++ [z] := by simpa using h
    exact (List.append_inj' this rfl).1

/-- No conflict and no macro twice, and the settings, after one more option. -/
theorem step_cases {os o} (x : Opt) (h : Inv os o) (hc : ¬ Conflict os) (hd : ¬ Duplicate os) :
    (∃ o', step o x = .ok o' ∧ ¬ Conflict (os ++ [x]) ∧ ¬ Duplicate (os ++ [x])) ∨
    (∃ e, step o x = .error e ∧ (Conflict (os ++ [x]) ∨ Duplicate (os ++ [x]))) := by
  have hc' : (x = .act .preprocess → .skipPreprocessor ∉ os) → (x = .skipPreprocessor → action os ≠ .preprocess) →
      ¬ Conflict (os ++ [x]) := by
    rintro h1 h2 ⟨pre, post, ⟨he, hm⟩ | ⟨he, hm⟩⟩
    · rcases append_eq_snoc he with ⟨rfl, rfl, rfl⟩ | ⟨post', rfl⟩
      · exact h1 rfl hm
      · exact hc ⟨pre, post', .inl ⟨rfl, hm⟩⟩
    · rcases append_eq_snoc he with ⟨rfl, rfl, rfl⟩ | ⟨post', rfl⟩
      · exact h2 rfl hm
      · exact hc ⟨pre, post', .inr ⟨rfl, hm⟩⟩
  have hd' : defineOf x = none → ¬ Duplicate (os ++ [x]) := by
    intro hx hdup
    apply hdup
    simp only [List.filterMap_append, List.filterMap_cons, hx, List.filterMap_nil, List.append_nil]
    exact Classical.not_not.1 hd
  cases x with
  | act a =>
    by_cases hp : a = .preprocess ∧ o.skipPreprocessor = true
    · refine .inr ⟨.conflict, by simp [step, hp], .inl ⟨os, [], .inl ⟨by rw [hp.1], ?_⟩⟩⟩
      have := hp.2
      rw [h.skip] at this
      simpa using this
    · refine .inl ⟨_, by simp only [step, if_neg hp]; rfl, hc' (fun hx hm => hp ⟨by simpa using hx, ?_⟩) (by simp), hd' rfl⟩
      rw [h.skip]
      simpa using hm
  | skipPreprocessor =>
    by_cases hp : o.action = 0
    · refine .inr ⟨.conflict, by simp [step, hp], .inl ⟨os, [], .inr ⟨rfl, ?_⟩⟩⟩
      rw [h.action] at hp
      have := decode_code (action os)
      rw [hp] at this
      exact this.symm
    · refine .inl ⟨_, by simp only [step, if_neg hp]; rfl, hc' (by simp) (fun _ hm => hp ?_), hd' rfl⟩
      rw [h.action, hm]
      rfl
  | define s =>
    by_cases hp : o.defines.any (fun d => d.1 = (definition s).1) = true
    · refine .inr ⟨.exists_, by simp only [step, if_pos hp], .inr ?_⟩
      intro hn
      rw [h.defines] at hp
      obtain ⟨d, hdm, hde⟩ := List.any_eq_true.1 hp
      rw [List.filterMap_append, List.map_append] at hn
      exact (List.nodup_append.1 hn).2.2 d.1 (List.mem_map_of_mem hdm) (definition s).1
        (by simp [defineOf]) (by simpa using hde)
    · refine .inl ⟨_, by simp only [step, if_neg hp]; rfl, hc' (by simp) (by simp), ?_⟩
      intro hdup
      apply hdup
      rw [List.filterMap_append, List.map_append]
      refine List.nodup_append.2 ⟨Classical.not_not.1 hd, by simp [defineOf], ?_⟩
      intro a ha b hb hab
      obtain ⟨d, hdm, rfl⟩ := List.mem_map.1 ha
      apply hp
      rw [h.defines]
      refine List.any_eq_true.2 ⟨d, hdm, ?_⟩
      simp [defineOf] at hb
      simp [hab, hb]
  | _ => exact .inl ⟨_, rfl, hc' (by simp) (by simp), hd' rfl⟩

/-- The effect of a list of options. -/
theorem steps_cases (os : List Opt) :
    (∃ o, steps {} os = .ok o ∧ Inv os o ∧ ¬ Conflict os ∧ ¬ Duplicate os) ∨
    (∃ e, steps {} os = .error e ∧ (Conflict os ∨ Duplicate os)) := by
  suffices ∀ rs : List Opt, (∃ o, steps {} rs.reverse = .ok o ∧ Inv rs.reverse o ∧ ¬ Conflict rs.reverse ∧
      ¬ Duplicate rs.reverse) ∨ (∃ e, steps {} rs.reverse = .error e ∧ (Conflict rs.reverse ∨ Duplicate rs.reverse)) by
    simpa using this os.reverse
  intro rs
  induction rs with
  | nil => exact .inl ⟨{}, rfl, inv_nil, by rintro ⟨pre, post, h | h⟩ <;> simp at h, by simp [Duplicate]⟩
  | cons x rs ih =>
    simp only [List.reverse_cons, steps_append, steps_one]
    rcases ih with ⟨o, h, hi, hc, hd⟩ | ⟨e, h, hcd⟩
    · rw [h]
      rcases step_cases x hi hc hd with ⟨o', h', hc', hd'⟩ | ⟨e, h', hcd⟩
      · exact .inl ⟨o', h', inv_step hi h', hc', hd'⟩
      · exact .inr ⟨e, h', hcd⟩
    · rw [h]
      exact .inr ⟨e, rfl, hcd.imp (conflict_append · _) (duplicate_append · _)⟩

/-! ### Numbers -/

theorem digit_not_space {c : Char} (h : c.isDigit) : isSpace c = false ∧ c ≠ '-' ∧ c ≠ '+' := by
  simp only [Char.isDigit, Bool.and_eq_true, decide_eq_true_eq] at h
  have hv := h.1
  have h48 : 48 ≤ c.toNat := UInt32.le_iff_toNat_le.1 hv
  refine ⟨?_, fun e => ?_, fun e => ?_⟩
  · have h1 : c ≠ ' ' := fun e => by rw [e] at h48; exact absurd h48 (by decide)
    have h2 : ¬ c ≤ '\r' := by
      intro hle
      have : c.toNat ≤ 13 := UInt32.le_iff_toNat_le.1 hle
      omega
    simp [isSpace, h1, h2]
  · rw [e] at h48; exact absurd h48 (by decide)
  · rw [e] at h48; exact absurd h48 (by decide)

theorem strtoull_number {s : Str} {n : Nat} (h : number s = some n) : strtoull s = n := by
  simp only [number] at h
  split at h
  · rename_i hd
    split at h
    · rename_i hlt
      cases h
      obtain ⟨hne, hall⟩ := hd
      cases s with
      | nil => exact absurd rfl hne
      | cons c s =>
        have hc := digit_not_space (hall c List.mem_cons_self)
        have h1 : (c :: s).dropWhile isSpace = c :: s := by simp [hc.1]
        have h2 : (c :: s).takeWhile Char.isDigit = c :: s := by
          rw [← List.append_nil (c :: s), List.takeWhile_append_of_pos hall]
          simp
        simp only [strtoull, h1]
        split
        · rename_i h'; cases h'; exact absurd rfl hc.2.1
        · rename_i h'; cases h'; exact absurd rfl hc.2.2
        · simp only [h2]
          rw [if_neg (by omega)]
          rfl
    · cases h
  · cases h

theorem view_eq {os o} (h : Inv os o) (hn : ∀ s, .timestamp s ∈ os → (number s).isSome) (files : List Str) :
    view { o with inputFilepath := files.head? } = settings os files := by
  have ht : (os.filterMap timestampOf).getLast?.map strtoull = (os.filterMap timestampOf).getLast?.bind number := by
    cases hl : (os.filterMap timestampOf).getLast? with
    | none => rfl
    | some s =>
      have hm : s ∈ os.filterMap timestampOf := List.mem_of_getLast? hl
      obtain ⟨x, hx, hxs⟩ := List.mem_filterMap.1 hm
      have : x = .timestamp s := by
        cases x <;> simp [timestampOf] at hxs
        rw [hxs]
      subst this
      obtain ⟨n, hn⟩ := Option.isSome_iff_exists.1 (hn s hx)
      simp [hn, strtoull_number hn]
  simp only [view, settings, h.action, decode_code, h.output, h.target, h.sourceId, h.errors, h.detailed, h.skip, h.dirs,
    h.files, h.defines]
  have htime := h.time
  rw [ht] at htime
  simp only [Settings.mk.injEq, true_and]
  refine ⟨?_, htime, funext h.features⟩
  cases (os.filterMap errorsOf).getLast?.getD false <;> rfl

/-! ### Operands -/

theorem operands_cases (fs : List Str) (o : Options) (h : o.inputFilepath = none) :
    (fs.length ≤ 1 ∧ operands (fs.headD []) fs o = .ok { o with inputFilepath := fs.head? }) ∨
    (1 < fs.length ∧ operands (fs.headD []) fs o = .error .tooMany) := by
  match fs with
  | [] =>
    refine .inl ⟨by simp, ?_⟩
    cases o
    simp only at h
    subst h
    rfl
  | [f] => exact .inl ⟨by simp, by simp [operands, h]⟩
  | f :: g :: fs => exact .inr ⟨by simp, by simp [operands, h]⟩

end Kefir.Cli
