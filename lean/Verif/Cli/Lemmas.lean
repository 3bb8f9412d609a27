import Verif.Cli.Model

/-! # Lemmas on the command line -/
namespace Kefir.Cli

/-! ### The table and the options -/

/-- The options of the table, in the order of the table. -/
def meanings : List (Str → Opt) :=
  [.output, fun _ => .act .preprocess, fun _ => .skipPreprocessor, fun _ => .act .tokens, fun _ => .act .ast,
   fun _ => .act .ir, fun _ => .act .runtimeCode, fun _ => .errors true, fun _ => .errors false, .target, .sourceId,
   fun _ => .detailed, .timestamp, .define, .includeDir, .includeFile, fun _ => .act .help, fun _ => .act .version,
   fun _ => .feature .nonStrictQualifiers true, fun _ => .feature .nonStrictQualifiers false,
   fun _ => .feature .signedEnums true, fun _ => .feature .signedEnums false,
   fun _ => .feature .implicitFunctionDecl true, fun _ => .feature .implicitFunctionDecl false,
   fun _ => .feature .failOnAttributes true, fun _ => .feature .failOnAttributes false,
   fun _ => .feature .missingFunctionReturnType true, fun _ => .feature .missingFunctionReturnType false,
   fun _ => .feature .designatedInitColons true, fun _ => .feature .designatedInitColons false,
   fun _ => .feature .labelsAsValues true, fun _ => .feature .labelsAsValues false,
   fun _ => .feature .emptyStructs true, fun _ => .feature .emptyStructs false,
   fun _ => .feature .extPointerArithmetics true, fun _ => .feature .extPointerArithmetics false,
   fun _ => .feature .missingBracesSubobj true, fun _ => .feature .missingBracesSubobj false,
   fun _ => .feature .statementExpressions true, fun _ => .feature .statementExpressions false,
   fun _ => .feature .omittedConditionalOperand true, fun _ => .feature .omittedConditionalOperand false,
   fun _ => .feature .intToPointer true, fun _ => .feature .intToPointer false]

/-- Entry `e` of the table stands for the options `m v`. -/
def Stands (e : CliOption) (m : Str → Opt) : Prop :=
  (e, m) ∈ table.zip meanings

theorem Stands.mem {e m} (h : Stands e m) : e ∈ table := (List.of_mem_zip h).1

/-- Every entry stands for options. -/
theorem stands_of_mem {e} (h : e ∈ table) : ∃ m, Stands e m := by
  obtain ⟨i, hi, rfl⟩ := List.getElem_of_mem h
  have hl : table.length = meanings.length := by decide +kernel
  refine ⟨meanings[i]'(hl ▸ hi), ?_⟩
  have : (table.zip meanings)[i]'(by simp [List.length_zip, ← hl, hi]) = (table[i], meanings[i]'(hl ▸ hi)) := by
    simp
  show (_, _) ∈ _
  rw [← this]
  exact List.getElem_mem _

/-- Properties of all entries, one by one. -/
theorem stands_induct {P : CliOption → (Str → Opt) → Prop} (h : ∀ x ∈ table.zip meanings, P x.1 x.2) {e m}
    (hs : Stands e m) : P e m := h (e, m) hs

/-- The effect of an option. -/
def setFeature (g : Features) (f : Feature) (b : Bool) : Features :=
  match f with
  | .failOnAttributes => { g with failOnAttributes := b }
  | .missingFunctionReturnType => { g with missingFunctionReturnType := b }
  | .designatedInitColons => { g with designatedInitializerColons := b }
  | .labelsAsValues => { g with labelsAsValues := b }
  | .nonStrictQualifiers => { g with nonStrictQualifiers := b }
  | .signedEnums => { g with signedEnumType := b }
  | .implicitFunctionDecl => { g with implicitFunctionDeclaration := b }
  | .emptyStructs => { g with emptyStructs := b }
  | .extPointerArithmetics => { g with extPointerArithmetics := b }
  | .missingBracesSubobj => { g with missingBracesSubobject := b }
  | .statementExpressions => { g with statementExpressions := b }
  | .omittedConditionalOperand => { g with omittedConditionalOperand := b }
  | .intToPointer => { g with intToPointer := b }

def getFeature (g : Features) : Feature → Bool
  | .failOnAttributes => g.failOnAttributes
  | .missingFunctionReturnType => g.missingFunctionReturnType
  | .designatedInitColons => g.designatedInitializerColons
  | .labelsAsValues => g.labelsAsValues
  | .nonStrictQualifiers => g.nonStrictQualifiers
  | .signedEnums => g.signedEnumType
  | .implicitFunctionDecl => g.implicitFunctionDeclaration
  | .emptyStructs => g.emptyStructs
  | .extPointerArithmetics => g.extPointerArithmetics
  | .missingBracesSubobj => g.missingBracesSubobject
  | .statementExpressions => g.statementExpressions
  | .omittedConditionalOperand => g.omittedConditionalOperand
  | .intToPointer => g.intToPointer

theorem getFeature_set (g : Features) (f f' : Feature) (b : Bool) :
    getFeature (setFeature g f b) f' = if f = f' then b else getFeature g f' := by
  cases f <;> cases f' <;> rfl

/-- The number of an action. -/
def code : Action → Nat
  | .preprocess => 0 | .tokens => 1 | .ast => 2 | .ir => 3 | .assembly => 4 | .runtimeCode => 5 | .help => 6
  | .version => 7

/-- The action of a number. -/
def decodeAction : Nat → Action
  | 0 => .preprocess | 1 => .tokens | 2 => .ast | 3 => .ir | 4 => .assembly | 5 => .runtimeCode | 6 => .help
  | _ => .version

theorem decode_code (a : Action) : decodeAction (code a) = a := by cases a <;> rfl

def step (o : Options) : Opt → Except Err Options
  | .output s => .ok { o with outputFilepath := some s }
  | .act a =>
    if a = .preprocess ∧ o.skipPreprocessor then .error .conflict else .ok { o with action := code a }
  | .skipPreprocessor => if o.action = 0 then .error .conflict else .ok { o with skipPreprocessor := true }
  | .errors json => .ok { o with errorReportType := if json then 1 else 0 }
  | .target s => .ok { o with targetProfile := some s }
  | .sourceId s => .ok { o with sourceId := some s }
  | .detailed => .ok { o with detailedOutput := true }
  | .timestamp s => .ok { o with ppTimestamp := strtoull s, defaultPpTimestamp := false }
  | .define s =>
    if o.defines.any (fun d => d.1 = (definition s).1) then .error .exists_
    else .ok { o with defines := o.defines ++ [definition s] }
  | .includeDir s => .ok { o with includePath := o.includePath ++ [s] }
  | .includeFile s => .ok { o with includeFiles := o.includeFiles ++ [s] }
  | .feature f on => .ok { o with features := setFeature o.features f on }

theorem define_eq (s : Str) :
    (s.take (identifierLength s),
      if (s.drop (identifierLength s)).isEmpty then none else some (s.drop (identifierLength s + 1))) =
    definition s := by
  induction s with
  | nil => rfl
  | cons c s ih =>
    by_cases h : c = '='
    · subst h
      simp [identifierLength, definition]
    · simp only [definition, identifierLength, if_neg h, List.take_succ_cons, List.drop_succ_cons] at ih ⊢
      simp only [Prod.mk.injEq] at ih
      have h' : '=' ≠ c := fun e => h e.symm
      rw [List.takeWhile_cons_of_pos (by simpa using h), List.dropWhile_cons_of_pos (by simpa using h)]
      simp only [List.mem_cons, h', false_or]
      exact Prod.ext (by simp [ih.1]) ih.2

theorem defineHook_eq (o : Options) (s : Str) : defineHook o s = step o (.define s) := by
  have h := define_eq s
  simp only [Prod.ext_iff] at h
  simp only [defineHook, step]
  rw [h.1]
  have h2 := h.2
  rw [h2]

theorem stands_names {e m} (h : Stands e m) (v : Str) :
    (m v).long = some e.long ∧ (m v).short = e.short ∧ ((m v).arg = if e.hasArgument then some v else none) := by
  revert v
  refine stands_induct (P := fun e m => ∀ v, (m v).long = some e.long ∧ (m v).short = e.short ∧
    ((m v).arg = if e.hasArgument then some v else none)) ?_ h
  simp only [table, meanings, feature, simple, prehook, posthook, custom, List.cons_append, List.nil_append,
    List.zip_cons_cons, List.zip_nil_left, List.forall_mem_cons]
  repeat' apply And.intro
  all_goals first | exact fun v => ⟨rfl, rfl, rfl⟩ | simp

theorem stands_process {e m} (h : Stands e m) (o : Options) (v : Str) : process o e v = step o (m v) := by
  revert v o
  refine stands_induct (P := fun e m => ∀ o v, process o e v = step o (m v)) ?_ h
  simp only [table, meanings, feature, simple, prehook, posthook, custom, List.cons_append, List.nil_append,
    List.zip_cons_cons, List.zip_nil_left, List.forall_mem_cons]
  repeat' apply And.intro
  all_goals first
    | exact fun o v => rfl
    | (intro o v; exact (show process o _ v = defineHook o v by
          simp only [process, runHook?, runHook, runAct]
          cases defineHook o v <;> rfl).trans (defineHook_eq o v))
    | (intro o v
       simp only [process, runHook?, runHook, runAct, step, ACTION_PREPROCESS]
       split <;> simp_all <;> rfl)
    | (intro o v
       obtain ⟨a, b, c, d, e, f, g, sk, i, j, k, l, m, n⟩ := o
       cases sk <;> rfl)
    | simp

/-- The place of an option in the table. -/
def place : Opt → Option Nat
  | .output _ => some 0
  | .act .preprocess => some 1
  | .skipPreprocessor => some 2
  | .act .tokens => some 3
  | .act .ast => some 4
  | .act .ir => some 5
  | .act .runtimeCode => some 6
  | .errors true => some 7
  | .errors false => some 8
  | .target _ => some 9
  | .sourceId _ => some 10
  | .detailed => some 11
  | .timestamp _ => some 12
  | .define _ => some 13
  | .includeDir _ => some 14
  | .includeFile _ => some 15
  | .act .help => some 16
  | .act .version => some 17
  | .feature .nonStrictQualifiers true => some 18
  | .feature .nonStrictQualifiers false => some 19
  | .feature .signedEnums true => some 20
  | .feature .signedEnums false => some 21
  | .feature .implicitFunctionDecl true => some 22
  | .feature .implicitFunctionDecl false => some 23
  | .feature .failOnAttributes true => some 24
  | .feature .failOnAttributes false => some 25
  | .feature .missingFunctionReturnType true => some 26
  | .feature .missingFunctionReturnType false => some 27
  | .feature .designatedInitColons true => some 28
  | .feature .designatedInitColons false => some 29
  | .feature .labelsAsValues true => some 30
  | .feature .labelsAsValues false => some 31
  | .feature .emptyStructs true => some 32
  | .feature .emptyStructs false => some 33
  | .feature .extPointerArithmetics true => some 34
  | .feature .extPointerArithmetics false => some 35
  | .feature .missingBracesSubobj true => some 36
  | .feature .missingBracesSubobj false => some 37
  | .feature .statementExpressions true => some 38
  | .feature .statementExpressions false => some 39
  | .feature .omittedConditionalOperand true => some 40
  | .feature .omittedConditionalOperand false => some 41
  | .feature .intToPointer true => some 42
  | .feature .intToPointer false => some 43
  | .act .assembly => none

theorem length_table : table.length = 44 := by decide +kernel
theorem length_meanings : meanings.length = 44 := by decide +kernel

theorem stands_at {i : Nat} {m} (h : meanings[i]? = some m) : ∃ e, Stands e m := by
  obtain ⟨h', rfl⟩ := List.getElem?_eq_some_iff.1 h
  have h1 : i < table.length := by rw [length_meanings] at h'; rw [length_table]; exact h'
  refine ⟨table[i], ?_⟩
  have : (table.zip meanings)[i]'(by rw [List.length_zip]; omega) = (table[i], meanings[i]) := List.getElem_zip
  exact List.mem_of_getElem this

/-- Every option but the request for assembly stands in the table. -/
theorem stands_of_long {o : Opt} {n} (h : o.long = some n) :
    ∃ e m, Stands e m ∧ e.long = n ∧ m ((o.arg).getD []) = o := by
  have key : ∃ (i : Nat) (m : Str → Opt), meanings[i]? = some m ∧ m ((o.arg).getD []) = o := by
    have : ∀ i, place o = some i → ∃ (i : Nat) (m : Str → Opt), meanings[i]? = some m ∧ m ((o.arg).getD []) = o := by
      intro i hi
      refine ⟨i, ?_⟩
      cases o with
      | act a => cases a <;> first | (cases hi; exact ⟨_, rfl, rfl⟩) | cases hi
      | errors b => cases b <;> (cases hi; exact ⟨_, rfl, rfl⟩)
      | feature f b => cases f <;> cases b <;> (cases hi; exact ⟨_, rfl, rfl⟩)
      | _ => cases hi; exact ⟨_, rfl, rfl⟩
    cases o with
    | act a => cases a <;> first | exact this _ rfl | cases h
    | errors b => cases b <;> exact this _ rfl
    | feature f b => cases f <;> cases b <;> exact this _ rfl
    | _ => exact this _ rfl
  obtain ⟨i, m, hi, hm⟩ := key
  obtain ⟨e, he⟩ := stands_at hi
  refine ⟨_, _, he, ?_, hm⟩
  have := (stands_names he ((o.arg).getD [])).1
  rw [hm, h] at this
  exact (Option.some.inj this).symm

/-- An option with a letter stands in the table. -/
theorem long_of_short {o : Opt} {c} (h : o.short = some c) : ∃ n, o.long = some n := by
  cases o with
  | act a => cases a <;> first | exact ⟨_, rfl⟩ | cases h
  | _ => first | exact ⟨_, rfl⟩ | cases h

/-! ### Finding options -/

theorem find_unique {α : Type} {p : α → Bool} {l : List α} {a : α} (ha : a ∈ l) (hp : p a)
    (hu : ∀ b ∈ l, p b → b = a) : l.find? p = some a := by
  cases h : l.find? p with
  | none => exact absurd hp (by simpa using List.find?_eq_none.1 h a ha)
  | some b => rw [hu b (List.mem_of_find?_eq_some h) (List.find?_some h)]

theorem table_long : ∀ e ∈ table, ∀ e' ∈ table, e.long = e'.long → e = e' := by decide +kernel
theorem table_short : ∀ e ∈ table, ∀ e' ∈ table, e.short.isSome → e.short = e'.short → e = e' := by decide +kernel
theorem table_name : ∀ e ∈ table, e.long.toList ≠ [] ∧ '=' ∉ e.long.toList := by decide +kernel
theorem table_letter : ∀ e ∈ table, e.short ≠ some '-' := by decide +kernel

theorem findLong_exact {e} (h : e ∈ table) : findLong e.long.toList = some e := by
  have : table.find? (fun e' => e'.long.toList = e.long.toList) = some e :=
    find_unique (p := fun e' => decide (e'.long.toList = e.long.toList)) h (by simp) (fun b hb hp =>
      table_long b hb e h (String.toList_inj.1 (by simpa using hp)))
  simp only [findLong, this]

theorem findLong_prefix {name e} (h : findLong name = some e) : e ∈ table ∧ name <+: e.long.toList := by
  simp only [findLong] at h
  split at h
  · rename_i e' he
    cases h
    have hn : e.long.toList = name := by simpa using List.find?_some he
    exact ⟨List.mem_of_find?_eq_some he, by rw [hn]; exact List.prefix_refl _⟩
  · split at h
    · cases h
    · rename_i e' es hf
      split at h
      · cases h
        have : e ∈ table.filter (fun e => name.isPrefixOf e.long.toList) := by rw [hf]; exact List.mem_cons_self
        simpa using this
      · cases h

theorem findLong_none {name} (h : ∀ e ∈ table, ¬ name <+: e.long.toList) : findLong name = none := by
  cases h' : findLong name with
  | none => rfl
  | some e => exact absurd (findLong_prefix h').2 (h e (findLong_prefix h').1)

theorem findShort_exact {e c} (h : e ∈ table) (hc : e.short = some c) : findShort c = some e :=
  find_unique (p := fun e' : CliOption => decide (e'.short = some c)) h (by simpa using hc) (fun b hb hp =>
    table_short b hb e h (by simp at hp; simp [hp]) (by simp at hp; rw [hp, hc]))

theorem findShort_some {c e} (h : findShort c = some e) : e ∈ table ∧ e.short = some c :=
  ⟨List.mem_of_find?_eq_some h, by simpa using List.find?_some h⟩

theorem longName_eq {s : Str} (h : '=' ∉ s) (v : Str) : longName (s ++ '=' :: v) = s := by
  induction s with
  | nil => rfl
  | cons c s ih =>
    have hc : c ≠ '=' := fun e => h (by rw [e]; exact List.mem_cons_self)
    have : longName (c :: (s ++ '=' :: v)) = c :: longName (s ++ '=' :: v) := by simp [longName, hc]
    rw [List.cons_append, this, ih (fun hm => h (List.mem_cons_of_mem _ hm))]

theorem longName_all {s : Str} (h : '=' ∉ s) : longName s = s := by
  induction s with
  | nil => rfl
  | cons c s ih =>
    have hc : c ≠ '=' := fun e => h (by rw [e]; exact List.mem_cons_self)
    have : longName (c :: s) = c :: longName s := by simp [longName, hc]
    rw [this, ih (fun hm => h (List.mem_cons_of_mem _ hm))]

/-- A word is its name, or the name, `=` and a value. -/
theorem longName_split (s : Str) : '=' ∉ longName s ∧
    (s = longName s ∧ s.drop (longName s).length = [] ∨
      ∃ v, s = longName s ++ '=' :: v ∧ s.drop (longName s).length = '=' :: v) := by
  induction s with
  | nil => exact ⟨by simp [longName], .inl ⟨rfl, rfl⟩⟩
  | cons c s ih =>
    by_cases hc : c = '='
    · subst hc
      exact ⟨by simp [longName], .inr ⟨s, by simp [longName], by simp [longName]⟩⟩
    · have : longName (c :: s) = c :: longName s := by simp [longName, hc]
      rw [this]
      refine ⟨by simp only [List.mem_cons, not_or]; exact ⟨fun e => hc e.symm, ih.1⟩, ?_⟩
      rcases ih.2 with ⟨h1, h2⟩ | ⟨v, h1, h2⟩
      · exact .inl ⟨by rw [← h1], by simpa using h2⟩
      · exact .inr ⟨v, by rw [List.cons_append, ← h1], by simpa using h2⟩

end Kefir.Cli
