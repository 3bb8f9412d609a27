import Verif.Cli.Effect

/-! # C95: the options of the command line -/
namespace Kefir.Cli

theorem parse_eq (args : List Str) {r} (h : loop {} args [] = .ok r) :
    parse args = operands (r.2.headD []) r.2 r.1 := by
  simp only [parse, h]
  rfl

theorem parse_error (args : List Str) {e} (h : loop {} args [] = .error e) : parse args = .error e := by
  simp only [parse, h]
  rfl

/-- **C95.** A command line that consists of options and operands, the options written in any of the usual ways, is
accepted if there is no conflict, no macro is defined twice and there is at most one operand; then the options of the
program are the settings that the command line stands for. Otherwise it is refused.

Partial: two options of the help text do not exist (`C95_help_false`), numbers have to be numbers
(`C95_number_false`), and long names are written in full (`C95_abbreviation_false`). -/
theorem C95_options_partial {args tail files : List Str} {os : List Opt} (hs : Spells Exact args os)
    (ho : Operands tail files) (hn : ∀ s, .timestamp s ∈ os → (number s).isSome) :
    (¬ Conflict os ∧ ¬ Duplicate os ∧ files.length ≤ 1 →
      ∃ o, parse (args ++ tail) = .ok o ∧ view o = settings os files) ∧
    (Conflict os ∨ Duplicate os ∨ 1 < files.length → ∃ e, parse (args ++ tail) = .error e) := by
  have hl := loop_spells hs {} tail
  rcases steps_cases os with ⟨o, h, hi, hc, hd⟩ | ⟨e, h, hcd⟩
  · rw [h] at hl
    have hl' : loop {} (args ++ tail) [] = .ok (o, files) := hl.trans (loop_operands ho o)
    have hp := parse_eq _ hl'
    rcases operands_cases files o hi.input with ⟨hlen, hop⟩ | ⟨hlen, hop⟩
    · refine ⟨fun _ => ⟨_, hp.trans hop, view_eq hi hn files⟩, ?_⟩
      rintro (h | h | h)
      · exact absurd h hc
      · exact absurd h hd
      · omega
    · exact ⟨fun h => by omega, fun _ => ⟨_, hp.trans hop⟩⟩
  · rw [h] at hl
    have hp := parse_error _ (show loop {} (args ++ tail) [] = .error e from hl)
    refine ⟨fun h => ?_, fun _ => ⟨e, hp⟩⟩
    rcases hcd with h' | h'
    · exact absurd h' h.1
    · exact absurd h' h.2.1

theorem loop_bad {args} (h : Bad args) (o : Options) : ∃ e, loop o args [] = .error e := by
  have hlong : ∀ {n : Str}, (∀ (o : Opt) m, o.long = some m → ¬ n <+: m.toList) → findLong n = none := by
    intro n hn
    refine findLong_none (fun e he hp => ?_)
    obtain ⟨m, hm⟩ := stands_of_mem he
    exact hn _ _ (stands_names hm []).1 hp
  cases h with
  | @name n w args hne heq hn hw =>
    refine ⟨.unknown, loop_error ?_⟩
    have hln : longName (n ++ w) = n := by
      rcases hw with rfl | ⟨v, rfl⟩
      · rw [List.append_nil, longName_all heq]
      · exact longName_eq heq v
    simp only [List.cons_append, getopt, if_neg (show n ++ w ≠ [] by simp [hne]), getLong, hln, hlong hn]
  | @value n x v args hx ha =>
    obtain ⟨e, m, hs, rfl, hm, harg⟩ := entry_long hx
    have hg := getopt_longEq hs.mem v args
    rw [harg, ha] at hg
    exact ⟨_, loop_error hg⟩
  | @noArg n x hx ha =>
    obtain ⟨e, m, hs, rfl, hm, harg⟩ := entry_long hx
    have hg := getopt_long hs.mem []
    rw [harg, if_pos (Option.isSome_iff_ne_none.2 ha)] at hg
    exact ⟨_, loop_error hg⟩
  | @letter cs fs c l args hl hc hd =>
    have hw : ∃ c' l', cs ++ c :: l = c' :: l' ∧ c' ≠ '-' := by
      cases hl with
      | nil => exact ⟨c, l, rfl, hd rfl⟩
      | cons hx _ _ => exact ⟨_, _, rfl, (entry_short hx).choose_spec.choose_spec.2.2.2.2⟩
    obtain ⟨c', l', he, hc'⟩ := hw
    rw [List.cons_append, he, loop_word hc', ← he, loop_letters hl]
    cases steps o fs with
    | error e => exact ⟨e, rfl⟩
    | ok o =>
      refine ⟨.unknown, loop_error ?_⟩
      have : findShort c = none := by
        cases h : findShort c with
        | none => rfl
        | some e =>
          obtain ⟨he, hsh⟩ := findShort_some h
          obtain ⟨m, hm⟩ := stands_of_mem he
          exact absurd ((stands_names hm []).2.1.trans hsh) (hc _)
      simp only [getopt_letter, getShort, this]
  | @letterNoArg cs fs c x hl hx ha =>
    obtain ⟨e, m, hs, hf, _, harg, hc⟩ := entry_short hx
    obtain ⟨c', l', he, hc'⟩ := letters_head hl hc []
    rw [List.cons_append, he, loop_word hc', ← he, loop_letters hl]
    cases steps o fs with
    | error e => exact ⟨e, rfl⟩
    | ok o =>
      refine ⟨.missing, loop_error ?_⟩
      simp [getopt_letter, getShort, hf, harg, Option.isSome_iff_ne_none.2 ha]

/-- **C95, refusal.** A command line with something after its first options that is not an option is refused. -/
theorem C95_refused {args rest : List Str} {os : List Opt} (hs : Spells Exact args os) (hb : Bad rest) :
    ∃ e, parse (args ++ rest) = .error e := by
  have hl := loop_spells hs {} rest
  cases h : steps {} os with
  | error e => exact ⟨e, parse_error _ (by rw [hl, h]; rfl)⟩
  | ok o =>
    obtain ⟨e, he⟩ := loop_bad hb o
    exact ⟨e, parse_error _ (by rw [hl, h]; exact he)⟩

/-- **C95, converse.** A command line that is accepted consists of options, whose names may be cut off, and at most one
operand, without conflicts and without a macro defined twice; and it has the effect of these options. -/
theorem C95_accepted {args : List Str} {o : Options} (h : parse args = .ok o) :
    ∃ pre tail os files, args = pre ++ tail ∧ Spells Abbreviates pre os ∧ Operands tail files ∧ files.length ≤ 1 ∧
      ¬ Conflict os ∧ ¬ Duplicate os ∧
      ((∀ s, .timestamp s ∈ os → (number s).isSome) → view o = settings os files) := by
  cases hl : loop {} args [] with
  | error e => rw [parse_error _ hl] at h; cases h
  | ok r =>
    obtain ⟨o1, files⟩ := r
    rw [parse_eq _ hl] at h
    obtain ⟨pre, tail, os, hp, hr, ho, hst⟩ := loop_ok _ _ _ _ _ _ (Nat.lt_succ_self _) hl
    rcases steps_cases os with ⟨o', h', hi, hc, hd⟩ | ⟨e, h', _⟩
    · rw [hst] at h'
      cases h'
      rcases operands_cases files o1 hi.input with ⟨hlen, hop⟩ | ⟨hlen, hop⟩
      · rw [hop] at h
        cases h
        exact ⟨pre, tail, os, files, hp, reads_nil.1 hr, ho, hlen, hc, hd, fun hn => view_eq hi hn files⟩
      · rw [hop] at h; cases h
    · rw [hst] at h'; cases h'

/-- The two settings exclude each other if the options do not conflict. -/
theorem exclusive (os : List Opt) (hc : ¬ Conflict os) : ¬ (action os = .preprocess ∧ .skipPreprocessor ∈ os) := by
  suffices ∀ rs : List Opt, ¬ Conflict rs.reverse → ¬ (action rs.reverse = .preprocess ∧
      .skipPreprocessor ∈ rs.reverse) by
    simpa using this os.reverse (by simpa using hc)
  intro rs
  induction rs with
  | nil => simp
  | cons x rs ih =>
    intro hc
    simp only [List.reverse_cons] at hc ⊢
    have ih := ih (fun h => hc (conflict_append h _))
    rintro ⟨ha, hm⟩
    rcases List.mem_append.1 hm with hm' | hm'
    · by_cases hx : ∃ a, x = .act a
      · obtain ⟨a, rfl⟩ := hx
        have : a = .preprocess := by simpa [action, actionOf] using ha
        subst this
        exact hc ⟨rs.reverse, [], .inl ⟨rfl, hm'⟩⟩
      · have : actionOf x = none := by
          cases x <;> first | rfl | exact absurd ⟨_, rfl⟩ hx
        exact ih ⟨by simpa [action, this] using ha, hm'⟩
    · have : x = .skipPreprocessor := (List.mem_singleton.1 hm').symm
      subst this
      exact hc ⟨rs.reverse, [], .inr ⟨rfl, by simpa [action, actionOf] using ha⟩⟩

/-- **C95, exclusion.** No command line asks for the result of preprocessing and for preprocessing to be skipped. -/
theorem C95_exclusive {args : List Str} {o : Options} (h : parse args = .ok o) :
    ¬ ((view o).action = .preprocess ∧ (view o).skipPreprocessor = true) := by
  cases hl : loop {} args [] with
  | error e => rw [parse_error _ hl] at h; cases h
  | ok r =>
    obtain ⟨o1, files⟩ := r
    rw [parse_eq _ hl] at h
    obtain ⟨pre, tail, os, hp, hr, ho, hst⟩ := loop_ok _ _ _ _ _ _ (Nat.lt_succ_self _) hl
    rcases steps_cases os with ⟨o', h', hi, hc, hd⟩ | ⟨e, h', _⟩
    · rw [hst] at h'
      cases h'
      rcases operands_cases files o1 hi.input with ⟨hlen, hop⟩ | ⟨hlen, hop⟩
      · rw [hop] at h
        cases h
        have := exclusive os hc
        simpa [view, hi.action, decode_code, hi.skip] using this
      · rw [hop] at h; cases h
    · rw [hst] at h'; cases h'

/-- The switch of the compiler for a feature, as the components of the compiler that read it call it. -/
def switchFor (f : Feature → Bool) : Switches where
  failOnAttributes := f .failOnAttributes
  implicitFunctionDefinitionInt := f .missingFunctionReturnType
  designatedInitializerColons := f .designatedInitColons
  labelAddressing := f .labelsAsValues
  statementExpressions := f .statementExpressions
  omittedConditionalOperand := f .omittedConditionalOperand
  nonStrictQualifiers := f .nonStrictQualifiers
  fixedEnumType := f .signedEnums
  implicitFunctionDeclaration := f .implicitFunctionDecl
  extPointerArithmetics := f .extPointerArithmetics
  missingBracesSubobj := f .missingBracesSubobj
  intToPointer := f .intToPointer
  emptyStructs := f .emptyStructs

/-- What a compilation has to do for the settings `s`. -/
def wanted (s : Settings) (what : Dump) : Job :=
  .dump what (if s.skipPreprocessor then .plain else .preprocessed s.defines s.timestamp s.includeFiles)
    (switchFor s.features) s.includeDirs s.input (s.sourceId.getD (s.input.getD "<stdin>".toList)) s.target s.output

/-- **C95, use.** The compiler does what the settings say: it prints what was asked for, with the macros, the time, the
files, the directories, the features, the target and the output that were given.

Partial: the time is ignored if the result of preprocessing is printed (`C95_time_false`), the runtime code is printed to
the standard output in any case. -/
theorem C95_run_partial {args : List Str} {o : Options} (h : parse args = .ok o) :
    match (view o).action with
    | .preprocess => (view o).timestamp = none → job o = some (wanted (view o) .preprocessed)
    | .tokens => job o = some (wanted (view o) .tokens)
    | .ast => job o = some (wanted (view o) .ast)
    | .ir => job o = some (wanted (view o) .ir)
    | .assembly => job o = some (wanted (view o) .assembly)
    | .runtimeCode => job o = some (.runtimeCode (view o).target)
    | .help => job o = some .help
    | .version => job o = some .version := by
  have hx := C95_exclusive h
  have hcode : o.action < 8 := by
    cases hl : loop {} args [] with
    | error e => rw [parse_error _ hl] at h; cases h
    | ok r =>
      obtain ⟨o1, files⟩ := r
      rw [parse_eq _ hl] at h
      obtain ⟨pre, tail, os, hp, hr, ho, hst⟩ := loop_ok _ _ _ _ _ _ (Nat.lt_succ_self _) hl
      rcases steps_cases os with ⟨o', h', hi, hc, hd⟩ | ⟨e, h', _⟩
      · rw [hst] at h'
        cases h'
        rcases operands_cases files o1 hi.input with ⟨hlen, hop⟩ | ⟨hlen, hop⟩
        · rw [hop] at h
          cases h
          simp only [hi.action]
          cases action os <;> decide
        · rw [hop] at h; cases h
      · rw [hst] at h'; cases h'
  obtain ⟨a, b, c, d, e, f, g, sk, i, j, k, l, m, n⟩ := o
  simp only at hcode
  have hcases : a = 0 ∨ a = 1 ∨ a = 2 ∨ a = 3 ∨ a = 4 ∨ a = 5 ∨ a = 6 ∨ a = 7 := by omega
  rcases hcases with rfl | rfl | rfl | rfl | rfl | rfl | rfl | rfl
  · intro ht
    simp only [view, decodeAction, true_and, Bool.not_eq_true] at hx
    have hm : m = true := by
      cases m
      · cases ht
      · rfl
    subst hx hm
    cases e <;> cases b <;> rfl
  · cases e <;> cases b <;> rfl
  · cases e <;> cases b <;> rfl
  · cases e <;> cases b <;> rfl
  · cases e <;> cases b <;> rfl
  · rfl
  · rfl
  · rfl

/-! ### Cases -/

private instance : DecidableEq (Except Err Options) := fun a b =>
  match a, b with
  | .error x, .error y => decidable_of_iff (x = y) (by simp)
  | .ok x, .ok y => decidable_of_iff (x = y) (by simp)
  | .error _, .ok _ => isFalse (by simp)
  | .ok _, .error _ => isFalse (by simp)

private def w (s : String) : Str := s.toList

/-- `-pDX=1 --feature-signed-enums -I dir --output=f --no-feature-signed-enums a.c`. -/
private def exArgs : List Str :=
  [w "-pDX=1", w "--feature-signed-enums", w "-I", w "dir", w "--output=f", w "--no-feature-signed-enums"]

private def exOpts : List Opt :=
  [.act .preprocess, .define (w "X=1"), .feature .signedEnums true, .includeDir (w "dir"), .output (w "f"),
   .feature .signedEnums false]

private theorem exSpells : Spells Exact exArgs exOpts := by
  have h0 : Spells Exact [] [] := .nil
  have h1 := Spells.long (n := w "no-feature-signed-enums") (o := .feature .signedEnums false)
    ⟨_, rfl, by decide +kernel⟩ rfl h0
  have h2 := Spells.longEq (n := w "output") (o := .output (w "f")) (v := w "f") ⟨_, rfl, by decide +kernel⟩ rfl h1
  have h3 := Spells.lettersNext (cs := []) (fs := []) (c := 'I') (o := .includeDir (w "dir")) (v := w "dir") .nil rfl rfl h2
  have h4 := Spells.long (n := w "feature-signed-enums") (o := .feature .signedEnums true)
    ⟨_, rfl, by decide +kernel⟩ rfl h3
  have h5 := Spells.lettersArg (cs := ['p']) (fs := [.act .preprocess]) (c := 'D') (o := .define (w "X=1"))
    (v := w "X=1") (.cons rfl rfl .nil) rfl rfl (by decide +kernel) h4
  have e : ∀ a b : List Str, a = b → ∀ c, Spells Exact a c → Spells Exact b c := fun a b h c hs => h ▸ hs
  exact e _ _ (by decide +kernel) _ h5

private theorem exOperands : Operands [w "a.c"] [w "a.c"] := .plain (.inl (by decide +kernel))

private theorem exNoConflict : ¬ Conflict exOpts := by
  rcases steps_cases exOpts with ⟨_, _, _, h, _⟩ | ⟨e, h, _⟩
  · exact h
  · exact absurd h (by cases e <;> decide +kernel)

/-- The hypotheses of the theorem hold for this command line, and it is accepted with these settings. -/
example : ∃ o, parse (exArgs ++ [w "a.c"]) = .ok o ∧ view o = settings exOpts [w "a.c"] :=
  (C95_options_partial exSpells exOperands (by simp [exOpts])).1
    ⟨exNoConflict, fun h => h (by decide +kernel), by decide⟩

example : (settings exOpts [w "a.c"]).defines = [(w "X", some (w "1"))] ∧
    (settings exOpts [w "a.c"]).features .signedEnums = false ∧
    (settings exOpts [w "a.c"]).includeDirs = [w "dir"] := by decide +kernel

/-- `-p -P` is refused. -/
example : ∃ e, parse [w "-pP"] = .error e := ⟨.conflict, by decide +kernel⟩

/-- `--frobnicate` is refused. -/
example : ∃ e, parse (exArgs ++ [w "--frobnicate"]) = .error e := by
  refine C95_refused exSpells (show Bad [w "--frobnicate"] from ?_)
  have h : w "--frobnicate" = '-' :: '-' :: w "frobnicate" ++ [] := by decide +kernel
  rw [h]
  refine .name (by decide +kernel) (by decide +kernel) (fun o m hm hp => ?_) (.inl rfl)
  obtain ⟨e, _, hs, rfl, _⟩ := stands_of_long hm
  have : ∀ e ∈ table, ¬ w "frobnicate" <+: e.long.toList := by decide +kernel
  exact this e hs.mem hp

/-! ### What the help text says and does not hold -/

/-- **C95, the help text is wrong.** `--dump-asm` and `--include-path` are described, and refused. The names of all other
options are those of the help text. -/
theorem C95_help_false :
    (∃ e, parse [w "--dump-asm"] = .error e) ∧ (∃ e, parse [w "--include-path", w "dir"] = .error e) ∧
    ∀ o : Opt, o ≠ .act .assembly → (∀ d, o ≠ .includeDir d) → o.long = some o.docLong := by
  refine ⟨⟨.unknown, by decide +kernel⟩, ⟨.unknown, by decide +kernel⟩, fun o h1 h2 => ?_⟩
  cases o with
  | act a => cases a <;> first | rfl | exact absurd rfl h1
  | includeDir d => exact absurd rfl (h2 d)
  | _ => rfl

/-- **C95, abbreviations.** A name that is cut off can mean several options and is nevertheless accepted, as the first of
them: `--dump` prints tokens although it also begins `--dump-ast`, `--dump-ir` and `--dump-runtime-code`, and
`--no-feature` switches off one feature. -/
theorem C95_abbreviation_false :
    (∃ o, parse [w "--dump"] = .ok o ∧ (view o).action = .tokens) ∧
    Abbreviates (w "dump") (.act .ast) ∧ Abbreviates (w "dump") (.act .tokens) ∧
    parse [w "--no-feature"] = parse [w "--no-feature-non-strict-qualifiers"] := by
  refine ⟨⟨{ action := 1 }, by decide +kernel, rfl⟩, ⟨_, rfl, by decide +kernel⟩, ⟨_, rfl, by decide +kernel⟩,
    by decide +kernel⟩

/-- **C95, numbers.** A time that is not a number is accepted. -/
theorem C95_number_false : number (w "noon") = none ∧
    ∃ o, parse [w "--pp-timestamp=noon"] = .ok o ∧ (view o).timestamp = some 0 := by
  refine ⟨by decide +kernel, ⟨{ ppTimestamp := 0, defaultPpTimestamp := false }, by decide +kernel, rfl⟩⟩

/-- **C95, conflicts.** `-P` "cannot be specified along with `-p`", but it can, if another action comes between. -/
theorem C95_conflict_false : ∃ o, parse [w "-p", w "--dump-ast", w "-P"] = .ok o :=
  ⟨{ action := 2, skipPreprocessor := true }, by decide +kernel⟩

/-- **C95, names of macros.** A macro whose name is not an identifier is accepted. -/
theorem C95_macro_false : ∃ o, parse [w "-D1+1=3"] = .ok o ∧ (view o).defines = [(w "1+1", some (w "3"))] :=
  ⟨{ defines := [(w "1+1", some (w "3"))] }, by decide +kernel, by decide +kernel⟩

/-- **C95, time.** The time is ignored if the result of preprocessing is printed. -/
theorem C95_time_false : ∃ o, parse [w "-p", w "--pp-timestamp=1"] = .ok o ∧ (view o).timestamp = some 1 ∧
    job o ≠ some (wanted (view o) .preprocessed) ∧
    job o = job { o with ppTimestamp := 0, defaultPpTimestamp := true } :=
  ⟨{ action := 0, ppTimestamp := 1, defaultPpTimestamp := false }, by decide +kernel, by decide +kernel,
    by decide +kernel, by decide +kernel⟩

end Kefir.Cli
