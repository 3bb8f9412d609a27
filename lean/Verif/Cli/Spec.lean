/-!
# Specification: the options of the command line

The options that `kefir --help` describes, the ways of writing an option on a command line, and the settings that a list
of options stands for. Nothing here refers to how the command line is read.
-/
namespace Kefir.Cli

abbrev Str := List Char

/-- What the compiler is asked to do. -/
inductive Action where
  | preprocess | tokens | ast | ir | assembly | runtimeCode | help | version
  deriving DecidableEq, Repr

/-- The optional features of the help text. -/
inductive Feature where
  | failOnAttributes | missingFunctionReturnType | designatedInitColons | labelsAsValues | nonStrictQualifiers
  | signedEnums | implicitFunctionDecl | emptyStructs | extPointerArithmetics | missingBracesSubobj
  | statementExpressions | omittedConditionalOperand | intToPointer
  deriving DecidableEq, Repr

/-- An option, with its argument. -/
inductive Opt where
  | output (file : Str)
  | act (a : Action)
  | skipPreprocessor
  | errors (json : Bool)
  | target (profile : Str)
  | sourceId (s : Str)
  | detailed
  | timestamp (s : Str)
  | define (s : Str)
  | includeDir (dir : Str)
  | includeFile (file : Str)
  | feature (f : Feature) (on : Bool)
  deriving DecidableEq, Repr

/-- The name of a feature in the help text. -/
def Feature.name : Feature → String
  | .failOnAttributes => "fail-on-attributes"
  | .missingFunctionReturnType => "missing-function-return-type"
  | .designatedInitColons => "designated-init-colons"
  | .labelsAsValues => "labels-as-values"
  | .nonStrictQualifiers => "non-strict-qualifiers"
  | .signedEnums => "signed-enums"
  | .implicitFunctionDecl => "implicit-function-decl"
  | .emptyStructs => "empty-structs"
  | .extPointerArithmetics => "ext-pointer-arithmetics"
  | .missingBracesSubobj => "missing-braces-subobj"
  | .statementExpressions => "statement-expressions"
  | .omittedConditionalOperand => "omitted-conditional-operand"
  | .intToPointer => "int-to-pointer"

/-- The long name of an option in the help text, without the two dashes. -/
def Opt.docLong : Opt → String
  | .output _ => "output"
  | .act .preprocess => "preprocess"
  | .act .tokens => "dump-tokens"
  | .act .ast => "dump-ast"
  | .act .ir => "dump-ir"
  | .act .assembly => "dump-asm"
  | .act .runtimeCode => "dump-runtime-code"
  | .act .help => "help"
  | .act .version => "version"
  | .skipPreprocessor => "skip-preprocessor"
  | .errors true => "json-errors"
  | .errors false => "tabular-errors"
  | .target _ => "target-profile"
  | .sourceId _ => "source-id"
  | .detailed => "detailed-output"
  | .timestamp _ => "pp-timestamp"
  | .define _ => "define"
  | .includeDir _ => "include-path"
  | .includeFile _ => "include"
  | .feature f true => "feature-" ++ f.name
  | .feature f false => "no-feature-" ++ f.name

/-- The long names that work. They are those of the help text, but `--dump-asm` does not exist and the directories of the
search path are given by `--include-dir` (see `C95_help_false`). -/
def Opt.long : Opt → Option String
  | .act .assembly => none
  | .includeDir _ => some "include-dir"
  | o => some o.docLong

/-- The letter of an option in the help text. -/
def Opt.short : Opt → Option Char
  | .output _ => some 'o'
  | .act .preprocess => some 'p'
  | .act .help => some 'h'
  | .act .version => some 'v'
  | .skipPreprocessor => some 'P'
  | .define _ => some 'D'
  | .includeDir _ => some 'I'
  | _ => none

/-- The argument that has to follow an option. -/
def Opt.arg : Opt → Option Str
  | .output s | .target s | .sourceId s | .timestamp s | .define s | .includeDir s | .includeFile s => some s
  | _ => none

/-- The long name is written in full. -/
def Exact (name : Str) (o : Opt) : Prop := ∃ n, o.long = some n ∧ name = n.toList

/-- The long name is written in full or cut off. -/
def Abbreviates (name : Str) (o : Opt) : Prop := ∃ n, o.long = some n ∧ name <+: n.toList

/-- `cs` are the letters of the options `os`, none of which has an argument. -/
inductive Letters : Str → List Opt → Prop where
  | nil : Letters [] []
  | cons {c o cs os} : o.short = some c → o.arg = none → Letters cs os → Letters (c :: cs) (o :: os)

/-- The arguments `args` of a command line give the options `os`, if long names are written as `named` says:
`--name`, `--name=v`, `--name v`, `-abc`, `-abcv`, `-abc v`. -/
inductive Spells (named : Str → Opt → Prop) : List Str → List Opt → Prop where
  | nil : Spells named [] []
  | long {n o args os} : named n o → o.arg = none → Spells named args os →
      Spells named (('-' :: '-' :: n) :: args) (o :: os)
  | longEq {n o v args os} : named n o → o.arg = some v → Spells named args os →
      Spells named (('-' :: '-' :: n ++ '=' :: v) :: args) (o :: os)
  | longNext {n o v args os} : named n o → o.arg = some v → Spells named args os →
      Spells named (('-' :: '-' :: n) :: v :: args) (o :: os)
  | letters {cs fs args os} : Letters cs fs → cs ≠ [] → Spells named args os →
      Spells named (('-' :: cs) :: args) (fs ++ os)
  | lettersArg {cs fs c o v args os} : Letters cs fs → o.short = some c → o.arg = some v → v ≠ [] →
      Spells named args os → Spells named (('-' :: cs ++ c :: v) :: args) (fs ++ o :: os)
  | lettersNext {cs fs c o v args os} : Letters cs fs → o.short = some c → o.arg = some v →
      Spells named args os → Spells named (('-' :: cs ++ [c]) :: v :: args) (fs ++ o :: os)

/-- `tail` is the part of the command line after the options, with the operands `files`: it begins with an argument
that has no dash or is a single dash, or with `--`. -/
inductive Operands : List Str → List Str → Prop where
  | none : Operands [] []
  | plain {f fs} : (f.head? ≠ some '-' ∨ f = ['-']) → Operands (f :: fs) (f :: fs)
  | dashes {fs} : Operands (['-', '-'] :: fs) fs

/-- The settings of a compilation. -/
structure Settings where
  action : Action
  input : Option Str
  output : Option Str
  target : Option Str
  sourceId : Option Str
  jsonErrors : Bool
  detailed : Bool
  skipPreprocessor : Bool
  includeDirs : List Str
  includeFiles : List Str
  /-- The macros, with their replacement texts. -/
  defines : List (Str × Option Str)
  timestamp : Option Nat
  features : Feature → Bool

def actionOf : Opt → Option Action
  | .act a => some a
  | _ => none

/-- The last action that was asked for, assembly if there is none. -/
def action (os : List Opt) : Action := (os.filterMap actionOf).getLast?.getD .assembly

def outputOf : Opt → Option Str
  | .output s => some s
  | _ => none

def targetOf : Opt → Option Str
  | .target s => some s
  | _ => none

def sourceIdOf : Opt → Option Str
  | .sourceId s => some s
  | _ => none

def errorsOf : Opt → Option Bool
  | .errors b => some b
  | _ => none

def includeDirOf : Opt → Option Str
  | .includeDir s => some s
  | _ => none

def includeFileOf : Opt → Option Str
  | .includeFile s => some s
  | _ => none

/-- `name` or `name=text`. -/
def definition (s : Str) : Str × Option Str :=
  (s.takeWhile (· ≠ '='), if '=' ∈ s then some (s.dropWhile (· ≠ '=')).tail else none)

def defineOf : Opt → Option (Str × Option Str)
  | .define s => some (definition s)
  | _ => none

def timestampOf : Opt → Option Str
  | .timestamp s => some s
  | _ => none

def featureOf (f : Feature) : Opt → Option Bool
  | .feature g on => if g = f then some on else none
  | _ => none

/-- The value of a decimal number of 64 bits. -/
def number (s : Str) : Option Nat :=
  if s ≠ [] ∧ (∀ c ∈ s, c.isDigit) then
    let n := s.foldl (fun n c => 10 * n + (c.toNat - '0'.toNat)) 0
    if n < 2 ^ 64 then some n else none
  else none

/-- The settings that options and operands stand for: of several options for one setting the last counts, directories and
files are collected in order. -/
def settings (os : List Opt) (files : List Str) : Settings where
  action := action os
  input := files.head?
  output := (os.filterMap outputOf).getLast?
  target := (os.filterMap targetOf).getLast?
  sourceId := (os.filterMap sourceIdOf).getLast?
  jsonErrors := (os.filterMap errorsOf).getLast?.getD false
  detailed := decide (.detailed ∈ os)
  skipPreprocessor := decide (.skipPreprocessor ∈ os)
  includeDirs := os.filterMap includeDirOf
  includeFiles := os.filterMap includeFileOf
  defines := os.filterMap defineOf
  timestamp := (os.filterMap timestampOf).getLast?.bind number
  features := fun f => (os.filterMap (featureOf f)).getLast?.getD false

/-- Preprocessing is asked for after it was to be skipped, or the other way round. -/
def Conflict (os : List Opt) : Prop :=
  ∃ pre post, (os = pre ++ .act .preprocess :: post ∧ .skipPreprocessor ∈ pre) ∨
    (os = pre ++ .skipPreprocessor :: post ∧ action pre = .preprocess)

/-- A macro is defined twice. -/
def Duplicate (os : List Opt) : Prop := ¬ ((os.filterMap defineOf).map Prod.fst).Nodup

/-- Arguments that begin with something that is not an option: an unknown long name, a value for an option that has none,
an option without the argument it needs, an unknown letter. -/
inductive Bad : List Str → Prop where
  | name {n w args} : n ≠ [] → '=' ∉ n → (∀ (o : Opt) m, o.long = some m → ¬ n <+: m.toList) →
      (w = [] ∨ ∃ v, w = '=' :: v) → Bad (('-' :: '-' :: n ++ w) :: args)
  | value {n o v args} : Exact n o → o.arg = none → Bad (('-' :: '-' :: n ++ '=' :: v) :: args)
  | noArg {n o} : Exact n o → o.arg ≠ none → Bad ['-' :: '-' :: n]
  | letter {cs fs c l args} : Letters cs fs → (∀ o : Opt, o.short ≠ some c) → (cs = [] → c ≠ '-') →
      Bad (('-' :: cs ++ c :: l) :: args)
  | letterNoArg {cs fs c} {o : Opt} : Letters cs fs → o.short = some c → o.arg ≠ none → Bad ['-' :: cs ++ [c]]

end Kefir.Cli
