import Verif.Cli.Spec

/-!
# Model of the command line

`kefir_cli_parse_options`, `source/cli/options.c`, with `getopt_long` of the C library, and the use of the options in
`source/main/main.c`.

`getopt_long` is not part of the repository. It is modelled after the GNU implementation with `optind = 0`, an option
string that begins with `+:` (stop at the first operand, report a missing argument as `:`) and `opterr = 0`: an exact long
name is preferred, otherwise the first name that the argument abbreviates is taken, unless a later one that it also
abbreviates differs in `has_arg` or `val`.

Simplified: `optind` and the position in a word of letters are the list of the remaining arguments and the remaining
letters; the first argument (the name of the program) is left out; allocation does not fail; the messages of errors are
left out; the tree of macros is the list of its entries (a map, C01).
-/
namespace Kefir.Cli

/-- Why a command line is refused. -/
inductive Err where
  /-- `KEFIR_UI_ERROR`, "Unknown option". -/
  | unknown
  /-- `KEFIR_UI_ERROR`, "Expected parameter". -/
  | missing
  /-- `KEFIR_UI_ERROR`, "Cannot combine". -/
  | conflict
  /-- `KEFIR_ALREADY_EXISTS` from the tree of macros. -/
  | exists_
  /-- `KEFIR_UI_ERROR`, "Cannot specify more than one input file". -/
  | tooMany
  /-- `KEFIR_INVALID_STATE`, "CLI option is ill-defined". -/
  | invalidState
  deriving DecidableEq, Repr

/-- The features of `struct kefir_cli_options`, `headers/kefir/cli/options.h` 61-75. -/
structure Features where
  failOnAttributes : Bool := false
  missingFunctionReturnType : Bool := false
  designatedInitializerColons : Bool := false
  labelsAsValues : Bool := false
  nonStrictQualifiers : Bool := false
  signedEnumType : Bool := false
  implicitFunctionDeclaration : Bool := false
  emptyStructs : Bool := false
  extPointerArithmetics : Bool := false
  missingBracesSubobject : Bool := false
  statementExpressions : Bool := false
  omittedConditionalOperand : Bool := false
  intToPointer : Bool := false
  deriving DecidableEq, Repr

/-- `struct kefir_cli_options`, `headers/kefir/cli/options.h` 46-76. Enumerations are numbers. The defaults are those of
`kefir_cli_parse_options`, `source/cli/options.c` 366-370. -/
structure Options where
  action : Nat := 4
  inputFilepath : Option Str := none
  outputFilepath : Option Str := none
  targetProfile : Option Str := none
  sourceId : Option Str := none
  errorReportType : Nat := 0
  detailedOutput : Bool := false
  skipPreprocessor : Bool := false
  includePath : List Str := []
  includeFiles : List Str := []
  defines : List (Str × Option Str) := []
  ppTimestamp : Nat := 0
  defaultPpTimestamp : Bool := true
  features : Features := {}
  deriving DecidableEq, Repr

/-- `enum kefir_cli_action`, `headers/kefir/cli/options.h` 30-39. -/
def ACTION_PREPROCESS : Nat := 0
def ACTION_DUMP_TOKENS : Nat := 1
def ACTION_DUMP_AST : Nat := 2
def ACTION_DUMP_IR : Nat := 3
def ACTION_DUMP_ASSEMBLY : Nat := 4
def ACTION_DUMP_RUNTIME_CODE : Nat := 5
def ACTION_HELP : Nat := 6
def ACTION_VERSION : Nat := 7

/-- `enum kefir_cli_error_report_type`, `headers/kefir/cli/options.h` 41-44. -/
def ERROR_REPORT_TABULAR : Nat := 0
def ERROR_REPORT_JSON : Nat := 1

/-- A member of `struct kefir_cli_options` that an option assigns: `param_offset` of `struct CliOption`. -/
inductive Field where
  | action | outputFilepath | targetProfile | sourceId | errorReportType | detailedOutput | skipPreprocessor
  | ppTimestamp
  | failOnAttributes | missingFunctionReturnType | designatedInitializerColons | labelsAsValues | nonStrictQualifiers
  | signedEnumType | implicitFunctionDeclaration | emptyStructs | extPointerArithmetics | missingBracesSubobject
  | statementExpressions | omittedConditionalOperand | intToPointer
  deriving DecidableEq, Repr

/-- `enum CliOptionAction` with `action_param` and the member, `source/cli/options.c` 28-33. -/
inductive Act where
  | none
  | assignStr (f : Field)
  | assignUint (f : Field)
  | assignConst (value : Nat) (f : Field)
  deriving DecidableEq, Repr

/-- The functions called before and after the assignment. -/
inductive Hook where
  | preprocess | skipPreprocessor | ppTimestamp | define | includeDir | includeFile
  deriving DecidableEq, Repr

/-- `struct CliOption`, `source/cli/options.c` 35-45. -/
structure CliOption where
  short : Option Char
  long : String
  hasArgument : Bool
  act : Act
  prehook : Option Hook
  posthook : Option Hook
  deriving DecidableEq, Repr

/-- `SIMPLE`, `PREHOOK`, `POSTHOOK`, `CUSTOM` and `FEATURE`, `source/cli/options.c` 128-147. -/
def simple (short : Option Char) (long : String) (hasArg : Bool) (act : Act) : CliOption :=
  ⟨short, long, hasArg, act, none, none⟩
def prehook (short : Option Char) (long : String) (hasArg : Bool) (act : Act) (h : Hook) : CliOption :=
  ⟨short, long, hasArg, act, some h, none⟩
def posthook (short : Option Char) (long : String) (hasArg : Bool) (act : Act) (h : Hook) : CliOption :=
  ⟨short, long, hasArg, act, none, some h⟩
def custom (short : Option Char) (long : String) (hasArg : Bool) (h : Hook) : CliOption :=
  ⟨short, long, hasArg, .none, some h, none⟩
def feature (name : String) (f : Field) : List CliOption :=
  [simple none ("feature-" ++ name) false (.assignConst 1 f),
   simple none ("no-feature-" ++ name) false (.assignConst 0 f)]

/-- `Options`, `source/cli/options.c` 127-189. -/
def table : List CliOption :=
  [simple (some 'o') "output" true (.assignStr .outputFilepath),
   prehook (some 'p') "preprocess" false (.assignConst ACTION_PREPROCESS .action) .preprocess,
   prehook (some 'P') "skip-preprocessor" false (.assignConst 1 .skipPreprocessor) .skipPreprocessor,
   simple none "dump-tokens" false (.assignConst ACTION_DUMP_TOKENS .action),
   simple none "dump-ast" false (.assignConst ACTION_DUMP_AST .action),
   simple none "dump-ir" false (.assignConst ACTION_DUMP_IR .action),
   simple none "dump-runtime-code" false (.assignConst ACTION_DUMP_RUNTIME_CODE .action),
   simple none "json-errors" false (.assignConst ERROR_REPORT_JSON .errorReportType),
   simple none "tabular-errors" false (.assignConst ERROR_REPORT_TABULAR .errorReportType),
   simple none "target-profile" true (.assignStr .targetProfile),
   simple none "source-id" true (.assignStr .sourceId),
   simple none "detailed-output" false (.assignConst 1 .detailedOutput),
   posthook none "pp-timestamp" true (.assignUint .ppTimestamp) .ppTimestamp,
   custom (some 'D') "define" true .define,
   custom (some 'I') "include-dir" true .includeDir,
   custom none "include" true .includeFile,
   simple (some 'h') "help" false (.assignConst ACTION_HELP .action),
   simple (some 'v') "version" false (.assignConst ACTION_VERSION .action)] ++
  feature "non-strict-qualifiers" .nonStrictQualifiers ++
  feature "signed-enums" .signedEnumType ++
  feature "implicit-function-decl" .implicitFunctionDeclaration ++
  feature "fail-on-attributes" .failOnAttributes ++
  feature "missing-function-return-type" .missingFunctionReturnType ++
  feature "designated-init-colons" .designatedInitializerColons ++
  feature "labels-as-values" .labelsAsValues ++
  feature "empty-structs" .emptyStructs ++
  feature "ext-pointer-arithmetics" .extPointerArithmetics ++
  feature "missing-braces-subobj" .missingBracesSubobject ++
  feature "statement-expressions" .statementExpressions ++
  feature "omitted-conditional-operand" .omittedConditionalOperand ++
  feature "int-to-pointer" .intToPointer

/-- `isspace` in the locale of `strtoull`: the white space characters of C. -/
def isSpace (c : Char) : Bool := c = ' ' || ('\t' ≤ c && c ≤ '\r')

/-- `strtoull(s, NULL, 10)`: white space, a sign, digits, as a number of 64 bits; the largest one if the digits exceed
it. -/
def strtoull (s : Str) : Nat :=
  let s := s.dropWhile isSpace
  let (neg, s) := match s with
    | '-' :: s => (true, s)
    | '+' :: s => (false, s)
    | s => (false, s)
  let n := (s.takeWhile Char.isDigit).foldl (fun n c => 10 * n + (c.toNat - '0'.toNat)) 0
  if 2 ^ 64 ≤ n then 2 ^ 64 - 1 else if neg then (2 ^ 64 - n) % 2 ^ 64 else n

/-- `CLI_ACTION_ASSIGN_STRARG`, `source/cli/options.c` 262-266: only members of the size of a pointer. -/
def assignStr (o : Options) (f : Field) (arg : Str) : Except Err Options :=
  match f with
  | .outputFilepath => .ok { o with outputFilepath := some arg }
  | .targetProfile => .ok { o with targetProfile := some arg }
  | .sourceId => .ok { o with sourceId := some arg }
  | _ => .error .invalidState

/-- `CLI_ACTION_ASSIGN_UINTARG`, `source/cli/options.c` 268-290. Simplified: only the one member that the table assigns
in this way. -/
def assignUint (o : Options) (f : Field) (arg : Str) : Except Err Options :=
  match f with
  | .ppTimestamp => .ok { o with ppTimestamp := strtoull arg }
  | _ => .error .invalidState

/-- `CLI_ACTION_ASSIGN_CONSTANT`, `source/cli/options.c` 292-314: members of the size of an integer. Simplified: not
strings. -/
def assignConst (o : Options) (f : Field) (v : Nat) : Except Err Options :=
  let b := v % 256 != 0
  let set (g : Features) : Except Err Options := .ok { o with features := g }
  match f with
  | .action => .ok { o with action := v % 2 ^ 32 }
  | .errorReportType => .ok { o with errorReportType := v % 2 ^ 32 }
  | .detailedOutput => .ok { o with detailedOutput := b }
  | .skipPreprocessor => .ok { o with skipPreprocessor := b }
  | .ppTimestamp => .ok { o with ppTimestamp := v }
  | .failOnAttributes => set { o.features with failOnAttributes := b }
  | .missingFunctionReturnType => set { o.features with missingFunctionReturnType := b }
  | .designatedInitializerColons => set { o.features with designatedInitializerColons := b }
  | .labelsAsValues => set { o.features with labelsAsValues := b }
  | .nonStrictQualifiers => set { o.features with nonStrictQualifiers := b }
  | .signedEnumType => set { o.features with signedEnumType := b }
  | .implicitFunctionDeclaration => set { o.features with implicitFunctionDeclaration := b }
  | .emptyStructs => set { o.features with emptyStructs := b }
  | .extPointerArithmetics => set { o.features with extPointerArithmetics := b }
  | .missingBracesSubobject => set { o.features with missingBracesSubobject := b }
  | .statementExpressions => set { o.features with statementExpressions := b }
  | .omittedConditionalOperand => set { o.features with omittedConditionalOperand := b }
  | .intToPointer => set { o.features with intToPointer := b }
  | .outputFilepath | .targetProfile | .sourceId => .error .invalidState

/-- The loop over the name in `define_hook`, `source/cli/options.c` 89-92: the length of the name. -/
def identifierLength : Str → Nat
  | [] => 0
  | c :: s => if c = '=' then 0 else identifierLength s + 1

/-- `define_hook`, `source/cli/options.c` 84-103. The insertion fails if the name is there (C01). -/
def defineHook (o : Options) (arg : Str) : Except Err Options :=
  let n := identifierLength arg
  let identifier := arg.take n
  let value := if (arg.drop n).isEmpty then none else some (arg.drop (n + 1))
  if o.defines.any (fun d => d.1 = identifier) then .error .exists_
  else .ok { o with defines := o.defines ++ [(identifier, value)] }

/-- The hooks, `source/cli/options.c` 49-125. -/
def runHook (o : Options) (arg : Str) : Hook → Except Err Options
  | .preprocess => if o.skipPreprocessor then .error .conflict else .ok o
  | .skipPreprocessor => if o.action = ACTION_PREPROCESS then .error .conflict else .ok o
  | .ppTimestamp => .ok { o with defaultPpTimestamp := false }
  | .define => defineHook o arg
  | .includeDir => .ok { o with includePath := o.includePath ++ [arg] }
  | .includeFile => .ok { o with includeFiles := o.includeFiles ++ [arg] }

def runHook? (o : Options) (arg : Str) : Option Hook → Except Err Options
  | none => .ok o
  | some h => runHook o arg h

/-- The assignment, `source/cli/options.c` 255-316. -/
def runAct (o : Options) (arg : Str) : Act → Except Err Options
  | .none => .ok o
  | .assignStr f => assignStr o f arg
  | .assignUint f => assignUint o f arg
  | .assignConst v f => assignConst o f v

/-- What `parse_impl_internal` does for one option, `source/cli/options.c` 251-320. -/
def process (o : Options) (e : CliOption) (arg : Str) : Except Err Options := do
  let o ← runHook? o arg e.prehook
  let o ← runAct o arg e.act
  runHook? o arg e.posthook

/-- The `val` of a long option, `source/cli/options.c` 227-231: its letter, or 0. -/
def CliOption.val (e : CliOption) : Nat := match e.short with
  | some c => c.toNat
  | none => 0

/-- The search for a long option in `getopt_long`: an exact name, otherwise the first that `name` abbreviates, unless
there is another one with a different `has_arg` or `val`. -/
def findLong (name : Str) : Option CliOption :=
  match table.find? (fun e => e.long.toList = name) with
  | some e => some e
  | none =>
    match table.filter (fun e => name.isPrefixOf e.long.toList) with
    | [] => none
    | e :: es => if es.all (fun e' => e'.hasArgument = e.hasArgument ∧ e'.val = e.val) then some e else none

/-- The search for a letter: `short_option_map` and the option string, `source/cli/options.c` 205-219. -/
def findShort (c : Char) : Option CliOption := table.find? (fun e => e.short = some c)

/-- The text of a long option up to `=`. -/
def longName (s : Str) : Str := s.takeWhile (· ≠ '=')

/-- What `getopt_long` returns: an option of the table with its argument and the state, or the end of the options, or
an error. -/
inductive Got where
  | option (e : CliOption) (arg : Str) (args : List Str) (letters : Str)
  | done (operands : List Str)
  | error (e : Err)

/-- A long option, `process_long_option` of the C library. -/
def getLong (s : Str) (args : List Str) : Got :=
  match findLong (longName s) with
  | none => .error .unknown
  | some e =>
    match s.drop (longName s).length with
    | _ :: v => if e.hasArgument then .option e v args [] else .error .unknown
    | [] =>
      if e.hasArgument then
        match args with
        | v :: args => .option e v args []
        | [] => .error .missing
      else .option e [] args []

/-- A letter. -/
def getShort (c : Char) (letters : Str) (args : List Str) : Got :=
  match findShort c with
  | none => .error .unknown
  | some e =>
    if e.hasArgument then
      match letters, args with
      | [], [] => .error .missing
      | [], v :: args => .option e v args []
      | l, args => .option e l args []
    else .option e [] args letters

/-- `getopt_long`. -/
def getopt (args : List Str) (letters : Str) : Got :=
  match letters with
  | c :: letters => getShort c letters args
  | [] =>
    match args with
    | [] => .done []
    | a :: args =>
      match a with
      | '-' :: '-' :: s => if s = [] then .done args else getLong s args
      | '-' :: c :: letters => getShort c letters args
      | _ => .done (a :: args)

/-- The loop of `parse_impl_internal`, `source/cli/options.c` 234-321, as a function of the number of calls of
`getopt_long`; `loop` gives enough of them (`loop_fuel`). -/
def loopN : Nat → Options → List Str → Str → Except Err (Options × List Str)
  | 0, _, _, _ => .error .invalidState
  | n + 1, o, args, letters =>
    match getopt args letters with
    | .error e => .error e
    | .done operands => .ok (o, operands)
    | .option e arg args letters => do
      let o ← process o e arg
      loopN n o args letters

/-- The characters that are left, with one more for each argument: a bound on the number of calls. -/
def size (args : List Str) (letters : Str) : Nat := (args.map (fun a => a.length + 1)).sum + letters.length

/-- `parse_impl_internal`, `source/cli/options.c` 191-331. -/
def loop (o : Options) (args : List Str) (letters : Str) : Except Err (Options × List Str) :=
  loopN (size args letters + 1) o args letters

/-- The loop over the operands in `parse_impl`, `source/cli/options.c` 337-341; `first` is `argv[optind]`. -/
def operands (first : Str) : List Str → Options → Except Err Options
  | [], o => .ok o
  | _ :: fs, o =>
    match o.inputFilepath with
    | some _ => .error .tooMany
    | none => operands first fs { o with inputFilepath := some first }

/-- `parse_impl`, `source/cli/options.c` 333-343, and `kefir_cli_parse_options`, 358-384. -/
def parse (args : List Str) : Except Err Options := do
  let (o, fs) ← loop {} args []
  operands (fs.headD []) fs o

/-! ### The use of the options -/

/-- The switches of the compiler that `dump_action_impl` sets, `source/main/main.c` 94-111. -/
structure Switches where
  failOnAttributes : Bool
  implicitFunctionDefinitionInt : Bool
  designatedInitializerColons : Bool
  labelAddressing : Bool
  statementExpressions : Bool
  omittedConditionalOperand : Bool
  nonStrictQualifiers : Bool
  fixedEnumType : Bool
  implicitFunctionDeclaration : Bool
  extPointerArithmetics : Bool
  missingBracesSubobj : Bool
  intToPointer : Bool
  emptyStructs : Bool
  deriving DecidableEq, Repr

/-- `dump_action_impl`, `source/main/main.c` 94-111. -/
def switches (f : Features) : Switches where
  failOnAttributes := f.failOnAttributes
  implicitFunctionDefinitionInt := f.missingFunctionReturnType
  designatedInitializerColons := f.designatedInitializerColons
  labelAddressing := f.labelsAsValues
  statementExpressions := f.statementExpressions
  omittedConditionalOperand := f.omittedConditionalOperand
  nonStrictQualifiers := f.nonStrictQualifiers
  fixedEnumType := f.signedEnumType
  implicitFunctionDeclaration := f.implicitFunctionDeclaration
  extPointerArithmetics := f.extPointerArithmetics
  missingBracesSubobj := f.missingBracesSubobject
  intToPointer := f.intToPointer
  emptyStructs := f.emptyStructs

/-- What is printed. -/
inductive Dump where
  | preprocessed | tokens | ast | ir | assembly
  deriving DecidableEq, Repr

/-- The steps before the printing: how the tokens are made. -/
inductive Source where
  /-- `kefir_compiler_lex`. -/
  | plain
  /-- The preprocessor, with macros, the time if it is not the current one, and files before the source. -/
  | preprocessed (defines : List (Str × Option Str)) (timestamp : Option Nat) (includeFiles : List Str)
  deriving DecidableEq, Repr

/-- What a run of the compiler does. -/
inductive Job where
  | dump (what : Dump) (source : Source) (switches : Switches) (includeDirs : List Str) (input : Option Str)
      (sourceId : Str) (target : Option Str) (output : Option Str)
  /-- To the standard output. -/
  | runtimeCode (target : Option Str)
  | help
  | version
  deriving DecidableEq, Repr

/-- `lex_file`, `source/main/main.c` 159-174. -/
def lexFile (o : Options) : Source :=
  if o.skipPreprocessor then .plain
  else .preprocessed o.defines (if o.defaultPpTimestamp then none else some o.ppTimestamp) o.includeFiles

/-- `dump_preprocessed_impl`, `source/main/main.c` 176-189. -/
def dumpPreprocessed (o : Options) : Source := .preprocessed o.defines none o.includeFiles

/-- `dump_action_impl`, `source/main/main.c` 63-119. -/
def dumpAction (o : Options) (what : Dump) (source : Source) : Job :=
  .dump what source (switches o.features) o.includePath o.inputFilepath
    (match o.sourceId with
     | some s => s
     | none => match o.inputFilepath with
       | some s => s
       | none => "<stdin>".toList)
    o.targetProfile o.outputFilepath

/-- `Actions` and `kefir_main`, `source/main/main.c` 326-339; the actions are 191-324. -/
def job (o : Options) : Option Job :=
  [dumpAction o .preprocessed (dumpPreprocessed o),
   dumpAction o .tokens (lexFile o),
   dumpAction o .ast (lexFile o),
   dumpAction o .ir (lexFile o),
   dumpAction o .assembly (lexFile o),
   .runtimeCode o.targetProfile,
   .help,
   .version][o.action]?

end Kefir.Cli
