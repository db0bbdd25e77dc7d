import Verif.Model.Schemes
/-!
# Model of the command line of the scripts (`lib/functions.py:34-42`)

`argparse` (Python 3.11) for the parser made there: four options with `nargs='?'`, `-h`, no positional arguments.  Strings are lists of characters.  The outcome `none` stands for the end of
the process (help, or an error message); which of the two is not modelled.  The separator `--` is an error in every position, as there.
-/

namespace Verif

/-- The options (lines 36-39). -/
inductive OptKey where
  | dir | verbose | evaluator | selection
deriving DecidableEq, Repr

/-- The short names (lines 36-39). -/
def OptKey.short : OptKey → Char
  | .dir => 'd'
  | .verbose => 'v'
  | .evaluator => 'e'
  | .selection => 's'

/-- The long names (lines 36-39). -/
def OptKey.long : OptKey → List Char
  | .dir => ['d', 'i', 'r']
  | .verbose => ['v', 'e', 'r', 'b', 'o', 's', 'e']
  | .evaluator => ['e', 'v', 'a', 'l', 'u', 'a', 't', 'o', 'r']
  | .selection => ['s', 'e', 'l', 'e', 'c', 't', 'i', 'o', 'n']

/-- The result of `parse_args`; `none` is Python's `None`, given to an option without value (`nargs='?'`, no `const`).
Part of the model of `lib/functions.py:34-42`. -/
structure Opts where
  dir : Option (List Char)
  verbose : Option Bool
  evaluator : Option (List Char)
  selection : Option (List Char)
deriving DecidableEq, Repr

/-- The defaults (lines 36-39). -/
def Opts.default : Opts := ⟨some "data".toList, some false, some "rfawg_saw".toList, some "roulette".toList⟩

/-- An option is given, with or without value.  `type=bool` of line 37 is Python's `bool` of a string: true unless it is empty. -/
def Opts.set (o : Opts) : OptKey → Option (List Char) → Opts
  | .dir, v => { o with dir := v }
  | .verbose, v => { o with verbose := v.map (fun s => !s.isEmpty) }
  | .evaluator, v => { o with evaluator := v }
  | .selection, v => { o with selection := v }

/-- What `argparse` takes an argument for: a value, an option (with a value in the same argument), or something at which the process ends.
Part of the model of `lib/functions.py:34-42`. -/
inductive ArgTok where
  | word (v : List Char)
  | opt (k : OptKey) (v : Option (List Char))
  | stop
deriving DecidableEq, Repr

/-- `arg_string.partition('=')`. Part of the model of `lib/functions.py:34-42`. -/
def splitEq : List Char → List Char × Option (List Char)
  | [] => ([], none)
  | c :: r => if c = '=' then ([], some r) else (c :: (splitEq r).1, (splitEq r).2)

/-- The option strings with two dashes, in the order of declaration; `none` is `--help`.
Part of the model of `lib/functions.py:34-42`. -/
def longNames : List (List Char × Option OptKey) :=
  [(['h', 'e', 'l', 'p'], none), (OptKey.long .dir, some .dir), (OptKey.long .verbose, some .verbose), (OptKey.long .evaluator, some .evaluator), (OptKey.long .selection, some .selection)]

/-- The option strings with one dash; `none` is `-h`. Part of the model of `lib/functions.py:34-42`. -/
def shortName (c : Char) : Option (Option OptKey) :=
  if c = 'h' then some none
  else if c = 'd' then some (some .dir)
  else if c = 'v' then some (some .verbose)
  else if c = 'e' then some (some .evaluator)
  else if c = 's' then some (some .selection)
  else none

/-- `_negative_number_matcher` (`^-\d+$|^-\d*\.\d+$`), without the dash. Part of the model of `lib/functions.py:34-42`. -/
def negNumber (r : List Char) : Bool :=
  match r.dropWhile Char.isDigit with
  | [] => !r.isEmpty
  | c :: f => c == '.' && !f.isEmpty && f.all Char.isDigit

/-- `ArgumentParser._parse_optional`: long options may be abbreviated, short ones may have their value attached.
Part of the model of `lib/functions.py:34-42`. -/
def lexArg : List Char → ArgTok
  | '-' :: '-' :: r =>
    match longNames.filter (fun p => (splitEq r).1.isPrefixOf p.1) with
    | [(_, some k)] => .opt k (splitEq r).2
    | [] => if ' ' ∈ r then .word ('-' :: '-' :: r) else .stop
    | _ => .stop
  | '-' :: c :: r =>
    match shortName c with
    | some none => .stop
    | some (some k) =>
      match r with
      | [] => .opt k none
      | x :: v => if x = '=' then .opt k (some v) else .opt k (some (x :: v))
    | none => if negNumber (c :: r) = true ∨ ' ' ∈ c :: r then .word ('-' :: c :: r) else .stop
  | v => .word v

/-- `parse_known_args`, and the error for what is left over: an option takes the next argument if that is a value.
Part of the model of `lib/functions.py:34-42`. -/
def parseToks : List ArgTok → Opts → Option Opts
  | [], o => some o
  | .stop :: _, _ => none
  | .word _ :: _, _ => none
  | .opt k (some v) :: rest, o => parseToks rest (o.set k (some v))
  | .opt k none :: .word v :: rest, o => parseToks rest (o.set k (some v))
  | .opt k none :: rest, o => parseToks rest (o.set k none)

/-- `parse_command_line_args(args)`. `lib/functions.py:34-42`. -/
def parseArgs (args : List (List Char)) : Option Opts := parseToks (args.map lexArg) Opts.default

/-- `update_rule=options_cl.selection` (`scripts/compare_evolvers.py:133`, `scripts/benchmark_elitism.py:122`) as `topology_optimization` takes it. -/
def Opts.rule (o : Opts) : Except Err (BaseRule × Option SpecName) :=
  match o.selection with
  | none => .error .notImplemented
  | some s => ruleByName (String.ofList s)

/-- The choice of the evaluator (`scripts/compare_evolvers.py:118-127`, `scripts/benchmark_elitism.py:110-119`, `scripts/benchmark_selection_rules.py:108-117`): the target waveform. -/
def Opts.waveform (o : Opts) : Except Err String :=
  if o.evaluator = some "rfawg_saw".toList then .ok "saw"
  else if o.evaluator = some "rfawg_square".toList then .ok "square"
  else .error .valueError

end Verif
