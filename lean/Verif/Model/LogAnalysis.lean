import Verif.Model.Harness
import Mathlib.Algebra.Field.Defs
/-!
# The analysis of the logs of a benchmark (`scripts/elitism_data_analysis.py`)

`display_log_data` with the tables it reads and what it draws.  A log has one row for each generation, labelled 0, 1, 2, … (`algorithms/functions.py:17-26`,
`algorithms/topology_optimization.py:95-133`), and is given by its rows in that order.  Entries are elements of a field; entries that are not a number are
not covered.  Colours, line styles, labels of curves and the window are left out.
-/

namespace Verif

/-- The columns of a log (`algorithms/functions.py:29-32`). -/
inductive LogColumn where
  | generation | time | best | n_population | mean | variance | maximum | minimum
deriving DecidableEq, Repr

/-- A row, and a log. Part of the model of `algorithms/functions.py:17-26`, `algorithms/topology_optimization.py:95-133`. -/
abbrev LogLine (K : Type) := LogColumn → K
/-- Part of the model of `algorithms/functions.py:17-26`, `algorithms/topology_optimization.py:95-133`. -/
abbrev LogTable (K : Type) := List (LogLine K)

/-- An element of `categories`: an integer, or a float given by what `str` writes and by its integer part.
Part of the model of `algorithms/functions.py:17-26`, `algorithms/topology_optimization.py:95-133`. -/
inductive ElitismRatio where
  | int (n : Nat)
  | float (text : List Char) (whole : Nat)
deriving DecidableEq, Repr

/-- `text.split('.', 1)[1]`. Part of the model of `algorithms/functions.py:17-26`, `algorithms/topology_optimization.py:95-133`. -/
def afterDot : List Char → Except Err (List Char)
  | [] => .error .indexError
  | c :: cs => if c = '.' then .ok cs else afterDot cs

/-- `subdirectory` (lines 41-44). -/
def analysisFolder (pop : Nat) : ElitismRatio → Except Err (List Char)
  | .int n => .ok ("popSize".toList ++ decimal pop ++ "_elitismRatio".toList ++ decimal n)
  | .float text whole =>
    match afterDot text with
    | .error e => .error e
    | .ok rest => .ok ("popSize".toList ++ decimal pop ++ "_elitismRatio".toList ++ decimal whole ++ '_' :: rest)

/-- What stops the analysis: the disk, or another exception.
Part of the model of `algorithms/functions.py:17-26`, `algorithms/topology_optimization.py:95-133`. -/
inductive AnalysisErr where
  | io (e : IoErr)
  | run (e : Err)
deriving DecidableEq, Repr

/-- A line that is drawn: the number of the category, the column, and the points.
Part of the model of `algorithms/functions.py:17-26`, `algorithms/topology_optimization.py:95-133`. -/
structure LogCurve (K : Type) where
  category : Nat
  column : LogColumn
  points : List (K × K)

section
variable {K : Type} [Field K] {O D B : Type}

/-- `sum_df.add(log, fill_value=0)` (line 55): rows of the same label are added, a row that only one of them has is taken over. -/
def addFilled : LogTable K → LogTable K → LogTable K
  | [], b => b
  | a, [] => a
  | x :: a, y :: b => (fun c => x c + y c) :: addFilled a b

/-- `pickle.load` of `log.pkl` in the folder `p` (lines 49-50); `asLog` is what the object is as a table. -/
def readLog (C : Coding O D B) (asLog : O → LogTable K) (disk : Disk B) (p : List FName) : Except AnalysisErr (LogTable K) :=
  match decoded (readFile disk (p ++ ["log.pkl".toList])) C.loadObj with
  | .error e => .error (.io e)
  | .ok o => .ok (asLog o)

/-- The loop over the runs (lines 48-55), with `sum_df`. -/
def sumLogs (read : FName → Except AnalysisErr (LogTable K)) : List FName → Option (LogTable K) → Except AnalysisErr (Option (LogTable K))
  | [], s => .ok s
  | n :: ns, s =>
    match read n with
    | .error e => .error e
    | .ok log =>
      match s with
      | none => sumLogs read ns (some log)
      | some t => sumLogs read ns (some (addFilled t log))

/-- One category (lines 41-56): the averaged table and the number of entries of the folder.  `ls` is `os.listdir`, in whatever order.  `None / 0` raises `TypeError`. -/
def categoryMean (C : Coding O D B) (asLog : O → LogTable K) (ls : List FName → Except IoErr (List FName)) (disk : Disk B) (dir : List FName)
    (pop : Nat) (r : ElitismRatio) : Except AnalysisErr (LogTable K × Nat) :=
  match analysisFolder pop r with
  | .error e => .error (.run e)
  | .ok sub =>
    match ls (dir ++ [sub]) with
    | .error e => .error (.io e)
    | .ok names =>
      match sumLogs (fun n => readLog C asLog disk (dir ++ [sub, n])) names none with
      | .error e => .error e
      | .ok none => .error (.run .typeError)
      | .ok (some t) => .ok (t.map (fun row c => row c / (names.length : K)), names.length)

/-- The lines of a category (lines 57-62). -/
def categoryCurves (i : Nat) (x : LogColumn) (yaxis : List String) (t : LogTable K) : List (LogCurve K) :=
  (if "mean" ∈ yaxis then [⟨i, .mean, t.map (fun row => (row x, row .mean))⟩] else []) ++
  (if "minimum" ∈ yaxis then [⟨i, .minimum, t.map (fun row => (row x, row .minimum))⟩] else []) ++
  (if "maximum" ∈ yaxis then [⟨i, .maximum, t.map (fun row => (row x, row .maximum))⟩] else [])

/-- The loop over the categories (lines 33-62); with it goes the length of `sub_subdirectory`, once there is one. -/
def categoryLoop (mean : Nat → ElitismRatio → Except AnalysisErr (LogTable K × Nat)) (x : LogColumn) (yaxis : List String) :
    List (Nat × ElitismRatio) → Nat → Option Nat → Except AnalysisErr (List (LogCurve K) × Option Nat)
  | [], _, runs => .ok ([], runs)
  | (pop, r) :: cats, i, _ =>
    match mean pop r with
    | .error e => .error e
    | .ok (t, n) =>
      match categoryLoop mean x yaxis cats (i + 1) (some n) with
      | .error e => .error e
      | .ok (l, m) => .ok (categoryCurves i x yaxis t ++ l, m)

/-- `display_log_data` (lines 24-71): the curves and the number of runs in the title.  Without categories the title needs a variable that was never assigned. -/
def displayLog (C : Coding O D B) (asLog : O → LogTable K) (ls : List FName → Except IoErr (List FName)) (disk : Disk B) (dir : List FName)
    (xaxis : String) (yaxis : List String) (cats : List (Nat × ElitismRatio)) : Except AnalysisErr (List (LogCurve K) × Nat) :=
  if xaxis ∉ ["generation", "time"] then .error (.run .valueError)
  else
    let x : LogColumn := if xaxis = "generation" then .generation else .time
    match categoryLoop (categoryMean C asLog ls disk dir) x yaxis cats 0 none with
    | .error e => .error e
    | .ok (_, none) => .error (.run .nameError)
    | .ok (l, some n) => .ok (l, n)

end

end Verif
