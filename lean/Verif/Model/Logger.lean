import Verif.Model.Graph
import Mathlib.Algebra.Order.Field.Basic
/-!
# Model of the log of parameter optimisations (`algorithms/functions.py:35-112,155-183`)

With the default metrics.  Numbers are elements of an ordered field; the runtime column is left out, apart from the error it raises when the
clock was not started.
-/

namespace Verif

/-- A row of the dataframe. Part of the model of `algorithms/functions.py:35-112,155-183`. -/
structure LogRow (K : Type) where
  alg : String
  gen : Nat
  npop : Nat
  minimum : K
  mean : K
  maximum : K
  variance : K
deriving DecidableEq, Repr

/-- The attributes of the logger.  `pop = none` stands for the initial -1.
Part of the model of `algorithms/functions.py:35-112,155-183`. -/
structure Logger (K : Type) where
  started : Bool
  alg : Option String
  pop : Option Nat
  logNumber : Nat
  rowOffset : Nat
  scores : List K
  rows : Nat → Option (LogRow K)

/-- `valid_algorithms` (line 48). -/
def validAlgorithms : List String := ["L-BFGS", "PSO", "CMA", "ADAM", "GA"]

section
variable {K : Type} [Field K] [LinearOrder K]

/-- The constructor (lines 39-77). -/
def Logger.new : Logger K := ⟨false, none, none, 0, 0, [], fun _ => none⟩

/-- `start_logger_time` (lines 82-83). -/
def Logger.start (l : Logger K) : Logger K := { l with started := true }

/-- `set_optimization_algorithm` (lines 85-98), for a population size that is not negative.  Offset and counter are changed even when the
algorithm is refused.  (With the initial population -1 the counter is 0, and so is the quotient.) -/
def Logger.setAlg (l : Logger K) (a : String) (n : Nat) : Logger K × Except Err Unit :=
  match l.pop with
  | some 0 => (l, .error .zeroDivision)
  | p =>
    let l1 := { l with rowOffset := match p with | none => 0 | some q => l.logNumber / q, logNumber := 0 }
    if a ∈ validAlgorithms then ({ l1 with alg := some a, pop := some n, scores := List.replicate n 0 }, .ok ())
    else (l1, .error .valueError)

/-- `np.mean`. Part of the model of `algorithms/functions.py:35-112,155-183`. -/
def meanOf (xs : List K) : K := xs.sum / xs.length

/-- `np.var`. Part of the model of `algorithms/functions.py:35-112,155-183`. -/
def varOf (xs : List K) : K := (xs.map (fun x => (x - meanOf xs) ^ 2)).sum / xs.length

/-- `_update_min`, `_update_max` (lines 165-183): the value in the row so far is used unless the generation begins.  (A row that was
absent has been created with NaN at this point, and `min(score, nan)` is `score`.) -/
def extreme (f : K → K → K) (fresh : Bool) (score : K) (stored : Option K) : K :=
  if fresh then score
  else
    match stored with
    | none => score
    | some x => f score x

/-- `log_score` (lines 100-112).  Without an algorithm the array of scores is empty (`IndexError`). -/
def Logger.log (l : Logger K) (score : K) : Except Err (Logger K) :=
  match l.pop with
  | none => .error .indexError
  | some 0 => .error .zeroDivision
  | some n =>
    let k := l.logNumber % n
    if l.scores.length ≤ k then .error .indexError
    else
      let scores := l.scores.set k score
      if !l.started then .error .typeError
      else
        let row := l.rowOffset + l.logNumber / n
        let r : LogRow K := ⟨l.alg.getD "", l.logNumber / n, n, extreme min (k = 0) score ((l.rows row).map (·.minimum)), meanOf scores,
          extreme max (k = 0) score ((l.rows row).map (·.maximum)), varOf scores⟩
        .ok { l with
          rows := fun i => if i = row then some r else l.rows i
          logNumber := l.logNumber + 1
          scores := if (l.logNumber + 1) % n = 0 then List.replicate n 0 else scores }

/-- Many scores. Part of the model of `algorithms/functions.py:35-112,155-183`. -/
def Logger.logAll (l : Logger K) : List K → Except Err (Logger K)
  | [] => .ok l
  | s :: ss =>
    match l.log s with
    | .error e => .error e
    | .ok l' => l'.logAll ss

/-- A run of an algorithm: announced, then its scores. Part of the model of `algorithms/functions.py:35-112,155-183`. -/
def Logger.phase (l : Logger K) (a : String) (n : Nat) (ss : List K) : Except Err (Logger K) :=
  match l.setAlg a n with
  | (_, .error e) => .error e
  | (l', .ok ()) => l'.logAll ss

end

end Verif
