import Mathlib.Algebra.Order.Field.Basic
import Mathlib.Data.List.Sort
import Verif.Model.Graph
/-!
# The condensed figure of the comparison of methods (`scripts/compare_algorithms.py:88-112`)

For each method there is a list of logs, one for each run; of a log the columns `process runtime (s)` and `mean` are used.  Values are elements of an ordered
field, `nan` is `none`.  Not covered: logs without a row, the variance (computed and not used, line 106), colours and labels.
-/

namespace Verif

/-- The rows of a log: time and mean. Part of the model of `scripts/compare_algorithms.py:88-112`. -/
abbrev TimedLog (K : Type) := List (K × K)

section
variable {K : Type} [Field K] [LinearOrder K]

/-- Linear interpolation in rows that are sorted by time: the first row with a time not before `t`, but not the very first, and the one in front of it; `nan` outside.
Part of the model of `scripts/compare_algorithms.py:88-112`. -/
def interpSorted (t : K) : TimedLog K → Option K
  | (x0, y0) :: (x1, y1) :: rest =>
    if t < x0 then none
    else if t ≤ x1 then (if x0 = x1 then none else some ((y1 - y0) / (x1 - x0) * (t - x0) + y0))
    else interpSorted t ((x1, y1) :: rest)
  | _ => none

/-- `interp1d(times, means, bounds_error=False, fill_value=np.nan)(t)` (lines 100-102): scipy sorts the rows by time first. -/
def interpAt (rows : TimedLog K) (t : K) : Option K := interpSorted t (rows.insertionSort (fun a b => a.1 ≤ b.1))

/-- `np.max(log.dataframe['process runtime (s)'])`. Part of the model of `scripts/compare_algorithms.py:88-112`. -/
def maxTime : TimedLog K → Option K
  | [] => none
  | r :: rows => some (rows.foldl (fun m q => max m q.1) r.1)

/-- `t_max` (lines 91-94); `none` is infinity. -/
def condenseEnd : List (TimedLog K) → Option K → Option K
  | [], m => m
  | l :: ls, m =>
    match maxTime l, m with
    | none, m => condenseEnd ls m
    | some x, none => condenseEnd ls (some x)
    | some x, some y => condenseEnd ls (some (if x < y then x else y))

/-- `np.linspace(0, t_max, 1000)` (line 95). -/
def condenseGrid (tMax : K) : List K := (List.range 1000).map (fun j : Nat => if j = 999 then tMax else (j : K) * (tMax / 999))

/-- `np.nanmean` of a row (line 103). -/
def nanMean (l : List (Option K)) : Option K :=
  let v := l.filterMap id
  if v = [] then none else some (v.sum / (v.length : K))

/-- `np.nanmin` of a row (line 104). -/
def nanMin (l : List (Option K)) : Option K :=
  match l.filterMap id with
  | [] => none
  | a :: v => some (v.foldl min a)

/-- `np.nanmax` of a row (line 105). -/
def nanMax (l : List (Option K)) : Option K :=
  match l.filterMap id with
  | [] => none
  | a :: v => some (v.foldl max a)

/-- A point of the figure. Part of the model of `scripts/compare_algorithms.py:88-112`. -/
structure CondensedPoint (K : Type) where
  t : K
  avg : Option K
  low : Option K
  high : Option K

/-- One method (lines 91-105).  `logs[k]` raises where there are fewer logs than `n_runs`; `np.nanmin` over no run raises `ValueError`. -/
def condense (nRuns : Nat) (logs : List (TimedLog K)) : Except Err (List (CondensedPoint K)) :=
  if logs.length < nRuns then .error .indexError
  else if nRuns = 0 then .error .valueError
  else
    match condenseEnd logs none with
    | none => .error .valueError
    | some tMax =>
      .ok ((condenseGrid tMax).map (fun t =>
        let ys := (logs.take nRuns).map (fun l => interpAt l t)
        ⟨t, nanMean ys, nanMin ys, nanMax ys⟩))

end

end Verif
