import Verif.Model.Condense
/-! # Vocabulary for the condensed figure (C114) -/

namespace Verif

section
variable {K : Type} [Field K] [LinearOrder K]

/-- A log as it is written: at least two rows, each later than the one before. -/
structure ProperLog (l : TimedLog K) : Prop where
  two : 2 ≤ l.length
  later : l.Pairwise (fun a b => a.1 < b.1)

/-- The rows begin, or end, at this time. -/
def BeginsAt (l : TimedLog K) (x : K) : Prop := ∃ y rest, l = (x, y) :: rest
def EndsAt (l : TimedLog K) (x : K) : Prop := ∃ y rest, l = rest ++ [(x, y)]

/-- The value of a log at a time lies on the straight line between two neighbouring rows. -/
def OnLog (l : TimedLog K) (t v : K) : Prop :=
  ∃ before x0 y0 x1 y1 after, l = before ++ (x0, y0) :: (x1, y1) :: after ∧ x0 ≤ t ∧ t ≤ x1 ∧ (v - y0) * (x1 - x0) = (y1 - y0) * (t - x0)

/-- A run that has logged its first row by this time. -/
def hasLogged (t : K) (l : TimedLog K) : Bool :=
  match l with
  | [] => false
  | r :: _ => decide (r.1 ≤ t)

/-- The values of a log never rise. -/
def NeverRises (l : TimedLog K) : Prop := l.Pairwise (fun a b => b.2 ≤ a.2)

/-- A point of the figure shows these values. -/
def ShowsValues (p : CondensedPoint K) (vals : List K) : Prop :=
  (vals = [] → p.avg = none ∧ p.low = none ∧ p.high = none) ∧
  (vals ≠ [] → ∃ a lo hi, p.avg = some a ∧ p.low = some lo ∧ p.high = some hi ∧ a * (vals.length : K) = vals.sum ∧ lo ∈ vals ∧ hi ∈ vals ∧ ∀ v ∈ vals, lo ≤ v ∧ v ≤ hi)

end

end Verif
