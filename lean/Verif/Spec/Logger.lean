import Verif.Model.Logger
/-! # Vocabulary for logs (C42) -/

namespace Verif

section
variable {K : Type} [Field K] [LinearOrder K]

/-- The scores of generation `r` of a run with population size `n`, as far as there are any. -/
def genScores (n : Nat) (ss : List K) (r : Nat) : List K := (ss.drop (r * n)).take n

/-- `row` is right for generation `r`: smallest and largest score; mean and variance are those of the scores filled up with
zeros to the population size. -/
structure RightRow (a : String) (n : Nat) (ss : List K) (r : Nat) (row : LogRow K) : Prop where
  alg : row.alg = a
  gen : row.gen = r
  npop : row.npop = n
  min_mem : row.minimum ∈ genScores n ss r
  min_le : ∀ x ∈ genScores n ss r, row.minimum ≤ x
  max_mem : row.maximum ∈ genScores n ss r
  le_max : ∀ x ∈ genScores n ss r, x ≤ row.maximum
  mean : row.mean * n = (genScores n ss r).sum
  variance : row.variance * n = ((genScores n ss r).map (fun x => (x - row.mean) ^ 2)).sum + (n - (genScores n ss r).length : Nat) * row.mean ^ 2

/-- A logger that an algorithm has just been announced to. -/
structure Announced (l : Logger K) (a : String) (n : Nat) : Prop where
  started : l.started = true
  alg : l.alg = some a
  pop : l.pop = some n
  number : l.logNumber = 0
  scores : l.scores = List.replicate n 0

end

end Verif
