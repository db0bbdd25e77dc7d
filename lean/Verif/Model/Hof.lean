import Verif.Model.Graph
import Mathlib.Order.Defs.LinearOrder
/-!
# Model of the hall of fame (`algorithms/topology_optimization.py:165-251`)

Scores are any linear order (NaN is left out), graphs any type `G`.
-/

namespace Verif

/-- A slot of the hall of fame: `(None, None)` or `(score, graph)`.
Part of the model of `algorithms/topology_optimization.py:165-251`. -/
abbrev HofEntry (α G : Type) := Option (α × G)

/-- Part of the model of `algorithms/topology_optimization.py:165-251`. -/
abbrev Hof (α G : Type) := List (HofEntry α G)

variable {α G : Type} [LinearOrder α]

/-- `init_hof` (lines 165-167). -/
def initHof (n : Nat) : Hof α G := List.replicate n none

/-- The `j` loop (lines 199-217): first slot that is empty or has a larger score. -/
def findSlot (s : α) : Hof α G → Nat → Option Nat
  | [], _ => none
  | none :: _, j => some j
  | some (t, _) :: rest, j => if s < t then some j else findSlot s rest (j + 1)

/-- The `k` loop (lines 223-243) as far as it searches: first filled slot whose graph is similar.  `sim` is the outcome of
`similarity_function(graph, hof_k) <= threshold or isclose(...)`. -/
def findSimilar (sim : G → G → Bool) (g : G) : Hof α G → Nat → Option Nat
  | [], _ => none
  | none :: rest, k => findSimilar sim g rest (k + 1)
  | some (_, h) :: rest, k => if sim g h then some k else findSimilar sim g rest (k + 1)

/-- Lines 244-247: `hof[remove] = 'x'; hof.insert(ins, new); hof.remove('x')`.  The marker `'x'` is the outer `none`. -/
def replaceSlot (hof : Hof α G) (ins rem : Nat) (new : α × G) : Hof α G :=
  let marked := (hof.map some).set rem none
  let inserted := marked.insertIdx ins (some (some new))
  let idx := inserted.findIdx (fun x => x.isNone)
  (inserted.eraseIdx idx).filterMap id

/-- One round of the population loop (lines 190-249).  `hof[-1]` is the last slot. -/
def updateHof1 (sim : G → G → Bool) (hof : Hof α G) (ind : α × G) : Hof α G :=
  match findSlot ind.1 hof 0 with
  | none => hof
  | some j =>
    match findSimilar sim ind.2 hof 0 with
    | none => replaceSlot hof j (hof.length - 1) ind
    | some k => if k < j then hof else replaceSlot hof j k ind

/-- `update_hof` (lines 170-251). -/
def updateHof (sim : G → G → Bool) : Hof α G → List (α × G) → Hof α G
  | hof, [] => hof
  | hof, ind :: pop => updateHof sim (updateHof1 sim hof ind) pop

/-- Successive generations, each with its own outcome of the similarity computations.
Part of the model of `algorithms/topology_optimization.py:165-251`. -/
def runHof : Hof α G → List ((G → G → Bool) × List (α × G)) → Hof α G
  | hof, [] => hof
  | hof, (sim, pop) :: rest => runHof (updateHof sim hof pop) rest

end Verif
