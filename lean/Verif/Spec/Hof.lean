import Verif.Model.Hof
/-! # Vocabulary for the hall of fame -/

namespace Verif
variable {α G : Type} [LinearOrder α]

/-- The slot is filled with a score not above `s`. -/
def AtMost (s : α) (x : HofEntry α G) : Prop := ∃ t h, x = some (t, h) ∧ t ≤ s

/-- The slot is empty or has a score above `s`. -/
def Above (s : α) (x : HofEntry α G) : Prop := ∀ t h, x = some (t, h) → s < t

/-- The slot holds a graph similar to `g`. -/
def Similar (sim : G → G → Bool) (g : G) (x : HofEntry α G) : Prop := ∃ t h, x = some (t, h) ∧ sim g h = true

/-- The slots in order: scored ones first, ascending; then empty ones. -/
def HofSorted (hof : Hof α G) : Prop :=
  ∃ es : List (α × G), ∃ n : Nat, hof = es.map some ++ List.replicate n none ∧ es.Pairwise (fun a b => a.1 ≤ b.1)

/-- Slot by slot, `new` is at least as good as `old`. -/
def HofNotWorse (old new : Hof α G) : Prop :=
  ∀ (i : Nat) t h, old[i]? = some (some (t, h)) → ∃ t' h', new[i]? = some (some (t', h')) ∧ t' ≤ t

end Verif
