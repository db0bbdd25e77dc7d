import Verif.Model.Speciation
/-!
# Vocabulary for speciation (C31-C34)
-/

namespace Verif
variable {G K : Type} [DecidableEq G]

/-- The iteration orders handed to `speciate` are orders: they list exactly the elements of the set. -/
def SpecRnd.Honest (r : SpecRnd G) : Prop := (∀ l, (r.repOrder l).Perm l) ∧ ∀ n l, (r.graphOrder n l).Perm l

/-- The states a `Speciation` object can be in: freshly constructed, then any number of calls of `speciate` on non-empty
populations.  Each call has its own distance function `d`: distances are computed from the current contents of the graph
objects, which may be modified between two calls. -/
inductive SpecReach [Field K] [LinearOrder K] (sqrt : Nat → K) : Spec G K → Prop
  | init {t thr S} : Spec.init t thr = .ok S → SpecReach sqrt S
  | step {S : Spec G K} {d r pop} : SpecReach sqrt S → r.Honest → pop ≠ [] → SpecReach sqrt (S.speciate d sqrt r pop)

/-- The distance functions are symmetric. -/
def Symm (d : G → G → K) : Prop := ∀ a b, d a b = d b a

end Verif
