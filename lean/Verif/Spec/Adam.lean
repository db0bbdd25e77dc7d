import Mathlib.Algebra.Order.Field.Basic
/-! # The box of feasible vectors, shrunk -/

namespace Verif

/-- `x` has as many entries as there are bounds, and every entry keeps a distance of `1e-8` of the range to both bounds. -/
def InBox {K : Type} [Field K] [LinearOrder K] (lo up x : List K) : Prop :=
  x.length = lo.length ∧ ∀ (i : Nat) (l u y : K), lo[i]? = some l → up[i]? = some u → x[i]? = some y →
    l + (u - l) / 10 ^ 8 ≤ y ∧ y ≤ u - (u - l) / 10 ^ 8

end Verif
