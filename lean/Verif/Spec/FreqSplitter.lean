import Verif.Spec.Signal
/-!
# Vocabulary for the frequency splitter (C38)
-/

namespace Verif

/-- Where bin `k` of the transform lies in the spectrum: 0 at the lowest frequency of the grid, 1 at the highest. -/
noncomputable def spectrumPos (n : Nat) (k : Fin n) : ℝ := ((signedBin n k : ℝ) + ((n / 2 : ℕ) : ℝ)) / ((n : ℝ) - 1)

end Verif
