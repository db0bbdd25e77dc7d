import Verif.Model.Signal
/-! # Vocabulary for signals -/

namespace Verif

/-- Total energy of a sampled signal. -/
noncomputable def energy {n : Nat} (x : Signal n) : ℝ := ∑ i, ‖x i‖ ^ 2

/-- The signed frequency number of FFT bin `k`: `0, 1, …, -2, -1`. -/
def signedBin (n k : Nat) : ℤ := if k < n - n / 2 then k else (k : ℤ) - n

/-- The signal `s` samples later (earlier for negative `s`), around the end of the window: sample `i` is sample `i - s` modulo `n` of the original. -/
def delayed {n : Nat} {α : Type} (s : ℤ) (x : Fin n → α) : Fin n → α := fun i =>
  x ⟨(((i.val : ℤ) - s) % n).toNat, by
    have h : (0 : ℤ) < n := by exact_mod_cast Nat.lt_of_le_of_lt (Nat.zero_le _) i.isLt
    have h1 := Int.emod_nonneg ((i.val : ℤ) - s) h.ne'
    have h2 := Int.emod_lt_of_pos ((i.val : ℤ) - s) h
    omega⟩

/-- The signal delayed by `τ` samples, not necessarily a whole number: phase `-2π k τ / n` in every frequency bin, `k` signed. -/
noncomputable def fracDelay {n : Nat} (τ : ℝ) (x : Signal n) : Signal n :=
  npIfft (fun k => npFft x k * Complex.exp (-(Complex.I * ((2 * Real.pi * signedBin n k * τ / n : ℝ) : ℂ))))

end Verif
