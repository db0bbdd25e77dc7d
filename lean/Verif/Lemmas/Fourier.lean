import Verif.Model.Signal
import Mathlib.RingTheory.RootsOfUnity.Complex
import Mathlib.Algebra.Field.GeomSum
import Mathlib.Algebra.BigOperators.Field
/-!
# The discrete Fourier transform: inversion and Parseval
-/

namespace Verif
open Complex Finset

/-- The kernel of the transform. -/
noncomputable def ker (n : Nat) (j k : Nat) : ℂ := exp (2 * Real.pi * I * (j : ℂ) * (k : ℂ) / (n : ℂ))

theorem ker_eq_pow (n j k : Nat) : ker n j k = (exp (2 * Real.pi * I / (n : ℂ))) ^ (j * k) := by
  rw [← exp_nat_mul, ker]
  congr 1
  push_cast
  ring

theorem ker_neg (n j k : Nat) : exp (-(2 * Real.pi * I * (j : ℂ) * (k : ℂ) / (n : ℂ))) = (ker n j k)⁻¹ := by
  rw [exp_neg, ker]

theorem ker_symm (n j k : Nat) : ker n j k = ker n k j := by
  rw [ker_eq_pow, ker_eq_pow, Nat.mul_comm]

theorem norm_ker (n j k : Nat) : ‖ker n j k‖ = 1 := by
  have : ker n j k = exp (((2 * Real.pi * j * k / n : ℝ) : ℂ) * I) := by
    rw [ker]; congr 1; push_cast; ring
  rw [this, norm_exp_ofReal_mul_I]

theorem ker_ne_zero (n j k : Nat) : ker n j k ≠ 0 := exp_ne_zero _

theorem conj_ker (n j k : Nat) : (starRingEnd ℂ) (ker n j k) = (ker n j k)⁻¹ := by
  rw [Complex.inv_def, Complex.normSq_eq_norm_sq, norm_ker]; simp

/-- Orthogonality of the kernel. -/
theorem ker_orth {n : Nat} (a b : Fin n) :
    ∑ k : Fin n, ker n a k * (ker n b k)⁻¹ = if a = b then (n : ℂ) else 0 := by
  have hn : n ≠ 0 := by have := a.isLt; omega
  split
  · rename_i h; subst h
    simp [mul_inv_cancel₀ (ker_ne_zero _ _ _)]
  · rename_i h
    set ζ := exp (2 * Real.pi * I / (n : ℂ)) with hζ
    have hp : IsPrimitiveRoot ζ n := isPrimitiveRoot_exp n hn
    have hz : ζ ≠ 0 := exp_ne_zero _
    have hw : ∀ k : Fin n, ker n a k * (ker n b k)⁻¹ = (ζ ^ (a : ℕ) / ζ ^ (b : ℕ)) ^ (k : ℕ) := by
      intro k
      rw [ker_eq_pow, ker_eq_pow, ← hζ, div_pow, ← pow_mul, ← pow_mul, div_eq_mul_inv]
    simp_rw [hw]
    rw [Fin.sum_univ_eq_sum_range (fun k => (ζ ^ (a : ℕ) / ζ ^ (b : ℕ)) ^ k) n]
    have hne : ζ ^ (a : ℕ) / ζ ^ (b : ℕ) ≠ 1 := by
      intro hc
      rw [div_eq_one_iff_eq (pow_ne_zero _ hz)] at hc
      exact h (Fin.ext (hp.pow_inj a.isLt b.isLt hc))
    rw [geom_sum_eq hne, div_pow, ← pow_mul, ← pow_mul, Nat.mul_comm, pow_mul, hp.pow_eq_one, Nat.mul_comm, pow_mul,
      hp.pow_eq_one]
    simp

theorem npFft_ker {n : Nat} (x : Signal n) (k : Fin n) : npFft x k = ∑ j : Fin n, x j * (ker n j k)⁻¹ := by
  unfold npFft; simp_rw [ker_neg]

theorem npIfft_ker {n : Nat} (X : Signal n) (j : Fin n) : npIfft X j = (∑ k : Fin n, X k * ker n j k) / (n : ℂ) := rfl

theorem npIfft_npFft {n : Nat} (x : Signal n) : npIfft (npFft x) = x := by
  funext j
  have hn : (n : ℂ) ≠ 0 := by have := j.isLt; exact_mod_cast (by omega : n ≠ 0)
  rw [npIfft_ker, div_eq_iff hn]
  simp_rw [npFft_ker, sum_mul]
  rw [sum_comm]
  have : ∀ i : Fin n, ∑ k : Fin n, x i * (ker n i k)⁻¹ * ker n j k = if j = i then x i * n else 0 := by
    intro i
    have h := ker_orth j i
    calc ∑ k : Fin n, x i * (ker n i k)⁻¹ * ker n j k = x i * ∑ k : Fin n, ker n j k * (ker n i k)⁻¹ := by
          rw [mul_sum]; exact sum_congr rfl (fun k _ => by ring)
      _ = _ := by rw [h]; split <;> simp
  simp_rw [this]
  simp

theorem npFft_npIfft {n : Nat} (X : Signal n) : npFft (npIfft X) = X := by
  funext k
  have hn : (n : ℂ) ≠ 0 := by have := k.isLt; exact_mod_cast (by omega : n ≠ 0)
  rw [npFft_ker]
  simp_rw [npIfft_ker, div_mul_eq_mul_div, sum_mul]
  rw [← sum_div, sum_comm, div_eq_iff hn]
  have : ∀ i : Fin n, ∑ j : Fin n, X i * ker n j i * (ker n j k)⁻¹ = if i = k then X i * n else 0 := by
    intro i
    have h := ker_orth i k
    calc ∑ j : Fin n, X i * ker n j i * (ker n j k)⁻¹ = X i * ∑ j : Fin n, ker n i j * (ker n k j)⁻¹ := by
          rw [mul_sum]; exact sum_congr rfl (fun j _ => by rw [ker_symm n j i, ker_symm n j k]; ring)
      _ = _ := by rw [h]; split <;> simp
  simp_rw [this]
  simp

theorem npFft_add {n : Nat} (x y : Signal n) : npFft (fun i => x i + y i) = fun k => npFft x k + npFft y k := by
  funext k; unfold npFft; rw [← sum_add_distrib]; exact sum_congr rfl (fun j _ => by ring)

theorem npFft_smul {n : Nat} (c : ℂ) (x : Signal n) : npFft (fun i => c * x i) = fun k => c * npFft x k := by
  funext k; unfold npFft; rw [mul_sum]; exact sum_congr rfl (fun j _ => by ring)

theorem npIfft_add {n : Nat} (x y : Signal n) : npIfft (fun i => x i + y i) = fun k => npIfft x k + npIfft y k := by
  funext k; unfold npIfft; rw [← add_div, ← sum_add_distrib]; congr 1; exact sum_congr rfl (fun j _ => by ring)

theorem npIfft_smul {n : Nat} (c : ℂ) (x : Signal n) : npIfft (fun i => c * x i) = fun k => c * npIfft x k := by
  funext k; unfold npIfft; rw [← mul_div_assoc, mul_sum]; congr 1; exact sum_congr rfl (fun j _ => by ring)

/-- Parseval. -/
theorem npFft_parseval {n : Nat} (x : Signal n) : ∑ k, ‖npFft x k‖ ^ 2 = n * ∑ j, ‖x j‖ ^ 2 := by
  have key : ((∑ k, ‖npFft x k‖ ^ 2 : ℝ) : ℂ) = ((n * ∑ j, ‖x j‖ ^ 2 : ℝ) : ℂ) := by
    push_cast
    simp_rw [← Complex.mul_conj', npFft_ker, map_sum, map_mul, map_inv₀, conj_ker, inv_inv, sum_mul_sum]
    have : ∀ k : Fin n, ∑ i : Fin n, ∑ j : Fin n, x i * (ker n i k)⁻¹ * ((starRingEnd ℂ) (x j) * ker n j k) =
        ∑ i : Fin n, ∑ j : Fin n, x i * (starRingEnd ℂ) (x j) * (ker n j k * (ker n i k)⁻¹) := fun k =>
      sum_congr rfl (fun i _ => sum_congr rfl (fun j _ => by ring))
    simp_rw [this]
    rw [sum_comm]
    simp_rw [sum_comm (s := (univ : Finset (Fin n))) (t := (univ : Finset (Fin n)))
      (f := fun k j => x _ * (starRingEnd ℂ) (x j) * (ker n j k * (ker n _ k)⁻¹))]
    simp_rw [← mul_sum, ker_orth]
    rw [mul_sum]
    refine sum_congr rfl (fun i _ => ?_)
    simp
    ring
  exact_mod_cast key

theorem npIfft_parseval {n : Nat} (X : Signal n) : n * ∑ k, ‖npIfft X k‖ ^ 2 = ∑ j, ‖X j‖ ^ 2 := by
  rw [← npFft_parseval, npFft_npIfft]

/-! ### Shifts -/

theorem rotIdx_rotIdx {n : Nat} (a b : Nat) (i : Fin n) : rotIdx a (rotIdx b i) = rotIdx (a + b) i := by
  apply Fin.ext; simp only [rotIdx]; rw [Nat.mod_add_mod]; congr 1; omega

theorem rotIdx_full {n : Nat} (i : Fin n) : rotIdx n i = i := by
  apply Fin.ext; simp [rotIdx, Nat.mod_eq_of_lt i.isLt]

theorem ifftShift_fftShift {n : Nat} {α : Type} (x : Fin n → α) : ifftShift (fftShift x) = x := by
  funext i; simp only [ifftShift, fftShift, rotIdx_rotIdx]
  rw [show n - n / 2 + n / 2 = n by omega, rotIdx_full]

theorem fftShift_ifftShift {n : Nat} {α : Type} (x : Fin n → α) : fftShift (ifftShift x) = x := by
  funext i; simp only [ifftShift, fftShift, rotIdx_rotIdx]
  rw [show n / 2 + (n - n / 2) = n by omega, rotIdx_full]

theorem rotIdx_bijective {n : Nat} {s : Nat} (hs : s ≤ n) : Function.Bijective (rotIdx (n := n) s) := by
  refine Function.bijective_iff_has_inverse.2 ⟨rotIdx (n - s), fun i => ?_, fun i => ?_⟩
  · rw [rotIdx_rotIdx, show n - s + s = n by omega, rotIdx_full]
  · rw [rotIdx_rotIdx, show s + (n - s) = n by omega, rotIdx_full]

theorem sum_ifftShift {n : Nat} {M : Type} [AddCommMonoid M] (x : Fin n → M) : ∑ i, ifftShift x i = ∑ i, x i :=
  Function.Bijective.sum_comp (rotIdx_bijective (Nat.div_le_self n 2)) x

theorem sum_fftShift {n : Nat} {M : Type} [AddCommMonoid M] (x : Fin n → M) : ∑ i, fftShift x i = ∑ i, x i :=
  Function.Bijective.sum_comp (rotIdx_bijective (Nat.sub_le n (n / 2))) x

end Verif
