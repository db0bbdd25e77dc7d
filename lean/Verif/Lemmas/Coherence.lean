import Mathlib.NumberTheory.ZetaValues
import Mathlib.Analysis.Real.Pi.Bounds
/-! # Sums of `(1 - cos) / d²`, needed for the coherence of light -/

namespace Verif
open Finset

theorem bernoulli_two_eval (x : ℝ) : (Polynomial.map (algebraMap ℚ ℝ) (Polynomial.bernoulli 2)).eval x = x ^ 2 - x + 1 / 6 := by
  simp [Polynomial.bernoulli, sum_range_succ, bernoulli_one, bernoulli_two]
  ring

theorem hasSum_one_sub_cos {x : ℝ} (hx : x ∈ Set.Icc (0 : ℝ) 1) :
    HasSum (fun d : ℕ => (1 - Real.cos (2 * Real.pi * d * x)) / (d : ℝ) ^ 2) (Real.pi ^ 2 * (x - x ^ 2)) := by
  have h1 := hasSum_zeta_two
  have h2 := hasSum_one_div_nat_pow_mul_cos (k := 1) one_ne_zero hx
  have h3 := h1.sub h2
  have e : ∀ d : ℕ, (1 - Real.cos (2 * Real.pi * d * x)) / (d : ℝ) ^ 2 =
      1 / (d : ℝ) ^ 2 - 1 / (d : ℝ) ^ (2 * 1) * Real.cos (2 * Real.pi * d * x) := fun d => by ring
  simp_rw [e]
  have hv : Real.pi ^ 2 / 6 - (-1 : ℝ) ^ (1 + 1) * (2 * Real.pi) ^ (2 * 1) / 2 / ((2 * 1).factorial : ℕ) *
      (Polynomial.map (algebraMap ℚ ℝ) (Polynomial.bernoulli (2 * 1))).eval x = Real.pi ^ 2 * (x - x ^ 2) := by
    rw [show 2 * 1 = 2 from rfl, bernoulli_two_eval]
    simp only [Nat.factorial]
    push_cast
    ring
  rw [hv] at h3
  exact h3

theorem one_sub_cos_nonneg (y : ℝ) : 0 ≤ 1 - Real.cos y := by linarith [Real.cos_le_one y]

/-- A finite sum falls short of the limit by at most `2 / N`. -/
theorem sum_one_sub_cos {x : ℝ} (hx : x ∈ Set.Icc (0 : ℝ) 1) {N : ℕ} (hN : 0 < N) :
    ∑ d ∈ range (N + 1), (1 - Real.cos (2 * Real.pi * d * x)) / (d : ℝ) ^ 2 ≤ Real.pi ^ 2 * (x - x ^ 2) ∧
    Real.pi ^ 2 * (x - x ^ 2) - 2 / N ≤ ∑ d ∈ range (N + 1), (1 - Real.cos (2 * Real.pi * d * x)) / (d : ℝ) ^ 2 := by
  have h := hasSum_one_sub_cos hx
  refine ⟨sum_le_hasSum _ (fun d _ => div_nonneg (one_sub_cos_nonneg _) (by positivity)) h, ?_⟩
  have hb : ∀ M, ∑ d ∈ range (N + 1 + M), (1 - Real.cos (2 * Real.pi * d * x)) / (d : ℝ) ^ 2 ≤
      ∑ d ∈ range (N + 1), (1 - Real.cos (2 * Real.pi * d * x)) / (d : ℝ) ^ 2 + (2 / N - 2 / (N + M : ℝ)) := by
    intro M
    induction M with
    | zero => simp
    | succ M ih =>
      rw [← add_assoc, sum_range_succ]
      have h0 : (0 : ℝ) < N := by exact_mod_cast hN
      have hM : (0 : ℝ) ≤ M := Nat.cast_nonneg M
      have : (1 - Real.cos (2 * Real.pi * ((N + 1 + M : ℕ) : ℝ) * x)) / ((N + 1 + M : ℕ) : ℝ) ^ 2 ≤ 2 / (N + M : ℝ) - 2 / (N + (M + 1 : ℕ) : ℝ) := by
        have hc : 1 - Real.cos (2 * Real.pi * ((N + 1 + M : ℕ) : ℝ) * x) ≤ 2 := by linarith [Real.neg_one_le_cos (2 * Real.pi * ((N + 1 + M : ℕ) : ℝ) * x)]
        refine (div_le_div_of_nonneg_right hc (by positivity)).trans ?_
        push_cast
        have hs : (0 : ℝ) < N + M := by linarith
        rw [div_sub_div _ _ (by linarith) (by linarith), div_le_div_iff₀ (by nlinarith) (by nlinarith)]
        nlinarith
      push_cast at this ih ⊢
      linarith
  have hlim : Real.pi ^ 2 * (x - x ^ 2) ≤ ∑ d ∈ range (N + 1), (1 - Real.cos (2 * Real.pi * d * x)) / (d : ℝ) ^ 2 + 2 / N := by
    refine le_of_tendsto (h.tendsto_sum_nat.comp (Filter.tendsto_add_atTop_nat (N + 1))) (Filter.Eventually.of_forall fun M => ?_)
    have h1 := hb M
    have h2 : (0 : ℝ) ≤ 2 / (N + M : ℝ) := by positivity
    simp only [Function.comp]
    rw [Nat.add_comm M (N + 1)]
    linarith
  linarith

/-- Folding a sum over all bins of an even grid. -/
theorem sum_fold (f : ℕ → ℝ) {N : ℕ} (hN : 0 < N) (h0 : f 0 = 0) (hs : ∀ d, 0 < d → d < N → f (2 * N - d) = f d) :
    ∑ k ∈ range (2 * N), f k = 2 * ∑ d ∈ range N, f d + f N := by
  rw [two_mul N, sum_range_add]
  obtain ⟨M, rfl⟩ : ∃ M, N = M + 1 := ⟨N - 1, by omega⟩
  rw [sum_range_succ' (fun k => f (M + 1 + k)) M]
  have : ∑ k ∈ range M, f (M + 1 + (k + 1)) = ∑ k ∈ range M, f (k + 1) := by
    rw [← sum_range_reflect]
    refine sum_congr rfl fun k hk => ?_
    rw [mem_range] at hk
    rw [← hs (k + 1) (by omega) (by omega)]
    congr 1
    omega
  rw [this, sum_range_succ' f M, h0, Nat.add_zero]
  ring

/-- The weights of the bins of an even grid of `2 N` samples, off by half a step. -/
noncomputable def halfWeight (N d : ℕ) : ℝ := if d = N then 1 / ((N : ℝ) - 1 / 2) ^ 2 else ((d : ℝ) / ((d : ℝ) ^ 2 - 1 / 4)) ^ 2

theorem halfWeight_ge {N d : ℕ} (hd : 0 < d) (hN : 2 ≤ N) : 1 / (d : ℝ) ^ 2 ≤ halfWeight N d := by
  have h1 : (1 : ℝ) ≤ d := by exact_mod_cast hd
  have h2 : (2 : ℝ) ≤ N := by exact_mod_cast hN
  unfold halfWeight
  split
  · next h =>
    subst h
    exact one_div_le_one_div_of_le (by nlinarith) (by nlinarith)
  · have h4 : (0 : ℝ) < (d : ℝ) ^ 2 - 1 / 4 := by nlinarith
    rw [div_pow, div_le_div_iff₀ (by positivity) (by positivity)]
    nlinarith [sq_nonneg ((d : ℝ)), mul_nonneg (by linarith : (0 : ℝ) ≤ d - 1) (by linarith : (0 : ℝ) ≤ d)]

theorem halfWeight_le {N d : ℕ} (hd : 0 < d) (h : d ≠ N) : halfWeight N d ≤ 1 / (d : ℝ) ^ 2 + 7 / 9 / (d : ℝ) ^ 4 := by
  have h1 : (1 : ℝ) ≤ d := by exact_mod_cast hd
  obtain ⟨u, hu⟩ : ∃ u : ℝ, u = (d : ℝ) ^ 2 := ⟨_, rfl⟩
  have hu1 : 1 ≤ u := by rw [hu]; nlinarith
  unfold halfWeight
  rw [if_neg h, div_pow, show (d : ℝ) ^ 4 = u ^ 2 by rw [hu]; ring, ← hu]
  rw [div_add_div _ _ (by positivity) (by positivity), div_le_div_iff₀ (by nlinarith) (by positivity)]
  have : u * (u * u ^ 2) ≤ (1 * u ^ 2 + u * (7 / 9)) * (u - 1 / 4) ^ 2 := by nlinarith [mul_nonneg (by linarith : (0:ℝ) ≤ u - 1) (by linarith : (0:ℝ) ≤ u), mul_nonneg (mul_nonneg (by linarith : (0:ℝ) ≤ u - 1) (by linarith : (0:ℝ) ≤ u)) (by linarith : (0:ℝ) ≤ u)]
  exact this

theorem halfWeight_top {N : ℕ} (hN : 2 ≤ N) : halfWeight N N ≤ 2 / (N : ℝ) ^ 2 := by
  have h2 : (2 : ℝ) ≤ N := by exact_mod_cast hN
  unfold halfWeight
  rw [if_pos rfl, div_le_div_iff₀ (by nlinarith) (by positivity)]
  nlinarith

theorem one_sub_cos_le (y : ℝ) : 1 - Real.cos y ≤ y ^ 2 / 2 := by linarith [Real.one_sub_sq_div_two_le_cos (x := y)]

/-- Both bounds for the sum that decides the coherence. -/
theorem fold_bounds {x : ℝ} (hx : x ∈ Set.Icc (0 : ℝ) 1) {N : ℕ} (hN : 2 ≤ N) :
    2 * Real.pi ^ 2 * (x - x ^ 2) - 5 / N ≤
      2 * ∑ d ∈ range N, halfWeight N d * (1 - Real.cos (2 * Real.pi * d * x)) + halfWeight N N * (1 - Real.cos (2 * Real.pi * N * x)) ∧
    2 * ∑ d ∈ range N, halfWeight N d * (1 - Real.cos (2 * Real.pi * d * x)) + halfWeight N N * (1 - Real.cos (2 * Real.pi * N * x)) ≤
      2 * Real.pi ^ 2 * x * (1 + 2 * x) := by
  have h2 : (2 : ℝ) ≤ N := by exact_mod_cast hN
  obtain ⟨b1, b2⟩ := sum_one_sub_cos hx (by omega : 0 < N)
  rw [sum_range_succ] at b1 b2
  have hcN := one_sub_cos_nonneg (2 * Real.pi * N * x)
  constructor
  · have hl : ∑ d ∈ range N, (1 - Real.cos (2 * Real.pi * d * x)) / (d : ℝ) ^ 2 ≤ ∑ d ∈ range N, halfWeight N d * (1 - Real.cos (2 * Real.pi * d * x)) := by
      refine sum_le_sum fun d _ => ?_
      rcases Nat.eq_zero_or_pos d with rfl | hd
      · simp
      · rw [div_eq_inv_mul, ← one_div]
        exact mul_le_mul_of_nonneg_right (halfWeight_ge hd hN) (one_sub_cos_nonneg _)
    have ht : (1 - Real.cos (2 * Real.pi * N * x)) / (N : ℝ) ^ 2 ≤ halfWeight N N * (1 - Real.cos (2 * Real.pi * N * x)) := by
      rw [div_eq_inv_mul, ← one_div]
      exact mul_le_mul_of_nonneg_right (halfWeight_ge (by omega) hN) hcN
    have hs : (1 - Real.cos (2 * Real.pi * N * x)) / (N : ℝ) ^ 2 ≤ 1 / N := by
      rw [div_le_div_iff₀ (by positivity) (by positivity)]
      have := Real.neg_one_le_cos (2 * Real.pi * N * x)
      nlinarith
    have e5 : (5 : ℝ) / N = 2 * (2 / N) + 1 / N := by ring
    rw [e5]
    linarith
  · have hx0 := hx.1
    have hu : ∀ d ∈ range N, halfWeight N d * (1 - Real.cos (2 * Real.pi * d * x)) ≤
        (1 - Real.cos (2 * Real.pi * d * x)) / (d : ℝ) ^ 2 + 14 / 9 * Real.pi ^ 2 * x ^ 2 * (1 / (d : ℝ) ^ 2) := by
      intro d hd
      rw [mem_range] at hd
      rcases Nat.eq_zero_or_pos d with rfl | hp
      · simp
      · have h1 : (0 : ℝ) < d := by exact_mod_cast hp
        have hw := mul_le_mul_of_nonneg_right (halfWeight_le hp (by omega : d ≠ N)) (one_sub_cos_nonneg (2 * Real.pi * d * x))
        refine hw.trans ?_
        have hq : 7 / 9 / (d : ℝ) ^ 4 * (1 - Real.cos (2 * Real.pi * d * x)) ≤ 7 / 9 / (d : ℝ) ^ 4 * ((2 * Real.pi * d * x) ^ 2 / 2) :=
          mul_le_mul_of_nonneg_left (one_sub_cos_le _) (by positivity)
        have he : 7 / 9 / (d : ℝ) ^ 4 * ((2 * Real.pi * d * x) ^ 2 / 2) = 14 / 9 * Real.pi ^ 2 * x ^ 2 * (1 / (d : ℝ) ^ 2) := by field_simp; ring
        rw [he] at hq
        have : (1 - Real.cos (2 * Real.pi * d * x)) / (d : ℝ) ^ 2 = 1 / (d : ℝ) ^ 2 * (1 - Real.cos (2 * Real.pi * d * x)) := by ring
        rw [this, add_mul]
        linarith
    have hsum := sum_le_sum hu
    rw [sum_add_distrib, ← mul_sum] at hsum
    have hz : ∑ d ∈ range N, 1 / (d : ℝ) ^ 2 ≤ Real.pi ^ 2 / 6 := sum_le_hasSum _ (fun d _ => by positivity) hasSum_zeta_two
    have hz' := mul_le_mul_of_nonneg_left hz (by positivity : 0 ≤ 14 / 9 * Real.pi ^ 2 * x ^ 2)
    have ht : halfWeight N N * (1 - Real.cos (2 * Real.pi * N * x)) ≤ 2 * ((1 - Real.cos (2 * Real.pi * N * x)) / (N : ℝ) ^ 2) := by
      refine (mul_le_mul_of_nonneg_right (halfWeight_top hN) hcN).trans (le_of_eq (by ring))
    have hpi : Real.pi ^ 2 ≤ 10 := by nlinarith [Real.pi_lt_d2, Real.pi_gt_three]
    have hfin : 14 / 9 * Real.pi ^ 2 * x ^ 2 * (Real.pi ^ 2 / 6) ≤ 3 * Real.pi ^ 2 * x ^ 2 := by
      have : 14 / 9 * (Real.pi ^ 2 / 6) ≤ 3 := by linarith
      have h := mul_le_mul_of_nonneg_right this (by positivity : 0 ≤ Real.pi ^ 2 * x ^ 2)
      linarith
    nlinarith

end Verif
