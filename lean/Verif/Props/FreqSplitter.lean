import Verif.Spec.FreqSplitter
import Verif.Lemmas.Energy
import Verif.Props.Splitter
/-!
# What the outputs of a frequency splitter carry (C38)
-/

namespace Verif
open Complex

variable {n : Nat}

theorem spectrumPos_eq (k : Fin n) : Prop_.linspace 0 1 n (rotIdx (n / 2) k) = spectrumPos n k := by
  have hk := k.isLt
  have hidx : (((rotIdx (n / 2) k : Fin n) : ℕ) : ℝ) = (signedBin n k : ℝ) + ((n / 2 : ℕ) : ℝ) := by
    have : ((rotIdx (n / 2) k : Fin n) : ℕ) = (k + n / 2) % n := rfl
    rw [this]
    unfold signedBin
    split
    · rw [Nat.mod_eq_of_lt (by omega)]; push_cast; ring
    · rw [Nat.mod_eq_sub_mod (by omega), Nat.mod_eq_of_lt (by omega), Nat.cast_sub (by omega)]; push_cast; ring
  unfold Prop_.linspace spectrumPos
  rw [hidx]; ring

theorem logistic_low (x : ℝ) : 1 / (1 + Real.exp (-x)) ≤ Real.exp x := by
  have h := Real.exp_pos x
  rw [Real.exp_neg, div_le_iff₀ (by positivity)]
  have : Real.exp x * (1 + (Real.exp x)⁻¹) = Real.exp x + 1 := by field_simp
  linarith

theorem logistic_high (x : ℝ) : 1 - Real.exp (-x) ≤ 1 / (1 + Real.exp (-x)) := by
  have h := Real.exp_pos (-x)
  rw [le_div_iff₀ (by positivity)]
  nlinarith

theorem logistic_le_one (x : ℝ) : 0 ≤ 1 / (1 + Real.exp (-x)) ∧ 1 / (1 + Real.exp (-x)) ≤ 1 := by
  have h := Real.exp_pos (-x)
  exact ⟨by positivity, by rw [div_le_one (by positivity)]; linarith⟩

/-- **C38.** Output `i` of a frequency splitter carries band `i` of the sum of its inputs: every frequency is multiplied by a factor between 0 and 1,
which is nearly one inside the band and nearly zero outside, exponentially so with the distance to the edges (e⁻⁵ at a hundredth of the spectrum). -/
theorem C38_frequency_bands {P : Prop_ n} (hdt : P.dt ≠ 0) (a : List ℝ) (s : List (Signal n)) :
    (freqSplit P a s).length = a.length + 1 ∧
    ∀ (i : Nat) (y : Signal n) (l r : ℝ), (freqSplit P a s)[i]? = some y → (freqCutoffs a)[i]? = some l → (freqCutoffs a)[i + 1]? = some r →
      ∀ k : Fin n, ∃ m : ℝ, npFft y k = m * npFft (fun t => (s.map (· t)).sum) k ∧ 0 ≤ m ∧ m ≤ 1 ∧
        (∀ d, 0 ≤ d → l + d ≤ spectrumPos n k → spectrumPos n k + d ≤ r → 1 - 2 * Real.exp (-(500 * d)) ≤ m) ∧
        ∀ d, 0 ≤ d → (spectrumPos n k + d ≤ l ∨ r + d ≤ spectrumPos n k) → m ≤ Real.exp (-(500 * d)) := by
  have hlen : (freqCutoffs a).length = a.length + 2 := by
    unfold freqCutoffs; simp [splitWeights_length]
  refine ⟨by unfold freqSplit; simp [hlen], ?_⟩
  intro i y l r hy hl hr k
  have hi : (freqCutoffs a).dropLast[i]? = some l := by
    rw [List.getElem?_dropLast, if_pos, hl]
    obtain ⟨h, -⟩ := List.getElem?_eq_some_iff.1 hr
    omega
  have hi' : (freqCutoffs a).tail[i]? = some r := by rw [List.getElem?_tail, hr]
  unfold freqSplit at hy
  rw [List.getElem?_map, (List.getElem?_zip_eq_some (z := (l, r))).2 ⟨hi, hi'⟩] at hy
  simp only [Option.map_some, Option.some.injEq] at hy
  refine ⟨bandMask n l r (rotIdx (n / 2) k), ?_, (bandMask_bound _ _ _).1, (bandMask_bound _ _ _).2, ?_, ?_⟩
  · rw [← hy, freqMul_eq _ hdt, npFft_npIfft]; rfl
  all_goals
    obtain ⟨x, hx⟩ : ∃ x, x = spectrumPos n k := ⟨_, rfl⟩
    unfold bandMask
    rw [spectrumPos_eq, ← hx]
    rw [show (-500 : ℝ) * (x - l) = -(500 * (x - l)) by ring, show (500 : ℝ) * (x - r) = -(500 * (r - x)) by ring]
    have a1 := logistic_le_one (500 * (x - l))
    have a2 := logistic_le_one (500 * (r - x))
    have b1 := logistic_low (500 * (x - l))
    have b2 := logistic_low (500 * (r - x))
    have c1 := logistic_high (500 * (x - l))
    have c2 := logistic_high (500 * (r - x))
    intro d hd
  · intro h1 h2
    have e1 : Real.exp (-(500 * (x - l))) ≤ Real.exp (-(500 * d)) := Real.exp_le_exp.2 (by linarith)
    have e2 : Real.exp (-(500 * (r - x))) ≤ Real.exp (-(500 * d)) := Real.exp_le_exp.2 (by linarith)
    generalize 1 / (1 + Real.exp (-(500 * (x - l)))) = p at *
    generalize 1 / (1 + Real.exp (-(500 * (r - x)))) = q at *
    nlinarith [mul_nonneg (sub_nonneg.2 a1.2) (sub_nonneg.2 a2.2)]
  · intro h
    rcases h with h | h
    · have e1 : Real.exp (500 * (x - l)) ≤ Real.exp (-(500 * d)) := Real.exp_le_exp.2 (by linarith)
      exact (mul_le_of_le_one_right a1.1 a2.2).trans (b1.trans e1)
    · have e1 : Real.exp (500 * (r - x)) ≤ Real.exp (-(500 * d)) := Real.exp_le_exp.2 (by linarith)
      exact (mul_le_of_le_one_left a2.1 a1.2).trans (b2.trans e1)

/-- **C38, finding.** At the edge between two bands, and at both ends of the spectrum, an output carries at most half the amplitude: the ends of the grid
are attenuated in every setting. -/
theorem C38_frequency_edges {P : Prop_ n} (hdt : P.dt ≠ 0) (a : List ℝ) (s : List (Signal n)) (i : Nat) (y : Signal n) (l r : ℝ)
    (hy : (freqSplit P a s)[i]? = some y) (hl : (freqCutoffs a)[i]? = some l) (hr : (freqCutoffs a)[i + 1]? = some r) (k : Fin n)
    (hk : spectrumPos n k = l ∨ spectrumPos n k = r) : ‖npFft y k‖ ≤ 1 / 2 * ‖npFft (fun t => (s.map (· t)).sum) k‖ := by
  have hi : (freqCutoffs a).dropLast[i]? = some l := by
    rw [List.getElem?_dropLast, if_pos, hl]
    obtain ⟨h, -⟩ := List.getElem?_eq_some_iff.1 hr
    omega
  have hi' : (freqCutoffs a).tail[i]? = some r := by rw [List.getElem?_tail, hr]
  unfold freqSplit at hy
  rw [List.getElem?_map, (List.getElem?_zip_eq_some (z := (l, r))).2 ⟨hi, hi'⟩] at hy
  simp only [Option.map_some, Option.some.injEq] at hy
  rw [← hy, freqMul_eq _ hdt, npFft_npIfft, norm_mul]
  refine mul_le_mul_of_nonneg_right ?_ (norm_nonneg _)
  simp only [ifftShift]
  rw [norm_real, Real.norm_of_nonneg (bandMask_bound _ _ _).1]
  unfold bandMask
  rw [spectrumPos_eq]
  have a1 := logistic_le_one (500 * (spectrumPos n k - l))
  have a2 := logistic_le_one (500 * (r - spectrumPos n k))
  rw [show (-500 : ℝ) * (spectrumPos n k - l) = -(500 * (spectrumPos n k - l)) by ring,
    show (500 : ℝ) * (spectrumPos n k - r) = -(500 * (r - spectrumPos n k)) by ring]
  rcases hk with h | h
  · rw [h] at a2 ⊢
    rw [sub_self, mul_zero, neg_zero, Real.exp_zero, show (1 : ℝ) + 1 = 2 by norm_num]
    exact mul_le_of_le_one_right (by norm_num) a2.2
  · rw [h] at a1 ⊢
    rw [sub_self, mul_zero, neg_zero, Real.exp_zero, show (1 : ℝ) + 1 = 2 by norm_num]
    exact mul_le_of_le_one_left (by norm_num) a1.2

theorem freqCutoffs_single (r : ℝ) : freqCutoffs [r] = [0, 1 - r, 1] := by
  have : splitWeights [r] = [1 - r, r] := by simp [splitWeights]
  unfold freqCutoffs; rw [this]; simp [List.range_succ]

/-- **C38.** A frequency splitter with two outputs is passive: together they carry no more energy than the sum of its inputs, and at most half of what lies
at the edge between the bands is lost. -/
theorem C38_frequency_passive {P : Prop_ n} (hdt : P.dt ≠ 0) (r : ℝ) (s : List (Signal n)) {y z : Signal n} (h : freqSplit P [r] s = [y, z]) :
    energy y + energy z ≤ energy (fun t => (s.map (· t)).sum) := by
  rcases Nat.eq_zero_or_pos n with rfl | hn
  · simp [energy_eq_zero_of_zero]
  have hn' : (0 : ℝ) < n := by exact_mod_cast hn
  unfold freqSplit at h
  rw [freqCutoffs_single] at h
  simp only [List.dropLast, List.tail, List.zip_cons_cons, List.zip_nil_right, List.map_cons, List.map_nil, List.cons.injEq, and_true] at h
  obtain ⟨rfl, rfl⟩ := h
  apply le_of_mul_le_mul_left _ hn'
  rw [mul_add, energy_freqMul _ hdt, energy_freqMul _ hdt, ← Finset.sum_add_distrib, ← energy_npFft]
  unfold energy
  refine Finset.sum_le_sum (fun k _ => ?_)
  rw [← add_mul]
  refine mul_le_of_le_one_left (by positivity) ?_
  simp only [ifftShift]
  rw [norm_real, norm_real, Real.norm_of_nonneg (bandMask_bound _ _ _).1, Real.norm_of_nonneg (bandMask_bound _ _ _).1]
  unfold bandMask
  generalize Prop_.linspace 0 1 n (rotIdx (n / 2) k) = x
  have a1 := logistic_le_one (500 * (x - 0))
  have a2 := logistic_le_one (500 * (1 - x))
  have a3 := logistic_le_one (500 * (x - (1 - r)))
  have a4 := logistic_le_one (500 * ((1 - r) - x))
  rw [show (-500 : ℝ) * (x - 0) = -(500 * (x - 0)) by ring, show (500 : ℝ) * (x - (1 - r)) = -(500 * ((1 - r) - x)) by ring,
    show (-500 : ℝ) * (x - (1 - r)) = -(500 * (x - (1 - r))) by ring, show (500 : ℝ) * (x - 1) = -(500 * (1 - x)) by ring]
  have e : 1 / (1 + Real.exp (-(500 * (x - (1 - r))))) + 1 / (1 + Real.exp (-(500 * ((1 - r) - x)))) = 1 := by
    rw [show -(500 * ((1 - r) - x)) = - -(500 * (x - (1 - r))) by ring, Real.exp_neg (-(500 * (x - (1 - r))))]
    have := Real.exp_pos (-(500 * (x - (1 - r))))
    field_simp
    ring
  generalize 1 / (1 + Real.exp (-(500 * (x - 0)))) = p at *
  generalize 1 / (1 + Real.exp (-(500 * (1 - x)))) = q at *
  generalize 1 / (1 + Real.exp (-(500 * (x - (1 - r))))) = u at *
  generalize 1 / (1 + Real.exp (-(500 * ((1 - r) - x)))) = v at *
  have h1 : (p * v) ^ 2 ≤ v ^ 2 := pow_le_pow_left₀ (mul_nonneg a1.1 a4.1) (mul_le_of_le_one_left a4.1 a1.2) 2
  have h2 : (u * q) ^ 2 ≤ u ^ 2 := pow_le_pow_left₀ (mul_nonneg a3.1 a2.1) (mul_le_of_le_one_right a3.1 a2.2) 2
  nlinarith

theorem splitWeights_ones (m : Nat) : splitWeights (List.replicate m (1 : ℝ)) = List.replicate m 0 ++ [1] := by
  induction m with
  | zero => simp [splitWeights]
  | succ m ih => rw [List.replicate_succ, splitWeights_cons, ih, List.replicate_succ]; simp

theorem freqCutoffs_half (m : Nat) : freqCutoffs ((1 / 2 : ℝ) :: List.replicate (m + 1) 1) = 0 :: (List.replicate (m + 2) (1 / 2) ++ [1]) := by
  have hw : splitWeights ((1 / 2 : ℝ) :: List.replicate (m + 1) 1) = 1 / 2 :: (List.replicate (m + 1) 0 ++ [1 / 2]) := by
    rw [splitWeights_cons, splitWeights_ones, List.map_append, List.map_replicate]; norm_num
  unfold freqCutoffs
  rw [hw]
  dsimp only
  rw [show (0 :: 1 / 2 :: (List.replicate (m + 1) (0 : ℝ) ++ [1 / 2])).length - 1 = (m + 2) + 1 by simp, List.range_succ_eq_map, List.map_cons, List.map_map]
  simp only [List.take_succ_cons, List.take_zero, List.sum_cons, List.sum_nil, add_zero, List.cons_append, List.cons.injEq, true_and]
  congr 1
  rw [List.eq_replicate_iff]
  refine ⟨by simp, ?_⟩
  intro b hb
  obtain ⟨j, hj, rfl⟩ := List.mem_map.1 hb
  have hj' : j < m + 2 := List.mem_range.1 hj
  simp only [Function.comp_apply, Nat.succ_eq_add_one, List.take_succ_cons, List.sum_cons]
  rw [List.take_append_of_le_length (by simp; omega), List.take_replicate, List.sum_replicate]
  simp

/-- **C38, finding.** The frequency splitter can create energy: where the edges of many bands coincide (parameters at their upper bound 1) every output between
them carries a quarter of the amplitude, so the energy of light at that frequency grows with the number of outputs, without limit. -/
theorem C38_frequency_gain {q : Nat} (hq : 1 ≤ q) {P : Prop_ (2 * q + 1)} (hdt : P.dt ≠ 0) (m : Nat) (c : ℂ) :
    ((m : ℝ) + 1) / 16 * energy (fun _ : Fin (2 * q + 1) => c) ≤
      ((freqSplit P (1 / 2 :: List.replicate (m + 1) 1) [fun _ => c]).map energy).sum := by
  have hz : (freqCutoffs ((1 / 2 : ℝ) :: List.replicate (m + 1) 1)).dropLast.zip (freqCutoffs ((1 / 2 : ℝ) :: List.replicate (m + 1) 1)).tail =
      (0, 1 / 2) :: (List.replicate (m + 1) (1 / 2, 1 / 2) ++ [(1 / 2, 1)]) := by
    rw [freqCutoffs_half, ← List.cons_append, List.dropLast_concat, List.tail_append_of_ne_nil (by simp), List.tail_cons]
    rw [List.replicate_succ, List.cons_append, List.zip_cons_cons]
    rw [← List.replicate_succ, List.replicate_succ', List.zip_append (by simp), List.zip_replicate']
    rfl
  unfold freqSplit
  dsimp only
  rw [hz]
  simp only [List.map_cons, List.map_append, List.map_replicate, List.map_nil, List.sum_cons, List.sum_append, List.sum_replicate, List.sum_nil, add_zero]
  have key : 1 / 16 * energy (fun _ : Fin (2 * q + 1) => c) ≤
      energy (freqMul (ifftShift fun j => ((bandMask (2 * q + 1) (1 / 2) (1 / 2) j : ℝ) : ℂ)) P.dt (sumSignals [fun _ => c])) := by
    have hn' : (0 : ℝ) < (2 * q + 1 : ℕ) := by positivity
    apply le_of_mul_le_mul_left _ hn'
    rw [energy_freqMul _ hdt]
    have hx : sumSignals [fun _ : Fin (2 * q + 1) => c] = fun _ => c := by funext t; simp [sumSignals]
    rw [hx]
    refine le_trans ?_ (Finset.single_le_sum (f := fun k => ‖ifftShift (fun j => ((bandMask (2 * q + 1) (1 / 2) (1 / 2) j : ℝ) : ℂ)) k‖ ^ 2 *
      ‖npFft (fun _ : Fin (2 * q + 1) => c) k‖ ^ 2) (fun i _ => by positivity) (Finset.mem_univ (⟨0, by omega⟩ : Fin (2 * q + 1))))
    have h1 : bandMask (2 * q + 1) (1 / 2) (1 / 2) (rotIdx ((2 * q + 1) / 2) ⟨0, by omega⟩) = 1 / 4 := by
      unfold bandMask
      rw [spectrumPos_eq]
      have : spectrumPos (2 * q + 1) ⟨0, by omega⟩ = 1 / 2 := by
        unfold spectrumPos signedBin
        rw [if_pos (by simp only; omega), show (2 * q + 1) / 2 = q by omega]
        have hq' : (q : ℝ) ≠ 0 := by exact_mod_cast (by omega : q ≠ 0)
        push_cast
        field_simp
        ring
      rw [this]; norm_num
    have h2 : npFft (fun _ : Fin (2 * q + 1) => c) ⟨0, by omega⟩ = ((2 * q + 1 : ℕ) : ℂ) * c := by
      unfold npFft; simp
    rw [h2]
    simp only [ifftShift]
    rw [h1, norm_mul, norm_real, Complex.norm_natCast]
    unfold energy
    simp only [Finset.sum_const, Finset.card_univ, Fintype.card_fin, nsmul_eq_mul]
    rw [Real.norm_of_nonneg (by norm_num : (0 : ℝ) ≤ 1 / 4)]
    apply le_of_eq; ring
  have n1 := energy_nonneg (freqMul (ifftShift fun j => ((bandMask (2 * q + 1) 0 (1 / 2) j : ℝ) : ℂ)) P.dt (sumSignals [fun _ => c]))
  have n2 := energy_nonneg (freqMul (ifftShift fun j => ((bandMask (2 * q + 1) (1 / 2) 1 j : ℝ) : ℂ)) P.dt (sumSignals [fun _ => c]))
  rw [nsmul_eq_mul]
  push_cast
  have := mul_le_mul_of_nonneg_left key (by positivity : (0 : ℝ) ≤ (m : ℝ) + 1)
  linarith

/-- Five samples, a splitter with two outputs. -/
example (x : Signal 5) : ∃ y z, freqSplit (⟨1, 1⟩ : Prop_ 5) [1 / 4] [x] = [y, z] ∧ energy y + energy z ≤ energy (fun t => (List.map (· t) [x]).sum) := by
  have h : ∃ y z, freqSplit (⟨1, 1⟩ : Prop_ 5) [1 / 4] [x] = [y, z] := ⟨_, _, by unfold freqSplit; rw [freqCutoffs_single]; rfl⟩
  obtain ⟨y, z, h⟩ := h
  exact ⟨y, z, h, C38_frequency_passive (dt_ne_zero (by norm_num) (by norm_num)) _ _ h⟩

example (x : Signal 5) := C38_frequency_bands (P := (⟨1, 1⟩ : Prop_ 5)) (dt_ne_zero (by norm_num) (by norm_num)) [1 / 4] [x]

/-- The highest frequency of five, in the upper band of two. -/
example (x y : Signal 5) (hy : (freqSplit (⟨1, 1⟩ : Prop_ 5) [1 / 4] [x])[1]? = some y) :=
  C38_frequency_edges (dt_ne_zero (by norm_num) (by norm_num)) [1 / 4] [x] 1 y (1 - 1 / 4) 1 hy (by rw [freqCutoffs_single]; rfl) (by rw [freqCutoffs_single]; rfl)
    (2 : Fin 5) (Or.inr (by simp [spectrumPos, signedBin]; norm_num))

/-- Twice the energy with 33 outputs. -/
example : 2 * energy (fun _ : Fin 5 => (1 : ℂ)) ≤ ((freqSplit (⟨1, 1⟩ : Prop_ 5) (1 / 2 :: List.replicate 32 1) [fun _ => 1]).map energy).sum := by
  have := C38_frequency_gain (q := 2) (by norm_num) (P := ⟨1, 1⟩) (dt_ne_zero (by norm_num) (by norm_num)) 31 1
  norm_num at this ⊢
  exact this

end Verif
