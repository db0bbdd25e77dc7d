import Verif.Model.Linewidth
import Verif.Spec.Linewidth
import Verif.Props.NoiseSpectra
import Mathlib.Probability.Distributions.Gaussian.Real
import Mathlib.Probability.Independence.Integration
/-!
# C84: linewidths from measured phase noise, and the mean spectrum of phase noise
-/

namespace Verif
open Complex Finset MeasureTheory

variable {n : Nat}

/-- The linewidth that the point (offset in Hz, noise in dBc/Hz) alone stands for: a line of width `w` has phase noise `w / (4 π f²)` relative to the carrier in each side band. -/
noncomputable def pointLinewidth (p : ℝ × ℝ) : ℝ := 4 * Real.pi * p.1 ^ 2 * (10 : ℝ) ^ (p.2 / 10)

theorem fitData_eq (points : List (ℝ × ℝ)) :
    fitData points = (points.map (fun p => (-p.1, dBcToRad2 p.2))).reverse ++ points.map (fun p => (p.1, dBcToRad2 p.2)) := by
  unfold fitData
  dsimp only
  rw [List.map_append, List.zip_append (by simp), ← List.map_reverse, ← List.map_reverse, ← List.map_reverse, List.map_map, List.map_map, List.map_map,
    List.zip_map', List.zip_map']
  congr 1
  apply List.map_congr_left
  intro p _
  simp

theorem residuals_eq (data : List (ℝ × ℝ)) (c : ℝ) :
    residuals inverseXSquared data c = (data.map (fun p => 1 / p.1 ^ 4)).sum * c ^ 2 - 2 * (data.map (fun p => p.2 / p.1 ^ 2)).sum * c +
      (data.map (fun p => p.2 ^ 2)).sum := by
  unfold residuals
  induction data with
  | nil => simp
  | cons p l ih =>
    simp only [List.map_cons, List.sum_cons, ih]
    have : (inverseXSquared p.1 c - p.2) ^ 2 = 1 / p.1 ^ 4 * c ^ 2 - 2 * (p.2 / p.1 ^ 2) * c + p.2 ^ 2 := by
      unfold inverseXSquared
      rw [show p.1 ^ 4 = p.1 ^ 2 * p.1 ^ 2 by ring]
      by_cases h : p.1 ^ 2 = 0
      · rw [h]; simp
      · have h' : p.1 ≠ 0 := fun hz => h (by rw [hz]; norm_num)
        field_simp
        ring
    rw [this]
    ring

theorem least_unique {A B C c : ℝ} (hA : 0 < A) (h : ∀ c', A * c ^ 2 - 2 * B * c + C ≤ A * c' ^ 2 - 2 * B * c' + C) : c = B / A := by
  have h1 := h (B / A)
  have h2 : A * (B / A) ^ 2 - 2 * B * (B / A) = - (B ^ 2 / A) := by field_simp; ring
  have h3 : A * (c - B / A) ^ 2 ≤ 0 := by
    have : A * (c - B / A) ^ 2 = A * c ^ 2 - 2 * B * c + B ^ 2 / A := by field_simp; ring
    linarith
  have h4 : (c - B / A) ^ 2 = 0 := le_antisymm (by nlinarith [sq_nonneg (c - B / A)]) (sq_nonneg _)
  exact sub_eq_zero.1 (pow_eq_zero_iff (two_ne_zero) |>.1 h4)

theorem sum_pos_of {l : List (ℝ × ℝ)} (hl : l ≠ []) {f : ℝ × ℝ → ℝ} (hf : ∀ p ∈ l, 0 < f p) : 0 < (l.map f).sum := by
  cases l with
  | nil => exact absurd rfl hl
  | cons p l =>
    rw [List.map_cons, List.sum_cons]
    have h1 := hf p List.mem_cons_self
    have h2 : 0 ≤ (l.map f).sum := List.sum_nonneg (by
      intro x hx
      obtain ⟨q, hq, rfl⟩ := List.mem_map.1 hx
      exact (hf q (List.mem_cons_of_mem _ hq)).le)
    linarith

/-- **C84.** The estimate is the mean of the linewidths that the points stand for, weighted by the inverse fourth power of their offsets; it exists only if there are points, none at the
carrier. -/
theorem C84_estimate {fit : CurveFit} (hfit : LeastSquares fit) {points : List (ℝ × ℝ)} {w : ℝ} (h : estimatedLinewidth fit points = .ok w) :
    points ≠ [] ∧ (∀ p ∈ points, p.1 ≠ 0) ∧
    w = (points.map (fun p => pointLinewidth p / p.1 ^ 4)).sum / (points.map (fun p => 1 / p.1 ^ 4)).sum := by
  unfold estimatedLinewidth fitPhasePsd at h
  rw [fitData_eq] at h
  obtain ⟨data, hd⟩ : ∃ data, data = (points.map (fun p => (-p.1, dBcToRad2 p.2))).reverse ++ points.map (fun p => (p.1, dBcToRad2 p.2)) := ⟨_, rfl⟩
  rw [← hd] at h
  by_cases h0 : data.isEmpty = true
  · rw [if_pos h0] at h; cases h
  rw [if_neg h0] at h
  by_cases h1 : ∃ p ∈ data, p.1 = 0
  · rw [if_pos h1] at h; cases h
  rw [if_neg h1] at h
  have hne : points ≠ [] := by
    rintro rfl
    rw [hd] at h0
    exact h0 rfl
  have hnz : ∀ p ∈ points, p.1 ≠ 0 := by
    intro p hp hz
    refine h1 ⟨(p.1, dBcToRad2 p.2), ?_, hz⟩
    rw [hd]
    exact List.mem_append_right _ (List.mem_map_of_mem (f := fun p : ℝ × ℝ => (p.1, dBcToRad2 p.2)) hp)
  refine ⟨hne, hnz, ?_⟩
  cases hc : fit inverseXSquared data with
  | error e => rw [hc] at h; cases h
  | ok c =>
    rw [hc] at h
    simp only [Except.ok.injEq] at h
    have hmin := hfit _ _ _ hc
    simp only [residuals_eq] at hmin
    have e4 : ∀ f : ℝ × ℝ → ℝ, (∀ x y, f (-x, y) = f (x, y)) → (data.map f).sum = 2 * (points.map (fun p => f (p.1, dBcToRad2 p.2))).sum := by
      intro f hf
      rw [hd, List.map_append, List.sum_append, List.map_reverse, List.sum_reverse, List.map_map, List.map_map]
      have : (f ∘ fun p : ℝ × ℝ => (-p.1, dBcToRad2 p.2)) = fun p => f (p.1, dBcToRad2 p.2) := by
        funext p; exact hf _ _
      rw [this]
      show _ + (points.map (fun p => f (p.1, dBcToRad2 p.2))).sum = _
      ring
    have hA := e4 (fun p => 1 / p.1 ^ 4) (fun x y => by simp only; rw [Even.neg_pow ⟨2, rfl⟩])
    have hB := e4 (fun p => p.2 / p.1 ^ 2) (fun x y => by simp only; rw [Even.neg_pow ⟨1, rfl⟩])
    have hpos : 0 < (points.map (fun p => 1 / p.1 ^ 4)).sum := sum_pos_of hne (fun p hp => by have := hnz p hp; positivity)
    rw [hA, hB] at hmin
    have hcc := least_unique (by linarith) hmin
    have hL : (points.map (fun p => pointLinewidth p / p.1 ^ 4)).sum = 2 * Real.pi * (points.map (fun p => dBcToRad2 p.2 / p.1 ^ 2)).sum := by
      rw [← List.sum_map_mul_left]
      congr 1
      apply List.map_congr_left
      intro p hp
      have := hnz p hp
      unfold pointLinewidth dBcToRad2
      field_simp
      ring
    rw [← h, hcc, hL]
    field_simp

/-- **C84.** Points that lie on the phase noise of a line of width `w` give back `w`, whatever and however many they are. -/
theorem C84_exact {fit : CurveFit} (hfit : LeastSquares fit) {points : List (ℝ × ℝ)} {w v : ℝ} (hw : 0 < w)
    (hp : ∀ p ∈ points, p.2 = 10 * Real.logb 10 (w / (4 * Real.pi * p.1 ^ 2))) (h : estimatedLinewidth fit points = .ok v) : v = w := by
  obtain ⟨hne, hnz, hv⟩ := C84_estimate hfit h
  have : (points.map (fun p => pointLinewidth p / p.1 ^ 4)).sum = w * (points.map (fun p => 1 / p.1 ^ 4)).sum := by
    rw [← List.sum_map_mul_left]
    congr 1
    apply List.map_congr_left
    intro p hpp
    have hz := hnz p hpp
    unfold pointLinewidth
    rw [hp p hpp, mul_div_cancel_left₀ _ (by norm_num), Real.rpow_logb (by norm_num) (by norm_num) (by positivity)]
    field_simp
  rw [hv, this]
  have hpos : 0 < (points.map (fun p => 1 / p.1 ^ 4)).sum := sum_pos_of hne (fun p hp => by have := hnz p hp; positivity)
  field_simp

/-- **C84.** The estimate lies between the smallest and the largest linewidth that the points stand for. -/
theorem C84_between {fit : CurveFit} (hfit : LeastSquares fit) {points : List (ℝ × ℝ)} {w lo hi : ℝ}
    (hp : ∀ p ∈ points, lo ≤ pointLinewidth p ∧ pointLinewidth p ≤ hi) (h : estimatedLinewidth fit points = .ok w) : lo ≤ w ∧ w ≤ hi := by
  obtain ⟨hne, hnz, hw⟩ := C84_estimate hfit h
  have hpos : 0 < (points.map (fun p => 1 / p.1 ^ 4)).sum := sum_pos_of hne (fun p hp => by have := hnz p hp; positivity)
  have hw' : w * (points.map (fun p => 1 / p.1 ^ 4)).sum = (points.map (fun p => pointLinewidth p / p.1 ^ 4)).sum := by
    rw [hw]; field_simp
  constructor
  · have : lo * (points.map (fun p => 1 / p.1 ^ 4)).sum ≤ (points.map (fun p => pointLinewidth p / p.1 ^ 4)).sum := by
      rw [← List.sum_map_mul_left]
      refine List.sum_le_sum fun p hpp => ?_
      rw [mul_one_div]
      have := hnz p hpp
      exact div_le_div_of_nonneg_right (hp p hpp).1 (by positivity)
    rw [← hw'] at this
    exact le_of_mul_le_mul_right this hpos
  · have : (points.map (fun p => pointLinewidth p / p.1 ^ 4)).sum ≤ hi * (points.map (fun p => 1 / p.1 ^ 4)).sum := by
      rw [← List.sum_map_mul_left]
      refine List.sum_le_sum fun p hpp => ?_
      rw [mul_one_div]
      have := hnz p hpp
      exact div_le_div_of_nonneg_right (hp p hpp).2 (by positivity)
    rw [← hw'] at this
    exact le_of_mul_le_mul_right this hpos

/-- **C84.** Neither the order of the points nor the signs of the offsets matter. -/
theorem C84_order {fit : CurveFit} (hfit : LeastSquares fit) {points points' : List (ℝ × ℝ)}
    (hp : (points.map (fun p => (|p.1|, p.2))).Perm (points'.map (fun p => (|p.1|, p.2)))) {w w' : ℝ}
    (h : estimatedLinewidth fit points = .ok w) (h' : estimatedLinewidth fit points' = .ok w') : w = w' := by
  obtain ⟨_, _, hw⟩ := C84_estimate hfit h
  obtain ⟨_, _, hw'⟩ := C84_estimate hfit h'
  have key : ∀ (l : List (ℝ × ℝ)) (f : ℝ × ℝ → ℝ), (∀ x y, f (|x|, y) = f (x, y)) → l.map f = (l.map (fun p => (|p.1|, p.2))).map f := by
    intro l f hf
    rw [List.map_map]
    apply List.map_congr_left
    intro p _
    exact (hf p.1 p.2).symm
  have a4 : ∀ x : ℝ, |x| ^ 4 = x ^ 4 := fun x => Even.pow_abs ⟨2, rfl⟩ x
  have k1 := fun l => key l (fun p => pointLinewidth p / p.1 ^ 4) (fun x y => by simp only [pointLinewidth, a4, sq_abs])
  have k2 := fun l => key l (fun p => 1 / p.1 ^ 4) (fun x y => by simp only [a4])
  rw [hw, hw', k1 points, k1 points', k2 points, k2 points', (hp.map _).sum_eq, (hp.map _).sum_eq]

/-- **C84.** Phase noise that is stronger by a factor at all offsets gives a line that is wider by this factor (10 dB: ten times). -/
theorem C84_scale {fit : CurveFit} (hfit : LeastSquares fit) {points : List (ℝ × ℝ)} (dB : ℝ) {w w' : ℝ}
    (h : estimatedLinewidth fit points = .ok w) (h' : estimatedLinewidth fit (points.map (fun p => (p.1, p.2 + dB))) = .ok w') :
    w' = (10 : ℝ) ^ (dB / 10) * w := by
  obtain ⟨_, _, hw⟩ := C84_estimate hfit h
  obtain ⟨_, _, hw'⟩ := C84_estimate hfit h'
  rw [hw, hw', List.map_map, List.map_map, ← mul_div_assoc, ← List.sum_map_mul_left]
  congr 2
  apply List.map_congr_left
  intro p _
  show 4 * Real.pi * p.1 ^ 2 * (10 : ℝ) ^ ((p.2 + dB) / 10) / p.1 ^ 4 = (10 : ℝ) ^ (dB / 10) * (4 * Real.pi * p.1 ^ 2 * (10 : ℝ) ^ (p.2 / 10) / p.1 ^ 4)
  rw [add_div, Real.rpow_add (by norm_num)]
  ring

/-- **C84.** The point closest to the carrier decides: other points, at least `R` times as far away, can move the estimate by no more than a `R⁻⁴`th of what separates them from it
(for each of them).  Decades, as in data sheets, give the next point a weight of 1 in 10000. -/
theorem C84_nearest {fit : CurveFit} (hfit : LeastSquares fit) {p : ℝ × ℝ} {rest : List (ℝ × ℝ)} {w R D : ℝ} (hR : 0 < R) (hfar : ∀ q ∈ rest, R * |p.1| ≤ |q.1|)
    (hD : ∀ q ∈ rest, |pointLinewidth q - pointLinewidth p| ≤ D) (h : estimatedLinewidth fit (p :: rest) = .ok w) :
    |w - pointLinewidth p| ≤ rest.length * (D / R ^ 4) := by
  obtain ⟨hne, hnz, hw⟩ := C84_estimate hfit h
  have hp := hnz p List.mem_cons_self
  obtain ⟨S, hS⟩ : ∃ S, S = ((p :: rest).map (fun p => 1 / p.1 ^ 4)).sum := ⟨_, rfl⟩
  have hpos : 0 < S := hS ▸ sum_pos_of hne (fun p hp => by have := hnz p hp; positivity)
  have hge : 1 / p.1 ^ 4 ≤ S := by
    rw [hS, List.map_cons, List.sum_cons]
    have : 0 ≤ (rest.map (fun p : ℝ × ℝ => 1 / p.1 ^ 4)).sum := List.sum_nonneg (by
      intro x hx
      obtain ⟨q, _, rfl⟩ := List.mem_map.1 hx
      positivity)
    linarith
  have hdiff : (w - pointLinewidth p) * S = (rest.map (fun q => (pointLinewidth q - pointLinewidth p) * (1 / q.1 ^ 4))).sum := by
    have h1 : w * S = ((p :: rest).map (fun p => pointLinewidth p / p.1 ^ 4)).sum := by
      rw [hw, ← hS]; field_simp
    rw [sub_mul, h1, hS, List.map_cons, List.sum_cons, List.map_cons, List.sum_cons, mul_add, ← List.sum_map_mul_left]
    have h2 : (rest.map (fun q => (pointLinewidth q - pointLinewidth p) * (1 / q.1 ^ 4))).sum =
        (rest.map (fun q => pointLinewidth q / q.1 ^ 4)).sum - (rest.map (fun q => pointLinewidth p * (1 / q.1 ^ 4))).sum := by
      induction rest with
      | nil => simp
      | cons a l ih =>
        simp only [List.map_cons, List.sum_cons]
        have : ∀ l : List (ℝ × ℝ), (l.map (fun q => (pointLinewidth q - pointLinewidth p) * (1 / q.1 ^ 4))).sum =
          (l.map (fun q => pointLinewidth q / q.1 ^ 4)).sum - (l.map (fun q => pointLinewidth p * (1 / q.1 ^ 4))).sum := by
          intro l
          induction l with
          | nil => simp
          | cons b m ih => simp only [List.map_cons, List.sum_cons, ih]; ring
        rw [this l]
        ring
    rw [h2]
    ring
  have hbound : ∀ l : List (ℝ × ℝ), (∀ q ∈ l, q ∈ rest) →
      |(l.map (fun q => (pointLinewidth q - pointLinewidth p) * (1 / q.1 ^ 4))).sum| ≤ l.length * (D / R ^ 4) * S := by
    intro l hl
    induction l with
    | nil => simp
    | cons q l ih =>
      have hq := hl q List.mem_cons_self
      have hq0 := hnz q (List.mem_cons_of_mem _ hq)
      simp only [List.map_cons, List.sum_cons, List.length_cons]
      refine (abs_add_le _ _).trans ?_
      have h1 := ih (fun x hx => hl x (List.mem_cons_of_mem _ hx))
      have h2 : |(pointLinewidth q - pointLinewidth p) * (1 / q.1 ^ 4)| ≤ D / R ^ 4 * S := by
        rw [abs_mul, abs_of_nonneg (show (0 : ℝ) ≤ 1 / q.1 ^ 4 by positivity)]
        have hD0 : 0 ≤ D := (abs_nonneg _).trans (hD q hq)
        have h3 : 1 / q.1 ^ 4 ≤ 1 / R ^ 4 * (1 / p.1 ^ 4) := by
          have h4 : (R * |p.1|) ^ 4 ≤ |q.1| ^ 4 := pow_le_pow_left₀ (by positivity) (hfar q hq) 4
          rw [mul_pow, Even.pow_abs ⟨2, rfl⟩, Even.pow_abs ⟨2, rfl⟩] at h4
          rw [one_div_mul_one_div]
          exact one_div_le_one_div_of_le (by positivity) h4
        calc |pointLinewidth q - pointLinewidth p| * (1 / q.1 ^ 4) ≤ D * (1 / R ^ 4 * (1 / p.1 ^ 4)) :=
              mul_le_mul (hD q hq) h3 (by positivity) hD0
          _ = D / R ^ 4 * (1 / p.1 ^ 4) := by ring
          _ ≤ D / R ^ 4 * S := mul_le_mul_of_nonneg_left hge (by positivity)
      push_cast
      nlinarith
  have h5 := hbound rest (fun _ h => h)
  rw [← hdiff, abs_mul, abs_of_pos hpos] at h5
  exact le_of_mul_le_mul_right h5 hpos

/-- **C84.** Without points there is no estimate (`ValueError`), nor with a point at the carrier itself. -/
theorem C84_refused (fit : CurveFit) : estimatedLinewidth fit [] = .error .valueError ∧
    ∀ points : List (ℝ × ℝ), (∃ p ∈ points, p.1 = 0) → estimatedLinewidth fit points = .error .zeroDivision := by
  refine ⟨rfl, fun points ⟨p, hp, hz⟩ => ?_⟩
  unfold estimatedLinewidth fitPhasePsd
  have hmem : (p.1, dBcToRad2 p.2) ∈ fitData points := by
    rw [fitData_eq]
    exact List.mem_append_right _ (List.mem_map_of_mem (f := fun p : ℝ × ℝ => (p.1, dBcToRad2 p.2)) hp)
  have h0 : ¬ (fitData points).isEmpty = true := by
    intro h
    rw [List.isEmpty_iff] at h
    rw [h] at hmem
    cases hmem
  rw [if_neg h0, if_pos ⟨_, hmem, hz⟩]

/-! ### the mean spectrum -/

variable {Ω : Type} [MeasurableSpace Ω]

theorem white_form {μ : Measure Ω} {X : Ω → Fin n → ℝ} (hX : WhiteNoise μ X) (a : Fin n → ℝ) :
    Integrable (fun ω => (∑ i, a i * X ω i) ^ 2) μ ∧ ∫ ω, (∑ i, a i * X ω i) ^ 2 ∂μ = ∑ i, a i ^ 2 := by
  have e : ∀ ω, (∑ i, a i * X ω i) ^ 2 = ∑ i, ∑ j, a i * a j * (X ω i * X ω j) := by
    intro ω
    rw [sq, Finset.sum_mul_sum]
    exact Finset.sum_congr rfl fun i _ => Finset.sum_congr rfl fun j _ => by ring
  simp_rw [e]
  have hi : ∀ i j, Integrable (fun ω => a i * a j * (X ω i * X ω j)) μ := fun i j => (hX i j).1.const_mul _
  refine ⟨integrable_finsetSum _ fun i _ => integrable_finsetSum _ fun j _ => hi i j, ?_⟩
  rw [integral_finsetSum _ fun i _ => integrable_finsetSum _ fun j _ => hi i j]
  refine Finset.sum_congr rfl fun i _ => ?_
  rw [integral_finsetSum _ fun j _ => hi i j]
  simp_rw [integral_const_mul, fun j => (hX i j).2]
  simp [sq]

/-- White noise has a white spectrum. -/
theorem white_fft {μ : Measure Ω} {X : Ω → Fin n → ℝ} (hX : WhiteNoise μ X) (k : Fin n) :
    Integrable (fun ω => ‖npFft (fun i => (X ω i : ℂ)) k‖ ^ 2) μ ∧ ∫ ω, ‖npFft (fun i => (X ω i : ℂ)) k‖ ^ 2 ∂μ = n := by
  obtain ⟨z, hz⟩ : ∃ z : Fin n → ℂ, z = fun j : Fin n => (ker n j k)⁻¹ := ⟨_, rfl⟩
  have hn1 : ∀ j, (z j).re ^ 2 + (z j).im ^ 2 = 1 := by
    intro j
    have h1 : ‖z j‖ = 1 := by rw [hz]; simp [norm_ker]
    have h2 := Complex.sq_norm (z j)
    rw [h1, Complex.normSq_apply] at h2
    linarith
  have e : ∀ ω, ‖npFft (fun i => (X ω i : ℂ)) k‖ ^ 2 = (∑ j, (z j).re * X ω j) ^ 2 + (∑ j, (z j).im * X ω j) ^ 2 := by
    intro ω
    rw [npFft_ker, Complex.sq_norm, Complex.normSq_apply, Complex.re_sum, Complex.im_sum, hz]
    simp only [Complex.re_ofReal_mul, Complex.im_ofReal_mul]
    rw [sq, sq]
    congr 2 <;> simp_rw [mul_comm]
  simp_rw [e]
  obtain ⟨i1, v1⟩ := white_form hX (fun j => (z j).re)
  obtain ⟨i2, v2⟩ := white_form hX (fun j => (z j).im)
  refine ⟨i1.add i2, ?_⟩
  rw [integral_add i1 i2, v1, v2, ← Finset.sum_add_distrib]
  simp [hn1]

/-- The numbers of `np.random.normal(scale=1, size=…)` are white noise: independent, normally distributed with mean zero and variance one. -/
theorem gaussian_white (ι : Type) [Fintype ι] [DecidableEq ι] : WhiteNoise (Measure.pi fun _ : ι => ProbabilityTheory.gaussianReal 0 1) (fun ω i => ω i) := by
  have hmem : ∀ i : ι, MemLp (fun ω : ι → ℝ => ω i) 2 (Measure.pi fun _ : ι => ProbabilityTheory.gaussianReal 0 1) := fun i =>
    (ProbabilityTheory.memLp_id_gaussianReal' 2 (by simp)).comp_measurePreserving (measurePreserving_eval _ i)
  have hint : ∀ (i : ι) (f : ℝ → ℝ), AEStronglyMeasurable f (ProbabilityTheory.gaussianReal 0 1) →
      ∫ ω : ι → ℝ, f (ω i) ∂(Measure.pi fun _ : ι => ProbabilityTheory.gaussianReal 0 1) = ∫ x, f x ∂(ProbabilityTheory.gaussianReal 0 1) := by
    intro i f hf
    have hmp := measurePreserving_eval (fun _ : ι => ProbabilityTheory.gaussianReal 0 1) i
    have := integral_map hmp.measurable.aemeasurable (f := f) (by rw [hmp.map_eq]; exact hf)
    rw [hmp.map_eq] at this
    exact this.symm
  intro i j
  refine ⟨(hmem i).integrable_mul (hmem j), ?_⟩
  by_cases hij : i = j
  · subst hij
    rw [if_pos rfl, hint i (fun x => x * x) (by fun_prop)]
    have hv := ProbabilityTheory.variance_eq_sub (μ := ProbabilityTheory.gaussianReal 0 1) (X := id) (ProbabilityTheory.memLp_id_gaussianReal' 2 (by simp))
    rw [ProbabilityTheory.variance_id_gaussianReal] at hv
    have h0 : ∫ x, id x ∂(ProbabilityTheory.gaussianReal 0 1) = 0 := ProbabilityTheory.integral_id_gaussianReal
    rw [h0] at hv
    have : ∫ x, (id ^ 2 : ℝ → ℝ) x ∂(ProbabilityTheory.gaussianReal 0 1) = ∫ x, x * x ∂(ProbabilityTheory.gaussianReal 0 1) := by
      congr 1
      funext x
      simp [sq]
    rw [← this]
    simpa using hv.symm
  · rw [if_neg hij]
    have hind := ProbabilityTheory.iIndepFun_pi (μ := fun _ : ι => ProbabilityTheory.gaussianReal 0 1) (X := fun _ x => x) (fun i => aemeasurable_id)
    have := (hind.indepFun hij).integral_fun_mul_eq_mul_integral (hmem i).aestronglyMeasurable (hmem j).aestronglyMeasurable
    rw [this, hint i (fun x => x) (by fun_prop), ProbabilityTheory.integral_id_gaussianReal, zero_mul]

/-- **C84.** The mean of the spectral density of the phase noise of linewidth `w`, over all that may be drawn: `w / (2 π f²)`, that is, `2 · 10^(L/10)` for the `L` dBc/Hz that a line of
this width has, up to the factor `n / (n - 1)` and the half step by which the frequency grid is off. -/
theorem C84_mean_spectrum (hn : 2 ≤ n) (he : n % 2 = 0) {P : Prop_ n} (hw : 0 < P.window) (mask : Option (Signal n)) {w : ℝ} (h0 : 0 < w) (g : Signal n)
    {μ : Measure Ω} {X : Ω → Fin n → ℝ} (hX : WhiteNoise μ X) :
    ∃ p : Ω → Fin n → ℝ, (∀ ω, ∃ s, sampleNoise P mask (.phase w) g (X ω) = .ok s ∧ ∀ i, s.vec i = p ω i) ∧
      ∀ k, ∫ ω, ‖fft_ (fun i => (p ω i : ℂ)) P.dt k‖ ^ 2 / P.window ∂μ =
        w / (2 * Real.pi) * ((1 / |ifftShift P.f k| + 1 / |ifftShift P.f (oppBin k)|) / 2) ^ 2 * (n / ((n : ℝ) - 1)) := by
  choose p hp1 hp2 hp3 using fun ω => C66_linewidth_spectrum hn he hw mask h0 g (X ω)
  refine ⟨p, hp2, fun k => ?_⟩
  have hn2 : (2 : ℝ) ≤ n := by exact_mod_cast hn
  have hdt := dt_pos_grid hn hw
  obtain ⟨q, hq⟩ : ∃ q, q = (1 / |ifftShift P.f k| + 1 / |ifftShift P.f (oppBin k)|) / 2 := ⟨_, rfl⟩
  have e : ∀ ω, ‖fft_ (fun i => (p ω i : ℂ)) P.dt k‖ ^ 2 / P.window = w / (2 * Real.pi) * P.dt * q ^ 2 / P.window * ‖npFft (fun i => (X ω i : ℂ)) k‖ ^ 2 := by
    intro ω
    rw [hp1 ω k, norm_mul, mul_pow, Complex.norm_real, Real.norm_eq_abs, sq_abs, ← hq, mul_pow, mul_pow, Real.sq_sqrt (by positivity), Real.sq_sqrt hdt.le]
    ring
  simp_rw [e]
  rw [integral_const_mul, (white_fft hX k).2, ← hq, (dt_df P).1]
  have : (n : ℝ) - 1 ≠ 0 := by linarith
  field_simp

open Classical in
/-- A least squares fit exists: for the function fitted here, the quotient of the two sums. -/
noncomputable def exactFit : CurveFit := fun f data =>
  if f = inverseXSquared ∧ 0 < (data.map (fun p => 1 / p.1 ^ 4)).sum then
    .ok ((data.map (fun p => p.2 / p.1 ^ 2)).sum / (data.map (fun p => 1 / p.1 ^ 4)).sum)
  else .error .runtimeError

theorem exactFit_least : LeastSquares exactFit := by
  intro f data c h c'
  unfold exactFit at h
  split at h
  · next hf =>
    obtain ⟨rfl, hA⟩ := hf
    simp only [Except.ok.injEq] at h
    subst h
    rw [residuals_eq, residuals_eq]
    generalize (data.map (fun p => 1 / p.1 ^ 4)).sum = A at hA ⊢
    generalize (data.map (fun p => p.2 / p.1 ^ 2)).sum = B
    have h1 : A * (B / A) ^ 2 - 2 * B * (B / A) = - (B ^ 2 / A) := by field_simp; ring
    have h2 : A * (c' - B / A) ^ 2 = A * c' ^ 2 - 2 * B * c' + B ^ 2 / A := by field_simp; ring
    have h3 : 0 ≤ A * (c' - B / A) ^ 2 := by positivity
    linarith
  · cases h

/-- With it, points away from the carrier have an estimate. -/
theorem exactFit_total {points : List (ℝ × ℝ)} (hne : points ≠ []) (hnz : ∀ p ∈ points, p.1 ≠ 0) : ∃ w, estimatedLinewidth exactFit points = .ok w := by
  have hd : fitData points ≠ [] := by
    rw [fitData_eq]
    simp [hne]
  have hz : ∀ p ∈ fitData points, p.1 ≠ 0 := by
    intro p hp
    rw [fitData_eq] at hp
    rcases List.mem_append.1 hp with hp | hp
    · obtain ⟨q, hq, rfl⟩ := List.mem_map.1 (List.mem_reverse.1 hp)
      exact neg_ne_zero.2 (hnz q hq)
    · obtain ⟨q, hq, rfl⟩ := List.mem_map.1 hp
      exact hnz q hq
  unfold estimatedLinewidth fitPhasePsd
  rw [if_neg (by rw [List.isEmpty_iff]; exact hd), if_neg (by rintro ⟨p, hp, h⟩; exact hz p hp h)]
  unfold exactFit
  rw [if_pos ⟨rfl, sum_pos_of hd (fun p hp => by have := hz p hp; positivity)⟩]
  exact ⟨_, rfl⟩

/-! Cases: the points of `testing/test_noise_verification.py:559`, points on a curve, and normally distributed noise. -/

example : ∃ w, estimatedLinewidth exactFit [(10000, -116), (100000, -117), (1000000, -118), (10000000, -140)] = .ok w ∧
    |w - pointLinewidth (10000, -116)| ≤ 3 * ((max (max |pointLinewidth (100000, -117) - pointLinewidth (10000, -116)| |pointLinewidth (1000000, -118) - pointLinewidth (10000, -116)|)
      |pointLinewidth (10000000, -140) - pointLinewidth (10000, -116)|) / 10 ^ 4) := by
  obtain ⟨w, hw⟩ := exactFit_total (points := [(10000, -116), (100000, -117), (1000000, -118), (10000000, -140)]) (by simp) (by simp)
  refine ⟨w, hw, ?_⟩
  have := C84_nearest exactFit_least (R := 10) (by norm_num) (by intro q hq; simp at hq; rcases hq with rfl | rfl | rfl <;> norm_num)
    (D := max (max |pointLinewidth (100000, -117) - pointLinewidth (10000, -116)| |pointLinewidth (1000000, -118) - pointLinewidth (10000, -116)|)
      |pointLinewidth (10000000, -140) - pointLinewidth (10000, -116)|) (by
      intro q hq
      simp only [List.mem_cons, List.not_mem_nil, or_false] at hq
      rcases hq with rfl | rfl | rfl
      · exact le_trans (le_max_left _ _) (le_max_left _ _)
      · exact le_trans (le_max_right _ _) (le_max_left _ _)
      · exact le_max_right _ _) hw
  simpa using this

example : estimatedLinewidth exactFit [(10000, 10 * Real.logb 10 (500 / (4 * Real.pi * 10000 ^ 2))), (-2, 10 * Real.logb 10 (500 / (4 * Real.pi * (-2) ^ 2)))] = .ok 500 := by
  obtain ⟨w, hw⟩ := exactFit_total (points := [(10000, 10 * Real.logb 10 (500 / (4 * Real.pi * 10000 ^ 2))), (-2, 10 * Real.logb 10 (500 / (4 * Real.pi * (-2) ^ 2)))])
    (by simp) (by simp)
  rw [hw, C84_exact exactFit_least (w := 500) (by norm_num) (by simp) hw]

example (g : Signal 4) := C84_mean_spectrum (n := 4) (by norm_num) (by norm_num) (P := demoProp) (by norm_num [demoProp]) none (w := 500) (by norm_num) g (gaussian_white (Fin 4))


/-! Two points measured at 10 kHz and 100 kHz. -/

theorem demoFit : ∃ w, estimatedLinewidth exactFit [(10000, -110), (100000, -125)] = .ok w := exactFit_total (by simp) (by simp)

example : ∃ w, estimatedLinewidth exactFit [(10000, -110), (100000, -125)] = .ok w ∧
    pointLinewidth (100000, -125) ≤ w + |pointLinewidth (100000, -125)| + |pointLinewidth (10000, -110)| ∧
    ∃ w', estimatedLinewidth exactFit [(10000, -110 + 3), (100000, -125 + 3)] = .ok w' ∧ w' = (10 : ℝ) ^ ((3 : ℝ) / 10) * w := by
  obtain ⟨w, hw⟩ := demoFit
  obtain ⟨w', hw'⟩ := exactFit_total (points := [(10000, -110 + 3), (100000, -125 + 3)]) (by simp) (by simp)
  refine ⟨w, hw, ?_, w', hw', C84_scale exactFit_least 3 hw hw'⟩
  obtain ⟨h, _⟩ := C84_between exactFit_least (lo := -|pointLinewidth (10000, -110)|) (hi := |pointLinewidth (100000, -125)| + |pointLinewidth (10000, -110)|) (fun p hp => by
    simp only [List.mem_cons, List.not_mem_nil, or_false] at hp
    have h1 := abs_nonneg (pointLinewidth (10000, -110))
    have h2 := abs_nonneg (pointLinewidth (100000, -125))
    rcases hp with rfl | rfl
    · exact ⟨neg_abs_le _, (le_abs_self _).trans (by linarith)⟩
    · have : 0 ≤ pointLinewidth (100000, -125) := by unfold pointLinewidth; positivity
      exact ⟨by linarith, (le_abs_self _).trans (by linarith)⟩) hw
  have := le_abs_self (pointLinewidth (100000, -125))
  linarith

example : ∃ w, estimatedLinewidth exactFit [(10000, -110), (100000, -125)] = .ok w ∧ estimatedLinewidth exactFit [(-100000, -125), (10000, -110)] = .ok w := by
  obtain ⟨w, hw⟩ := demoFit
  obtain ⟨w', hw'⟩ := exactFit_total (points := [(-100000, -125), (10000, -110)]) (by simp) (by simp)
  have : w = w' := C84_order exactFit_least (by
    simp only [List.map_cons, List.map_nil]
    norm_num [abs_of_pos, abs_of_neg]
    exact List.Perm.swap _ _ _) hw hw'
  exact ⟨w, hw, this ▸ hw'⟩

example := C84_estimate exactFit_least demoFit.choose_spec
example := (C84_refused exactFit).2 [(10000, -110), (0, -125)] ⟨(0, -125), by simp, rfl⟩

end Verif
