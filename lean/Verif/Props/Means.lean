import Verif.Props.Ase
import Verif.Props.Linewidth
/-!
# C82, continued: the mean noise of an amplifier over all that may be drawn
-/

namespace Verif
open Complex Finset MeasureTheory

variable {n : Nat} {Ω : Type} [MeasurableSpace Ω]

/-- Complex noise as the code draws it: real and imaginary parts of mean square one each. -/
def ComplexNoise (μ : Measure Ω) (Z : Ω → Signal n) : Prop :=
  ∀ i, Integrable (fun ω => ‖Z ω i‖ ^ 2) μ ∧ ∫ ω, ‖Z ω i‖ ^ 2 ∂μ = 2

/-- Real and imaginary parts that are white noise make complex noise. -/
theorem complexNoise_of_white {μ : Measure Ω} {X Y : Ω → Fin n → ℝ} (hX : WhiteNoise μ X) (hY : WhiteNoise μ Y) :
    ComplexNoise μ (fun ω i => (X ω i : ℂ) + (Y ω i : ℂ) * I) := by
  intro i
  have e : ∀ ω, ‖(X ω i : ℂ) + (Y ω i : ℂ) * I‖ ^ 2 = X ω i * X ω i + Y ω i * Y ω i := by
    intro ω
    rw [Complex.sq_norm, Complex.normSq_add_mul_I]
    ring
  simp_rw [e]
  refine ⟨(hX i i).1.add (hY i i).1, ?_⟩
  rw [integral_add (hX i i).1 (hY i i).1, (hX i i).2, (hY i i).2, if_pos rfl]
  norm_num

/-- **C82.** The mean over all that may be drawn: at every frequency the spectrum of the noise of an amplifier has the mean square `½ h f F G dt`, and the mean of its power is the mean of
`½ h f F G df` over the bins, times `((n - 1) / n)²`. -/
theorem C82_mean (E : Edfa) (hn : 2 ≤ n) {P : Prop_ n} (hw : 0 < P.window) (hp : 0 < E.pOutMax) (hf : ∀ k, 0 ≤ ifftShift P.f k + P.central)
    (r : Fin n → ℝ) (x : Signal n) (m : AmpMemory n) {μ : Measure Ω} {Z : Ω → Signal n} (hZ : ComplexNoise μ Z) :
    ∃ y : Ω → Signal n, (∀ ω, E.noisy P (Z ω) r x m = .ok (y ω)) ∧
      (∀ k, ∫ ω, ‖fft_ (fun i => y ω i - E.propagate P x i) P.dt k‖ ^ 2 ∂μ =
        (662607015 / 10 ^ 42) * (ifftShift P.f k + P.central) / 2 * (10 : ℝ) ^ (E.noiseFigDb / 10) * E.gain P x k * P.dt) ∧
      ∫ ω, npMean (power_ (fun i => y ω i - E.propagate P x i)) ∂μ = (((n : ℝ) - 1) / n) ^ 2 *
        ((∑ k, (662607015 / 10 ^ 42) * (ifftShift P.f k + P.central) / 2 * (10 : ℝ) ^ (E.noiseFigDb / 10) * E.gain P x k * P.df) / n) := by
  have hpl : planck = 662607015 / 10 ^ 42 := by unfold planck; norm_num
  choose y hy1 hy2 using fun ω => C82_spectrum E hn hw hp hf (Z ω) r x m
  refine ⟨y, hy1, fun k => ?_, ?_⟩
  · simp_rw [fun ω => (hy2 ω k).1]
    rw [integral_const_mul, integral_div, (hZ k).2, hpl]
    ring
  · have e : ∀ ω, npMean (power_ (fun i => y ω i - E.propagate P x i)) = (((n : ℝ) - 1) / n) ^ 2 *
        ((∑ k, planck * (ifftShift P.f k + P.central) / 2 * (10 : ℝ) ^ (E.noiseFigDb / 10) * E.gain P x k * P.df * (‖Z ω k‖ ^ 2 / 2)) / n) := by
      intro ω
      obtain ⟨y', h1, h2, _⟩ := C82_power E hn hw hp hf (Z ω) r x m
      rw [hy1 ω] at h1
      cases h1
      exact h2
    simp_rw [e]
    rw [integral_const_mul, integral_div, integral_finsetSum _ fun k _ => ((hZ k).1.div_const 2).const_mul _]
    simp_rw [integral_const_mul, integral_div, fun k => (hZ k).2, hpl]
    norm_num

/-- `np.random.normal(scale=1, size=(n, 2)).view(dtype='complex')`. -/
theorem gaussian_complex (n : Nat) : ComplexNoise (Measure.pi fun _ : Fin n × Fin 2 => ProbabilityTheory.gaussianReal 0 1)
    (fun ω i => (ω (i, 0) : ℂ) + (ω (i, 1) : ℂ) * I) := by
  have h : ∀ c : Fin 2, WhiteNoise (Measure.pi fun _ : Fin n × Fin 2 => ProbabilityTheory.gaussianReal 0 1) (fun ω (i : Fin n) => ω (i, c)) := by
    intro c i j
    obtain ⟨h1, h2⟩ := gaussian_white (Fin n × Fin 2) (i, c) (j, c)
    refine ⟨h1, h2.trans ?_⟩
    by_cases hij : i = j
    · rw [if_pos (by rw [hij]), if_pos hij]
    · rw [if_neg (fun hc => hij (Prod.mk.inj hc).1), if_neg hij]
  exact complexNoise_of_white (h 0) (h 1)

example (x : Signal 4) := C82_mean (demoEdfa 1 (3 / 2)) (by norm_num) (P := demoProp) (by norm_num [demoProp]) (by norm_num [demoEdfa]) demo_optical (fun _ => 0) x .fresh
  (gaussian_complex 4)

end Verif
