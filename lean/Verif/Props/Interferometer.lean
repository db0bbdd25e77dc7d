import Verif.Lemmas.Interferometer
import Verif.Props.Symmetry
import Verif.Props.Splitter
import Verif.Props.Amplifier
import Verif.Model.Evaluate
import Mathlib.Analysis.SpecialFunctions.Trigonometric.Deriv
/-!
# C88: interferometers

Light that is split over several arms and joined again, anywhere inside a system.
-/

namespace Verif
open Graph Complex

variable {n : Nat}

/-- A phase shifter turns the phase by its parameter, a waveguide by nothing. -/
theorem turns_phaseShifter (hn : 2 ≤ n) {P : Prop_ n} (hw : 0 < P.window) (φ : ℝ) : TurnsPhase P (.phaseShifter φ) φ := by
  intro x
  simp only [Optic.apply, phaseShifter, Bool.false_eq_true, if_false]
  rw [freqMul_const _ (dt_ne_zero hn hw)]
  congr 1; funext t; unfold turn; rw [mul_comm I]

theorem turns_waveguide (P : Prop_ n) : TurnsPhase P (.waveguide) 0 := by
  intro x; simp [Optic.apply, waveguide, turn_zero]

/-- **C88.** Every interferometer: each arm gets the field in front times its factor, and the fields behind the arms are added with a turn
of `-2πj/N` each. -/
theorem C88_field {P : Prop_ n} {g : Graph} (hw : g.WF) {optic : Comp → Optic n} {conn : Comp → Connector} {hasNoise : Comp → Bool}
    {a b : Node} {eIn eOut : Edge} {arms : List Edge} (hI : Interferometer g a b eIn eOut arms)
    {r : List ℝ} (ha : conn a.comp = .splitter r) (hb : conn b.comp = .splitter [])
    {inp : Signal n} {old st : Store (Signal n)} (h : propagate g (physics P optic conn hasNoise) inp old = .ok st) :
    ∃ (x : Signal n) (y : Fin arms.length → Signal n) (z : Signal n),
      st (.edge eIn.ref) = some x ∧
      (∀ j : Fin arms.length, (optic arms[j].comp).apply P (fun t => armFactor r arms.length j * x t) = .ok (y j) ∧ st (.edge arms[j].ref) = some (y j)) ∧
      (optic eOut.comp).apply P (fun t => ∑ j : Fin arms.length, turn (-(2 * Real.pi * (j / arms.length))) * y j t) = .ok z ∧
      st (.edge eOut.ref) = some z :=
  (interferometer_field hw hI ha hb ((propagate_iff hw).1 h).2).2.2

/-- **C88.** Arms that only turn the phase: what leaves is what entered times one complex number, the sum over the arms. -/
theorem C88_phases {P : Prop_ n} {g : Graph} (hw : g.WF) {optic : Comp → Optic n} {conn : Comp → Connector} {hasNoise : Comp → Bool}
    {a b : Node} {eIn eOut : Edge} {arms : List Edge} (hI : Interferometer g a b eIn eOut arms)
    {r : List ℝ} (ha : conn a.comp = .splitter r) (hb : conn b.comp = .splitter [])
    {φ : Nat → ℝ} (hφ : ∀ j e, arms[j]? = some e → TurnsPhase P (optic e.comp) (φ j))
    {inp : Signal n} {old st : Store (Signal n)} (h : propagate g (physics P optic conn hasNoise) inp old = .ok st) :
    ∃ x z, st (.edge eIn.ref) = some x ∧ st (.edge eOut.ref) = some z ∧
      (optic eOut.comp).apply P (fun t => phaseResponse r arms.length φ * x t) = .ok z := by
  obtain ⟨x, y, z, h1, h2, h3, h4⟩ := C88_field hw hI ha hb h
  refine ⟨x, z, h1, h4, ?_⟩
  rw [← h3]
  congr 1
  funext t
  unfold phaseResponse
  rw [Finset.sum_range, Finset.sum_mul]
  apply Finset.sum_congr rfl
  intro j _
  have := (h2 j).1
  rw [hφ j arms[j] (by simp) _] at this
  injection this with this
  rw [← this]
  simp only
  unfold armFactor
  have e : φ j - 4 * Real.pi * ((j : ℕ) / arms.length) = -(2 * Real.pi * ((j : ℕ) / arms.length)) + (φ j + -(2 * Real.pi * ((j : ℕ) / arms.length))) := by ring
  rw [e, turn_add, turn_add]
  ring

/-- **C88.** Two arms: the power follows the cosine of the difference of the phases, with full contrast exactly when the light is split evenly. -/
theorem C88_two_arms {r : ℝ} (h0 : 0 ≤ r) (h1 : r ≤ 1) (φ : Nat → ℝ) :
    ‖phaseResponse [r] 2 φ‖ ^ 2 = 1 / 2 + Real.sqrt (r * (1 - r)) * Real.cos (φ 0 - φ 1) := by
  have hw : splitWeights [r] = [1 - r, r] := by simp [splitWeights]
  unfold phaseResponse
  rw [hw, Finset.sum_range_succ, Finset.sum_range_one]
  have e1 : turn (φ 1 - 4 * Real.pi * ((1 : ℕ) / (2 : ℕ))) = turn (φ 1) := by
    unfold turn
    have : (((φ 1 - 4 * Real.pi * ((1 : ℕ) / (2 : ℕ)) : ℝ)) : ℂ) * I = (φ 1 : ℂ) * I - 2 * Real.pi * I := by push_cast; ring
    rw [this, Complex.exp_sub, Complex.exp_two_pi_mul_I, div_one]
  rw [e1]
  have e0 : turn (φ 0 - 4 * Real.pi * ((0 : ℕ) / (2 : ℕ))) = turn (φ 0) := by congr 1; simp
  rw [e0]
  simp only [List.getD_cons_zero, List.getD_cons_succ]
  have hs : ∀ a b : ℝ, ‖(a : ℂ) * turn (φ 0) + (b : ℂ) * turn (φ 1)‖ ^ 2 = a ^ 2 + b ^ 2 + 2 * a * b * Real.cos (φ 0 - φ 1) := by
    intro a b
    unfold turn
    rw [Complex.sq_norm, Complex.normSq_apply]
    simp only [Complex.add_re, Complex.add_im, Complex.mul_re, Complex.mul_im, Complex.ofReal_re, Complex.ofReal_im, Complex.exp_ofReal_mul_I_re,
      Complex.exp_ofReal_mul_I_im, Real.cos_sub]
    have p0 := Real.sin_sq_add_cos_sq (φ 0)
    have p1 := Real.sin_sq_add_cos_sq (φ 1)
    linear_combination a ^ 2 * p0 + b ^ 2 * p1
  rw [hs, div_pow, div_pow, Real.sq_sqrt h0, Real.sq_sqrt (by linarith), Real.sqrt_mul h0]
  have h2 : Real.sqrt ((2 : ℕ) : ℝ) ^ 2 = 2 := by rw [Real.sq_sqrt (by norm_num)]; norm_num
  have h2' : Real.sqrt ((2 : ℕ) : ℝ) ≠ 0 := by intro h; rw [h] at h2; norm_num at h2
  field_simp
  rw [h2]; ring

/-- **C88.** The textbook interferometer: with an even split all light leaves when the arms are in phase and none when they are opposed. -/
theorem C88_balanced (φ : Nat → ℝ) : ‖phaseResponse [1 / 2] 2 φ‖ ^ 2 = Real.cos ((φ 0 - φ 1) / 2) ^ 2 := by
  rw [C88_two_arms (by norm_num) (by norm_num), Real.cos_sq]
  have : Real.sqrt (1 / 2 * (1 - 1 / 2)) = 1 / 2 := by
    rw [show (1 / 2 * (1 - 1 / 2) : ℝ) = (1 / 2) ^ 2 by norm_num, Real.sqrt_sq (by norm_num)]
  rw [this, show 2 * ((φ 0 - φ 1) / 2) = φ 0 - φ 1 by ring]
  ring

/-- **C88.** Whatever the phases, the number of arms and the split, nothing is amplified. -/
theorem C88_passive {r : List ℝ} (hr : ∀ w ∈ splitWeights r, 0 ≤ w) {N : Nat} (hN : r.length + 1 = N) (φ : Nat → ℝ) : ‖phaseResponse r N φ‖ ≤ 1 := by
  have hlen : (splitWeights r).length = N := by rw [← hN]; simp [splitWeights]
  have hN0 : (0 : ℝ) < N := by rw [← hN]; positivity
  have hsum : ∑ j ∈ Finset.range N, (splitWeights r).getD j 0 = 1 := by
    rw [← C38_sum_one r, ← hlen, Finset.sum_range, ← List.sum_ofFn]
    congr 1
    apply List.ext_getElem
    · simp
    · intro i h1 h2; simp [List.getD]
  have hnn : ∀ j, 0 ≤ (splitWeights r).getD j 0 := by
    intro j
    by_cases hj : j < (splitWeights r).length
    · have : (splitWeights r).getD j 0 = (splitWeights r)[j] := by simp [List.getD, hj]
      rw [this]; exact hr _ (List.getElem_mem _)
    · simp [List.getD, List.getElem?_eq_none (by omega : (splitWeights r).length ≤ j)]
  calc ‖phaseResponse r N φ‖ ≤ ∑ j ∈ Finset.range N, Real.sqrt ((splitWeights r).getD j 0) / Real.sqrt N := by
        unfold phaseResponse
        refine (norm_sum_le _ _).trans (Finset.sum_le_sum fun j _ => ?_)
        rw [norm_mul, turn_norm, mul_one, Complex.norm_real, Real.norm_of_nonneg (by positivity)]
    _ = (∑ j ∈ Finset.range N, Real.sqrt ((splitWeights r).getD j 0) * 1) / Real.sqrt N := by rw [← Finset.sum_div]; simp
    _ ≤ Real.sqrt N / Real.sqrt N := by
        apply div_le_div_of_nonneg_right _ (Real.sqrt_nonneg _)
        have := Finset.sum_mul_sq_le_sq_mul_sq (Finset.range N) (fun j => Real.sqrt ((splitWeights r).getD j 0)) (fun _ => (1 : ℝ))
        simp only [Real.sq_sqrt (hnn _), one_pow, Finset.sum_const, Finset.card_range, nsmul_eq_mul, mul_one, hsum, one_mul] at this
        simp only [mul_one]
        exact Real.le_sqrt_of_sq_le this
    _ = 1 := div_self (by positivity)

theorem turn_pow (θ : ℝ) (j : ℕ) : turn θ ^ j = turn (j * θ) := by
  unfold turn; rw [← Complex.exp_nat_mul]; congr 1; push_cast; ring

theorem turn_sum_zero {N : ℕ} (hN : 3 ≤ N) : ∑ j ∈ Finset.range N, turn (-(4 * Real.pi * (j / N))) = 0 := by
  have hN0 : (N : ℝ) ≠ 0 := by positivity
  have e : ∀ j ∈ Finset.range N, turn (-(4 * Real.pi * (j / N))) = turn (-(4 * Real.pi / N)) ^ j := by
    intro j _; rw [turn_pow]; congr 1; ring
  rw [Finset.sum_congr rfl e]
  have h1 : turn (-(4 * Real.pi / N)) ≠ 1 := by
    intro h
    unfold turn at h
    rw [Complex.exp_eq_one_iff] at h
    obtain ⟨m, hm⟩ := h
    have h2 : (-(4 * Real.pi / N) : ℝ) = m * (2 * Real.pi) := by
      have := congrArg Complex.im hm
      simpa using this
    have h3 : (m : ℝ) * N = -2 := by
      field_simp at h2
      linarith
    have h4 : m * (N : ℤ) = -2 := by exact_mod_cast h3
    have h5 : (N : ℤ) ∣ 2 := ⟨-m, by rw [mul_neg, mul_comm, h4]; norm_num⟩
    have := Int.le_of_dvd (by norm_num) h5
    omega
  rw [geom_sum_eq h1, turn_pow]
  have : turn (N * -(4 * Real.pi / N)) = 1 := by
    rw [show (N : ℝ) * -(4 * Real.pi / N) = -(4 * Real.pi) by field_simp]
    unfold turn
    rw [Complex.exp_eq_one_iff]
    exact ⟨-2, by push_cast; ring⟩
  rw [this]; simp


theorem default_weight {N : ℕ} (hN : 0 < N) {j : ℕ} (hj : j < N) : (splitWeights (splitUpdate ℝ N).params).getD j 0 = 1 / (N : ℝ) := by
  rw [C38_default_equal hN]
  simp [List.getD, hj]

theorem sqrt_default {N : ℕ} (hN : 0 < N) : Real.sqrt (1 / (N : ℝ)) / Real.sqrt N = 1 / N := by
  have : (0 : ℝ) < N := by exact_mod_cast hN
  rw [Real.sqrt_div zero_le_one, Real.sqrt_one, div_div, Real.mul_self_sqrt this.le]

theorem scales_of {P : Prop_ n} (hdt : P.dt ≠ 0) {o : Optic n} (h1 : ¬ o.IsDetector) (h3 : ¬ o.Saturates) (h4 : ∀ x, o ≠ .source x)
    {x y : Signal n} (c : ℂ) (h : o.apply P x = .ok y) : o.apply P (fun t => c * x t) = .ok (fun t => c * y t) := by
  by_cases h2 : o.IsModulator
  · obtain ⟨m, hm⟩ := apply_mod (P := P) h2
    rw [hm] at h ⊢
    injection h with h
    rw [← h]; congr 1; funext t; ring
  · rcases apply_lti hdt h1 h2 h3 h4 with ⟨H, hH⟩ | ⟨e, he⟩
    · rw [hH] at h ⊢
      injection h with h
      rw [← h, lti_smul]
    · rw [he] at h; cases h

/-- **C88 (finding).** Three or more arms with the same component, light split evenly as by default: the turns of splitter and joiner add up to
`-4πj/N`, the arms cancel, and no light comes out. -/
theorem C88_dark (hn : 2 ≤ n) {P : Prop_ n} (hwin : 0 < P.window) {g : Graph} (hw : g.WF) {optic : Comp → Optic n} {conn : Comp → Connector}
    {hasNoise : Comp → Bool} {a b : Node} {eIn eOut : Edge} {arms : List Edge} (hI : Interferometer g a b eIn eOut arms) (hN : 3 ≤ arms.length)
    (ha : conn a.comp = .splitter (splitUpdate ℝ arms.length).params) (hb : conn b.comp = .splitter [])
    {o : Optic n} (ho : ∀ e ∈ arms, optic e.comp = o) (h1 : ¬ o.IsDetector) (h2 : ¬ o.Saturates) (h3 : ∀ x, o ≠ .source x)
    {inp : Signal n} {old st : Store (Signal n)} (h : propagate g (physics P optic conn hasNoise) inp old = .ok st) :
    ∃ z, st (.edge eOut.ref) = some z ∧ (optic eOut.comp).apply P (fun _ => 0) = .ok z := by
  obtain ⟨x, y, z, k1, k2, k3, k4⟩ := C88_field hw hI ha hb h
  have hdt := dt_ne_zero hn hwin
  have hN0 : 0 < arms.length := by omega
  refine ⟨z, k4, ?_⟩
  rw [← k3]
  congr 1
  -- what the component makes of the field in front
  have hf0 : armFactor (splitUpdate ℝ arms.length).params arms.length 0 = ((1 / (arms.length : ℝ) : ℝ) : ℂ) := by
    unfold armFactor
    rw [default_weight hN0 hN0, sqrt_default hN0]
    simp [turn_zero]
  have hne : ((1 / (arms.length : ℝ) : ℝ) : ℂ) ≠ 0 := by
    have : (arms.length : ℝ) ≠ 0 := by exact_mod_cast hN0.ne'
    exact_mod_cast one_div_ne_zero this
  have hoj : ∀ j : Fin arms.length, optic arms[j].comp = o := fun j => ho _ (List.getElem_mem _)
  obtain ⟨v, hv⟩ : ∃ v, v = y ⟨0, hN0⟩ := ⟨_, rfl⟩
  have h0 := (k2 ⟨0, hN0⟩).1
  rw [hoj, hf0, ← hv] at h0
  have hy : ∀ j : Fin arms.length, y j = fun t => turn (-(2 * Real.pi * ((j : ℕ) / arms.length))) * v t := by
    intro j
    have hj := (k2 j).1
    rw [hoj] at hj
    have e : armFactor (splitUpdate ℝ arms.length).params arms.length j = turn (-(2 * Real.pi * ((j : ℕ) / arms.length))) * ((1 / (arms.length : ℝ) : ℝ) : ℂ) := by
      unfold armFactor
      rw [default_weight hN0 j.isLt, sqrt_default hN0, mul_comm]
    have := scales_of hdt h1 h2 h3 (turn (-(2 * Real.pi * ((j : ℕ) / arms.length)))) h0
    rw [e] at hj
    generalize turn (-(2 * Real.pi * ((j : ℕ) / arms.length))) = q at hj this ⊢
    simp only [mul_assoc] at hj this
    rw [this] at hj
    injection hj with hj
    exact hj.symm
  funext t
  simp_rw [hy]
  have e : ∀ j : Fin arms.length, turn (-(2 * Real.pi * ((j : ℕ) / arms.length))) * (turn (-(2 * Real.pi * ((j : ℕ) / arms.length))) * v t) =
      turn (-(4 * Real.pi * ((j : ℕ) / arms.length))) * v t := by
    intro j
    rw [← mul_assoc, ← turn_add]; congr 2; ring
  simp_rw [e]
  rw [← Finset.sum_mul, ← Finset.sum_range (fun j : ℕ => turn (-(4 * Real.pi * ((j : ℕ) / arms.length)))), turn_sum_zero hN, zero_mul]

/-- **C88.** … all of it comes out when arm `j` makes up for its turn. -/
theorem C88_bright {N : ℕ} (hN : 0 < N) (c : ℝ) : phaseResponse (splitUpdate ℝ N).params N (fun j => c + 4 * Real.pi * (j / N)) = turn c := by
  unfold phaseResponse
  have : ∀ j ∈ Finset.range N, ((Real.sqrt ((splitWeights (splitUpdate ℝ N).params).getD j 0) / Real.sqrt N : ℝ) : ℂ) *
      turn (c + 4 * Real.pi * (j / N) - 4 * Real.pi * (j / N)) = ((1 / (N : ℝ) : ℝ) : ℂ) * turn c := by
    intro j hj
    rw [default_weight hN (Finset.mem_range.1 hj), sqrt_default hN, add_sub_cancel_right]
  rw [Finset.sum_congr rfl this, Finset.sum_const, Finset.card_range, nsmul_eq_mul, ← mul_assoc]
  have hN0 : (N : ℂ) ≠ 0 := by exact_mod_cast hN.ne'
  have e : (N : ℂ) * ((1 / (N : ℝ) : ℝ) : ℂ) = 1 := by push_cast; field_simp
  rw [e, one_mul]

theorem npFft_sum {m : ℕ} (c : Fin m → ℂ) (y : Fin m → Signal n) (k : Fin n) :
    npFft (fun t => ∑ j, c j * y j t) k = ∑ j, c j * npFft (y j) k := by
  unfold npFft
  simp_rw [Finset.mul_sum]
  rw [Finset.sum_comm]
  apply Finset.sum_congr rfl
  intro t _
  rw [Finset.sum_mul]
  apply Finset.sum_congr rfl
  intro j _
  ring

/-- A delay line delays by its parameter (but see `C79_earlier`: towards earlier times), a waveguide not at all. -/
theorem delays_delayLine (hn : 2 ≤ n) {P : Prop_ n} (hw : 0 < P.window) (τ : ℝ) : DelaysBy P (.delayLine τ) τ := by
  intro x
  refine ⟨_, rfl, fun k => ?_⟩
  rw [delayLine_eq, freqMul_eq _ (dt_ne_zero hn hw), npFft_npIfft]
  congr 1
  unfold turn ifftShift
  rw [delayPhase_eq, mul_comm I]

theorem delays_waveguide (P : Prop_ n) : DelaysBy P .waveguide 0 := by
  intro x; exact ⟨_, rfl, fun k => by simp [waveguide, turn_zero]⟩

/-- **C88.** Arms that delay: each line of the spectrum is weighted as in an interferometer with phases `2π·frequency·delay`. -/
theorem C88_delays {P : Prop_ n} {g : Graph} (hw : g.WF) {optic : Comp → Optic n} {conn : Comp → Connector} {hasNoise : Comp → Bool}
    {a b : Node} {eIn eOut : Edge} {arms : List Edge} (hI : Interferometer g a b eIn eOut arms)
    {r : List ℝ} (ha : conn a.comp = .splitter r) (hb : conn b.comp = .splitter [])
    {τ : Nat → ℝ} (hτ : ∀ j e, arms[j]? = some e → DelaysBy P (optic e.comp) (τ j))
    {inp : Signal n} {old st : Store (Signal n)} (h : propagate g (physics P optic conn hasNoise) inp old = .ok st) :
    ∃ x u z, st (.edge eIn.ref) = some x ∧ st (.edge eOut.ref) = some z ∧ (optic eOut.comp).apply P u = .ok z ∧
      ∀ k, npFft u k = phaseResponse r arms.length (fun j => 2 * Real.pi * (ifftShift P.f k + P.central) * τ j) * npFft x k := by
  obtain ⟨x, y, z, h1, h2, h3, h4⟩ := C88_field hw hI ha hb h
  refine ⟨x, _, z, h1, h4, h3, fun k => ?_⟩
  rw [npFft_sum]
  unfold phaseResponse
  rw [Finset.sum_range, Finset.sum_mul]
  apply Finset.sum_congr rfl
  intro j _
  obtain ⟨y', hy', hk⟩ := hτ j arms[j] (by simp) (fun t => armFactor r arms.length j * x t)
  have := (h2 j).1
  rw [hy'] at this
  injection this with this
  rw [← this, hk, npFft_smul]
  unfold armFactor
  obtain ⟨p, hp⟩ : ∃ p, p = 2 * Real.pi * (ifftShift P.f k + P.central) * τ j := ⟨_, rfl⟩
  beta_reduce
  rw [← hp]
  have e : p - 4 * Real.pi * ((j : ℕ) / arms.length) = -(2 * Real.pi * ((j : ℕ) / arms.length)) + (p + -(2 * Real.pi * ((j : ℕ) / arms.length))) := by ring
  rw [e, turn_add, turn_add]
  ring

/-- **C88.** An unbalanced interferometer is a comb filter: the power of a spectral line is weighted with a cosine of its frequency, of period
one over the difference of the delays. -/
theorem C88_comb_filter {P : Prop_ n} {g : Graph} (hw : g.WF) {optic : Comp → Optic n} {conn : Comp → Connector} {hasNoise : Comp → Bool}
    {a b : Node} {eIn eOut e0 e1 : Edge} (hI : Interferometer g a b eIn eOut [e0, e1])
    {r : ℝ} (h0 : 0 ≤ r) (h1 : r ≤ 1) (ha : conn a.comp = .splitter [r]) (hb : conn b.comp = .splitter [])
    {τ₀ τ₁ : ℝ} (hτ₀ : DelaysBy P (optic e0.comp) τ₀) (hτ₁ : DelaysBy P (optic e1.comp) τ₁)
    {inp : Signal n} {old st : Store (Signal n)} (h : propagate g (physics P optic conn hasNoise) inp old = .ok st) :
    ∃ x u z, st (.edge eIn.ref) = some x ∧ st (.edge eOut.ref) = some z ∧ (optic eOut.comp).apply P u = .ok z ∧
      ∀ k, ‖npFft u k‖ ^ 2 = (1 / 2 + Real.sqrt (r * (1 - r)) * Real.cos (2 * Real.pi * (ifftShift P.f k + P.central) * (τ₀ - τ₁))) * ‖npFft x k‖ ^ 2 := by
  obtain ⟨x, u, z, k1, k2, k3, k4⟩ := C88_delays hw hI ha hb (τ := fun j => if j = 0 then τ₀ else τ₁) (by
    intro j e he
    match j, he with
    | 0, he => injection he with he; subst he; simpa using hτ₀
    | 1, he => injection he with he; subst he; simpa using hτ₁) h
  refine ⟨x, u, z, k1, k2, k3, fun k => ?_⟩
  rw [k4, norm_mul, mul_pow]
  have := C88_two_arms h0 h1 (fun j => 2 * Real.pi * (ifftShift P.f k + P.central) * (if j = 0 then τ₀ else τ₁))
  rw [show ([e0, e1] : List Edge).length = 2 from rfl, this]
  simp only [if_true, one_ne_zero, if_false]
  congr 4; ring

/-! ### The sensitivity of an interferometer -/

/-- What is read behind a two-arm interferometer with a source in front and a power meter behind. -/
theorem interferometer_reading {P : Prop_ n} {g : Graph} (hw : g.WF) {optic : Comp → Optic n} {conn : Comp → Connector} {hasNoise : Comp → Bool}
    {a b s : Node} {eIn eOut e0 e1 : Edge} (hI : Interferometer g a b eIn eOut [e0, e1])
    {r : ℝ} (h0 : 0 ≤ r) (h1 : r ≤ 1) (ha : conn a.comp = .splitter [r]) (hb : conn b.comp = .splitter [])
    (hs : s ∈ g.nodes) (hsi : g.inEdges s.id = [eOut]) (hso : g.outEdges s.id = []) (hc : conn s.comp = .terminal)
    {field : Signal n} (hfield : optic eIn.comp = .source field) (hmeas : optic eOut.comp = .measure)
    {φ ψ : ℝ} (hφ : TurnsPhase P (optic e0.comp) φ) (hψ : TurnsPhase P (optic e1.comp) ψ)
    {inp : Signal n} {old st : Store (Signal n)} (h : propagate g (physics P optic conn hasNoise) inp old = .ok st) :
    st (.node s.id) = some (fun t => (((1 / 2 + Real.sqrt (r * (1 - r)) * Real.cos (φ - ψ)) * power_ field t : ℝ) : ℂ)) := by
  obtain ⟨x, z, k1, k2, k3⟩ := C88_phases hw hI ha hb (φ := fun j => if j = 0 then φ else ψ) (by
    intro j e he
    match j, he with
    | 0, he => injection he with he; subst he; simpa using hφ
    | 1, he => injection he with he; subst he; simpa using hψ) h
  have hF := ((propagate_iff hw).1 h).2
  -- the source
  have hx : x = field := by
    have hin : eIn ∈ g.edges := (mem_inEdges.1 (by rw [hI.into]; simp : eIn ∈ g.inEdges a.id)).1
    obtain ⟨_, _, _, _, _, s0, s1, s2, _, _, _, h5, h6, h7⟩ := hF.edges eIn hin
    obtain rfl := physics_through h6
    simp only [physics, hfield, Optic.apply] at h5
    injection h5 with h5
    rw [k1] at h7
    injection h7 with h7
    rw [h7, h5]
  obtain ⟨outs, q, ⟨ins, hin, ho⟩, hq, hst⟩ := hF.sinks s hs ((isSink_iff_outEdges hs).2 hso)
  rw [hst]
  have hz : ins = [z] := by
    rcases hin with ⟨h1, _⟩ | ⟨_, h2⟩
    · rw [hsi] at h1; cases h1
    · rw [hsi] at h2
      simp only [List.map_cons, List.map_nil, k2] at h2
      cases ins with
      | nil => simp at h2
      | cons q l =>
        simp only [List.map_cons, List.cons.injEq, Option.some.injEq] at h2
        obtain ⟨rfl, h3⟩ := h2
        rw [List.map_eq_nil_iff.1 h3.symm]
  simp only [physics, hc, Connector.apply] at ho
  injection ho with ho
  rw [← ho, hz] at hq
  injection hq with hq
  rw [← hq]
  rw [hmeas] at k3
  simp only [Optic.apply] at k3
  injection k3 with k3
  rw [← k3, hx]
  congr 1
  funext t
  congr 1
  unfold Verif.measure power_
  rw [norm_mul, mul_pow, show ([e0, e1] : List Edge).length = 2 from rfl, C88_two_arms h0 h1]
  simp

/-- **C88.** The score of `PhaseSensitivity`: for an interferometer whose phase shifter is the one of the graph, between a source and a power meter,
it is minus the mean power of the source, times the contrast, times the sine of the difference of the phases. -/
theorem C88_score {P : Prop_ n} {g : Graph} (hw : g.WF) {optic : ℝ → Comp → Optic n} {conn : Comp → Connector} {hasNoise : Comp → Bool}
    {a b s : Node} {eIn eOut e0 e1 : Edge} (hI : Interferometer g a b eIn eOut [e0, e1])
    {r : ℝ} (h0 : 0 ≤ r) (h1 : r ≤ 1) (ha : conn a.comp = .splitter [r]) (hb : conn b.comp = .splitter [])
    (hs : s ∈ g.nodes) (hsi : g.inEdges s.id = [eOut]) (hso : g.outEdges s.id = []) (hc : conn s.comp = .terminal)
    {field : Signal n} (hfield : ∀ x, optic x eIn.comp = .source field) (hmeas : ∀ x, optic x eOut.comp = .measure)
    {φ ψ : ℝ} (hφ : ∀ x, TurnsPhase P (optic x e0.comp) x) (hψ : ∀ x, TurnsPhase P (optic x e1.comp) ψ)
    {B : Sim n} {inp : Signal n} {w : Session n} (hB : ∀ x, B w.flag (w.setParams e0.comp.uid [x]).params = physics P (optic x) conn hasNoise)
    (hrun : ∀ x old, ∃ st, propagate g (physics P (optic x) conn hasNoise) inp old = .ok st)
    {cls : ClassId} (hcls : edgesOfClass g cls = [e0]) (hw0 : w.params e0.comp.uid = [φ]) :
    ∃ w', evaluate g B inp (.phase cls (.node s.id)) w = (w', .ok (-(npMean (power_ field) * Real.sqrt (r * (1 - r)) * |Real.sin (φ - ψ)|))) ∧
      w'.params = w.params := by
  have key : ∀ x, ∃ st, phaseMean g B inp (.node s.id) e0.comp.uid w x =
      ({ (w.setParams e0.comp.uid [x]) with saves := st }, .ok ((1 / 2 + Real.sqrt (r * (1 - r)) * Real.cos (x - ψ)) * npMean (power_ field))) := by
    intro x
    obtain ⟨st, hst⟩ := hrun x w.saves
    have hr := interferometer_reading hw hI h0 h1 ha hb hs hsi hso hc (hfield x) (hmeas x) (hφ x) (hψ x) hst
    refine ⟨st, ?_⟩
    have hp : (w.setParams e0.comp.uid [x]).propagate g B inp = ({ (w.setParams e0.comp.uid [x]) with saves := st }, .ok ()) := by
      unfold Session.propagate
      have : Verif.propagate g (B (w.setParams e0.comp.uid [x]).flag (w.setParams e0.comp.uid [x]).params) inp (w.setParams e0.comp.uid [x]).saves = .ok st := by
        rw [show (w.setParams e0.comp.uid [x]).flag = w.flag from rfl, hB x]; exact hst
      rw [this]
    unfold phaseMean Session.run
    rw [hp]
    simp only [Session.measure, hr]
    congr 2
    unfold npMean
    simp only [Complex.ofReal_re]
    rw [← Finset.mul_sum, mul_div_assoc]
  obtain ⟨st, hst⟩ := key φ
  refine ⟨({ (w.setParams e0.comp.uid [φ]) with saves := st } : Session n).setParams e0.comp.uid [φ], ?_, ?_⟩
  · unfold evaluate
    simp only [hcls, hw0, hst]
    congr 3
    have hf : (fun x => valueOf (phaseMean g B inp (.node s.id) e0.comp.uid w x).2) =
        fun x => (1 / 2 + Real.sqrt (r * (1 - r)) * Real.cos (x - ψ)) * npMean (power_ field) := by
      funext x
      obtain ⟨st, h⟩ := key x
      rw [h]; rfl
    rw [hf]
    have hd : HasDerivAt (fun x => (1 / 2 + Real.sqrt (r * (1 - r)) * Real.cos (x - ψ)) * npMean (power_ field))
        ((Real.sqrt (r * (1 - r)) * (-Real.sin (φ - ψ) * 1)) * npMean (power_ field)) φ :=
      (((((hasDerivAt_id φ).sub_const ψ).cos).const_mul _).const_add _).mul_const _
    rw [hd.deriv, abs_mul, abs_mul, mul_one, abs_neg, abs_of_nonneg (Real.sqrt_nonneg _),
      abs_of_nonneg (npMean_power_nonneg field)]
    ring
  · funext m
    simp only [Session.setParams]
    split
    · rename_i h; rw [h, hw0]
    · rfl

/-- **C88.** So no interferometer of this kind scores below minus half the mean power; it is reached with an even split in quadrature,
while in phase and opposed arms score zero. -/
theorem C88_score_range {p r : ℝ} (hp : 0 ≤ p) (δ : ℝ) :
    -(p / 2) ≤ -(p * Real.sqrt (r * (1 - r)) * |Real.sin δ|) ∧
    -(p * Real.sqrt (1 / 2 * (1 - 1 / 2)) * |Real.sin (Real.pi / 2)|) = -(p / 2) ∧
    ∀ m : ℤ, -(p * Real.sqrt (r * (1 - r)) * |Real.sin (m * Real.pi)|) = 0 := by
  have e : Real.sqrt (1 / 2 * (1 - 1 / 2)) = 1 / 2 := by
    rw [show (1 / 2 * (1 - 1 / 2) : ℝ) = (1 / 2) ^ 2 by norm_num, Real.sqrt_sq (by norm_num)]
  refine ⟨?_, ?_, fun m => ?_⟩
  · have hs : Real.sqrt (r * (1 - r)) ≤ 1 / 2 := by
      rw [← e]; exact Real.sqrt_le_sqrt (by nlinarith [sq_nonneg (r - 1 / 2)])
    have h2 := Real.abs_sin_le_one δ
    have h3 : p * Real.sqrt (r * (1 - r)) * |Real.sin δ| ≤ p * (1 / 2) * 1 := by gcongr
    linarith
  · rw [e, Real.sin_pi_div_two]; simp; ring
  · rw [Real.sin_int_mul_pi]; simp

/-- **C88.** The score of `SecondOrderDifferentialSensitivity` on the same interferometer with a phase shifter in each arm. -/
theorem C88_second_score {P : Prop_ n} {g : Graph} (hw : g.WF) {optic : ℝ → ℝ → Comp → Optic n} {conn : Comp → Connector} {hasNoise : Comp → Bool}
    {a b s : Node} {eIn eOut e0 e1 : Edge} (hI : Interferometer g a b eIn eOut [e0, e1])
    {r : ℝ} (h0 : 0 ≤ r) (h1 : r ≤ 1) (ha : conn a.comp = .splitter [r]) (hb : conn b.comp = .splitter [])
    (hs : s ∈ g.nodes) (hsi : g.inEdges s.id = [eOut]) (hso : g.outEdges s.id = []) (hc : conn s.comp = .terminal)
    {field : Signal n} (hfield : ∀ x y, optic x y eIn.comp = .source field) (hmeas : ∀ x y, optic x y eOut.comp = .measure)
    {φ ψ : ℝ} (hφ : ∀ x y, TurnsPhase P (optic x y e0.comp) x) (hψ : ∀ x y, TurnsPhase P (optic x y e1.comp) y)
    {B : Sim n} {inp : Signal n} {w : Session n}
    (hB : ∀ x y, B w.flag ((w.setParams e0.comp.uid [x]).setParams e1.comp.uid [y]).params = physics P (optic x y) conn hasNoise)
    (hrun : ∀ x y old, ∃ st, propagate g (physics P (optic x y) conn hasNoise) inp old = .ok st)
    {cls : ClassId} (hcls : 2 ≤ (edgesOfClass g cls).length) (hw0 : w.params e0.comp.uid = [φ]) (hw1 : w.params e1.comp.uid = [ψ]) :
    ∃ w', evaluate g B inp (.second cls e0.comp.uid e1.comp.uid (.node s.id)) w = (w', .ok (
      -(2 * npMean (fun t => power_ field t ^ 2) * Real.sqrt (r * (1 - r)) * |Real.sin (φ - ψ)| * (1 / 2 + Real.sqrt (r * (1 - r)) * Real.cos (φ - ψ)) +
        (npMean (fun t => power_ field t ^ 2) * Real.sqrt (r * (1 - r)) * (Real.cos (φ - ψ) + 2 * Real.sqrt (r * (1 - r)) * Real.cos (2 * (φ - ψ)))) ^ 2))) ∧
      w'.params = w.params := by
  obtain ⟨c, hc0⟩ : ∃ c, c = Real.sqrt (r * (1 - r)) := ⟨_, rfl⟩
  obtain ⟨M, hM⟩ : ∃ M, M = npMean (fun t => power_ field t ^ 2) := ⟨_, rfl⟩
  have hcn : 0 ≤ c := by rw [hc0]; exact Real.sqrt_nonneg _
  have hMn : 0 ≤ M := by rw [hM]; exact div_nonneg (Finset.sum_nonneg fun i _ => sq_nonneg _) (Nat.cast_nonneg _)
  have hch : c ≤ 1 / 2 := by
    rw [hc0]; exact Real.sqrt_le_iff.2 ⟨by norm_num, by nlinarith [sq_nonneg (r - 1 / 2)]⟩
  have key : ∀ x y, ∃ st, phaseMeanBoth g B inp (.node s.id) e0.comp.uid e1.comp.uid w x y =
      ({ ((w.setParams e0.comp.uid [x]).setParams e1.comp.uid [y]) with saves := st }, .ok (M * (1 / 2 + c * Real.cos (x - y)) ^ 2)) := by
    intro x y
    obtain ⟨st, hst⟩ := hrun x y w.saves
    have hr := interferometer_reading hw hI h0 h1 ha hb hs hsi hso hc (hfield x y) (hmeas x y) (hφ x y) (hψ x y) hst
    refine ⟨st, ?_⟩
    have hp : ((w.setParams e0.comp.uid [x]).setParams e1.comp.uid [y]).propagate g B inp =
        ({ ((w.setParams e0.comp.uid [x]).setParams e1.comp.uid [y]) with saves := st }, .ok ()) := by
      unfold Session.propagate
      have : Verif.propagate g (B ((w.setParams e0.comp.uid [x]).setParams e1.comp.uid [y]).flag ((w.setParams e0.comp.uid [x]).setParams e1.comp.uid [y]).params) inp
          ((w.setParams e0.comp.uid [x]).setParams e1.comp.uid [y]).saves = .ok st := by
        rw [show ((w.setParams e0.comp.uid [x]).setParams e1.comp.uid [y]).flag = w.flag from rfl, hB x y]; exact hst
      rw [this]
    unfold phaseMeanBoth Session.run
    rw [hp]
    simp only [Session.measure, hr]
    congr 2
    rw [hM, hc0]
    unfold npMean
    have : ∀ t, ((((1 / 2 + Real.sqrt (r * (1 - r)) * Real.cos (x - y)) * power_ field t : ℝ) : ℂ) ^ 2).re =
        (1 / 2 + Real.sqrt (r * (1 - r)) * Real.cos (x - y)) ^ 2 * power_ field t ^ 2 := by
      intro t
      rw [← Complex.ofReal_pow, Complex.ofReal_re, mul_pow]
    simp_rw [this]
    rw [← Finset.mul_sum]; ring
  obtain ⟨st, hst⟩ := key φ ψ
  refine ⟨(({ ((w.setParams e0.comp.uid [φ]).setParams e1.comp.uid [ψ]) with saves := st } : Session n).setParams e0.comp.uid [φ]).setParams e1.comp.uid [ψ], ?_, ?_⟩
  · unfold evaluate
    dsimp only
    rw [if_neg (by omega)]
    simp only [hw0, hw1, hst]
    congr 2
    have hf : ∀ y, (fun x => valueOf (phaseMeanBoth g B inp (.node s.id) e0.comp.uid e1.comp.uid w x y).2) =
        fun x => M * (1 / 2 + c * Real.cos (x - y)) ^ 2 := by
      intro y
      funext x
      obtain ⟨st, h⟩ := key x y
      rw [h]; rfl
    have hd : ∀ x y, deriv (fun x => M * (1 / 2 + c * Real.cos (x - y)) ^ 2) x = -(2 * M * c) * (Real.sin (x - y) * (1 / 2 + c * Real.cos (x - y))) := by
      intro x y
      have := ((((((hasDerivAt_id x).sub_const y).cos).const_mul c).const_add (1 / 2)).pow 2).const_mul M
      refine (HasDerivAt.deriv this).trans ?_
      simp only [id]; push_cast; ring
    have hd2 : deriv (fun y => -(2 * M * c) * (Real.sin (φ - y) * (1 / 2 + c * Real.cos (φ - y)))) ψ =
        M * c * (Real.cos (φ - ψ) + 2 * c * Real.cos (2 * (φ - ψ))) := by
      have hs' := (((hasDerivAt_id ψ).const_sub φ).sin)
      have hc' := ((((hasDerivAt_id ψ).const_sub φ).cos).const_mul c).const_add (1 / 2)
      have := (hs'.mul hc').const_mul (-(2 * M * c))
      refine (HasDerivAt.deriv this).trans ?_
      simp only [id]
      rw [Real.cos_two_mul]
      have p := Real.sin_sq_add_cos_sq (φ - ψ)
      linear_combination (-2 * M * c ^ 2) * p
    simp_rw [hf, hd]
    rw [hd2, ← hc0, ← hM]
    have hb0 : 0 ≤ 1 / 2 + c * Real.cos (φ - ψ) := by
      have := Real.neg_one_le_cos (φ - ψ)
      nlinarith
    rw [abs_mul, abs_neg, abs_of_nonneg (by positivity : 0 ≤ 2 * M * c), abs_mul, abs_of_nonneg hb0]
    ring
  · funext m
    simp only [Session.setParams]
    split
    · rename_i h; rw [h, hw1]
    · split
      · rename_i h; rw [h, hw0]
      · rfl

/-! ### Worked cases -/

namespace Arms
open Fixture

/-- source 0 → 1, three arms from 1 to 2, 2 → 3 sink. -/
def three : Graph :=
  { nodes := [⟨0, src, 1⟩, ⟨1, split 2, 40⟩, ⟨2, split 3, 40⟩, ⟨3, snk, 2⟩]
    edges := [⟨0, 1, 0, laser 4, 10⟩, ⟨1, 2, 0, Fixture.fiber 5, 30⟩, ⟨1, 2, 1, Fixture.fiber 6, 30⟩, ⟨1, 2, 2, Fixture.fiber 8, 30⟩,
      ⟨2, 3, 0, diode 7, 20⟩] }

theorem three_wf : three.WF where
  ids_nodup := by decide
  refs_nodup := by decide
  src_mem := by decide
  dst_mem := by decide

theorem three_inter : Interferometer three ⟨1, split 2, 40⟩ ⟨2, split 3, 40⟩ ⟨0, 1, 0, laser 4, 10⟩ ⟨2, 3, 0, diode 7, 20⟩
    [⟨1, 2, 0, Fixture.fiber 5, 30⟩, ⟨1, 2, 1, Fixture.fiber 6, 30⟩, ⟨1, 2, 2, Fixture.fiber 8, 30⟩] where
  a_mem := by decide
  b_mem := by decide
  into := by decide
  split := by decide
  join := by decide
  out := by decide

theorem three_acyclic : three.Acyclic :=
  (show three.IsTopo [0, 1, 2, 3] from ⟨by decide, by intro v; rw [show three.ids = [0, 1, 2, 3] by decide], by decide⟩).acyclic

theorem two_inter : Interferometer g ⟨1, split 2, 40⟩ ⟨2, split 3, 40⟩ ⟨0, 1, 0, laser 4, 10⟩ ⟨2, 3, 0, diode 7, 20⟩
    [⟨1, 2, 0, Fixture.fiber 5, 30⟩, ⟨1, 2, 1, shaper 6, 31⟩] where
  a_mem := by decide
  b_mem := by decide
  into := by decide
  split := by decide
  join := by decide
  out := by decide

/-- The two arms of `Fixture.g` with the components `o0` and `o1`, the laser a source, the detector `last`. -/
noncomputable def optic (field : Signal 4) (o0 o1 last : Optic 4) (c : Comp) : Optic 4 :=
  if c.uid = 4 then .source field else if c.uid = 5 then o0 else if c.uid = 6 then o1 else last

noncomputable def conn (r : ℝ) (c : Comp) : Connector :=
  if c.uid = 2 then .splitter [r] else if c.uid = 3 then .splitter [] else .terminal

theorem enough {P : Prop_ 4} {x : Signal 4} {r : ℝ} (h0 : 0 ≤ r) (h1 : r ≤ 1) {o0 o1 last : Optic 4} (k0 : ∀ y, ∃ z, o0.apply P y = .ok z)
    (k1 : ∀ y, ∃ z, o1.apply P y = .ok z) (hl : ∀ y, ∃ z, last.apply P y = .ok z) (hasNoise : Comp → Bool) :
    Enough g (physics P (optic x o0 o1 last) (conn r) hasNoise) where
  node := by
    intro m hm ins hin
    simp only [g, List.mem_cons, List.not_mem_nil, or_false] at hm
    rcases hm with rfl | rfl | rfl | rfl
    · exact ⟨ins, rfl, by rw [hin]; decide⟩
    · refine ⟨(splitWeights [r]).zipIdx.map (fun p => fun t => splitRow 1 2 p.1 p.2 (ins.map (· t))), ?_, by simp [splitWeights]; decide⟩
      show splitSignals [r] 1 2 ins = _
      have hh : ins.length = 1 := hin
      unfold splitSignals
      rw [if_neg (by simp [hh, splitWeights]), if_neg (by simp [splitWeights, h0, h1])]
    · refine ⟨(splitWeights ([] : List ℝ)).zipIdx.map (fun p => fun t => splitRow 2 1 p.1 p.2 (ins.map (· t))), ?_, by simp [splitWeights]; decide⟩
      show splitSignals [] 2 1 ins = _
      have h1 : ins.length = 2 := hin
      unfold splitSignals
      rw [if_neg (by simp [h1, splitWeights]), if_neg (by simp [splitWeights])]
    · exact ⟨ins, rfl, by rw [hin]; decide⟩
  edge := by
    intro e he s
    simp only [g, List.mem_cons, List.not_mem_nil, or_false] at he
    rcases he with rfl | rfl | rfl | rfl
    · exact ⟨x, rfl⟩
    · exact k0 s
    · exact k1 s
    · exact hl s
  noise := by
    intro e _ f hf s
    simp only [physics] at hf
    split at hf
    · injection hf with hf; exact ⟨s, by rw [← hf]⟩
    · cases hf

theorem runs {P : Prop_ 4} (x : Signal 4) {r : ℝ} (h0 : 0 ≤ r) (h1 : r ≤ 1) {o0 o1 last : Optic 4} (k0 : ∀ y, ∃ z, o0.apply P y = .ok z)
    (k1 : ∀ y, ∃ z, o1.apply P y = .ok z) (hl : ∀ y, ∃ z, last.apply P y = .ok z) (hasNoise : Comp → Bool) (inp : Signal 4) (old : Store (Signal 4)) :
    ∃ st, propagate g (physics P (optic x o0 o1 last) (conn r) hasNoise) inp old = .ok st :=
  (C17_propagate_acyclic g_wf (enough h0 h1 k0 k1 hl hasNoise) inp old).1 g_acyclic

theorem demo2 : (2 : ℕ) ≤ 4 ∧ 0 < demoProp.window := by norm_num [demoProp]

/-- A delay line against a waveguide: a comb filter in front of the detector. -/
example (x inp : Signal 4) : ∃ st u z, propagate g (physics demoProp (optic x (.delayLine 3) .waveguide .measure) (conn (1 / 4)) (fun _ => true)) inp Store.empty = .ok st ∧
    st (.edge ⟨2, 3, 0⟩) = some z ∧ (.measure : Optic 4).apply demoProp u = .ok z ∧
    ∀ k, ‖npFft u k‖ ^ 2 = (1 / 2 + Real.sqrt (1 / 4 * (1 - 1 / 4)) * Real.cos (2 * Real.pi * (ifftShift demoProp.f k + demoProp.central) * (3 - 0))) * ‖npFft x k‖ ^ 2 := by
  obtain ⟨st, h⟩ := runs (P := demoProp) x (r := 1 / 4) (by norm_num) (by norm_num) (o0 := .delayLine 3) (o1 := .waveguide) (last := .measure)
    (fun y => ⟨_, rfl⟩) (fun y => ⟨_, rfl⟩) (fun y => ⟨_, rfl⟩) (fun _ => true) inp Store.empty
  obtain ⟨x', u, z, k1, k2, k3, k4⟩ := C88_comb_filter g_wf two_inter (r := 1 / 4) (by norm_num) (by norm_num) rfl rfl
    (delays_delayLine demo2.1 demo2.2 3) (delays_waveguide demoProp) h
  have : x' = x := by
    have hF := ((propagate_iff g_wf).1 h).2
    obtain ⟨_, _, _, _, _, _, _, s2, _, _, _, h5, h6, h7⟩ := hF.edges ⟨0, 1, 0, laser 4, 10⟩ (by decide)
    obtain rfl := physics_through h6
    injection h5 with h5
    rw [k1] at h7
    injection h7 with h7
    rw [h7, ← h5]
  subst this
  exact ⟨st, u, z, h, k2, k3, k4⟩

/-- The parameters of the phase shifter (component 5) are read from the session. -/
noncomputable def sim (x : Signal 4) (ψ : ℝ) : Sim 4 := fun _ p =>
  physics demoProp (optic x (.phaseShifter ((p 5).headD 0)) (.phaseShifter ψ) .measure) (conn (1 / 2)) (fun _ => false)

/-- The even interferometer with a phase of `φ` against `ψ`: the score of `PhaseSensitivity` (phase shifters being of class 30). -/
example (x inp : Signal 4) (φ ψ : ℝ) (w : Session 4) (hw : w.params 5 = [φ]) : ∃ w', evaluate g (sim x ψ) inp (.phase 30 (.node 3)) w =
    (w', .ok (-(npMean (power_ x) * Real.sqrt (1 / 2 * (1 - 1 / 2)) * |Real.sin (φ - ψ)|))) ∧ w'.params = w.params :=
  C88_score g_wf (optic := fun a => optic x (.phaseShifter a) (.phaseShifter ψ) .measure) (conn := conn (1 / 2)) (hasNoise := fun _ => false)
    (s := ⟨3, snk, 2⟩) two_inter (by norm_num) (by norm_num) rfl rfl (by decide) (by decide) (by decide) rfl (field := x) (fun _ => rfl) (fun _ => rfl)
    (fun a => turns_phaseShifter demo2.1 demo2.2 a) (fun _ => turns_phaseShifter demo2.1 demo2.2 ψ) (fun a => rfl)
    (fun a old => runs x (by norm_num) (by norm_num) (fun y => ⟨_, rfl⟩) (fun y => ⟨_, rfl⟩) (fun y => ⟨_, rfl⟩) _ inp old) (by decide) hw

/-- … and with both phases as parameters (components 5 and 6 of class 30 in the graph with three arms would do as well). -/
noncomputable def sim2 (x : Signal 4) : Sim 4 := fun _ p =>
  physics demoProp (optic x (.phaseShifter ((p 5).headD 0)) (.phaseShifter ((p 6).headD 0)) .measure) (conn (1 / 2)) (fun _ => false)

/-- `Fixture.g` with components of the same class in both arms. -/
def twin : Graph := { g with edges := [⟨0, 1, 0, laser 4, 10⟩, ⟨1, 2, 0, Fixture.fiber 5, 30⟩, ⟨1, 2, 1, Fixture.fiber 6, 30⟩, ⟨2, 3, 0, diode 7, 20⟩] }

theorem twin_wf : twin.WF where
  ids_nodup := by decide
  refs_nodup := by decide
  src_mem := by decide
  dst_mem := by decide

theorem twin_inter : Interferometer twin ⟨1, split 2, 40⟩ ⟨2, split 3, 40⟩ ⟨0, 1, 0, laser 4, 10⟩ ⟨2, 3, 0, diode 7, 20⟩
    [⟨1, 2, 0, Fixture.fiber 5, 30⟩, ⟨1, 2, 1, Fixture.fiber 6, 30⟩] where
  a_mem := by decide
  b_mem := by decide
  into := by decide
  split := by decide
  join := by decide
  out := by decide

theorem twin_acyclic : twin.Acyclic :=
  (show twin.IsTopo [0, 1, 2, 3] from ⟨by decide, by intro v; rw [show twin.ids = [0, 1, 2, 3] by decide], by decide⟩).acyclic

theorem enough2 {P : Prop_ 4} {x : Signal 4} {r : ℝ} (h0 : 0 ≤ r) (h1 : r ≤ 1) {o0 o1 last : Optic 4} (k0 : ∀ y, ∃ z, o0.apply P y = .ok z)
    (k1 : ∀ y, ∃ z, o1.apply P y = .ok z) (hl : ∀ y, ∃ z, last.apply P y = .ok z) (hasNoise : Comp → Bool) :
    Enough twin (physics P (optic x o0 o1 last) (conn r) hasNoise) where
  node := by
    intro m hm ins hin
    simp only [twin, g, List.mem_cons, List.not_mem_nil, or_false] at hm
    rcases hm with rfl | rfl | rfl | rfl
    · exact ⟨ins, rfl, by rw [hin]; decide⟩
    · refine ⟨(splitWeights [r]).zipIdx.map (fun p => fun t => splitRow 1 2 p.1 p.2 (ins.map (· t))), ?_, by simp [splitWeights]; decide⟩
      show splitSignals [r] 1 2 ins = _
      have hh : ins.length = 1 := hin
      unfold splitSignals
      rw [if_neg (by simp [hh, splitWeights]), if_neg (by simp [splitWeights, h0, h1])]
    · refine ⟨(splitWeights ([] : List ℝ)).zipIdx.map (fun p => fun t => splitRow 2 1 p.1 p.2 (ins.map (· t))), ?_, by simp [splitWeights]; decide⟩
      show splitSignals [] 2 1 ins = _
      have h1 : ins.length = 2 := hin
      unfold splitSignals
      rw [if_neg (by simp [h1, splitWeights]), if_neg (by simp [splitWeights])]
    · exact ⟨ins, rfl, by rw [hin]; decide⟩
  edge := by
    intro e he s
    simp only [twin, g, List.mem_cons, List.not_mem_nil, or_false] at he
    rcases he with rfl | rfl | rfl | rfl
    · exact ⟨x, rfl⟩
    · exact k0 s
    · exact k1 s
    · exact hl s
  noise := by
    intro e _ f hf s
    simp only [physics] at hf
    split at hf
    · injection hf with hf; exact ⟨s, by rw [← hf]⟩
    · cases hf

example (x inp : Signal 4) (φ ψ : ℝ) (w : Session 4) (hw0 : w.params 5 = [φ]) (hw1 : w.params 6 = [ψ]) :=
  C88_second_score twin_wf (optic := fun a b => optic x (.phaseShifter a) (.phaseShifter b) .measure) (conn := conn (1 / 2)) (hasNoise := fun _ => false)
    (s := ⟨3, snk, 2⟩) twin_inter (by norm_num) (by norm_num) rfl rfl (by decide) (by decide) (by decide) rfl (field := x) (fun _ _ => rfl) (fun _ _ => rfl)
    (fun a _ => turns_phaseShifter demo2.1 demo2.2 a) (fun _ b => turns_phaseShifter demo2.1 demo2.2 b) (B := sim2 x) (inp := inp) (w := w) (fun a b => rfl)
    (fun a b old => (C17_propagate_acyclic twin_wf (enough2 (by norm_num) (by norm_num) (fun y => ⟨_, rfl⟩) (fun y => ⟨_, rfl⟩) (fun y => ⟨_, rfl⟩) _) inp old).1 twin_acyclic)
    (cls := 30) (by decide) hw0 hw1

/-- All arms of `three` carry a kilometre of fibre, light is split evenly: the power meter reads nothing. -/
noncomputable def opticT (field : Signal 4) (c : Comp) : Optic 4 :=
  if c.uid = 4 then .source field else if c.uid = 7 then .measure else .fiber 1000

noncomputable def connT (c : Comp) : Connector :=
  if c.uid = 2 then .splitter (splitUpdate ℝ 3).params else if c.uid = 3 then .splitter [] else .terminal

theorem enoughT (x : Signal 4) : Enough three (physics demoProp (opticT x) connT (fun _ => false)) where
  node := by
    intro m hm ins hin
    simp only [three, List.mem_cons, List.not_mem_nil, or_false] at hm
    rcases hm with rfl | rfl | rfl | rfl
    · exact ⟨ins, rfl, by rw [hin]; decide⟩
    · refine ⟨(splitWeights (splitUpdate ℝ 3).params).zipIdx.map (fun p => fun t => splitRow 1 3 p.1 p.2 (ins.map (· t))), ?_, by
        simp [splitWeights, splitUpdate, defaultRatios]; decide⟩
      show splitSignals (splitUpdate ℝ 3).params 1 3 ins = _
      have hh : ins.length = 1 := hin
      unfold splitSignals
      rw [if_neg (by simp [hh, splitWeights, splitUpdate, defaultRatios]), if_neg (by
        rw [C38_default_equal (by norm_num)]; simp)]
    · refine ⟨(splitWeights ([] : List ℝ)).zipIdx.map (fun p => fun t => splitRow 3 1 p.1 p.2 (ins.map (· t))), ?_, by simp [splitWeights]; decide⟩
      show splitSignals [] 3 1 ins = _
      have h1 : ins.length = 3 := hin
      unfold splitSignals
      rw [if_neg (by simp [h1, splitWeights]), if_neg (by simp [splitWeights])]
    · exact ⟨ins, rfl, by rw [hin]; decide⟩
  edge := by
    intro e he s
    simp only [three, List.mem_cons, List.not_mem_nil, or_false] at he
    rcases he with rfl | rfl | rfl | rfl | rfl
    · exact ⟨x, rfl⟩
    · exact ⟨_, rfl⟩
    · exact ⟨_, rfl⟩
    · exact ⟨_, rfl⟩
    · exact ⟨_, rfl⟩
  noise := by
    intro e _ f hf s
    simp [physics] at hf

example (x inp : Signal 4) : ∃ st, propagate three (physics demoProp (opticT x) connT (fun _ => false)) inp Store.empty = .ok st ∧
    st (.edge ⟨2, 3, 0⟩) = some (fun _ => 0) := by
  obtain ⟨st, h⟩ := (C17_propagate_acyclic three_wf (enoughT x) inp Store.empty).1 three_acyclic
  obtain ⟨z, h1, h2⟩ := C88_dark demo2.1 demo2.2 three_wf three_inter (by decide) rfl rfl (o := .fiber 1000) (by
    intro e he
    simp only [List.mem_cons, List.not_mem_nil, or_false] at he
    rcases he with rfl | rfl | rfl <;> rfl) id id (fun x => by simp) h
  refine ⟨st, h, h1.trans ?_⟩
  have h3 : (Optic.measure : Optic 4).apply demoProp (fun _ => 0) = .ok z := h2
  simp only [Optic.apply] at h3
  injection h3 with h3
  rw [← h3]
  congr 1; funext i; simp [Verif.measure]

example := C88_bright (N := 5) (by norm_num) 2
example := C88_passive (r := [(1/2 : ℝ), 1/4]) (by intro w hw; exact (C38_nonneg (by norm_num) w hw).1) (N := 3) rfl (fun j => j)
example := C88_two_arms (r := 1/4) (by norm_num) (by norm_num) (fun j => j)
example := C88_balanced (fun j => j)
example := C88_score_range (p := 2) (r := 1/3) (by norm_num) 1

end Arms

end Verif
