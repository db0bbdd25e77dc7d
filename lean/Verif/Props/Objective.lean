import Verif.Lemmas.Smooth
import Verif.Props.Scaled
import Verif.Props.Interferometer
import Verif.Props.Metrics
import Verif.Props.Alignment
import Mathlib.Analysis.Calculus.DerivativeTest
import Mathlib.Analysis.Calculus.Deriv.Abs
import Mathlib.Analysis.SpecialFunctions.Complex.LogDeriv
/-!
# C91: gradients and Hessians exist

The objective as a function of the parameters: where it is differentiable, what its derivatives say, and where it is not.
-/

namespace Verif
open Graph Complex Topology Filter

section Main

variable {n : Nat} {E : Type} [NormedAddCommGroup E] [NormedSpace ℝ E] {k : WithTop ℕ∞} {θ₀ : E}

/-! ### States and the objective -/

/-- **C91.** If a system runs at `θ₀` and its components are inside their ranges there, then it runs for all parameters nearby, the same states are stored,
and every stored field is a smooth function of the parameters. -/
theorem C91_state (P : Prop_ n) {g : Graph} {optic : E → Comp → Optic n} {conn : E → Comp → Connector} (hasNoise : Comp → Bool)
    (ho : ∀ e ∈ g.edges, Optic.SmoothAt k θ₀ (fun θ => optic θ e.comp)) (hc : ∀ v ∈ g.nodes, Connector.SmoothAt k θ₀ (fun θ => conn θ v.comp))
    {inp : Signal n} {old st : Store (Signal n)} (h : propagate g (physics P (optic θ₀) (conn θ₀) hasNoise) inp old = .ok st) :
    (∀ᶠ θ in 𝓝 θ₀, ∃ st', propagate g (physics P (optic θ) (conn θ) hasNoise) inp old = .ok st' ∧ ∀ key, (st' key).isSome = (st key).isSome) ∧
    ∀ key s, st key = some s → ∃ y : E → Signal n, ContDiffAt ℝ k y θ₀ ∧ y θ₀ = s ∧
      ∀ᶠ θ in 𝓝 θ₀, ∃ st', propagate g (physics P (optic θ) (conn θ) hasNoise) inp old = .ok st' ∧ st' key = some (y θ) := by
  obtain ⟨fs, h1, h2, h3⟩ := fam_propagate (physics_family P hasNoise ho hc) (fun _ h => h.self_of_nhds) (contDiffAt_const (c := inp)) h
  constructor
  · refine h3.mono fun θ hθ => ⟨_, hθ, fun key => ?_⟩
    rw [← h2]
    simp [FamStore.at]
  · intro key s hs
    rw [← h2] at hs
    unfold FamStore.at at hs
    cases hf : fs key with
    | none => rw [hf] at hs; cases hs
    | some y =>
      rw [hf] at hs
      injection hs with hs
      refine ⟨y, h1 key y hf, hs, h3.mono fun θ hθ => ⟨_, hθ, ?_⟩⟩
      simp [FamStore.at, hf]

variable {P : Prop_ n} {g : Graph} {optic : E → Comp → Optic n} {conn : E → Comp → Connector} {hasNoise : Comp → Bool}
  {inp : Signal n} {old : Store (Signal n)} {at_ : Key} {score : Signal n → Except Err ℝ}

omit [NormedAddCommGroup E] [NormedSpace ℝ E] in
/-- **C91.** What is scored: the objective has a value exactly if the design can be put in order, there are states that solve its data-flow equations, the evaluator
finds the state it reads among them and scores it; in every other case it raises.  Nothing stored before matters. -/
theorem C91_value (hw : g.WF) (θ : E) (v : ℝ) : systemScore P g optic conn hasNoise inp old at_ score θ = .ok v ↔
    g.Acyclic ∧ ∃ st s, IsFlow g (physics P (optic θ) (conn θ) hasNoise) inp st ∧ st at_ = some s ∧ score s = .ok v := by
  have hac : (∃ order, g.topoSort = .ok order) ↔ g.Acyclic :=
    ⟨fun ⟨o, h⟩ => (topoSort_sound hw h).acyclic, fun h => topoSort_complete hw h⟩
  have key := fun st => @propagate_iff _ g hw (physics P (optic θ) (conn θ) hasNoise) inp old st
  unfold systemScore
  constructor
  · intro h
    split at h
    · cases h
    · rename_i st hst
      split at h
      · cases h
      · rename_i s hs
        obtain ⟨h1, h2⟩ := (key st).1 hst
        exact ⟨hac.1 h1, st, s, h2, hs, h⟩
  · rintro ⟨h1, st, s, h2, h3, h4⟩
    rw [(key st).2 ⟨hac.2 h1, h2⟩]
    simp only [h3, h4]

/-- **C91.** The objective is a smooth function of the parameters: in a neighbourhood it is evaluated without an exception, and it is `k` times continuously
differentiable. -/
theorem C91_objective (h : SmoothSystemAt k P g optic conn hasNoise inp old at_ score θ₀) :
    (∀ᶠ θ in 𝓝 θ₀, systemScore P g optic conn hasNoise inp old at_ score θ = .ok (funcOf P g optic conn hasNoise inp old at_ score θ)) ∧
    ContDiffAt ℝ k (funcOf P g optic conn hasNoise inp old at_ score) θ₀ := by
  obtain ⟨st, s, h1, h2, f, hf, hev⟩ := h.runs
  obtain ⟨y, hy, hy0, hyev⟩ := (C91_state P hasNoise h.optics h.conns h1).2 at_ s h2
  have hsc : ∀ᶠ θ in 𝓝 θ₀, systemScore P g optic conn hasNoise inp old at_ score θ = .ok (f (y θ)) := by
    have hc : Tendsto y (𝓝 θ₀) (𝓝 s) := hy0 ▸ hy.continuousAt.tendsto
    filter_upwards [hyev, hc.eventually hev] with θ ⟨st', a, b⟩ c
    unfold systemScore
    rw [a]; dsimp only; rw [b]; exact c
  have hfun : ∀ᶠ θ in 𝓝 θ₀, funcOf P g optic conn hasNoise inp old at_ score θ = f (y θ) := by
    filter_upwards [hsc] with θ a
    unfold funcOf
    rw [a]
  refine ⟨?_, ?_⟩
  · filter_upwards [hsc, hfun] with θ a b
    rw [a, b]
  · exact (ContDiffAt.comp θ₀ (by rw [hy0]; exact hf) hy).congr_of_eventuallyEq hfun

/-! ### Which scores are smooth -/

/-- **C91.** The score of noise suppression is smooth at every state. -/
theorem C91_score_noise (T s : Signal n) : SmoothScoreAt k (fun y => .ok (noiseSuppressionScore T y)) s :=
  ⟨noiseSuppressionScore T, by
    have h := ContDiffAt.sum fun i (_ : i ∈ Finset.univ) => ((cd_power (k := k) (θ₀ := s) contDiffAt_id i).sub (contDiffAt_const (c := power_ T i))).pow 2
    exact h, Eventually.of_forall fun _ => rfl⟩

/-- **C91.** The score of the NOT gate is smooth wherever it is defined: the square root in it is of the square of a power. -/
theorem C91_score_not_gate {T s : Signal n} {v : ℝ} (h : notGateScore T s = .ok v) : SmoothScoreAt k (notGateScore T) s := by
  have hs : ∀ (y : Signal n) i, Real.sqrt (power_ y i ^ 2) = power_ y i := fun y i => Real.sqrt_sq (by unfold power_; positivity)
  have hd : (∑ i, power_ s i) * (∑ i, power_ T i) ≠ 0 := by
    unfold notGateScore simCosine at h
    simp only [hs] at h
    split at h
    · cases h
    · assumption
  have hsum : ContDiffAt ℝ k (fun y : Signal n => (∑ i, power_ y i) * (∑ i, power_ T i)) s :=
    (ContDiffAt.sum fun i _ => cd_power contDiffAt_id i).mul contDiffAt_const
  refine ⟨fun y => (∑ i, power_ y i * power_ T i) / ((∑ i, power_ y i) * (∑ i, power_ T i)),
    (ContDiffAt.sum fun i _ => (cd_power contDiffAt_id i).mul contDiffAt_const).div hsum hd, ?_⟩
  filter_upwards [hsum.continuousAt.eventually_ne hd] with y hy
  unfold notGateScore simCosine
  simp only [hs]
  rw [if_neg hy]

/-- **C91.** The score of filter design is smooth at states with light on every line of the spectrum. -/
theorem C91_score_filter {T : Fin n → ℝ} {s : Signal n} {v : ℝ} (h : filterDesignScore P T s = .ok v) (hne : ∀ i, fft_ s P.dt i ≠ 0) :
    SmoothScoreAt k (filterDesignScore P T) s := by
  have hd : (∑ i, ‖fftShift (fft_ s P.dt) i‖) ≠ 0 := by
    unfold filterDesignScore percentTotal at h
    split at h
    · cases h
    · assumption
  have hnorm : ∀ i, ContDiffAt ℝ k (fun y : Signal n => ‖fftShift (fft_ y P.dt) i‖) s := fun i =>
    (cd_apply (cd_fftShift (cd_fft contDiffAt_id P.dt)) i).norm ℝ (hne _)
  have hsum : ContDiffAt ℝ k (fun y : Signal n => ∑ i, ‖fftShift (fft_ y P.dt) i‖) s := ContDiffAt.sum fun i _ => hnorm i
  refine ⟨fun y => -(∑ i, ‖fftShift (fft_ y P.dt) i‖ * T i) / ∑ i, ‖fftShift (fft_ y P.dt) i‖,
    (ContDiffAt.sum fun i _ => (hnorm i).mul contDiffAt_const).neg.div hsum hd, ?_⟩
  filter_upwards [hsum.continuousAt.eventually_ne hd] with y hy
  unfold filterDesignScore percentTotal
  rw [if_neg hy]

theorem cd_arg {f : E → ℂ} (h : ContDiffAt ℝ k f θ₀) (hs : f θ₀ ∈ slitPlane) : ContDiffAt ℝ k (fun θ => (f θ).arg) θ₀ := by
  have h1 : ContDiffAt ℝ k (fun θ => Complex.log (f θ)) θ₀ := ((Complex.contDiffAt_log hs).restrict_scalars ℝ).comp θ₀ h
  have h2 := Complex.imCLM.contDiff.contDiffAt.comp θ₀ h1
  refine h2.congr_of_eventuallyEq (Eventually.of_forall fun θ => ?_)
  simp [Complex.log_im]

/-- **C91.** The score of waveform generation is smooth at states whose line at the harmonic is not opposed in phase to that of the target, and whose aligned
waveform is nowhere dark. -/
theorem C91_score_waveform {T : Fin n → ℝ} {amplitude harmonic : ℝ} {s : Signal n} (ha : amplitude ≠ 0) (hm : harmonicInd P harmonic < n)
    (hslit : fft_ s P.dt ⟨_, hm⟩ / fft_ (fun i => ((T i : ℝ) : ℂ)) P.dt ⟨_, hm⟩ ∈ slitPlane)
    {y : Fin n → ℝ} (hy : rfShift P T harmonic s = .ok y) (hlit : ∀ i, y i ≠ 0) : SmoothScoreAt k (rfScore P T amplitude harmonic) s := by
  have hT : fft_ (fun i => ((T i : ℝ) : ℂ)) P.dt ⟨_, hm⟩ ≠ 0 := by
    intro h0
    rw [h0, div_zero] at hslit
    exact Complex.zero_notMem_slitPlane hslit
  have hv : ∀ x : Signal n, rfShift P T harmonic x = .ok (fun i => ‖ifft_ (fun j => exp (I * ((((fft_ x P.dt ⟨_, hm⟩ / fft_ (fun i => ((T i : ℝ) : ℂ)) P.dt ⟨_, hm⟩).arg
      * (ifftShift P.f j / harmonic) : ℝ)) : ℂ)) * fft_ x P.dt j) P.dt i‖) := by
    intro x
    unfold rfShift
    rw [dif_pos hm]
    dsimp only
    rw [if_neg hT]
  have hX : ContDiffAt ℝ k (fun x : Signal n => fft_ x P.dt) s := cd_fft contDiffAt_id P.dt
  have hph := cd_arg (cd_div_const (cd_apply hX ⟨_, hm⟩) (fft_ (fun i => ((T i : ℝ) : ℂ)) P.dt ⟨_, hm⟩)) hslit
  have hout : ∀ i, ContDiffAt ℝ k (fun x : Signal n => ifft_ (fun j => exp (I * ((((fft_ x P.dt ⟨_, hm⟩ / fft_ (fun i => ((T i : ℝ) : ℂ)) P.dt ⟨_, hm⟩).arg
      * (ifftShift P.f j / harmonic) : ℝ)) : ℂ)) * fft_ x P.dt j) P.dt i) s := fun i =>
    cd_apply (cd_ifft (contDiffAt_pi.2 fun j => (cd_phase (hph.mul contDiffAt_const)).mul (cd_apply hX j)) P.dt) i
  rw [hv s] at hy
  injection hy with hy
  have hnorm := fun i => (hout i).norm ℝ (by intro h0; apply hlit i; rw [← hy]; simp only [h0, norm_zero])
  refine ⟨_, ((ContDiffAt.sum fun i (_ : i ∈ Finset.univ) => ((hnorm i).sub (contDiffAt_const (c := T i))).pow 2).div_const (n : ℝ)).div_const (amplitude ^ 2), ?_⟩
  refine Eventually.of_forall fun x => ?_
  unfold rfScore
  rw [hv x]
  dsimp only
  rw [if_neg (pow_ne_zero 2 ha)]
  rfl

/-- **C91.** The same for pulse repetition. -/
theorem C91_score_pulse {T : Fin n → ℝ} {repF : ℝ} {s : Signal n} (hm : harmonicInd P repF < n)
    (hslit : npFft s ⟨_, hm⟩ / npFft (fun i => ((T i : ℝ) : ℂ)) ⟨_, hm⟩ ∈ slitPlane)
    {y : Signal n} (hy : pulseShift P T repF s = .ok y) (hlit : ∀ i, y i ≠ 0) :
    SmoothScoreAt k (fun x => match pulseScore P T repF x with | .error e => .error e | .ok z => .ok z.re) s := by
  have hT : npFft (fun i => ((T i : ℝ) : ℂ)) ⟨_, hm⟩ ≠ 0 := by
    intro h0
    rw [h0, div_zero] at hslit
    exact Complex.zero_notMem_slitPlane hslit
  have hX0 : npFft s ⟨_, hm⟩ ≠ 0 := by
    intro h0
    rw [h0, zero_div] at hslit
    exact Complex.zero_notMem_slitPlane hslit
  have hv : ∀ x : Signal n, npFft x ⟨_, hm⟩ ≠ 0 → pulseShift P T repF x = .ok (fun i => ((‖npIfft (fun j => npFft x j * exp (-I *
      (((npFft x ⟨_, hm⟩ / npFft (fun i => ((T i : ℝ) : ℂ)) ⟨_, hm⟩).arg / (repF * P.dt) * pulseScale n j : ℝ) : ℂ))) i‖ : ℝ) : ℂ)) := by
    intro x hx
    unfold pulseShift
    rw [dif_pos hm]
    dsimp only
    rw [if_neg hx, if_neg hT]
  have hX : ContDiffAt ℝ k (fun x : Signal n => npFft x) s := cd_npFft contDiffAt_id
  have hph := cd_arg (cd_div_const (cd_apply hX ⟨_, hm⟩) (npFft (fun i => ((T i : ℝ) : ℂ)) ⟨_, hm⟩)) hslit
  have hout : ∀ i, ContDiffAt ℝ k (fun x : Signal n => npIfft (fun j => npFft x j * exp (-I *
      (((npFft x ⟨_, hm⟩ / npFft (fun i => ((T i : ℝ) : ℂ)) ⟨_, hm⟩).arg / (repF * P.dt) * pulseScale n j : ℝ) : ℂ))) i) s := fun i =>
    cd_apply (cd_npIfft (contDiffAt_pi.2 fun j => (cd_apply hX j).mul
      ((contDiffAt_const.mul (cd_ofReal ((hph.div_const _).mul contDiffAt_const))).cexp))) i
  rw [hv s hX0] at hy
  injection hy with hy
  have hnorm := fun i => (hout i).norm ℝ (by intro h0; apply hlit i; rw [← hy]; simp only [h0, norm_zero, ofReal_zero])
  refine ⟨_, ContDiffAt.sum fun i (_ : i ∈ Finset.univ) => ((hnorm i).sub (contDiffAt_const (c := T i))).pow 2, ?_⟩
  filter_upwards [(cd_apply hX ⟨_, hm⟩).continuousAt.eventually_ne hX0] with x hx
  unfold pulseScore
  rw [hv x hx]
  dsimp only
  congr 1
  rw [Complex.re_sum]
  refine Finset.sum_congr rfl fun i _ => ?_
  rw [← ofReal_sub, ← ofReal_pow, ofReal_re]

/-! ### Gradients and Hessians -/

section Derivatives
variable {m : Nat} {f : (Fin m → ℝ) → ℝ} {x : Fin m → ℝ}

theorem line_at {f : (Fin m → ℝ) → ℝ} {x : Fin m → ℝ} (v : Fin m → ℝ) {t : ℝ} (h : DifferentiableAt ℝ f (fun i => x i + t * v i)) :
    HasDerivAt (fun t => f (fun i => x i + t * v i)) (∑ i, v i * pderiv i f (fun i => x i + t * v i)) t := by
  have h1 : HasDerivAt (fun t : ℝ => (fun i => x i + t * v i)) v t := by
    rw [hasDerivAt_pi]
    intro i
    simpa using ((hasDerivAt_id t).mul_const (v i)).const_add (x i)
  have h2 := h.hasFDerivAt.comp_hasDerivAt t h1
  rw [fderiv_sum] at h2
  simp only [pderiv_eq_fderiv h]
  exact h2

theorem line_zero (x v : Fin m → ℝ) : (fun i => x i + 0 * v i) = x := by funext i; ring

theorem eventually_diff (h : ContDiffAt ℝ 2 f x) : ∀ᶠ y in 𝓝 x, DifferentiableAt ℝ f y := by
  filter_upwards [h.eventually (by simp)] with y hy
  exact hy.differentiableAt (by norm_num)

theorem pderiv_eventually (h : ContDiffAt ℝ 2 f x) (a : Fin m) : pderiv a f =ᶠ[𝓝 x] fun y => fderiv ℝ f y (Pi.single a 1) :=
  (eventually_diff h).mono fun _ hy => pderiv_eq_fderiv hy a

theorem fderiv_diff (h : ContDiffAt ℝ 2 f x) : DifferentiableAt ℝ (fderiv ℝ f) x :=
  (h.fderiv_right (m := 1) (by norm_num)).differentiableAt (by norm_num)

theorem pderiv_diffAt (h : ContDiffAt ℝ 2 f x) (a : Fin m) : DifferentiableAt ℝ (pderiv a f) x :=
  ((fderiv_diff h).clm_apply (differentiableAt_const _)).congr_of_eventuallyEq (pderiv_eventually h a)

theorem pderiv_symmAt (h : ContDiffAt ℝ 2 f x) (i j : Fin m) : pderiv j (pderiv i f) x = pderiv i (pderiv j f) x := by
  have key : ∀ a b : Fin m, pderiv b (pderiv a f) x = fderiv ℝ (fderiv ℝ f) x (Pi.single b 1) (Pi.single a 1) := by
    intro a b
    rw [pderiv_eq_fderiv (pderiv_diffAt h a), (pderiv_eventually h a).fderiv_eq, fderiv_clm_apply (fderiv_diff h) (differentiableAt_const _)]
    simp
  rw [key, key]
  exact (h.isSymmSndFDerivAt (by simp)) _ _

theorem line_tendsto (x v : Fin m → ℝ) : Tendsto (fun t : ℝ => (fun i => x i + t * v i)) (𝓝 0) (𝓝 x) := by
  have h : ContinuousAt (fun t : ℝ => (fun i => x i + t * v i)) 0 := by fun_prop
  have := h.tendsto
  rwa [line_zero] at this

theorem line_second (h : ContDiffAt ℝ 2 f x) (v : Fin m → ℝ) :
    deriv (deriv (fun t => f (fun i => x i + t * v i))) 0 = ∑ i, ∑ j, pderiv j (pderiv i f) x * v i * v j := by
  have a : deriv (fun t => f (fun i => x i + t * v i)) =ᶠ[𝓝 0] fun t => ∑ i, v i * pderiv i f (fun k => x k + t * v k) := by
    filter_upwards [(line_tendsto x v).eventually (eventually_diff h)] with t ht
    exact (line_at v ht).deriv
  rw [a.deriv_eq]
  have b : HasDerivAt (fun t : ℝ => ∑ i, v i * pderiv i f (fun k => x k + t * v k))
      (∑ i, v i * ∑ j, v j * pderiv j (pderiv i f) (fun k => x k + 0 * v k)) 0 :=
    HasDerivAt.fun_sum fun i _ => (line_at (f := pderiv i f) v (by rw [line_zero]; exact pderiv_diffAt h i)).const_mul _
  rw [b.deriv, line_zero]
  refine Finset.sum_congr rfl fun i _ => ?_
  rw [Finset.mul_sum]
  refine Finset.sum_congr rfl fun j _ => ?_
  ring

/-- A negative derivative means smaller values just after. -/
theorem descends {φ : ℝ → ℝ} {d : ℝ} (h : HasDerivAt φ d 0) (hd : d < 0) : ∀ᶠ t in 𝓝[>] (0 : ℝ), φ t < φ 0 := by
  have h1 : Tendsto (slope φ 0) (𝓝[≠] 0) (𝓝 d) := hasDerivAt_iff_tendsto_slope.1 h
  have h2 : ∀ᶠ t in 𝓝[>] (0 : ℝ), slope φ 0 t < 0 :=
    (h1.mono_left (nhdsWithin_mono 0 (fun t ht => ne_of_gt ht))).eventually (gt_mem_nhds hd)
  filter_upwards [h2, self_mem_nhdsWithin] with t ht ht0
  have ht0 : 0 < t := ht0
  rw [slope_def_field, sub_zero, div_neg_iff] at ht
  rcases ht with ⟨_, b⟩ | ⟨a, _⟩
  · linarith
  · linarith

end Derivatives

variable {m : Nat} {opticθ : (Fin m → ℝ) → Comp → Optic n} {connθ : (Fin m → ℝ) → Comp → Connector} {p : Fin m → ℝ}

/-- **C91.** The gradient of the objective gives the change of the score in every direction, and one small enough step against it improves the score, unless it
is zero. -/
theorem C91_gradient (h : SmoothSystemAt 1 P g opticθ connθ hasNoise inp old at_ score p) :
    (∀ v : Fin m → ℝ, HasDerivAt (fun t : ℝ => funcOf P g opticθ connθ hasNoise inp old at_ score (fun i => p i + t * v i))
      (∑ i, v i * pderiv i (funcOf P g opticθ connθ hasNoise inp old at_ score) p) 0) ∧
    ((∃ i, pderiv i (funcOf P g opticθ connθ hasNoise inp old at_ score) p ≠ 0) → ∃ ε > 0, ∀ t, 0 < t → t < ε →
      ∃ a b, systemScore P g opticθ connθ hasNoise inp old at_ score (fun i => p i - t * pderiv i (funcOf P g opticθ connθ hasNoise inp old at_ score) p) = .ok a ∧
        systemScore P g opticθ connθ hasNoise inp old at_ score p = .ok b ∧ a < b) := by
  obtain ⟨hev, hsm⟩ := C91_objective h
  obtain ⟨f, hf⟩ : ∃ f, f = funcOf P g opticθ connθ hasNoise inp old at_ score := ⟨_, rfl⟩
  rw [← hf] at hev hsm ⊢
  have hd : DifferentiableAt ℝ f p := hsm.differentiableAt (by norm_num)
  have hline : ∀ v : Fin m → ℝ, HasDerivAt (fun t : ℝ => f (fun i => p i + t * v i)) (∑ i, v i * pderiv i f p) 0 := by
    intro v
    have := line_at (f := f) (x := p) v (t := 0) (by rw [line_zero]; exact hd)
    rwa [line_zero] at this
  refine ⟨hline, ?_⟩
  rintro ⟨i, hi⟩
  have h1 := hline (fun i => -pderiv i f p)
  have h2 : (∑ i, -pderiv i f p * pderiv i f p) < 0 := by
    have : (∑ i, -pderiv i f p * pderiv i f p) = -∑ i, pderiv i f p ^ 2 := by
      rw [← Finset.sum_neg_distrib]; exact Finset.sum_congr rfl fun i _ => by ring
    rw [this, neg_lt_zero]
    exact Finset.sum_pos' (fun i _ => sq_nonneg _) ⟨i, Finset.mem_univ i, by positivity⟩
  have h3 := descends h1 h2
  have h4 : ∀ᶠ t in 𝓝[>] (0 : ℝ), systemScore P g opticθ connθ hasNoise inp old at_ score (fun i => p i + t * -pderiv i f p) = .ok (f (fun i => p i + t * -pderiv i f p)) :=
    ((line_tendsto p _).eventually hev).filter_mono nhdsWithin_le_nhds
  have h5 := h3.and h4
  rw [eventually_nhdsWithin_iff, Metric.eventually_nhds_iff] at h5
  obtain ⟨ε, hε, h6⟩ := h5
  refine ⟨ε, hε, fun t ht hlt => ?_⟩
  have h7 := h6 (y := t) (by rw [Real.dist_eq, sub_zero, abs_of_pos ht]; exact hlt) ht
  have e : (fun i => p i - t * pderiv i f p) = fun i => p i + t * -pderiv i f p := by funext i; ring
  refine ⟨_, _, by rw [e]; exact h7.2, hev.self_of_nhds, ?_⟩
  have := h7.1
  rwa [line_zero] at this

/-- **C91.** The Hessian of the objective exists and is symmetric, and its quadratic form is the second derivative in every direction. -/
theorem C91_hessian (h : SmoothSystemAt 2 P g opticθ connθ hasNoise inp old at_ score p) :
    (∀ i j : Fin m, (autoHessian (funcOf P g opticθ connθ hasNoise inp old at_ score) p).entry i j =
      (autoHessian (funcOf P g opticθ connθ hasNoise inp old at_ score) p).entry j i) ∧
    (∀ v : Fin m → ℝ, deriv (deriv (fun t : ℝ => funcOf P g opticθ connθ hasNoise inp old at_ score (fun i => p i + t * v i))) 0 =
      ∑ i : Fin m, ∑ j : Fin m, (autoHessian (funcOf P g opticθ connθ hasNoise inp old at_ score) p).entry i j * v i * v j) ∧
    ∀ eig, ¬ (lhaAnalysis (autoHessian (funcOf P g opticθ connθ hasNoise inp old at_ score) p) eig).warned := by
  have hsm := (C91_objective h).2
  have hsym : ∀ i j : Fin m, (autoHessian (funcOf P g opticθ connθ hasNoise inp old at_ score) p).entry i j =
      (autoHessian (funcOf P g opticθ connθ hasNoise inp old at_ score) p).entry j i := by
    intro i j
    rw [autoHessian_entry, autoHessian_entry]
    exact pderiv_symmAt hsm i j
  refine ⟨hsym, fun v => ?_, ?_⟩
  · simp only [autoHessian_entry]
    exact line_second hsm v
  · rintro eig ⟨i, j, hi, hj, hw⟩
    have := hsym ⟨i, hi⟩ ⟨j, hj⟩
    simp only at this
    rw [this] at hw
    norm_num at hw

/-- **C91.** What the best parameters in a box look like to first order: a parameter that could still be raised has a nonnegative derivative, one that could be lowered
a nonpositive one; so inside its bounds it is zero. -/
theorem C91_best_in_box (h : SmoothSystemAt 1 P g opticθ connθ hasNoise inp old at_ score p) {lo hi : Fin m → ℝ} (hp : p ∈ Set.Icc lo hi)
    (hmin : IsLocalMinOn (funcOf P g opticθ connθ hasNoise inp old at_ score) (Set.Icc lo hi) p) (i : Fin m) :
    (p i < hi i → 0 ≤ pderiv i (funcOf P g opticθ connθ hasNoise inp old at_ score) p) ∧
    (lo i < p i → pderiv i (funcOf P g opticθ connθ hasNoise inp old at_ score) p ≤ 0) ∧
    (lo i < p i → p i < hi i → pderiv i (funcOf P g opticθ connθ hasNoise inp old at_ score) p = 0) := by
  have hg := (C91_gradient h).1
  obtain ⟨f, hf⟩ : ∃ f, f = funcOf P g opticθ connθ hasNoise inp old at_ score := ⟨_, rfl⟩
  rw [← hf] at hg hmin ⊢
  have key : ∀ s : ℝ, (s = 1 ∧ p i < hi i ∨ s = -1 ∧ lo i < p i) → 0 ≤ s * pderiv i f p := by
    intro s hs
    by_contra hneg
    push Not at hneg
    have h1 := hg (Pi.single i s)
    have h2 : (∑ j, (Pi.single i s : Fin m → ℝ) j * pderiv j f p) = s * pderiv i f p := by
      rw [Finset.sum_eq_single i]
      · simp
      · intro j _ hj; simp [hj]
      · intro h; exact absurd (Finset.mem_univ i) h
    rw [h2] at h1
    have h3 := descends h1 hneg
    rw [line_zero] at h3
    have h4 : ∀ᶠ t in 𝓝[>] (0 : ℝ), (fun j => p j + t * (Pi.single i s : Fin m → ℝ) j) ∈ Set.Icc lo hi := by
      have h5 : ∀ᶠ t in 𝓝[>] (0 : ℝ), lo i ≤ p i + t * s ∧ p i + t * s ≤ hi i := by
        rcases hs with ⟨rfl, hs⟩ | ⟨rfl, hs⟩
        · filter_upwards [Ioo_mem_nhdsGT (show (0 : ℝ) < hi i - p i by linarith)] with t ht
          have := hp.1 i
          exact ⟨by linarith [ht.1], by linarith [ht.2]⟩
        · filter_upwards [Ioo_mem_nhdsGT (show (0 : ℝ) < p i - lo i by linarith)] with t ht
          have := hp.2 i
          exact ⟨by linarith [ht.2], by linarith [ht.1]⟩
      filter_upwards [h5] with t ht
      constructor
      · intro j
        by_cases hj : j = i
        · subst hj; simpa using ht.1
        · simpa [hj] using hp.1 j
      · intro j
        by_cases hj : j = i
        · subst hj; simpa using ht.2
        · simpa [hj] using hp.2 j
    have h6 : Tendsto (fun t : ℝ => (fun j => p j + t * (Pi.single i s : Fin m → ℝ) j)) (𝓝[>] 0) (𝓝[Set.Icc lo hi] p) :=
      tendsto_nhdsWithin_iff.2 ⟨(line_tendsto p _).mono_left nhdsWithin_le_nhds, h4⟩
    obtain ⟨t, ht1, ht2⟩ := (h3.and (h6.eventually hmin)).exists
    linarith
  have a := fun h => key 1 (.inl ⟨rfl, h⟩)
  have b := fun h => key (-1) (.inr ⟨rfl, h⟩)
  refine ⟨fun h => by have := a h; linarith, fun h => by have := b h; linarith, fun h1 h2 => ?_⟩
  have := a h2
  have := b h1
  linarith

/-- **C91.** At a local minimum the Hessian has no negative direction; conversely, along a direction of positive curvature a point of zero gradient is a minimum. -/
theorem C91_curvature (h : SmoothSystemAt 2 P g opticθ connθ hasNoise inp old at_ score p) (v : Fin m → ℝ) :
    (IsLocalMin (funcOf P g opticθ connθ hasNoise inp old at_ score) p →
      0 ≤ ∑ i : Fin m, ∑ j : Fin m, (autoHessian (funcOf P g opticθ connθ hasNoise inp old at_ score) p).entry i j * v i * v j) ∧
    ((∀ i, pderiv i (funcOf P g opticθ connθ hasNoise inp old at_ score) p = 0) →
      0 < ∑ i : Fin m, ∑ j : Fin m, (autoHessian (funcOf P g opticθ connθ hasNoise inp old at_ score) p).entry i j * v i * v j →
      IsLocalMin (fun t : ℝ => funcOf P g opticθ connθ hasNoise inp old at_ score (fun i => p i + t * v i)) 0) := by
  have hH := (C91_hessian h).2.1 v
  have hsm := (C91_objective h).2
  obtain ⟨f, hf⟩ : ∃ f, f = funcOf P g opticθ connθ hasNoise inp old at_ score := ⟨_, rfl⟩
  rw [← hf] at hH hsm ⊢
  rw [← hH]
  have hd : DifferentiableAt ℝ f p := hsm.differentiableAt (by norm_num)
  have h1 : HasDerivAt (fun t => f (fun i => p i + t * v i)) (∑ i, v i * pderiv i f p) 0 := by
    have := line_at (f := f) (x := p) v (t := 0) (by rw [line_zero]; exact hd)
    rwa [line_zero] at this
  constructor
  · intro hmin
    have hm1 : IsLocalMin (fun t : ℝ => f (fun i => p i + t * v i)) 0 := by
      have := (line_tendsto p v).eventually hmin
      refine this.mono fun t ht => ?_
      dsimp only
      rwa [line_zero]
    by_contra hneg
    push Not at hneg
    have hmax : IsLocalMax (fun t : ℝ => f (fun i => p i + t * v i)) 0 :=
      isLocalMax_of_deriv_deriv_neg hneg hm1.deriv_eq_zero h1.continuousAt
    have hconst : (fun t : ℝ => f (fun i => p i + t * v i)) =ᶠ[𝓝 0] fun _ => f (fun i => p i + 0 * v i) := by
      filter_upwards [hm1, hmax] with t a b
      exact le_antisymm b a
    have h2 := hconst.deriv
    rw [h2.deriv_eq] at hneg
    simp at hneg
  · intro hz hpos
    refine isLocalMin_of_deriv_deriv_pos hpos ?_ h1.continuousAt
    rw [h1.deriv]
    simp [hz]

/-- **C91.** A parameter on which the score does not depend near `p` has a zero derivative, a zero row and column in the Hessian and the sensitivity score 0. -/
theorem C91_free_wheeling (h : SmoothSystemAt 2 P g opticθ connθ hasNoise inp old at_ score p) (i : Fin m)
    (hi : ∀ᶠ q in 𝓝 p, systemScore P g opticθ connθ hasNoise inp old at_ score q =
      systemScore P g opticθ connθ hasNoise inp old at_ score (Function.update q i (p i))) :
    pderiv i (funcOf P g opticθ connθ hasNoise inp old at_ score) p = 0 ∧
    (∀ j : Fin m, (autoHessian (funcOf P g opticθ connθ hasNoise inp old at_ score) p).entry i j = 0 ∧
      (autoHessian (funcOf P g opticθ connθ hasNoise inp old at_ score) p).entry j i = 0) ∧
    (paramScores (autoHessian (funcOf P g opticθ connθ hasNoise inp old at_ score) p))[(i : Nat)]? = some 0 := by
  have hsym := (C91_hessian h).1
  have hi' : ∀ᶠ q in 𝓝 p, funcOf P g opticθ connθ hasNoise inp old at_ score q = funcOf P g opticθ connθ hasNoise inp old at_ score (Function.update q i (p i)) :=
    hi.mono fun q hq => by unfold funcOf; rw [hq]
  obtain ⟨f, hf⟩ : ∃ f, f = funcOf P g opticθ connθ hasNoise inp old at_ score := ⟨_, rfl⟩
  rw [← hf] at hsym hi' ⊢
  have hz : pderiv i f =ᶠ[𝓝 p] fun _ => 0 := by
    filter_upwards [hi'.eventually_nhds] with q hq
    unfold pderiv
    have hc : ContinuousAt (fun t : ℝ => Function.update q i t) (q i) := by fun_prop
    have ht : Tendsto (fun t : ℝ => Function.update q i t) (𝓝 (q i)) (𝓝 q) := by
      have := hc.tendsto
      rwa [Function.update_eq_self] at this
    have : (fun t => f (Function.update q i t)) =ᶠ[𝓝 (q i)] fun _ => f (Function.update q i (p i)) := by
      filter_upwards [ht.eventually hq] with t h2
      rw [h2, Function.update_idem]
    rw [this.deriv_eq, deriv_const]
  have hrow : ∀ j : Fin m, (autoHessian f p).entry i j = 0 := by
    intro j
    rw [autoHessian_entry]
    unfold pderiv
    have hc : ContinuousAt (fun t : ℝ => Function.update p j t) (p j) := by fun_prop
    have ht : Tendsto (fun t : ℝ => Function.update p j t) (𝓝 (p j)) (𝓝 p) := by
      have := hc.tendsto
      rwa [Function.update_eq_self] at this
    have h2 : (fun t => pderiv i f (Function.update p j t)) =ᶠ[𝓝 (p j)] fun _ => 0 := ht.eventually hz
    have h3 := h2.deriv_eq
    rw [deriv_const] at h3
    exact h3
  refine ⟨hz.self_of_nhds, fun j => ⟨hrow j, by rw [hsym]; exact hrow j⟩, ?_⟩
  obtain ⟨q, hq, -, hzero, -⟩ := (C43_parameters (autoHessian f p)).2 i i.2
  rw [hq, hzero.2]
  intro j hj
  have hj' : j < m := hj
  exact ⟨hrow ⟨j, hj'⟩, by have := hsym ⟨j, hj'⟩ i; rw [this]; exact hrow ⟨j, hj'⟩⟩

/-! ### Where the objective is not differentiable -/

theorem sqrt_edge_zero : ¬ DifferentiableWithinAt ℝ (fun r : ℝ => Real.sqrt (r * (1 - r))) (Set.Icc 0 1) 0 := by
  intro h
  have hu : UniqueDiffWithinAt ℝ (Set.Icc (0 : ℝ) 1) 0 := uniqueDiffOn_Icc (by norm_num) 0 (by simp)
  have h1 := h.hasDerivWithinAt.mul h.hasDerivWithinAt
  have h2 : HasDerivWithinAt (fun r : ℝ => r * (1 - r)) 1 (Set.Icc 0 1) 0 := by
    have := ((hasDerivAt_id (0 : ℝ)).mul ((hasDerivAt_id (0 : ℝ)).const_sub 1)).hasDerivWithinAt (s := Set.Icc 0 1)
    have e : (id * fun r : ℝ => 1 - id r) = fun r : ℝ => r * (1 - r) := rfl
    rw [e] at this
    have e2 : (1 : ℝ) * (1 - id 0) + id 0 * -1 = 1 := by simp
    rwa [e2] at this
  have h3 : HasDerivWithinAt (fun r : ℝ => r * (1 - r)) 0 (Set.Icc 0 1) 0 := by
    have h4 := h1.congr (f₁ := fun r : ℝ => r * (1 - r)) (fun r hr => by
      simp only [Pi.mul_apply]
      exact (Real.mul_self_sqrt (mul_nonneg hr.1 (by linarith [hr.2]))).symm) (by simp)
    simpa using h4
  have := hu.eq_deriv _ h2 h3
  norm_num at this

theorem sqrt_edge_one : ¬ DifferentiableWithinAt ℝ (fun r : ℝ => Real.sqrt (r * (1 - r))) (Set.Icc 0 1) 1 := by
  intro h
  apply sqrt_edge_zero
  have h1 : DifferentiableWithinAt ℝ (fun r : ℝ => 1 - r) (Set.Icc 0 1) 0 := by fun_prop
  have h2 := DifferentiableWithinAt.comp (0 : ℝ) (g := fun r : ℝ => Real.sqrt (r * (1 - r))) (f := fun r : ℝ => 1 - r) (t := Set.Icc 0 1) (by simpa using h) h1
    (fun r hr => ⟨by linarith [hr.2], by linarith [hr.1]⟩)
  refine h2.congr (fun r _ => ?_) ?_ <;> simp [mul_comm]

/-- **C91, finding.** At the bounds 0 and 1 of a splitter's ratio the objective has no derivative: behind a two-arm interferometer with any phase difference that is
not a quarter turn, the measured power at every lit moment fails to be differentiable in the ratio, even from the inside. -/
theorem C91_splitter_edge (hw : g.WF) {optic : Comp → Optic n} {conn : ℝ → Comp → Connector} {a b : Node} {eIn eOut : Edge} {e0 e1 : Edge}
    (hI : Interferometer g a b eIn eOut [e0, e1]) (ha : ∀ r, conn r a.comp = .splitter [r]) (hb : ∀ r, conn r b.comp = .splitter []) (ho : optic eOut.comp = .measure)
    {φ : Nat → ℝ} (h0 : TurnsPhase P (optic e0.comp) (φ 0)) (h1 : TurnsPhase P (optic e1.comp) (φ 1)) (hcos : Real.cos (φ 0 - φ 1) ≠ 0)
    {st : ℝ → Store (Signal n)} (hrun : ∀ r ∈ Set.Icc (0 : ℝ) 1, propagate g (physics P optic (conn r) hasNoise) inp old = .ok (st r))
    {x : Signal n} (hx : ∀ r ∈ Set.Icc (0 : ℝ) 1, st r (.edge eIn.ref) = some x) {w : ℝ → Signal n} (hwr : ∀ r ∈ Set.Icc (0 : ℝ) 1, st r (.edge eOut.ref) = some (w r))
    (i : Fin n) (hi : x i ≠ 0) {r : ℝ} (hr : r = 0 ∨ r = 1) :
    ¬ DifferentiableWithinAt ℝ (fun r => (w r i).re) (Set.Icc 0 1) r := by
  have hval : ∀ r ∈ Set.Icc (0 : ℝ) 1, (w r i).re = (1 / 2 + Real.sqrt (r * (1 - r)) * Real.cos (φ 0 - φ 1)) * ‖x i‖ ^ 2 := by
    intro r hr
    obtain ⟨x', z, k1, k2, k3⟩ := C88_phases hw hI (ha r) (hb r) (φ := φ) (by
      intro j e hj
      rcases j with _ | _ | j
      · injection hj with hj; subst hj; exact h0
      · injection hj with hj; subst hj; exact h1
      · simp at hj) (hrun r hr)
    rw [hx r hr] at k1
    injection k1 with k1
    subst k1
    rw [hwr r hr] at k2
    injection k2 with k2
    subst k2
    rw [ho] at k3
    simp only [Optic.apply] at k3
    injection k3 with k3
    rw [← k3]
    simp only [Verif.measure, Complex.ofReal_re, norm_mul, mul_pow]
    congr 1
    exact C88_two_arms hr.1 hr.2 φ
  have hxi : ‖x i‖ ^ 2 ≠ 0 := pow_ne_zero 2 (norm_ne_zero_iff.2 hi)
  have hmem : r ∈ Set.Icc (0 : ℝ) 1 := by rcases hr with rfl | rfl <;> simp
  intro hd
  have h2 : DifferentiableWithinAt ℝ (fun r : ℝ => Real.sqrt (r * (1 - r))) (Set.Icc 0 1) r := by
    have h3 := ((hd.div_const (‖x i‖ ^ 2)).sub_const (1 / 2)).div_const (Real.cos (φ 0 - φ 1))
    refine h3.congr (fun t ht => ?_) ?_
    · rw [hval t ht]; field_simp; ring
    · rw [hval r hmem]; field_simp; ring
  rcases hr with rfl | rfl
  · exact sqrt_edge_zero h2
  · exact sqrt_edge_one h2

/-- **C91, finding.** Filter design has no gradient at dark spectral lines: if some line carries no light, the score exists and the target does not happen to
be its own score there, then in the direction that lights the line up the score has a kink. -/
theorem C91_filter_kink (hdt : P.dt ≠ 0) {T : Fin n → ℝ} {s : Signal n} {v : ℝ} (h : filterDesignScore P T s = .ok v) {j : Fin n} (hj : fftShift (fft_ s P.dt) j = 0)
    (hv : v ≠ -T j) : ∃ (d : Signal n) (φ : ℝ → ℝ), (∀ t : ℝ, filterDesignScore P T (fun i => s i + t * d i) = .ok (φ t)) ∧ ¬ DifferentiableAt ℝ φ 0 := by
  have hdt' : (P.dt : ℂ) ≠ 0 := by exact_mod_cast hdt
  obtain ⟨F, hF⟩ : ∃ F, F = fftShift (fft_ s P.dt) := ⟨_, rfl⟩
  rw [← hF] at hj
  have hspec : ∀ (t : ℝ) i, fftShift (fft_ (fun i => s i + t * npIfft (ifftShift (Pi.single j (1 / (P.dt : ℂ)))) i) P.dt) i = F i + t * (Pi.single j 1 : Signal n) i := by
    intro t i
    have e : fftShift (fft_ (fun i => s i + t * npIfft (ifftShift (Pi.single j (1 / (P.dt : ℂ)))) i) P.dt) i =
        fftShift (fft_ s P.dt) i + t * (fftShift (ifftShift (Pi.single j (1 / (P.dt : ℂ)))) i * (P.dt : ℂ)) := by
      unfold fft_
      rw [npFft_add, npFft_smul, npFft_npIfft]
      unfold fftShift
      ring
    rw [e, fftShift_ifftShift, hF]
    by_cases hi : i = j
    · subst hi; simp [hdt']
    · simp [hi]
  have hnorm : ∀ (t : ℝ) i, ‖F i + t * (Pi.single j 1 : Signal n) i‖ = ‖F i‖ + (Pi.single j |t| : Fin n → ℝ) i := by
    intro t i
    by_cases hi : i = j
    · subst hi; simp [hj]
    · simp [hi]
  have hsum : ∀ t : ℝ, ∑ i, ‖fftShift (fft_ (fun i => s i + t * npIfft (ifftShift (Pi.single j (1 / (P.dt : ℂ)))) i) P.dt) i‖ = (∑ i, ‖F i‖) + |t| := by
    intro t
    simp only [hspec, hnorm, Finset.sum_add_distrib]
    simp
  have hsumT : ∀ t : ℝ, ∑ i, ‖fftShift (fft_ (fun i => s i + t * npIfft (ifftShift (Pi.single j (1 / (P.dt : ℂ)))) i) P.dt) i‖ * T i =
      (∑ i, ‖F i‖ * T i) + |t| * T j := by
    intro t
    simp only [hspec, hnorm, add_mul, Finset.sum_add_distrib]
    congr 1
    rw [Finset.sum_eq_single j]
    · simp
    · intro i _ hi; simp [hi]
    · intro h; exact absurd (Finset.mem_univ j) h
  obtain ⟨hB, hv0⟩ : (∑ i, ‖F i‖) ≠ 0 ∧ v = -(∑ i, ‖F i‖ * T i) / ∑ i, ‖F i‖ := by
    unfold filterDesignScore percentTotal at h
    rw [← hF] at h
    split at h
    · cases h
    · rename_i hne
      injection h with h
      exact ⟨hne, h.symm⟩
  have hBpos : 0 < ∑ i, ‖F i‖ := lt_of_le_of_ne (Finset.sum_nonneg fun i _ => norm_nonneg _) (Ne.symm hB)
  obtain ⟨A, hA⟩ : ∃ A, A = ∑ i, ‖F i‖ * T i := ⟨_, rfl⟩
  obtain ⟨B, hB'⟩ : ∃ B, B = ∑ i, ‖F i‖ := ⟨_, rfl⟩
  rw [← hA, ← hB'] at hv0
  rw [← hB'] at hBpos
  simp only [← hA] at hsumT
  simp only [← hB'] at hsum
  refine ⟨npIfft (ifftShift (Pi.single j (1 / (P.dt : ℂ)))), fun t => -(A + |t| * T j) / (B + |t|), fun t => ?_, fun hd => ?_⟩
  · unfold filterDesignScore percentTotal
    rw [hsum t, hsumT t, if_neg (by positivity)]
  · have hne : T j + -(A + |0| * T j) / (B + |0|) ≠ 0 := by
      rw [abs_zero, zero_mul, add_zero, add_zero, ← hv0]
      intro h0
      exact hv (by linarith)
    have h1 : DifferentiableAt ℝ (fun t : ℝ => -(A + B * (-(A + |t| * T j) / (B + |t|))) / (T j + -(A + |t| * T j) / (B + |t|))) 0 :=
      (((hd.const_mul B).const_add A).neg).div (hd.const_add (T j)) hne
    refine not_differentiableAt_abs_zero (h1.congr_of_eventuallyEq ?_)
    have hA0 : T j * B - A ≠ 0 := by
      intro h0
      apply hv
      rw [hv0, div_eq_iff hBpos.ne']
      linarith
    refine Eventually.of_forall fun t => ?_
    have hpos : B + |t| ≠ 0 := by positivity
    have e1 : T j + -(A + |t| * T j) / (B + |t|) = (T j * B - A) / (B + |t|) := by field_simp; ring
    have e2 : -(A + B * (-(A + |t| * T j) / (B + |t|))) = (T j * B - A) * |t| / (B + |t|) := by field_simp; ring
    dsimp only
    rw [e1, e2]
    field_simp

/-- **C91.** On a box on which the system is smooth there are best parameters: the objective is defined on the whole box and takes its least value. -/
theorem C91_optimum_exists {lo hi : Fin m → ℝ} (hle : lo ≤ hi) (h : ∀ q ∈ Set.Icc lo hi, SmoothSystemAt 0 P g opticθ connθ hasNoise inp old at_ score q) :
    ∃ q ∈ Set.Icc lo hi, ∃ v, systemScore P g opticθ connθ hasNoise inp old at_ score q = .ok v ∧
      ∀ q' ∈ Set.Icc lo hi, ∃ v', systemScore P g opticθ connθ hasNoise inp old at_ score q' = .ok v' ∧ v ≤ v' := by
  have hc : ContinuousOn (funcOf P g opticθ connθ hasNoise inp old at_ score) (Set.Icc lo hi) :=
    fun q hq => (C91_objective (h q hq)).2.continuousAt.continuousWithinAt
  obtain ⟨q, hq, hmin⟩ := isCompact_Icc.exists_isMinOn ⟨lo, Set.left_mem_Icc.2 hle⟩ hc
  exact ⟨q, hq, _, (C91_objective (h q hq)).1.self_of_nhds, fun q' hq' => ⟨_, (C91_objective (h q' hq')).1.self_of_nhds, hmin hq'⟩⟩

end Main

/-! ### Examples -/

namespace Tuned
open Fixture

/-- Laser, splitter with ratio `θ 2`, a phase shifter `θ 0` against an attenuator `θ 1`, joined in front of a detector. -/
noncomputable def optic (x : Signal 4) (θ : Fin 3 → ℝ) : Comp → Optic 4 := Arms.optic x (.phaseShifter (θ 0)) (.voa (θ 1)) .measure

noncomputable def conn (θ : Fin 3 → ℝ) : Comp → Connector := Arms.conn (θ 2)

theorem smooth_coord {k : WithTop ℕ∞} (p : Fin 3 → ℝ) (i : Fin 3) : ContDiffAt ℝ k (fun θ : Fin 3 → ℝ => θ i) p := (contDiff_apply ℝ ℝ i).contDiffAt

theorem smooth {k : WithTop ℕ∞} (x T inp : Signal 4) (old : Store (Signal 4)) {p : Fin 3 → ℝ} (h0 : 0 < p 2) (h1 : p 2 < 1) :
    SmoothSystemAt k demoProp g (optic x) conn (fun _ => false) inp old (.edge ⟨2, 3, 0⟩) (fun y => .ok (noiseSuppressionScore T y)) p where
  optics := by
    intro e he
    simp only [g, List.mem_cons, List.not_mem_nil, or_false] at he
    rcases he with rfl | rfl | rfl | rfl
    · exact .source contDiffAt_const
    · exact .phaseShifter (smooth_coord p 0)
    · exact .voa (smooth_coord p 1)
    · exact .measure
  conns := by
    intro v hv
    simp only [g, List.mem_cons, List.not_mem_nil, or_false] at hv
    rcases hv with rfl | rfl | rfl | rfl
    · exact .terminal
    · exact .splitter (a := [fun θ : Fin 3 → ℝ => θ 2]) (by simpa using ⟨smooth_coord p 2, h0, h1⟩)
    · exact .splitter (a := []) (by simp)
    · exact .terminal
  runs := by
    obtain ⟨st, h⟩ := Arms.runs (P := demoProp) x h0.le h1.le (o0 := .phaseShifter (p 0)) (o1 := .voa (p 1)) (last := .measure)
      (fun y => ⟨_, rfl⟩) (fun y => ⟨_, rfl⟩) (fun y => ⟨_, rfl⟩) (fun _ => false) inp old
    obtain ⟨_, _, z, _, _, _, hz⟩ := C88_field g_wf Arms.two_inter (r := [p 2]) rfl rfl h
    exact ⟨st, z, h, hz, C91_score_noise T z⟩

noncomputable def p : Fin 3 → ℝ := ![1, 2, 1 / 2]

theorem p_pos : 0 < p 2 := by show (0 : ℝ) < 1 / 2; norm_num
theorem p_lt : p 2 < 1 := by show (1 / 2 : ℝ) < 1; norm_num

example (x T inp : Signal 4) (v : ℝ) := C91_value (P := demoProp) (optic := optic x) (conn := conn) (hasNoise := fun _ => false) (inp := inp) (old := Store.empty)
  (at_ := .edge ⟨2, 3, 0⟩) (score := fun y => .ok (noiseSuppressionScore T y)) g_wf p v
example (x T inp : Signal 4) := C91_objective (smooth (k := ⊤) x T inp Store.empty (p := p) p_pos p_lt)
example (x T inp : Signal 4) := C91_gradient (smooth x T inp Store.empty (p := p) p_pos p_lt)
example (x T inp : Signal 4) := C91_hessian (smooth x T inp Store.empty (p := p) p_pos p_lt)
example (x T inp : Signal 4) (v : Fin 3 → ℝ) := C91_curvature (smooth x T inp Store.empty (p := p) p_pos p_lt) v

example (x inp : Signal 4) : ∃ st, propagate g (physics demoProp (optic x p) (conn p) (fun _ => false)) inp Store.empty = .ok st ∧
    ∃ s, st (.edge ⟨2, 3, 0⟩) = some s ∧ ∃ y : (Fin 3 → ℝ) → Signal 4, ContDiffAt ℝ 3 y p ∧ y p = s := by
  have h := smooth (k := 3) x x inp Store.empty (p := p) p_pos p_lt
  obtain ⟨st, s, h1, h2, -⟩ := h.runs
  obtain ⟨y, h3, h4, -⟩ := (C91_state demoProp _ h.optics h.conns h1).2 _ _ h2
  exact ⟨st, h1, s, h2, y, h3, h4⟩

/-- Attenuation, phase and ratio in a box inside the bounds: there are best parameters, and they satisfy the first order conditions. -/
example (x T inp : Signal 4) : ∃ q ∈ Set.Icc (fun _ => 1 / 4 : Fin 3 → ℝ) (fun _ => 3 / 4), ∀ i : Fin 3, 1 / 4 < q i → q i < 3 / 4 →
    pderiv i (funcOf demoProp g (optic x) conn (fun _ => false) inp Store.empty (.edge ⟨2, 3, 0⟩) (fun y => .ok (noiseSuppressionScore T y))) q = 0 := by
  have hbox : ∀ k : WithTop ℕ∞, ∀ q ∈ Set.Icc (fun _ => 1 / 4 : Fin 3 → ℝ) (fun _ => 3 / 4),
      SmoothSystemAt k demoProp g (optic x) conn (fun _ => false) inp Store.empty (.edge ⟨2, 3, 0⟩) (fun y => .ok (noiseSuppressionScore T y)) q := by
    intro k q hq
    have h1 : (1 / 4 : ℝ) ≤ q 2 := hq.1 2
    have h2 : q 2 ≤ (3 / 4 : ℝ) := hq.2 2
    exact smooth x T inp Store.empty (by linarith) (by linarith)
  obtain ⟨q, hq, v, hv, hmin⟩ := C91_optimum_exists (by intro i; norm_num) (hbox 0)
  refine ⟨q, hq, fun i h1 h2 => (C91_best_in_box (hbox 1 q hq) hq (IsMinOn.localize fun q' hq' => ?_) i).2.2 h1 h2⟩
  obtain ⟨v', h3, h4⟩ := hmin q' hq'
  simpa only [Set.mem_ofPred_eq, funcOf, hv, h3] using h4

/-- The second parameter is not used by any component: it is free-wheeling. -/
example (x T inp : Signal 4) :
    let f := funcOf demoProp g (fun (θ : Fin 3 → ℝ) => Arms.optic x (.phaseShifter (θ 0)) .waveguide .measure) conn (fun _ => false) inp Store.empty
        (.edge ⟨2, 3, 0⟩) (fun y => .ok (noiseSuppressionScore T y))
    pderiv 1 f p = 0 ∧ (paramScores (autoHessian f p))[1]? = some 0 := by
  have h : SmoothSystemAt 2 demoProp g (fun (θ : Fin 3 → ℝ) => Arms.optic x (.phaseShifter (θ 0)) .waveguide .measure) conn (fun _ => false) inp Store.empty
      (.edge ⟨2, 3, 0⟩) (fun y => .ok (noiseSuppressionScore T y)) p := by
    refine ⟨?_, (smooth (k := 2) x T inp Store.empty p_pos p_lt).conns, ?_⟩
    · intro e he
      simp only [g, List.mem_cons, List.not_mem_nil, or_false] at he
      rcases he with rfl | rfl | rfl | rfl
      · exact .source contDiffAt_const
      · exact .phaseShifter (smooth_coord p 0)
      · exact .waveguide
      · exact .measure
    · obtain ⟨st, h⟩ := Arms.runs (P := demoProp) x p_pos.le p_lt.le (o0 := .phaseShifter (p 0)) (o1 := .waveguide) (last := .measure)
        (fun y => ⟨_, rfl⟩) (fun y => ⟨_, rfl⟩) (fun y => ⟨_, rfl⟩) (fun _ => false) inp Store.empty
      obtain ⟨_, _, z, _, _, _, hz⟩ := C88_field g_wf Arms.two_inter (r := [p 2]) rfl rfl h
      exact ⟨st, z, h, hz, C91_score_noise T z⟩
  have key := C91_free_wheeling h 1 (Filter.Eventually.of_forall fun q => by
    simp [systemScore, conn, Function.update])
  exact ⟨key.1, key.2.2⟩

/-- Two bare waveguides behind a splitter: the output has no derivative with respect to the ratio where the ratio is 0 or 1. -/
example (x inp : Signal 4) (hx : x 0 ≠ 0) : ∃ w : ℝ → Signal 4,
    (∀ r ∈ Set.Icc (0 : ℝ) 1, ∃ st, propagate g (physics demoProp (Arms.optic x .waveguide .waveguide .measure) (Arms.conn r) (fun _ => false)) inp Store.empty = .ok st ∧
      st (.edge ⟨2, 3, 0⟩) = some (w r)) ∧
    ¬ DifferentiableWithinAt ℝ (fun r => (w r 0).re) (Set.Icc 0 1) 0 ∧ ¬ DifferentiableWithinAt ℝ (fun r => (w r 0).re) (Set.Icc 0 1) 1 := by
  have hrun : ∀ r, ∃ st : Store (Signal 4), r ∈ Set.Icc (0 : ℝ) 1 →
      propagate g (physics demoProp (Arms.optic x .waveguide .waveguide .measure) (Arms.conn r) (fun _ => false)) inp Store.empty = .ok st := by
    intro r
    by_cases hr : r ∈ Set.Icc (0 : ℝ) 1
    · obtain ⟨st, h⟩ := Arms.runs (P := demoProp) x hr.1 hr.2 (o0 := .waveguide) (o1 := .waveguide) (last := .measure)
        (fun y => ⟨_, rfl⟩) (fun y => ⟨_, rfl⟩) (fun y => ⟨_, rfl⟩) (fun _ => false) inp Store.empty
      exact ⟨st, fun _ => h⟩
    · exact ⟨Store.empty, fun h => absurd h hr⟩
  choose st hst using hrun
  have hout : ∀ r, ∃ z, r ∈ Set.Icc (0 : ℝ) 1 → st r (.edge ⟨2, 3, 0⟩) = some z := by
    intro r
    by_cases hr : r ∈ Set.Icc (0 : ℝ) 1
    · obtain ⟨_, _, z, _, _, _, hz⟩ := C88_field g_wf Arms.two_inter (r := [r]) rfl rfl (hst r hr)
      exact ⟨z, fun _ => hz⟩
    · exact ⟨x, fun h => absurd h hr⟩
  choose w hwr using hout
  have hin : ∀ r ∈ Set.Icc (0 : ℝ) 1, st r (.edge ⟨0, 1, 0⟩) = some x := by
    intro r hr
    have hF := ((propagate_iff g_wf).1 (hst r hr)).2
    obtain ⟨_, _, _, _, _, _, _, s2, _, _, _, h5, h6, h7⟩ := hF.edges ⟨0, 1, 0, laser 4, 10⟩ (by decide)
    obtain rfl := physics_through h6
    injection h5 with h5
    rw [← h5] at h7
    exact h7
  have key := fun r hr => C91_splitter_edge (P := demoProp) (inp := inp) (old := Store.empty) (hasNoise := fun _ => false) g_wf Arms.two_inter
    (optic := Arms.optic x .waveguide .waveguide .measure) (conn := Arms.conn) (fun _ => rfl) (fun _ => rfl) rfl (φ := fun _ => 0)
    (turns_waveguide demoProp) (turns_waveguide demoProp) (by simp) (st := st) hst (x := x) hin (w := w) hwr 0 hx (r := r) hr
  exact ⟨w, fun r hr => ⟨_, hst r hr, hwr r hr⟩, key 0 (.inl rfl), key 1 (.inr rfl)⟩

theorem dt_one : demoProp.dt = 1 := by rw [(dt_df demoProp).1]; norm_num [demoProp]

/-- One and a pulse. -/
noncomputable def bump : Fin 4 → ℝ := fun i => if i = 0 then 2 else 1

theorem fft_one : npFft (fun _ : Fin 4 => (1 : ℂ)) = fun k => if k = 0 then 4 else 0 := by
  have : npIfft (fun k : Fin 4 => if k = 0 then (4 : ℂ) else 0) = fun _ => 1 := by
    funext j
    unfold npIfft
    rw [Finset.sum_eq_single 0 (fun b _ hb => by simp only [if_neg hb, zero_mul]) (fun h => absurd (Finset.mem_univ _) h)]
    simp
  rw [← this, npFft_npIfft]

theorem fft_bump : npFft (fun i : Fin 4 => ((bump i : ℝ) : ℂ)) = fun k => if k = 0 then 5 else 1 := by
  have h1 : npFft (fun i : Fin 4 => if i = 0 then (1 : ℂ) else 0) = fun _ => 1 := by
    funext k
    unfold npFft
    rw [Finset.sum_eq_single 0 (fun b _ hb => by simp only [if_neg hb, zero_mul]) (fun h => absurd (Finset.mem_univ _) h)]
    simp
  have h2 : npFft (fun i : Fin 4 => ((bump i : ℝ) : ℂ)) = fun k => npFft (fun _ : Fin 4 => (1 : ℂ)) k + npFft (fun i : Fin 4 => if i = 0 then (1 : ℂ) else 0) k := by
    funext k
    unfold npFft
    rw [← Finset.sum_add_distrib]
    refine Finset.sum_congr rfl fun i _ => ?_
    rw [← add_mul]
    congr 1
    unfold bump
    dsimp only
    split <;> norm_num
  rw [h2, h1, fft_one]
  funext k
  dsimp only
  split <;> norm_num

theorem fft_bump_ne (k : Fin 4) : npFft (fun i : Fin 4 => ((bump i : ℝ) : ℂ)) k ≠ 0 := by
  rw [fft_bump]; dsimp only; split <;> norm_num

theorem bump_ne (i : Fin 4) : bump i ≠ 0 := by unfold bump; split <;> norm_num

/-- A filter is scored smoothly on light with all frequencies. -/
example : SmoothScoreAt 2 (filterDesignScore demoProp (fun _ => 1)) (fun i => ((bump i : ℝ) : ℂ)) := by
  obtain ⟨s, hs, -⟩ := (C67_filter_design (n := 4) (by norm_num) (P := demoProp) (by norm_num [demoProp]) (target := fun _ => 1) (by norm_num)).1
    (fun i => ((bump i : ℝ) : ℂ)) ⟨0, by exact_mod_cast bump_ne 0⟩
  refine C91_score_filter hs fun i => ?_
  rw [dt_one]
  unfold fft_
  simpa using fft_bump_ne i

/-- … and not on a constant field, which is dark away from the carrier. -/
example : ∃ (d : Signal 4) (φ : ℝ → ℝ), (∀ t : ℝ, filterDesignScore demoProp (fun i => if i = 2 then 1 else 0) (fun i => 1 + t * d i) = .ok (φ t)) ∧ ¬ DifferentiableAt ℝ φ 0 := by
  have hr : ∀ i, fftShift (fft_ (fun _ : Fin 4 => (1 : ℂ)) demoProp.dt) i = if i = 2 then 4 else 0 := fun i => by
    rw [dt_one]; unfold fftShift fft_
    rw [fft_one]
    fin_cases i <;> simp [rotIdx]
  refine C91_filter_kink (by rw [dt_one]; norm_num) (v := -1) (j := 0) ?_ (by rw [hr, if_neg (by decide)]) (by rw [if_neg (by decide)]; norm_num)
  unfold filterDesignScore percentTotal
  simp only [hr]
  rw [if_neg (by simp [Fin.sum_univ_four, Fin.ext_iff])]
  congr 1
  simp [Fin.sum_univ_four, Fin.ext_iff]

example : SmoothScoreAt 2 (notGateScore (fun _ : Fin 4 => 1)) (fun _ => 1) := by
  refine C91_score_not_gate (v := 4 / 16) ?_
  unfold notGateScore simCosine power_
  simp
  norm_num

theorem ind_lt : harmonicInd demoProp demoProp.df < 4 := by
  have h : demoProp.df ≠ 0 := (df_pos' (by norm_num) (by norm_num [demoProp])).ne'
  unfold harmonicInd
  rw [div_self h]
  norm_num

example : SmoothScoreAt 2 (fun x => match pulseScore demoProp bump demoProp.df x with | .error e => .error e | .ok z => .ok z.re) (fun i => ((bump i : ℝ) : ℂ)) := by
  refine C91_score_pulse ind_lt (by rw [div_self (fft_bump_ne _)]; simp) (y := fun i => ((bump i : ℝ) : ℂ)) ?_ (fun i => by exact_mod_cast bump_ne i)
  unfold pulseShift
  rw [dif_pos ind_lt, if_neg (fft_bump_ne _), if_neg (fft_bump_ne _)]
  simp only [div_self (fft_bump_ne _), Complex.arg_one, zero_div, zero_mul, Complex.ofReal_zero, mul_zero, Complex.exp_zero, mul_one]
  congr 1
  funext i
  rw [show npIfft (fun k => npFft (fun i : Fin 4 => ((bump i : ℝ) : ℂ)) k) = fun i : Fin 4 => ((bump i : ℝ) : ℂ) from npIfft_npFft _]
  have h : 0 ≤ bump i := by unfold bump; split <;> norm_num
  rw [Complex.norm_real, Real.norm_of_nonneg h]

example : SmoothScoreAt 2 (rfScore demoProp bump 3 demoProp.df) (fun i => ((bump i : ℝ) : ℂ)) := by
  have hne : ∀ k, fft_ (fun i : Fin 4 => ((bump i : ℝ) : ℂ)) demoProp.dt k ≠ 0 := fun k => by
    rw [dt_one]; unfold fft_; simpa using fft_bump_ne k
  refine C91_score_waveform (by norm_num) ind_lt (by rw [div_self (hne _)]; simp) (y := bump) ?_ bump_ne
  unfold rfShift
  rw [dif_pos ind_lt, if_neg (hne _)]
  simp only [div_self (hne _), Complex.arg_one, zero_mul, Complex.ofReal_zero, mul_zero, Complex.exp_zero, one_mul]
  congr 1
  funext i
  rw [show ifft_ (fun k => fft_ (fun i : Fin 4 => ((bump i : ℝ) : ℂ)) demoProp.dt k) demoProp.dt = fun i : Fin 4 => ((bump i : ℝ) : ℂ) by
    rw [dt_one]; unfold ifft_ fft_; simp [npIfft_npFft]]
  have h : 0 ≤ bump i := by unfold bump; split <;> norm_num
  rw [Complex.norm_real, Real.norm_of_nonneg h]

end Tuned

end Verif
