import Verif.Spec.Objective
import Verif.Lemmas.Family
import Mathlib.Analysis.Calculus.ContDiff.Operations
import Mathlib.Analysis.SpecialFunctions.ExpDeriv
import Mathlib.Analysis.SpecialFunctions.Sqrt
import Mathlib.Analysis.SpecialFunctions.Pow.Deriv
import Mathlib.Analysis.SpecialFunctions.Trigonometric.Deriv
import Mathlib.Analysis.InnerProductSpace.Calculus
import Mathlib.Analysis.Complex.RealDeriv
/-! # Components are smooth functions of their settings and of the light -/

namespace Verif
open Complex Filter Topology

variable {n : Nat} {E : Type} [NormedAddCommGroup E] [NormedSpace ℝ E] {k : WithTop ℕ∞} {θ₀ : E}

theorem cd_ofReal {f : E → ℝ} (h : ContDiffAt ℝ k f θ₀) : ContDiffAt ℝ k (fun θ => ((f θ : ℝ) : ℂ)) θ₀ :=
  Complex.ofRealCLM.contDiff.contDiffAt.comp θ₀ h

theorem cd_apply {x : E → Signal n} (h : ContDiffAt ℝ k x θ₀) (i : Fin n) : ContDiffAt ℝ k (fun θ => x θ i) θ₀ := contDiffAt_pi.1 h i

theorem cd_div_const {f : E → ℂ} (h : ContDiffAt ℝ k f θ₀) (c : ℂ) : ContDiffAt ℝ k (fun θ => f θ / c) θ₀ := by
  simp only [div_eq_mul_inv]
  exact h.mul contDiffAt_const

theorem cd_npFft {x : E → Signal n} (h : ContDiffAt ℝ k x θ₀) : ContDiffAt ℝ k (fun θ => npFft (x θ)) θ₀ :=
  contDiffAt_pi.2 fun _ => ContDiffAt.sum fun i _ => (cd_apply h i).mul contDiffAt_const

theorem cd_npIfft {x : E → Signal n} (h : ContDiffAt ℝ k x θ₀) : ContDiffAt ℝ k (fun θ => npIfft (x θ)) θ₀ :=
  contDiffAt_pi.2 fun _ => cd_div_const (ContDiffAt.sum fun i _ => (cd_apply h i).mul contDiffAt_const) _

theorem cd_fft {x : E → Signal n} (h : ContDiffAt ℝ k x θ₀) (dt : ℝ) : ContDiffAt ℝ k (fun θ => fft_ (x θ) dt) θ₀ :=
  contDiffAt_pi.2 fun i => (cd_apply (cd_npFft h) i).mul contDiffAt_const

theorem cd_ifft {x : E → Signal n} (h : ContDiffAt ℝ k x θ₀) (dt : ℝ) : ContDiffAt ℝ k (fun θ => ifft_ (x θ) dt) θ₀ :=
  contDiffAt_pi.2 fun i => cd_div_const (cd_apply (cd_npIfft h) i) _

theorem cd_freqMul {m x : E → Signal n} (hm : ContDiffAt ℝ k m θ₀) (hx : ContDiffAt ℝ k x θ₀) (dt : ℝ) :
    ContDiffAt ℝ k (fun θ => freqMul (m θ) dt (x θ)) θ₀ :=
  cd_ifft (contDiffAt_pi.2 fun i => (cd_apply hm i).mul (cd_apply (cd_fft hx dt) i)) dt

theorem cd_ifftShift {x : E → Signal n} (h : ContDiffAt ℝ k x θ₀) : ContDiffAt ℝ k (fun θ => ifftShift (x θ)) θ₀ :=
  contDiffAt_pi.2 fun _ => cd_apply h _

theorem cd_fftShift {x : E → Signal n} (h : ContDiffAt ℝ k x θ₀) : ContDiffAt ℝ k (fun θ => fftShift (x θ)) θ₀ :=
  contDiffAt_pi.2 fun _ => cd_apply h _

theorem cd_dbAmp {f : E → ℝ} (h : ContDiffAt ℝ k f θ₀) : ContDiffAt ℝ k (fun θ => dbAmp (f θ)) θ₀ :=
  ContDiffAt.rpow contDiffAt_const (h.div_const 20) (by norm_num)

theorem cd_dbScale {f : E → ℝ} {x : E → Signal n} (hf : ContDiffAt ℝ k f θ₀) (hx : ContDiffAt ℝ k x θ₀) :
    ContDiffAt ℝ k (fun θ => dbScale (f θ) (x θ)) θ₀ :=
  contDiffAt_pi.2 fun i => (cd_apply hx i).mul (cd_ofReal (cd_dbAmp hf))

theorem cd_phase {f : E → ℝ} (h : ContDiffAt ℝ k f θ₀) : ContDiffAt ℝ k (fun θ => exp (I * ((f θ : ℝ) : ℂ))) θ₀ :=
  (contDiffAt_const.mul (cd_ofReal h)).cexp

theorem cd_power {x : E → Signal n} (h : ContDiffAt ℝ k x θ₀) (i : Fin n) : ContDiffAt ℝ k (fun θ => power_ (x θ) i) θ₀ :=
  (cd_apply h i).norm_sq ℝ

theorem cd_listSum {F : Type} [NormedAddCommGroup F] [NormedSpace ℝ F] : ∀ {L : List (E → F)}, (∀ f ∈ L, ContDiffAt ℝ k f θ₀) →
    ContDiffAt ℝ k (fun θ => (L.map (· θ)).sum) θ₀
  | [], _ => by simpa using contDiffAt_const
  | f :: L, h => by
    simp only [List.map_cons, List.sum_cons]
    exact (h f (by simp)).add (cd_listSum fun f' hf' => h f' (by simp [hf']))

theorem cd_listProd : ∀ {L : List (E → ℝ)}, (∀ f ∈ L, ContDiffAt ℝ k f θ₀) → ContDiffAt ℝ k (fun θ => (L.map (· θ)).prod) θ₀
  | [], _ => by simpa using contDiffAt_const
  | f :: L, h => by
    simp only [List.map_cons, List.prod_cons]
    exact (h f (by simp)).mul (cd_listProd fun f' hf' => h f' (by simp [hf']))

/-! ### wave shaper -/

theorem wsMask_family (m : Nat) {a : List (E → ℝ)} (ha : ∀ f ∈ a, ContDiffAt ℝ k f θ₀) :
    ∃ L : List (E → ℝ), (∀ f ∈ L, ContDiffAt ℝ k f θ₀) ∧ ∀ θ, wsMask n (wsRepeat m (a.map (· θ))) = L.map (· θ) := by
  have hrep : ∃ R : List (E → ℝ), (∀ f ∈ R, ContDiffAt ℝ k f θ₀) ∧ ∀ θ, wsRepeat m (a.map (· θ)) = R.map (· θ) := by
    refine ⟨a.flatMap (List.replicate m), ?_, fun θ => ?_⟩
    · intro f hf
      obtain ⟨g, hg, hf⟩ := List.mem_flatMap.1 hf
      rw [List.eq_of_mem_replicate hf]
      exact ha g hg
    · unfold wsRepeat
      rw [List.flatMap_map, List.map_flatMap]
      simp
  obtain ⟨R, hR, hR'⟩ := hrep
  by_cases hl : ((n : ℤ) - R.length) / 2 < 0
  · refine ⟨(R.take ((n : ℤ) - (-((-((n : ℤ) - R.length)) / 2))).toNat).drop (-(((n : ℤ) - R.length) / 2)).toNat, ?_, fun θ => ?_⟩
    · intro f hf
      exact hR f (List.mem_of_mem_take (List.mem_of_mem_drop hf))
    · rw [hR' θ]
      unfold wsMask
      simp only [List.length_map]
      rw [if_pos hl, List.map_drop, List.map_take]
  · refine ⟨List.replicate (((n : ℤ) - R.length) / 2).toNat (fun _ => extinction) ++ R ++
      List.replicate ((n : ℤ) - ((n : ℤ) - (-((-((n : ℤ) - R.length)) / 2)))).toNat (fun _ => extinction), ?_, fun θ => ?_⟩
    · intro f hf
      rcases List.mem_append.1 hf with hf | hf
      · rcases List.mem_append.1 hf with hf | hf
        · rw [List.eq_of_mem_replicate hf]; exact contDiffAt_const
        · exact hR f hf
      · rw [List.eq_of_mem_replicate hf]; exact contDiffAt_const
    · rw [hR' θ]
      unfold wsMask
      simp only [List.length_map]
      rw [if_neg hl]
      simp

theorem broadcast_family {L : List (E → ℝ)} (hL : ∀ f ∈ L, ContDiffAt ℝ k f θ₀) :
    (∃ v : E → Fin n → ℝ, ContDiffAt ℝ k v θ₀ ∧ ∀ θ, broadcast n (L.map (· θ)) = .ok (v θ)) ∨ (∃ e, ∀ θ, broadcast n (L.map (· θ)) = .error e) := by
  by_cases h : L.length = n
  · refine .inl ⟨fun θ i => (L[i.val]'(by rw [h]; exact i.isLt)) θ, contDiffAt_pi.2 fun i => hL _ (List.getElem_mem _), fun θ => ?_⟩
    unfold broadcast
    rw [dif_pos (by simpa using h)]
    simp
  · match L with
    | [] =>
      refine .inr ⟨.valueError, fun θ => ?_⟩
      unfold broadcast
      rw [dif_neg (by simpa using h)]
      rfl
    | [f] =>
      refine .inl ⟨fun θ _ => f θ, contDiffAt_pi.2 fun _ => hL f (by simp), fun θ => ?_⟩
      unfold broadcast
      rw [dif_neg (by simpa using h)]
      rfl
    | f :: f' :: L =>
      refine .inr ⟨.valueError, fun θ => ?_⟩
      unfold broadcast
      rw [dif_neg (by simpa using h)]
      rfl

/-! ### programmable filter -/

theorem cd_getWaveform {a : List (E → ℝ)} (ha : ∀ f ∈ a, ContDiffAt ℝ k f θ₀) (t : ℝ) : ContDiffAt ℝ k (fun θ => getWaveform (a.map (· θ)) t) θ₀ := by
  have he : (fun θ => getWaveform (a.map (· θ)) t) =
      fun θ => ((a.zipIdx.map (fun p => fun θ => p.1 θ * bernstein_ t p.2 (a.length - 1))).map (· θ)).sum := by
    funext θ
    unfold getWaveform
    rw [List.zipIdx_map, List.map_map, List.map_map]
    simp only [List.length_map]
    rfl
  rw [he]
  refine cd_listSum fun f hf => ?_
  obtain ⟨p, hp, rfl⟩ := List.mem_map.1 hf
  exact (ha _ (List.fst_mem_of_mem_zipIdx hp)).mul contDiffAt_const

/-! ### split and delay -/

theorem cd_sdlLoop (P : Prop_ n) : ∀ {L : List ((E → ℝ) × ℝ)} (_ : ∀ p ∈ L, ContDiffAt ℝ k p.1 θ₀) {s t : E → Signal n} (_ : ContDiffAt ℝ k s θ₀)
    (_ : ContDiffAt ℝ k t θ₀), ContDiffAt ℝ k (fun θ => (sdlLoop P (L.map (fun p => (p.1 θ, p.2))) (s θ, t θ)).1) θ₀
  | [], _, s, t, hs, _ => hs
  | p :: L, h, s, t, hs, ht => by
    simp only [List.map_cons, sdlLoop]
    have hc : ContDiffAt ℝ k (fun θ => Real.cos (Real.pi / 2 * p.1 θ)) θ₀ := (contDiffAt_const.mul (h p (by simp))).cos
    have hsn : ContDiffAt ℝ k (fun θ => Real.sin (Real.pi / 2 * p.1 θ)) θ₀ := (contDiffAt_const.mul (h p (by simp))).sin
    exact cd_sdlLoop P (L := L) (fun q hq => h q (by simp [hq]))
      (contDiffAt_pi.2 fun i => ((cd_ofReal hc).mul (cd_apply hs i)).add ((contDiffAt_const.mul (cd_ofReal hsn)).mul (cd_apply ht i)))
      (contDiffAt_pi.2 fun i => contDiffAt_const.mul
        (((contDiffAt_const.mul (cd_ofReal hsn)).mul (cd_apply hs i)).add ((cd_ofReal hc).mul (cd_apply ht i))))

/-! ### amplifier, filter, detector -/

theorem cd_logistic {f : E → ℝ} (h : ContDiffAt ℝ k f θ₀) : ContDiffAt ℝ k (fun θ => logistic (f θ)) θ₀ := by
  unfold logistic
  exact ContDiffAt.div contDiffAt_const (contDiffAt_const.add h.neg.exp) (by positivity)

theorem cd_edfa (P : Prop_ n) {A : Edfa} {gain : E → ℝ} (hg : ContDiffAt ℝ k gain θ₀) (hp : 0 < A.pOutMax) (ha : A.alpha = 1) {x : E → Signal n}
    (hx : ContDiffAt ℝ k x θ₀) : ContDiffAt ℝ k (fun θ => Edfa.propagate { A with gainDb := gain θ } P (x θ)) θ₀ := by
  have hpow : ContDiffAt ℝ k (fun θ => npMean (power_ (x θ))) θ₀ := (ContDiffAt.sum fun i _ => cd_power hx i).div_const _
  have hten : ContDiffAt ℝ k (fun θ => (10 : ℝ) ^ (gain θ / 10)) θ₀ := ContDiffAt.rpow contDiffAt_const (hg.div_const 10) (by norm_num)
  have hss : ∀ i, ContDiffAt ℝ k (fun θ => Edfa.smallSignal { A with gainDb := gain θ } P i) θ₀ := by
    intro i
    unfold Edfa.smallSignal
    dsimp only
    by_cases hf : |A.flatnessDb| ≤ 1 / 10 ^ 12
    · simp only [if_pos hf]; exact contDiffAt_const.mul hten
    · simp only [if_neg hf]; exact hten.mul contDiffAt_const
  have hpos : ∀ θ i, 0 < Edfa.smallSignal { A with gainDb := gain θ } P i := by
    intro θ i
    unfold Edfa.smallSignal
    dsimp only
    split <;> positivity
  have hm : ∀ θ, 0 ≤ npMean (power_ (x θ)) := fun θ => by unfold npMean power_; positivity
  unfold Edfa.propagate
  refine cd_ifft (contDiffAt_pi.2 fun i => (cd_ofReal (ContDiffAt.sqrt ?_ ?_)).mul (cd_apply (cd_fft hx _) i)) _
  · unfold Edfa.gain
    simp only [ha, Real.rpow_one]
    refine ContDiffAt.div (hss i) (contDiffAt_const.add (((hss i).mul hpow).div_const _)) ?_
    have := mul_nonneg (hpos θ₀ i).le (hm θ₀)
    positivity
  · unfold Edfa.gain
    simp only [ha, Real.rpow_one]
    have h1 := hpos θ₀ i
    have := mul_nonneg h1.le (hm θ₀)
    positivity

theorem cd_current {D : Photodiode} (hr : 0 < D.responsivity) (hm : 0 < D.maxCurrent) {x : E → Signal n} (hx : ContDiffAt ℝ k x θ₀) (i : Fin n) :
    ContDiffAt ℝ k (fun θ => D.current (power_ (x θ) i)) θ₀ := by
  have he : (fun θ => D.current (power_ (x θ) i)) = fun θ => D.maxCurrent * (D.responsivity / D.maxCurrent) * power_ (x θ) i /
      (1 + (D.responsivity / D.maxCurrent * power_ (x θ) i) ^ 15) ^ ((1 : ℝ) / 15) := by
    funext θ
    unfold Photodiode.current
    dsimp only
    rw [abs_of_nonneg]
    have : 0 ≤ power_ (x θ) i := by unfold power_; positivity
    positivity
  rw [he]
  have hp : 0 ≤ power_ (x θ₀) i := by unfold power_; positivity
  have h1 : 0 < 1 + (D.responsivity / D.maxCurrent * power_ (x θ₀) i) ^ 15 := by positivity
  refine ContDiffAt.div (contDiffAt_const.mul (cd_power hx i)) (ContDiffAt.rpow (contDiffAt_const.add ((contDiffAt_const.mul (cd_power hx i)).pow 15))
    contDiffAt_const h1.ne') ?_
  exact (Real.rpow_pos_of_pos h1 _).ne'

/-- What an edge does, as a function of the parameters. -/
theorem optic_family (P : Prop_ n) {o : E → Optic n} (ho : Optic.SmoothAt k θ₀ o) {x : E → Signal n} (hx : ContDiffAt ℝ k x θ₀) {y₀ : Signal n}
    (h : (o θ₀).apply P (x θ₀) = .ok y₀) :
    ∃ y : E → Signal n, ContDiffAt ℝ k y θ₀ ∧ ∀ᶠ θ in 𝓝 θ₀, (o θ).apply P (x θ) = .ok (y θ) := by
  cases ho with
  | @fiber l hl =>
    refine ⟨_, ?_, Eventually.of_forall fun θ => rfl⟩
    refine cd_dbScale ((contDiffAt_const.mul hl).div_const _) (cd_freqMul (cd_ifftShift (contDiffAt_pi.2 fun i => cd_phase ?_)) hx _)
    exact (hl.mul contDiffAt_const).mul contDiffAt_const
  | @voa a ha => exact ⟨_, cd_dbScale ha hx, Eventually.of_forall fun θ => rfl⟩
  | @phaseMod d f s hd hf hs =>
    refine ⟨_, ?_, Eventually.of_forall fun θ => rfl⟩
    refine cd_dbScale contDiffAt_const (contDiffAt_pi.2 fun i => (cd_apply hx i).mul (cd_phase (hd.mul (ContDiffAt.cos ?_))))
    exact ((((contDiffAt_const.mul hf).mul contDiffAt_const).add hs).add contDiffAt_const)
  | @intensityMod d f b hd hf hb =>
    refine ⟨_, ?_, Eventually.of_forall fun θ => rfl⟩
    refine cd_dbScale contDiffAt_const (contDiffAt_pi.2 fun i => (cd_div_const (cd_apply hx i) 2).add ((cd_div_const (cd_apply hx i) 2).mul
      (cd_phase ((hd.mul (ContDiffAt.cos ?_)).add hb))))
    exact ((contDiffAt_const.mul hf).mul contDiffAt_const)
  | @waveShaper a p ha hp =>
    obtain ⟨La, h1, h2⟩ := wsMask_family (n := n) (wsBinLen P) ha
    obtain ⟨Lp, h3, h4⟩ := wsMask_family (n := n) (wsBinLen P) hp
    have hap : ∀ θ, (Optic.waveShaper (a.map (· θ)) (p.map (· θ))).apply P (x θ) = waveShaper P (a.map (· θ)) (p.map (· θ)) (x θ) := fun θ => rfl
    unfold waveShaper at hap
    simp only [h2, h4] at hap
    rcases broadcast_family (n := n) h1 with ⟨va, hva, hva'⟩ | ⟨e, he⟩
    · rcases broadcast_family (n := n) h3 with ⟨vp, hvp, hvp'⟩ | ⟨e, he⟩
      · simp only [hva', hvp'] at hap
        refine ⟨_, ?_, Eventually.of_forall fun θ => hap θ⟩
        exact cd_dbScale contDiffAt_const (cd_freqMul (cd_ifftShift (contDiffAt_pi.2 fun i =>
          (cd_ofReal (contDiffAt_pi.1 hva i)).mul (cd_phase (contDiffAt_pi.1 hvp i)))) hx _)
      · simp only [hva', he] at hap
        rw [hap θ₀] at h; cases h
    · simp only [he] at hap
      rw [hap θ₀] at h; cases h
  | @splitDelay r hr =>
    have hz : ∀ θ, (r.map (· θ)).zip sdlDelays = (r.zip sdlDelays).map (fun p => (p.1 θ, p.2)) := by
      intro θ
      rw [List.zip_map_left]
      rfl
    have hap : ∀ θ, (Optic.splitDelay (r.map (· θ))).apply P (x θ) = .ok (dbScale 1 (ifft_ (sdlLoop P ((r.zip sdlDelays).map (fun p => (p.1 θ, p.2)))
        (fft_ (x θ) P.dt, fun _ => 0)).1 P.dt)) := by
      intro θ
      rw [← hz θ]; rfl
    refine ⟨_, ?_, Eventually.of_forall fun θ => hap θ⟩
    exact cd_dbScale contDiffAt_const (cd_ifft (cd_sdlLoop P (fun p hp => hr _ (List.of_mem_zip hp).1) (cd_fft hx _) contDiffAt_const) _)
  | @delayLine d hd =>
    refine ⟨_, ?_, Eventually.of_forall fun θ => rfl⟩
    refine cd_dbScale contDiffAt_const (cd_freqMul (contDiffAt_pi.2 fun i => cd_phase ?_) hx _)
    exact contDiffAt_const.mul (contDiffAt_const.mul hd)
  | @intDelayLine d hd =>
    refine ⟨_, ?_, Eventually.of_forall fun θ => rfl⟩
    refine cd_dbScale contDiffAt_const (cd_freqMul (contDiffAt_pi.2 fun i => cd_phase ?_) hx _)
    exact contDiffAt_const.mul (contDiffAt_const.mul (hd.mul contDiffAt_const))
  | waveguide => exact ⟨_, hx, Eventually.of_forall fun θ => rfl⟩
  | @phaseShifter p hp => exact ⟨_, cd_freqMul (contDiffAt_pi.2 fun _ => cd_phase hp) hx _, Eventually.of_forall fun θ => rfl⟩
  | @edfa A gain hg hpo ha => exact ⟨_, cd_edfa P hg hpo ha hx, Eventually.of_forall fun θ => rfl⟩
  | @progFilter a p ha hp =>
    by_cases hb : pfBwInt P = 0
    · have : (Optic.progFilter (a.map (· θ₀)) (p.map (· θ₀))).apply P (x θ₀) = .error .runtimeWarning := if_pos hb
      rw [this] at h; cases h
    · refine ⟨_, ?_, Eventually.of_forall fun θ => if_neg hb⟩
      exact cd_dbScale contDiffAt_const (cd_freqMul (cd_ifftShift (contDiffAt_pi.2 fun i =>
        (cd_ofReal ((cd_getWaveform ha _).mul contDiffAt_const)).mul (cd_phase ((cd_getWaveform hp _).mul contDiffAt_const)))) hx _)
  | @squareFilter b hb h0 =>
    refine ⟨_, ?_, (hb.continuousAt.eventually_ne h0).mono fun θ hθ => if_neg hθ⟩
    refine cd_dbScale contDiffAt_const (cd_freqMul (cd_ifftShift (contDiffAt_pi.2 fun i => cd_ofReal ?_)) hx _)
    unfold sfMask
    exact (cd_logistic ((contDiffAt_const.add (hb.div_const 2)).mul (contDiffAt_const.div hb h0))).mul
      (cd_logistic ((contDiffAt_const.add (hb.div_const 2)).mul (contDiffAt_const.div hb h0)))
  | @source s hs => exact ⟨_, hs, Eventually.of_forall fun θ => rfl⟩
  | measure => exact ⟨_, contDiffAt_pi.2 fun i => cd_ofReal ((cd_apply hx i).norm_sq ℝ), Eventually.of_forall fun θ => rfl⟩
  | @photodiode D hr hm =>
    have hin : ContDiffAt ℝ k (fun θ => (fun i => ((D.current (power_ (x θ) i) * D.load : ℝ) : ℂ) : Signal n)) θ₀ :=
      contDiffAt_pi.2 fun i => cd_ofReal ((cd_current hr hm hx i).mul contDiffAt_const)
    have hap : ∀ θ, (Optic.photodiode D : Optic n).apply P (x θ) = filteredTime P (.butterworth D.bandwidth 1 D.order)
        (fun i => ((D.current (power_ (x θ) i) * D.load : ℝ) : ℂ)) := fun θ => rfl
    unfold filteredTime at hap
    cases hf : getFilter P (.butterworth D.bandwidth 1 D.order) with
    | error e =>
      simp only [hf] at hap
      rw [hap θ₀] at h; cases h
    | ok H =>
      simp only [hf] at hap
      refine ⟨_, ?_, Eventually.of_forall fun θ => hap θ⟩
      exact cd_ifft (contDiffAt_pi.2 fun i => (cd_apply (cd_fft hin _) i).mul contDiffAt_const) _

/-! ### nodes -/

theorem splitWeights_family {a : List (E → ℝ)} (ha : ∀ f ∈ a, ContDiffAt ℝ k f θ₀) :
    ∃ W : List (E → ℝ), (∀ f ∈ W, ContDiffAt ℝ k f θ₀) ∧ (∀ θ, splitWeights (a.map (· θ)) = W.map (· θ)) ∧
      ((∀ f ∈ a, 0 < f θ₀ ∧ f θ₀ < 1) → ∀ f ∈ W, 0 < f θ₀) := by
  refine ⟨a.zipIdx.map (fun p => fun θ => (1 - p.1 θ) * ((a.take p.2).map (· θ)).prod) ++ [fun θ => (a.map (· θ)).prod], ?_, fun θ => ?_, ?_⟩
  · intro f hf
    rcases List.mem_append.1 hf with hf | hf
    · obtain ⟨p, hp, rfl⟩ := List.mem_map.1 hf
      exact (contDiffAt_const.sub (ha _ (List.fst_mem_of_mem_zipIdx hp))).mul (cd_listProd fun f hf => ha f (List.mem_of_mem_take hf))
    · rw [List.mem_singleton.1 hf]
      exact cd_listProd ha
  · unfold splitWeights
    rw [List.zipIdx_map, List.map_map, List.map_append, List.map_map]
    congr 1
    refine List.map_congr_left fun p _ => ?_
    simp [List.map_take]
  · intro h01 f hf
    have hprod : ∀ L : List (E → ℝ), (∀ f ∈ L, f ∈ a) → 0 < (L.map (· θ₀)).prod := by
      intro L hL
      refine List.prod_pos fun y hy => ?_
      obtain ⟨f, hf, rfl⟩ := List.mem_map.1 hy
      exact (h01 f (hL f hf)).1
    rcases List.mem_append.1 hf with hf | hf
    · obtain ⟨p, hp, rfl⟩ := List.mem_map.1 hf
      have := (h01 _ (List.fst_mem_of_mem_zipIdx hp)).2
      exact mul_pos (by linarith) (hprod _ fun f hf => List.mem_of_mem_take hf)
    · rw [List.mem_singleton.1 hf]
      exact hprod a fun f hf => hf

theorem cd_sumSignals {ss : List (E → Signal n)} (hs : ∀ s ∈ ss, ContDiffAt ℝ k s θ₀) : ContDiffAt ℝ k (fun θ => sumSignals (ss.map (· θ))) θ₀ := by
  refine contDiffAt_pi.2 fun i => ?_
  have : (fun θ => sumSignals (ss.map (· θ)) i) = fun θ => ((ss.map (fun s => fun θ => s θ i)).map (· θ)).sum := by
    funext θ
    simp [sumSignals, List.map_map, Function.comp_def]
  rw [this]
  refine cd_listSum fun f hf => ?_
  obtain ⟨s, hs', rfl⟩ := List.mem_map.1 hf
  exact cd_apply (hs s hs') i

/-- What a node does, as a function of the parameters. -/
theorem connector_family (P : Prop_ n) {c : E → Connector} (hc : Connector.SmoothAt k θ₀ c) {ss : List (E → Signal n)} (hs : ∀ s ∈ ss, ContDiffAt ℝ k s θ₀)
    (nIn nOut : Nat) {o : List (Signal n)} (h : (c θ₀).apply P (ss.map (· θ₀)) nIn nOut = .ok o) :
    ∃ outs : List (E → Signal n), (∀ s ∈ outs, ContDiffAt ℝ k s θ₀) ∧ ∀ᶠ θ in 𝓝 θ₀, (c θ).apply P (ss.map (· θ)) nIn nOut = .ok (outs.map (· θ)) := by
  cases hc with
  | terminal => exact ⟨ss, hs, Eventually.of_forall fun θ => rfl⟩
  | @splitter a ha =>
    obtain ⟨W, hW, hW', hpos⟩ := splitWeights_family fun f hf => (ha f hf).1
    have hpos := hpos fun f hf => (ha f hf).2
    have hap : ∀ θ, (Connector.splitter (a.map (· θ))).apply P (ss.map (· θ)) nIn nOut = splitSignals (a.map (· θ)) nIn nOut (ss.map (· θ)) := fun θ => rfl
    unfold splitSignals at hap
    simp only [hW', List.length_map] at hap
    by_cases hlen : ss.length ≠ nIn ∨ W.length ≠ nOut
    · simp only [if_pos hlen] at hap
      rw [hap θ₀] at h; cases h
    · simp only [if_neg hlen] at hap
      refine ⟨W.zipIdx.map (fun p => fun θ t => splitRow nIn nOut (p.1 θ) p.2 ((ss.map (· θ)).map (· t))), ?_, ?_⟩
      · intro s hs'
        obtain ⟨p, hp, rfl⟩ := List.mem_map.1 hs'
        have hp1 := List.fst_mem_of_mem_zipIdx hp
        refine contDiffAt_pi.2 fun t => ?_
        have he : (fun θ => splitRow nIn nOut (p.1 θ) p.2 ((ss.map (· θ)).map (· t))) = fun θ =>
            ((ss.zipIdx.map (fun q => fun θ => ((Real.sqrt (p.1 θ) / Real.sqrt nOut : ℝ) : ℂ) * splitPhase nIn nOut q.2 p.2 * q.1 θ t)).map (· θ)).sum := by
          funext θ
          unfold splitRow
          rw [List.map_map, List.zipIdx_map, List.map_map, List.map_map]
          rfl
        rw [he]
        refine cd_listSum fun f hf => ?_
        obtain ⟨q, hq, rfl⟩ := List.mem_map.1 hf
        exact ((cd_ofReal (((hW _ hp1).sqrt (hpos _ hp1).ne').div_const _)).mul contDiffAt_const).mul
          (cd_apply (hs _ (List.fst_mem_of_mem_zipIdx hq)) t)
      · have hev : ∀ᶠ θ in 𝓝 θ₀, ∀ f ∈ W, 0 < f θ := by
          have : ∀ L : List (E → ℝ), (∀ f ∈ L, f ∈ W) → ∀ᶠ θ in 𝓝 θ₀, ∀ f ∈ L, 0 < f θ := by
            intro L
            induction L with
            | nil => intro _; exact Eventually.of_forall fun _ _ h => by simp at h
            | cons f L ih =>
              intro hL
              have h1 : ∀ᶠ θ in 𝓝 θ₀, 0 < f θ := (hW f (hL f (by simp))).continuousAt.eventually (lt_mem_nhds (hpos f (hL f (by simp))))
              refine (h1.and (ih fun f' hf' => hL f' (by simp [hf']))).mono fun θ hθ f' hf' => ?_
              rcases List.mem_cons.1 hf' with rfl | hf'
              · exact hθ.1
              · exact hθ.2 f' hf'
          exact this W fun f hf => hf
        refine hev.mono fun θ hθ => ?_
        rw [hap θ, if_neg]
        · rw [List.zipIdx_map, List.map_map, List.map_map]
          rfl
        · rintro ⟨y, hy, hneg⟩
          obtain ⟨f, hf, rfl⟩ := List.mem_map.1 hy
          exact absurd (hθ f hf) (not_lt.2 hneg.le)
  | @freqSplitter a ha =>
    obtain ⟨W, hW, hW', -⟩ := splitWeights_family ha
    have hcut : ∃ C : List (E → ℝ), (∀ f ∈ C, ContDiffAt ℝ k f θ₀) ∧ ∀ θ, freqCutoffs (a.map (· θ)) = C.map (· θ) := by
      refine ⟨(List.range W.length).map (fun m => fun θ => ((((fun _ => 0) :: W).take (m + 1)).map (· θ)).sum) ++ [fun _ => 1], ?_, fun θ => ?_⟩
      · intro f hf
        rcases List.mem_append.1 hf with hf | hf
        · obtain ⟨m, -, rfl⟩ := List.mem_map.1 hf
          refine cd_listSum fun f hf => ?_
          rcases List.mem_cons.1 (List.mem_of_mem_take hf) with rfl | hf
          · exact contDiffAt_const
          · exact hW f hf
        · rw [List.mem_singleton.1 hf]; exact contDiffAt_const
      · unfold freqCutoffs
        simp only [hW', List.length_cons, List.length_map, Nat.add_sub_cancel, List.map_append, List.map_map, List.map_cons, List.map_nil]
        congr 1
        refine List.map_congr_left fun m _ => ?_
        simp [List.map_take]
    obtain ⟨C, hC, hC'⟩ := hcut
    have hap : ∀ θ, (Connector.freqSplitter (a.map (· θ))).apply P (ss.map (· θ)) nIn nOut = .ok (freqSplit P (a.map (· θ)) (ss.map (· θ))) := fun θ => rfl
    refine ⟨(C.dropLast.zip C.tail).map (fun c => fun θ => freqMul (ifftShift (fun j => ((bandMask n (c.1 θ) (c.2 θ) j : ℝ) : ℂ))) P.dt (sumSignals (ss.map (· θ)))),
      ?_, Eventually.of_forall fun θ => ?_⟩
    · intro s hs'
      obtain ⟨c, hc, rfl⟩ := List.mem_map.1 hs'
      have h1 := hC _ (List.dropLast_subset _ (List.of_mem_zip hc).1)
      have h2 := hC _ (List.mem_of_mem_tail (List.of_mem_zip hc).2)
      refine cd_freqMul (cd_ifftShift (contDiffAt_pi.2 fun i => cd_ofReal ?_)) (cd_sumSignals hs) _
      unfold bandMask
      exact (ContDiffAt.div contDiffAt_const (contDiffAt_const.add (contDiffAt_const.mul (contDiffAt_const.sub h1)).exp) (by positivity)).mul
        (ContDiffAt.div contDiffAt_const (contDiffAt_const.add (contDiffAt_const.mul (contDiffAt_const.sub h2)).exp) (by positivity))
    · rw [hap θ]
      unfold freqSplit
      simp only [hC']
      rw [← List.map_dropLast, ← List.map_tail, List.zip_map, List.map_map, List.map_map]
      rfl

/-- The family of systems as a family of behaviours. -/
theorem physics_family (P : Prop_ n) {g : Graph} {optic : E → Comp → Optic n} {conn : E → Comp → Connector} (hasNoise : Comp → Bool)
    (ho : ∀ e ∈ g.edges, Optic.SmoothAt k θ₀ (fun θ => optic θ e.comp)) (hc : ∀ v ∈ g.nodes, Connector.SmoothAt k θ₀ (fun θ => conn θ v.comp)) :
    FamBehav (𝓝 θ₀) θ₀ (fun s => ContDiffAt ℝ k s θ₀) g (fun θ => physics P (optic θ) (conn θ) hasNoise) where
  node := fun v hv _ nIn nOut _ hs h => connector_family P (hc v hv) hs nIn nOut h
  edge := fun e he _ _ hs h => optic_family P (ho e he) hs h
  noise := fun c => by
    by_cases h : hasNoise c
    · exact .inr fun θ => by simp [physics, h]
    · exact .inl fun θ => by simp [physics, h]

end Verif
