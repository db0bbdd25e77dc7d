import Verif.Lemmas.Transfer
import Verif.Lemmas.Components
import Verif.Spec.Physics
import Verif.Props.Alignment
/-! # Components as linear operators -/

namespace Verif
open Complex Finset Graph

variable {n : Nat}

/-- A linear time-invariant filter. -/
noncomputable def lti (H x : Signal n) : Signal n := npIfft (fun k => H k * npFft x k)

theorem lti_smul (H : Signal n) (c : ℂ) (x : Signal n) : lti H (fun i => c * x i) = fun i => c * lti H x i := by
  unfold lti
  rw [npFft_smul, ← npIfft_smul]; congr 1; funext k; ring

theorem lti_add (H x y : Signal n) : lti H (fun i => x i + y i) = fun i => lti H x i + lti H y i := by
  unfold lti
  rw [npFft_add, ← npIfft_add]; congr 1; funext k; ring

theorem npFft_inj {x y : Signal n} (h : npFft x = npFft y) : x = y := by rw [← npIfft_npFft x, h, npIfft_npFft]

theorem lti_delayed (H : Signal n) (s : ℤ) (x : Signal n) : lti H (delayed s x) = delayed s (lti H x) := by
  apply npFft_inj
  rw [delayed_fft]
  unfold lti
  rw [npFft_npIfft, npFft_npIfft, delayed_fft]
  funext k; ring

theorem freqMul_lti (H : Signal n) {dt : ℝ} (h : dt ≠ 0) (x : Signal n) : freqMul H dt x = lti H x := freqMul_eq H h x

theorem dbScale_lti (a : ℝ) (H x : Signal n) : dbScale a (lti H x) = lti (fun k => (dbAmp a : ℂ) * H k) x := by
  have : (fun k => (dbAmp a : ℂ) * H k * npFft x k) = fun k => (dbAmp a : ℂ) * (H k * npFft x k) := by funext k; ring
  unfold lti
  rw [this, npIfft_smul]
  funext i; simp only [dbScale]; ring

theorem lti_one (x : Signal n) : lti (fun _ => 1) x = x := by unfold lti; simp [npIfft_npFft]

theorem sdlLoop_lin (P : Prop_ n) (l : List (ℝ × ℝ)) : ∀ A B : Signal n, ∃ A' B' : Signal n, ∀ X : Signal n,
    sdlLoop P l (fun k => A k * X k, fun k => B k * X k) = (fun k => A' k * X k, fun k => B' k * X k) := by
  induction l with
  | nil => exact fun A B => ⟨A, B, fun X => rfl⟩
  | cons p l ih =>
    intro A B
    obtain ⟨r, d⟩ := p
    let sc : ℂ := ((Real.cos (Real.pi / 2 * r) : ℝ) : ℂ)
    let lc : ℂ := ((Real.sin (Real.pi / 2 * r) : ℝ) : ℂ)
    obtain ⟨A', B', h⟩ := ih (fun k => sc * A k + I * lc * B k)
      (fun k => exp (I * ((ifftShift (delayPhase P d) k : ℝ) : ℂ)) * (I * lc * A k + sc * B k))
    refine ⟨A', B', fun X => ?_⟩
    rw [← h X, sdlLoop]
    congr 1
    unfold sdlStage
    refine Prod.ext ?_ ?_
    · funext k; simp only [sc, lc]; ring
    · funext k; simp only [sc, lc]; ring

theorem splitDelay_lti (P : Prop_ n) (hdt : P.dt ≠ 0) (r : List ℝ) : ∃ H : Signal n, ∀ x, splitDelay P r x = lti H x := by
  obtain ⟨A, B, h⟩ := sdlLoop_lin P (r.zip sdlDelays) (fun _ => 1) (fun _ => 0)
  refine ⟨fun k => (dbAmp 1 : ℂ) * A k, fun x => ?_⟩
  rw [← dbScale_lti, ← freqMul_lti A hdt]
  unfold splitDelay freqMul
  have := h (fft_ x P.dt)
  simp only [one_mul, zero_mul] at this
  rw [this]

/-- Passive components and the linear filters among them: either they always raise, or they filter. -/
theorem apply_lti {P : Prop_ n} (hdt : P.dt ≠ 0) {o : Optic n} (h1 : ¬ o.IsDetector) (h2 : ¬ o.IsModulator) (h3 : ¬ o.Saturates)
    (h4 : ∀ x, o ≠ .source x) : (∃ H, ∀ x, o.apply P x = .ok (lti H x)) ∨ ∃ e, ∀ x, o.apply P x = .error e := by
  cases o with
  | fiber l =>
    exact .inl ⟨_, fun x => by
      simp only [Optic.apply, fiber, Bool.false_eq_true, if_false]
      rw [freqMul_lti _ hdt, dbScale_lti]⟩
  | voa a => exact .inl ⟨_, fun x => by
      simp only [Optic.apply, voa]; conv_lhs => rw [← lti_one x]
      rw [dbScale_lti]⟩
  | phaseMod => exact absurd trivial h2
  | intensityMod => exact absurd trivial h2
  | waveShaper a p =>
    simp only [Optic.apply, waveShaper]
    split
    · exact .inl ⟨_, fun x => by rw [freqMul_lti _ hdt, dbScale_lti]⟩
    · exact .inr ⟨_, fun x => rfl⟩
    · exact .inr ⟨_, fun x => rfl⟩
  | splitDelay r =>
    obtain ⟨H, h⟩ := splitDelay_lti P hdt r
    exact .inl ⟨H, fun x => by simp only [Optic.apply, h]⟩
  | delayLine d => exact .inl ⟨_, fun x => by simp only [Optic.apply, delayLine]; rw [freqMul_lti _ hdt, dbScale_lti]⟩
  | intDelayLine d => exact .inl ⟨_, fun x => by
      simp only [Optic.apply, intDelayLine, delayLine]; rw [freqMul_lti _ hdt, dbScale_lti]⟩
  | waveguide => exact .inl ⟨_, fun x => by simp only [Optic.apply, waveguide]; rw [lti_one x]⟩
  | phaseShifter p => exact .inl ⟨_, fun x => by
      simp only [Optic.apply, phaseShifter, Bool.false_eq_true, if_false]; rw [freqMul_lti _ hdt]⟩
  | edfa E => exact absurd trivial h3
  | progFilter a p =>
    by_cases h : pfBwInt P = 0
    · exact .inr ⟨_, fun x => by simp only [Optic.apply, progFilter]; rw [if_pos h]⟩
    · exact .inl ⟨_, fun x => by simp only [Optic.apply, progFilter]; rw [if_neg h, freqMul_lti _ hdt, dbScale_lti]⟩
  | squareFilter b =>
    by_cases h : b = 0
    · exact .inr ⟨_, fun x => by simp only [Optic.apply, squareFilter]; rw [if_pos h]⟩
    · exact .inl ⟨_, fun x => by simp only [Optic.apply, squareFilter]; rw [if_neg h, freqMul_lti _ hdt, dbScale_lti]⟩
  | source x => exact absurd rfl (h4 x)
  | measure => exact absurd trivial h1
  | photodiode D => exact absurd trivial h1

/-- Modulators multiply sample by sample. -/
theorem apply_mod {P : Prop_ n} {o : Optic n} (h : o.IsModulator) : ∃ m : Signal n, ∀ x, o.apply P x = .ok (fun j => m j * x j) := by
  cases o with
  | phaseMod d f s =>
    exact ⟨fun j => exp (I * ((d * Real.cos (2 * Real.pi * f * P.t j + s + 0) : ℝ) : ℂ)), fun x => by
      simp only [Optic.apply, phaseMod, dbScale_zero]; congr 1; funext j; ring⟩
  | intensityMod d f b =>
    exact ⟨fun j => (1 / 2 + 1 / 2 * exp (I * ((d * Real.cos (2 * Real.pi * f * P.t j) + b : ℝ) : ℂ))) * (dbAmp (-4) : ℂ), fun x => by
      simp only [Optic.apply, intensityMod]; congr 1; funext j; simp only [dbScale]; ring⟩
  | _ => exact absurd h id

theorem edfa_lti {P : Prop_ n} (hdt : P.dt ≠ 0) (E : Edfa) (x : Signal n) :
    E.propagate P x = lti (fun k => (Real.sqrt (E.gain P x k) : ℂ)) x := freqMul_lti _ hdt x

theorem edfa_gain_congr {P : Prop_ n} (E : Edfa) {x y : Signal n} (h : npMean (power_ x) = npMean (power_ y)) : E.gain P x = E.gain P y := by
  funext k; unfold Edfa.gain; rw [h]

theorem power_phase {c : ℂ} (hc : ‖c‖ = 1) (x : Signal n) : power_ (fun i => c * x i) = power_ x := by
  funext i; simp [power_, hc]

theorem power_scale (c : ℂ) (x : Signal n) : power_ (fun i => c * x i) = fun i => ‖c‖ ^ 2 * power_ x i := by
  funext i; simp [power_, mul_pow]

theorem power_delayed (s : ℤ) (x : Signal n) : power_ (delayed s x) = delayed s (power_ x) := rfl

theorem npMean_delayed (s : ℤ) (x : Fin n → ℝ) : npMean (delayed s x) = npMean x := by unfold npMean; rw [sum_delayed]

theorem filtered_lti {P : Prop_ n} (hdt : P.dt ≠ 0) (sh : Shape) : (∃ H, ∀ x, filteredTime P sh x = .ok (lti H x)) ∨ ∃ e, ∀ x, filteredTime P sh x = .error e := by
  cases h : getFilter P sh with
  | error e => exact .inr ⟨e, fun x => by simp [filteredTime, h]⟩
  | ok H =>
    refine .inl ⟨H, fun x => ?_⟩
    simp only [filteredTime, h]
    rw [← freqMul_lti H hdt]
    unfold freqMul
    congr 2; funext k; ring

/-! ### Connectors -/

theorem splitRow_cons_aux (nIn nOut : Nat) (w : ℝ) (j : Nat) (c : ℂ) (s : List ℂ) (k : Nat) :
    (((s.map (c * ·)).zipIdx k).map (fun p => ((Real.sqrt w / Real.sqrt nOut : ℝ) : ℂ) * splitPhase nIn nOut p.2 j * p.1)).sum =
      c * ((s.zipIdx k).map (fun p => ((Real.sqrt w / Real.sqrt nOut : ℝ) : ℂ) * splitPhase nIn nOut p.2 j * p.1)).sum := by
  induction s generalizing k with
  | nil => simp
  | cons a s ih => simp only [List.map_cons, List.zipIdx_cons, List.sum_cons, ih]; ring

theorem splitRow_smul (nIn nOut : Nat) (w : ℝ) (j : Nat) (c : ℂ) (s : List ℂ) :
    splitRow nIn nOut w j (s.map (c * ·)) = c * splitRow nIn nOut w j s := splitRow_cons_aux nIn nOut w j c s 0

theorem splitRow_zip_aux (nIn nOut : Nat) (w : ℝ) (j : Nat) (a b : ℂ) : ∀ (s t : List ℂ) (_ : s.length = t.length) (k : Nat),
    (((s.zipWith (fun x y => a * x + b * y) t).zipIdx k).map (fun p => ((Real.sqrt w / Real.sqrt nOut : ℝ) : ℂ) * splitPhase nIn nOut p.2 j * p.1)).sum =
      a * ((s.zipIdx k).map (fun p => ((Real.sqrt w / Real.sqrt nOut : ℝ) : ℂ) * splitPhase nIn nOut p.2 j * p.1)).sum +
      b * ((t.zipIdx k).map (fun p => ((Real.sqrt w / Real.sqrt nOut : ℝ) : ℂ) * splitPhase nIn nOut p.2 j * p.1)).sum
  | [], [], _, _ => by simp
  | [], _ :: _, h, _ => by simp at h
  | _ :: _, [], h, _ => by simp at h
  | x :: s, y :: t, h, k => by
    have ih := splitRow_zip_aux nIn nOut w j a b s t (by simpa using h) (k + 1)
    simp only [List.zipWith_cons_cons, List.zipIdx_cons, List.map_cons, List.sum_cons, ih]; ring

theorem splitRow_add (nIn nOut : Nat) (w : ℝ) (j : Nat) (a b : ℂ) {s t : List ℂ} (h : s.length = t.length) :
    splitRow nIn nOut w j (s.zipWith (fun x y => a * x + b * y) t) = a * splitRow nIn nOut w j s + b * splitRow nIn nOut w j t :=
  splitRow_zip_aux nIn nOut w j a b s t h 0

/-- A connector commutes with anything that acts on its states as a change of sample plus a linear filter does. -/
theorem conn_map {P : Prop_ n} (T : Signal n → Signal n)
    (hrow : ∀ nIn nOut w j (s : List (Signal n)), (fun t => splitRow nIn nOut w j ((s.map T).map (· t))) = T (fun t => splitRow nIn nOut w j (s.map (· t))))
    (hsum : ∀ s : List (Signal n), sumSignals (s.map T) = T (sumSignals s))
    (hf : ∀ H x, freqMul H P.dt (T x) = T (freqMul H P.dt x))
    (c : Connector) {s outs : List (Signal n)} {nIn nOut : Nat} (h : c.apply P s nIn nOut = .ok outs) :
    c.apply P (s.map T) nIn nOut = .ok (outs.map T) := by
  cases c with
  | terminal => simp only [Connector.apply] at h ⊢; injection h with h; rw [h]
  | splitter a =>
    simp only [Connector.apply, splitSignals, List.length_map] at h ⊢
    split at h
    · cases h
    · rename_i h1
      split at h
      · cases h
      · rename_i h2
        injection h with h
        rw [if_neg h1, if_neg h2, ← h, List.map_map]
        congr 1
        exact List.map_congr_left (fun p _ => hrow _ _ _ _ _)
  | freqSplitter a =>
    simp only [Connector.apply, freqSplit] at h ⊢
    injection h with h
    rw [← h, List.map_map]
    congr 1
    exact List.map_congr_left (fun p _ => by rw [hsum, hf]; rfl)

theorem conn_smul {P : Prop_ n} (hdt : P.dt ≠ 0) (c : ℂ) (k : Connector) {s outs : List (Signal n)} {nIn nOut : Nat}
    (h : k.apply P s nIn nOut = .ok outs) :
    k.apply P (s.map (fun x i => c * x i)) nIn nOut = .ok (outs.map (fun x i => c * x i)) := by
  refine conn_map (fun x i => c * x i) (fun nIn nOut w j s => ?_) (fun s => ?_) (fun H x => freqMul_smul H hdt c x) k h
  · funext t
    rw [← splitRow_smul, List.map_map, List.map_map]; rfl
  · funext t
    simp only [sumSignals, List.map_map]
    rw [← List.sum_map_mul_left]; rfl

theorem conn_delayed {P : Prop_ n} (hdt : P.dt ≠ 0) (d : ℤ) (k : Connector) {s outs : List (Signal n)} {nIn nOut : Nat}
    (h : k.apply P s nIn nOut = .ok outs) :
    k.apply P (s.map (delayed d)) nIn nOut = .ok (outs.map (delayed d)) := by
  refine conn_map (delayed d) (fun nIn nOut w j s => ?_) (fun s => ?_) (fun H x => ?_) k h
  · funext t; simp only [delayed, List.map_map]; rfl
  · funext t; simp only [sumSignals, delayed, List.map_map]; rfl
  · rw [freqMul_lti _ hdt, freqMul_lti _ hdt, lti_delayed]

end Verif
