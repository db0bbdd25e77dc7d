import Verif.Spec.Rhythm
import Verif.Props.Symmetry
import Verif.Props.Dark
import Verif.Props.Alignment
import Verif.Model.Evaluators
/-!
# C123: light repeats if sources and modulators do; what follows for waveforms
-/

namespace Verif
open Complex Graph

variable {n : Nat}

theorem delayed_t (P : Prop_ n) {f : ℝ} {d : ℤ} (h1 : ∃ k : ℤ, f * (d * P.dt) = k) (h2 : ∃ l : ℤ, f * (n * P.dt) = l) (i : Fin n) :
    ∃ z : ℤ, f * delayed d P.t i = f * P.t i + z := by
  obtain ⟨k, hk⟩ := h1
  obtain ⟨l, hl⟩ := h2
  have ht : ∀ j : Fin n, P.t j = -P.window / 2 + (j : ℕ) * P.dt := fun j => rfl
  have hpos : (0 : ℤ) < n := by
    have := i.isLt
    omega
  refine ⟨-k - ((i.val : ℤ) - d) / n * l, ?_⟩
  have hidx : ((((((i.val : ℤ) - d) % n).toNat : ℕ) : ℝ)) = (i.val : ℝ) - d - n * ((((i.val : ℤ) - d) / n : ℤ) : ℝ) := by
    have h := Int.toNat_of_nonneg (Int.emod_nonneg ((i.val : ℤ) - d) hpos.ne')
    have h' : (((((((i.val : ℤ) - d) % n).toNat : ℕ) : ℤ)) : ℝ) = ((((i.val : ℤ) - d) - n * (((i.val : ℤ) - d) / n) : ℤ) : ℝ) := by
      rw [h, Int.emod_def]
    push_cast at h'
    exact_mod_cast h'
  unfold delayed
  rw [ht, ht]
  simp only
  rw [hidx]
  push_cast
  rw [← hk, ← hl]
  ring

theorem cos_delayed (P : Prop_ n) {f : ℝ} (s : ℝ) {d : ℤ} (h1 : ∃ k : ℤ, f * (d * P.dt) = k) (h2 : ∃ l : ℤ, f * (n * P.dt) = l) (i : Fin n) :
    Real.cos (2 * Real.pi * f * delayed d P.t i + s) = Real.cos (2 * Real.pi * f * P.t i + s) := by
  obtain ⟨z, hz⟩ := delayed_t P h1 h2 i
  rw [show 2 * Real.pi * f * delayed d P.t i + s = 2 * Real.pi * (f * delayed d P.t i) + s by ring, hz,
    show 2 * Real.pi * (f * P.t i + z) + s = 2 * Real.pi * f * P.t i + s + z * (2 * Real.pi) by ring, Real.cos_add_int_mul_two_pi]

theorem acts_rhythm {P : Prop_ n} (hdt : P.dt ≠ 0) (d : ℤ) : Acts P (delayed d) (delayed d) (fun o => o.Repeats P d) where
  pass := by
    intro o hr hd hsrc x y h
    by_cases hm : o.IsModulator
    · cases o with
      | phaseMod a f s =>
        simp only [Optic.apply] at h ⊢
        injection h with h
        rw [← h]
        congr 1
        funext j
        have := cos_delayed P s hr.1 hr.2 j
        simp only [phaseMod, dbScale, add_zero, delayed] at this ⊢
        rw [this]
      | intensityMod a f b =>
        simp only [Optic.apply] at h ⊢
        injection h with h
        rw [← h]
        congr 1
        funext j
        have := cos_delayed P 0 hr.1 hr.2 j
        simp only [intensityMod, dbScale, add_zero, delayed] at this ⊢
        rw [this]
      | _ => exact absurd hm id
    · exact (acts_delay hdt d).pass o hm hd hsrc x y h
  det := by
    intro o hr hd x y h
    refine (acts_delay hdt d).det o ?_ hd x y h
    cases o <;> first | exact id | exact absurd hd id
  conn := (acts_delay hdt d).conn

/-- **C123.** If every source and every modulator of a design repeats itself after `d` samples, so does the light at every place of it and what its detectors deliver. -/
theorem C123_rhythm (hn : 2 ≤ n) {P : Prop_ n} (hwin : 0 < P.window) {g : Graph} (hw : g.WF) {optic : Comp → Optic n} {conn : Comp → Connector}
    {hasNoise : Comp → Bool} (hp : Plumbed g optic conn) {d : ℤ} (hr : ∀ e ∈ g.edges, (optic e.comp).Repeats P d) {inp : Signal n} {old st : Store (Signal n)}
    (h : propagate g (physics P optic conn hasNoise) inp old = .ok st) {k : Key} {s : Signal n} (hs : st k = some s) : ∀ i, delayed d s i = s i := by
  obtain ⟨st', h1, h2, h3, -⟩ := (acts_rhythm (dt_ne_zero hn hwin) d).propagate hw hp hr old h
  have hsame : propagate g (physics P (fun c => (optic c).mapSource (delayed d)) conn hasNoise) inp old = .ok st := by
    refine C95_states hw h (fun e he hne => absurd ?_ hne) (fun v _ hne => absurd rfl hne) old
    have := hr e he
    cases ho : optic e.comp with
    | source x => rw [ho] at this; simp only [Optic.mapSource]; congr 1; funext i; exact this i
    | _ => rfl
  rw [hsame] at h1
  injection h1 with h1
  subst h1
  have hF := ((propagate_iff hw).1 h).2
  have key : st k = some (delayed d s) := by
    cases k with
    | edge r =>
      rcases hF.only (.edge r) (by rw [hs]; simp) with ⟨e, he, hk⟩ | ⟨_, _, _, hk⟩
      · rw [hk] at hs ⊢
        by_cases hd : (optic e.comp).IsDetector
        · exact (h2 e he s hs).1 hd
        · exact (h2 e he s hs).2 hd
      · cases hk
    | node v =>
      by_cases hd : ReadBy g optic v
      · exact (h3 v s hs).1 hd
      · exact (h3 v s hs).2 hd
  rw [hs] at key
  injection key with key
  exact fun i => (congrFun key i).symm

theorem kerZ_one_iff (hn : 0 < n) {s k : ℤ} : kerZ n s k = 1 ↔ (n : ℤ) ∣ s * k := by
  unfold kerZ
  have hn' : ((n : ℕ) : ℝ) ≠ 0 := by exact_mod_cast hn.ne'
  rw [Complex.exp_eq_one_iff]
  have hpi : (Real.pi : ℂ) ≠ 0 := by exact_mod_cast Real.pi_ne_zero
  constructor
  · rintro ⟨m, hm⟩
    refine ⟨m, ?_⟩
    have h2 : (2 * (Real.pi : ℂ) * I) * ((s * k / n : ℝ) : ℂ) = (2 * (Real.pi : ℂ) * I) * ((m : ℝ) : ℂ) := by
      push_cast at hm ⊢
      linear_combination hm
    have h3 := mul_left_cancel₀ (by simp [hpi] : (2 * (Real.pi : ℂ) * I) ≠ 0) h2
    have h4 : (s : ℝ) * k / n = m := by exact_mod_cast h3
    rw [div_eq_iff hn'] at h4
    have h5 : (s : ℝ) * k = n * m := by rw [h4, mul_comm]
    exact_mod_cast h5
  · rintro ⟨m, hm⟩
    refine ⟨m, ?_⟩
    have h5 : (s : ℝ) * k = n * m := by exact_mod_cast hm
    have h4 : (2 * Real.pi * s * k / n : ℝ) = 2 * Real.pi * m := by
      rw [mul_assoc, h5]
      field_simp
    rw [h4]
    push_cast
    ring

/-- Light that repeats after `d` samples has only lines that are multiples of the rate. -/
theorem repeats_dark {s : Signal n} {d : ℤ} (hs : ∀ i, delayed d s i = s i) {k : Fin n} (hk : ¬ (n : ℤ) ∣ d * (k : ℕ)) : npFft s k = 0 := by
  have hn : 0 < n := Nat.lt_of_le_of_lt (Nat.zero_le _) k.isLt
  have h1 : npFft s k = npFft s k * (kerZ n d (k : ℕ))⁻¹ := by
    have := congrFun (delayed_fft d s) k
    rw [show delayed d s = s from funext hs] at this
    exact this
  by_contra hne
  have h2 : (kerZ n d (k : ℕ))⁻¹ = 1 := by
    have h3 : npFft s k * 1 = npFft s k * (kerZ n d (k : ℕ))⁻¹ := by rw [mul_one]; exact h1
    exact (mul_left_cancel₀ hne h3).symm
  exact hk ((kerZ_one_iff hn).1 (inv_eq_one.1 h2))

/-- **C123.** So the light has only lines at multiples of the common rate, at every place. -/
theorem C123_lines (hn : 2 ≤ n) {P : Prop_ n} (hwin : 0 < P.window) {g : Graph} (hw : g.WF) {optic : Comp → Optic n} {conn : Comp → Connector}
    {hasNoise : Comp → Bool} (hp : Plumbed g optic conn) {d : ℤ} (hr : ∀ e ∈ g.edges, (optic e.comp).Repeats P d) {inp : Signal n} {old st : Store (Signal n)}
    (h : propagate g (physics P optic conn hasNoise) inp old = .ok st) {k : Key} {s : Signal n} (hs : st k = some s) (m : Fin n) (hm : ¬ (n : ℤ) ∣ d * (m : ℕ)) :
    npFft s m = 0 := repeats_dark (C123_rhythm hn hwin hw hp hr h hs) hm

theorem steady_of_delayed {s : Signal n} (key : ∀ d : ℤ, ∀ i, delayed d s i = s i) : Steady s := by
  intro i j
  have h1 := key ((i.val : ℤ) - j.val) i
  rw [← h1]
  unfold delayed
  congr 1
  apply Fin.ext
  have hj : ((j.val : ℤ)) < n := by exact_mod_cast j.isLt
  simp only [sub_sub_cancel]
  rw [Int.emod_eq_of_lt (by omega) hj]
  simp

/-- **C123.** No waveform without a modulator: if the sources are steady and there is no modulator, light and electrical signals are steady everywhere, whatever the design. -/
theorem C123_steady (hn : 2 ≤ n) {P : Prop_ n} (hwin : 0 < P.window) {g : Graph} (hw : g.WF) {optic : Comp → Optic n} {conn : Comp → Connector}
    {hasNoise : Comp → Bool} (hp : Plumbed g optic conn) (hmod : ∀ e ∈ g.edges, ¬ (optic e.comp).IsModulator) (hsrc : ∀ e ∈ g.edges, ∀ x, optic e.comp = .source x → Steady x)
    {inp : Signal n} {old st : Store (Signal n)} (h : propagate g (physics P optic conn hasNoise) inp old = .ok st) {k : Key} {s : Signal n} (hs : st k = some s) : Steady s := by
  refine steady_of_delayed fun d => C123_rhythm hn hwin hw hp (fun e he => ?_) h hs
  have h1 := hmod e he
  have h2 := hsrc e he
  cases ho : optic e.comp with
  | source x => exact fun i => h2 x ho _ _
  | phaseMod a f s => rw [ho] at h1; exact absurd trivial h1
  | intensityMod a f s => rw [ho] at h1; exact absurd trivial h1
  | _ => trivial

/-! ### What the evaluators of waveforms make of it -/

theorem fft_scale_back {P : Prop_ n} (hdt : P.dt ≠ 0) (x : Signal n) : ifft_ (fft_ x P.dt) P.dt = x := by
  have h : (P.dt : ℂ) ≠ 0 := by exact_mod_cast hdt
  funext i
  unfold ifft_ fft_
  have e : npIfft (fun k => npFft x k * (P.dt : ℂ)) i = npIfft (npFft x) i * P.dt := by
    unfold npIfft
    rw [div_mul_eq_mul_div, Finset.sum_mul]
    congr 1
    exact Finset.sum_congr rfl fun k _ => by ring
  rw [e, npIfft_npFft, mul_div_cancel_right₀ _ h]

/-- Without the line of the harmonic nothing is aligned. -/
theorem rfShift_dark {P : Prop_ n} (hdt : P.dt ≠ 0) {target : Fin n → ℝ} {harmonic : ℝ} {s : Signal n} (hi : harmonicInd P harmonic < n) (h0 : npFft s ⟨_, hi⟩ = 0) {y : Fin n → ℝ}
    (hy : rfShift P target harmonic s = .ok y) : y = fun i => ‖s i‖ := by
  unfold rfShift at hy
  rw [dif_pos hi] at hy
  dsimp only at hy
  split at hy
  · cases hy
  · injection hy with hy
    rw [← hy]
    funext i
    have hz : fft_ s P.dt ⟨_, hi⟩ = 0 := by unfold fft_; rw [h0, zero_mul]
    simp only [hz, zero_div, arg_zero, zero_mul, ofReal_zero, mul_zero, exp_zero, one_mul]
    exact congrArg norm (congrFun (fft_scale_back hdt s) i)

/-- **C123 (finding).** If the common rate has no line at the harmonic of the target, the evaluators of waveforms do not align what the design delivers: it is scored as it is, by its lateness too. -/
theorem C123_off_beat (hn : 2 ≤ n) {P : Prop_ n} (hwin : 0 < P.window) {g : Graph} (hw : g.WF) {optic : Comp → Optic n} {conn : Comp → Connector}
    {hasNoise : Comp → Bool} (hp : Plumbed g optic conn) {d : ℤ} (hr : ∀ e ∈ g.edges, (optic e.comp).Repeats P d) {inp : Signal n} {old st : Store (Signal n)}
    (h : propagate g (physics P optic conn hasNoise) inp old = .ok st) {k : Key} {s : Signal n} (hs : st k = some s) {harmonic : ℝ} (hi : harmonicInd P harmonic < n)
    (hm : ¬ (n : ℤ) ∣ d * harmonicInd P harmonic) (target : Fin n → ℝ) :
    (∀ y, rfShift P target harmonic s = .ok y → y = fun i => ‖s i‖) ∧ pulseShift P target harmonic s = .ok s := by
  have h0 := C123_lines hn hwin hw hp hr h hs ⟨_, hi⟩ hm
  refine ⟨fun y hy => rfShift_dark (dt_ne_zero hn hwin) hi h0 hy, ?_⟩
  unfold pulseShift
  rw [dif_pos hi]
  dsimp only
  rw [if_pos h0]

theorem mean_square_split (hn : 0 < n) (t : Fin n → ℝ) (c : ℝ) : npMean (fun i => (c - t i) ^ 2) = unevenness t + (c - (∑ j, t j) / n) ^ 2 := by
  have hn' : (n : ℝ) ≠ 0 := by exact_mod_cast hn.ne'
  obtain ⟨μ, hμ⟩ : ∃ μ, μ = (∑ j, t j) / n := ⟨_, rfl⟩
  have hsum : ∑ j, t j = n * μ := by rw [hμ]; field_simp
  unfold npMean unevenness
  rw [← hμ]
  have e : ∀ i, (c - t i) ^ 2 = (t i - μ) ^ 2 + (-2 * (c - μ)) * (t i - μ) + (c - μ) ^ 2 := fun i => by ring
  rw [Finset.sum_congr rfl (fun i _ => e i), Finset.sum_add_distrib, Finset.sum_add_distrib, ← Finset.mul_sum, Finset.sum_sub_distrib, hsum]
  simp only [Finset.sum_const, Finset.card_univ, Fintype.card_fin, nsmul_eq_mul]
  field_simp
  ring

theorem steady_line {s : Signal n} (hs : Steady s) {k : Fin n} (hk : (k : ℕ) ≠ 0) : npFft s k = 0 := by
  refine repeats_dark (d := 1) (fun i => hs _ _) ?_
  rw [one_mul]
  intro hd
  have := Int.le_of_dvd (by omega) hd
  have := k.isLt
  omega

theorem harmonicInd_ne_zero (hn : 0 < n) (P : Prop_ n) (f : ℝ) : harmonicInd P f ≠ 0 := by
  unfold harmonicInd
  dsimp only
  split <;> omega

/-- **C123.** So no design without a modulator, on steady light, gets a waveform: its score is the spread of the target, in units of the squared amplitude, and more; and exactly that only if it
delivers the mean of the target. -/
theorem C123_no_waveform (hn : 2 ≤ n) {P : Prop_ n} (hwin : 0 < P.window) {g : Graph} (hw : g.WF) {optic : Comp → Optic n} {conn : Comp → Connector}
    {hasNoise : Comp → Bool} (hp : Plumbed g optic conn) (hmod : ∀ e ∈ g.edges, ¬ (optic e.comp).IsModulator) (hsrc : ∀ e ∈ g.edges, ∀ x, optic e.comp = .source x → Steady x)
    {inp : Signal n} {old st : Store (Signal n)} (h : propagate g (physics P optic conn hasNoise) inp old = .ok st) {k : Key} {s : Signal n} (hs : st k = some s)
    {target : Fin n → ℝ} {amplitude harmonic v : ℝ} (hv : rfScore P target amplitude harmonic s = .ok v) :
    unevenness target / amplitude ^ 2 ≤ v ∧ (v = unevenness target / amplitude ^ 2 ↔ ∀ i, ‖s i‖ = (∑ j, target j) / n) := by
  have hst := C123_steady hn hwin hw hp hmod hsrc h hs
  unfold rfScore at hv
  split at hv
  · cases hv
  · rename_i y hy
    have hi : harmonicInd P harmonic < n := by
      by_contra hc
      unfold rfShift at hy
      rw [dif_neg hc] at hy
      cases hy
    have hyc := rfShift_dark (dt_ne_zero hn hwin) hi (steady_line hst (harmonicInd_ne_zero (by omega) P harmonic)) hy
    split at hv
    · cases hv
    · rename_i ha
      injection hv with hv
      have i0 : Fin n := ⟨0, by omega⟩
      have hc : ∀ i, ‖s i‖ = ‖s i0‖ := fun i => by rw [hst i i0]
      have he : simL2mean y target = unevenness target + (‖s i0‖ - (∑ j, target j) / n) ^ 2 := by
        unfold simL2mean
        rw [← mean_square_split (by omega), hyc]
        simp only [hc]
      have hpos : 0 < amplitude ^ 2 := lt_of_le_of_ne (sq_nonneg _) (Ne.symm ha)
      rw [he] at hv
      rw [← hv]
      refine ⟨by gcongr; nlinarith [sq_nonneg (‖s i0‖ - (∑ j, target j) / n)], ?_⟩
      rw [div_left_inj' ha]
      constructor
      · intro hz i
        rw [hc]
        have : (‖s i0‖ - (∑ j, target j) / n) ^ 2 = 0 := by linarith
        linarith [pow_eq_zero_iff (two_ne_zero) |>.1 this]
      · intro hz
        rw [hz i0, sub_self]
        ring

/-! ### Power without a modulator of power and without a second path -/

theorem evenPower_mul {x : Signal n} (hx : EvenPower x) {c : Signal n} (hc : EvenPower c) : EvenPower (fun i => x i * c i) := by
  intro i j
  rw [norm_mul, norm_mul, hx i j, hc i j]

theorem evenPower_apply {P : Prop_ n} (hdt : P.dt ≠ 0) {o : Optic n} (ho : o.PhaseOnly) {x y : Signal n} (hx : EvenPower x) (h : o.apply P x = .ok y) : EvenPower y := by
  have hconst : ∀ c : ℂ, EvenPower (fun _ : Fin n => c) := fun c i j => rfl
  cases o with
  | voa a =>
    simp only [Optic.apply] at h
    injection h with h
    rw [← h]
    exact evenPower_mul hx (hconst _)
  | phaseShifter a =>
    simp only [Optic.apply, phaseShifter, Bool.false_eq_true, if_false] at h
    injection h with h
    rw [← h, freqMul_const _ hdt]
    exact evenPower_mul (hconst _) hx
  | phaseMod a f b =>
    simp only [Optic.apply] at h
    injection h with h
    rw [← h]
    exact evenPower_mul (evenPower_mul hx fun i j => by rw [norm_expI, norm_expI]) (hconst _)
  | waveguide =>
    simp only [Optic.apply] at h
    injection h with h
    rw [← h]
    exact hx
  | measure =>
    simp only [Optic.apply] at h
    injection h with h
    rw [← h]
    intro i j
    simp only [measure, hx i j]
  | photodiode D =>
    have hst : Steady y := by
      refine steady_of_delayed fun d i => ?_
      have h1 := (acts_delay hdt d).det (.photodiode D) id trivial x y h
      have h2 : (Optic.photodiode D).apply P (delayed d x) = (Optic.photodiode D).apply P x := by
        simp only [Optic.apply, Photodiode.propagate]
        congr 1
        funext j
        have : power_ (delayed d x) j = power_ x j := by
          unfold power_ delayed
          rw [hx _ j]
        rw [this]
      rw [h2, h] at h1
      injection h1 with h1
      exact (congrFun h1 i).symm
    exact fun i j => by rw [hst i j]
  | _ => exact absurd ho id

/-- What enters a node by one way only leaves it with even power. -/
theorem evenPower_node {P : Prop_ n} {k : Connector} (hk : ∀ a, k ≠ .freqSplitter a) {x s : Signal n} (hx : EvenPower x) {a b : Nat} {outs : List (Signal n)}
    (h : k.apply P [x] a b = .ok outs) (hs : s ∈ outs) : EvenPower s := by
  cases k with
  | terminal =>
    simp only [Connector.apply] at h
    injection h with h
    rw [← h] at hs
    rw [List.mem_singleton.1 hs]
    exact hx
  | splitter r =>
    simp only [Connector.apply, splitSignals] at h
    split at h
    · cases h
    · split at h
      · cases h
      · injection h with h
        rw [← h] at hs
        obtain ⟨p, -, rfl⟩ := List.mem_map.1 hs
        intro i j
        simp only [List.map_cons, List.map_nil, splitRow, List.zipIdx_cons, List.zipIdx_nil, List.sum_cons, List.sum_nil, add_zero, norm_mul, hx i j]
  | freqSplitter r => exact absurd rfl (hk r)

/-- **C123.** Phase alone makes no waveform: along single paths, phase modulators turn light of even power into light of even power, and detectors read a constant. It takes an intensity modulator,
something that acts on frequencies, or a second path to interfere with. -/
theorem C123_phase_only (hn : 2 ≤ n) {P : Prop_ n} (hwin : 0 < P.window) {g : Graph} (hw : g.WF) {optic : Comp → Optic n} {conn : Comp → Connector}
    {hasNoise : Comp → Bool} (hp : Plumbed g optic conn) (hone : ∀ v ∈ g.ids, (g.inEdges v).length ≤ 1) (hconn : ∀ v ∈ g.nodes, ∀ a, conn v.comp ≠ .freqSplitter a)
    (hedge : ∀ e ∈ g.edges, (∃ x, optic e.comp = .source x ∧ EvenPower x) ∨ (optic e.comp).PhaseOnly) {inp : Signal n} {old st : Store (Signal n)}
    (h : propagate g (physics P optic conn hasNoise) inp old = .ok st) {k : Key} {s : Signal n} (hs : st k = some s) : EvenPower s := by
  have hdt := dt_ne_zero hn hwin
  obtain ⟨⟨order, ho⟩, hF⟩ := (propagate_iff hw).1 h
  have ht := topoSort_sound hw ho
  have houts : ∀ v ∈ g.nodes, g.inEdges v.id ≠ [] → (∀ d ∈ g.inEdges v.id, ∀ y, st (.edge d.ref) = some y → EvenPower y) →
      ∀ outs, Outputs g (physics P optic conn hasNoise) inp st v outs → ∀ y ∈ outs, EvenPower y := by
    rintro v hv hne hd outs ⟨ins, h1, h2⟩ y hy
    rcases h1 with ⟨h0, -⟩ | ⟨-, h1⟩
    · exact absurd h0 hne
    · have hl := hone v.id (List.mem_map.2 ⟨v, hv, rfl⟩)
      cases hin : g.inEdges v.id with
      | nil => exact absurd hin hne
      | cons d rest =>
        cases rest with
        | cons d' r => rw [hin] at hl; simp at hl
        | nil =>
          rw [hin] at h1 hd
          cases ins with
          | nil => simp at h1
          | cons x r =>
            cases r with
            | cons x' r' => simp at h1
            | nil =>
              simp only [List.map_cons, List.map_nil, List.cons.injEq, and_true] at h1
              exact evenPower_node (hconn v hv) (hd d (by simp) x h1) h2 hy
  have hedges : ∀ (m : Nat) (e : Edge), e ∈ g.edges → order.idxOf e.src = m → ∀ y, st (.edge e.ref) = some y → EvenPower y := by
    intro m
    induction m using Nat.strong_induction_on with
    | _ m ih =>
      intro e he hk y hy
      obtain ⟨v, hv, hid, outs, j, t, s1, s2, h1, h2, h3, h4, h5, h6⟩ := hF.edges e he
      have h7 : (optic e.comp).apply P t = .ok s2 := onEdge_physics.1 ⟨s1, h4, h5⟩
      rw [h6] at hy
      injection hy with hy
      subst hy
      rcases hedge e he with ⟨x, hx, hx'⟩ | hpo
      · rw [hx] at h7
        simp only [Optic.apply] at h7
        injection h7 with h7
        rw [← h7]
        exact hx'
      · have hne : g.inEdges v.id ≠ [] := by
          intro h0
          obtain ⟨x, hx⟩ := hp.entry e he fun e' he' hc => by
            have : e' ∈ g.inEdges v.id := mem_inEdges.2 ⟨he', by rw [hid, hc]⟩
            rw [h0] at this
            cases this
          rw [hx] at hpo
          exact hpo
        refine evenPower_apply hdt hpo (houts v hv hne (fun d hdm z hz => ?_) outs h1 t (List.mem_of_getElem? h3)) h7
        have hdm := mem_inEdges.1 hdm
        exact ih _ (by rw [← hk, ← hid, ← hdm.2]; exact ht.forward d hdm.1) d hdm.1 rfl z hz
  rcases hF.only k (by rw [hs]; simp) with ⟨e, he, rfl⟩ | ⟨v, hv, hsink, rfl⟩
  · exact hedges _ e he rfl s hs
  · obtain ⟨outs, y, h1, h2, h3⟩ := hF.sinks v hv hsink
    rw [h3] at hs
    injection hs with hs
    subst hs
    refine houts v hv (fun h0 => ?_) (fun d hdm z hz => hedges _ d (mem_inEdges.1 hdm).1 rfl z hz) outs h1 y (List.mem_of_getElem? h2)
    rcases hp.joined v.id (List.mem_map.2 ⟨v, hv, rfl⟩) with ⟨e, he, hd⟩ | ⟨e, he, hd⟩
    · have : e ∈ g.inEdges v.id := mem_inEdges.2 ⟨he, hd⟩
      rw [h0] at this
      cases this
    · exact hsink.2 e he hd

/-- **C123.** The spread of a target is nothing only if the target is constant. -/
theorem C123_spread (t : Fin n → ℝ) : 0 ≤ unevenness t ∧ (unevenness t = 0 ↔ ∀ i j, t i = t j) := by
  have hpos : ∀ i ∈ Finset.univ, 0 ≤ (t i - (∑ j, t j) / n) ^ 2 := fun i _ => sq_nonneg _
  refine ⟨div_nonneg (Finset.sum_nonneg hpos) (Nat.cast_nonneg _), fun h i j => ?_, fun h => ?_⟩
  · have hn : (n : ℝ) ≠ 0 := by exact_mod_cast (Nat.lt_of_le_of_lt (Nat.zero_le _) i.isLt).ne'
    have h1 : ∑ i, (t i - (∑ j, t j) / n) ^ 2 = 0 := by
      unfold unevenness at h
      rcases div_eq_zero_iff.1 h with h | h
      · exact h
      · exact absurd h hn
    have h2 := (Finset.sum_eq_zero_iff_of_nonneg hpos).1 h1
    have e : ∀ i, t i = (∑ j, t j) / n := fun i => by linarith [pow_eq_zero_iff (two_ne_zero) |>.1 (h2 i (Finset.mem_univ i))]
    rw [e i, e j]
  · unfold unevenness
    rw [Finset.sum_eq_zero, zero_div]
    intro i _
    have hn : (n : ℝ) ≠ 0 := by exact_mod_cast (Nat.lt_of_le_of_lt (Nat.zero_le _) i.isLt).ne'
    have : ∑ j, t j = n * t i := by
      rw [Finset.sum_congr rfl (fun j _ => h j i)]
      simp
    rw [this, mul_div_cancel_left₀ _ hn, sub_self]
    norm_num

/-- **C123 (finding).** Both ends of the window are sampled. So a clock with `m` whole periods in the window is not in step with itself around the end of the grid, unless `m` is a multiple of `n - 1`:
then it runs through whole periods from each sample to the next and is seen standing still. -/
theorem C123_window (hn : 2 ≤ n) {P : Prop_ n} (hwin : 0 < P.window) {f : ℝ} {m : ℤ} (hf : f * P.window = m) :
    (∃ l : ℤ, f * (n * P.dt) = l) ↔ ((n : ℤ) - 1) ∣ m := by
  have h1 : ((n : ℝ) - 1) ≠ 0 := by
    have : (2 : ℝ) ≤ n := by exact_mod_cast hn
    linarith
  have hdt : f * (n * P.dt) = m + m / ((n : ℝ) - 1) := by
    rw [(dt_df P).1, ← hf]
    field_simp
    ring
  rw [hdt]
  constructor
  · rintro ⟨l, hl⟩
    refine ⟨l - m, ?_⟩
    have : (m : ℝ) / ((n : ℝ) - 1) = ((l - m : ℤ) : ℝ) := by push_cast; linarith
    rw [div_eq_iff h1] at this
    have h2 : (m : ℝ) = (((n : ℤ) - 1) * (l - m) : ℤ) := by rw [this]; push_cast; ring
    exact_mod_cast h2
  · rintro ⟨q, hq⟩
    refine ⟨m + q, ?_⟩
    have : (m : ℝ) = ((n : ℝ) - 1) * q := by rw [hq]; push_cast; ring
    push_cast
    rw [this, mul_div_cancel_left₀ _ h1]

namespace RhythmExample
open Fixture

/-- Light that repeats every other sample. -/
noncomputable def beat : Signal 4 := ![1, I, 1, I]

theorem beat_repeats : ∀ i, delayed 2 beat i = beat i := by
  intro i
  fin_cases i <;> rfl

theorem dt_one : demoProp.dt = 1 := by rw [(dt_df demoProp).1]; norm_num [demoProp]

/-- A modulator with a period of two samples. -/
theorem in_step : ∀ e ∈ g.edges, (Mzi.optic beat (.intensityMod 1 (1 / 2) 0) .measure e.comp).Repeats demoProp 2 := by
  intro e he
  simp only [g, List.mem_cons, List.not_mem_nil, or_false] at he
  rcases he with rfl | rfl | rfl | rfl
  · exact beat_repeats
  · exact trivial
  · exact ⟨⟨1, by rw [dt_one]; norm_num⟩, ⟨2, by rw [dt_one]; norm_num⟩⟩
  · exact trivial

/-- Around an interferometer with a modulator in one arm, what the detector reads repeats, has no line at the harmonic of a slower target and is not aligned with it. -/
example (inp : Signal 4) : ∃ st s, propagate g (physics demoProp (Mzi.optic beat (.intensityMod 1 (1 / 2) 0) .measure) Mzi.conn (fun _ => false)) inp Store.empty = .ok st ∧
    st (.node 3) = some s ∧ s 0 = s 2 ∧ npFft s 1 = 0 ∧ npFft s 3 = 0 ∧ ∀ t, pulseShift demoProp t (1 / 4) s = .ok s := by
  obtain ⟨st, h⟩ := Mzi.runs (P := demoProp) beat (arm := .intensityMod 1 (1 / 2) 0) (last := .measure) (fun y => ⟨_, rfl⟩) (fun y => ⟨_, rfl⟩) (fun _ => false) inp
  obtain ⟨_, s, _, _, hs⟩ := ((propagate_iff g_wf).1 h).2.sinks ⟨3, snk, 2⟩ (by decide) ⟨by decide, by decide⟩
  have hp := Mzi.plumbed beat (arm := .intensityMod 1 (1 / 2) 0) id .measure
  have hwin : 0 < demoProp.window := by norm_num [demoProp]
  have hl := C123_lines (by norm_num) hwin g_wf hp in_step h hs
  have hidx : harmonicInd demoProp (1 / 4) = 1 := by
    have hdf : demoProp.df = 4 / 9 := by rw [(dt_df demoProp).2]; norm_num [demoProp]
    unfold harmonicInd
    rw [hdf, show ⌊(1 / 4 : ℝ) / (4 / 9)⌋₊ = 0 by rw [Nat.floor_eq_zero]; norm_num]
    norm_num
  refine ⟨st, s, h, hs, (C123_rhythm (by norm_num) hwin g_wf hp in_step h hs 2), hl 1 (by decide), hl 3 (by decide), fun t => ?_⟩
  exact (C123_off_beat (by norm_num) hwin g_wf hp in_step h hs (harmonic := 1 / 4) (by rw [hidx]; norm_num) (by rw [hidx]; decide) t).2

/-- On steady light an amplifier, a fibre and an interferometer give no waveform: the score is no better than the spread of the target. -/
example (E : Edfa) (inp : Signal 4) : ∃ st s v, propagate g (physics demoProp (Mzi.optic (fun _ => 1) (.edfa E) .measure) Mzi.conn (fun _ => false)) inp Store.empty = .ok st ∧
    st (.node 3) = some s ∧ Steady s ∧ rfScore demoProp ![1, 0, 0, 0] 2 (1 / 4) s = .ok v ∧ 3 / 64 ≤ v := by
  obtain ⟨st, h⟩ := Mzi.runs (P := demoProp) (fun _ => 1) (arm := .edfa E) (last := .measure) (fun y => ⟨_, rfl⟩) (fun y => ⟨_, rfl⟩) (fun _ => false) inp
  obtain ⟨_, s, _, _, hs⟩ := ((propagate_iff g_wf).1 h).2.sinks ⟨3, snk, 2⟩ (by decide) ⟨by decide, by decide⟩
  have hp := Mzi.plumbed (fun _ => 1) (arm := .edfa E) id .measure
  have hwin : 0 < demoProp.window := by norm_num [demoProp]
  have hmod : ∀ e ∈ g.edges, ¬ (Mzi.optic (fun _ => 1) (.edfa E) .measure e.comp).IsModulator := by
    intro e he
    simp only [g, List.mem_cons, List.not_mem_nil, or_false] at he
    rcases he with rfl | rfl | rfl | rfl <;> exact id
  have hsrc : ∀ e ∈ g.edges, ∀ x, Mzi.optic (fun _ => 1) (.edfa E) .measure e.comp = .source x → Steady x := by
    intro e he x hx
    simp only [g, List.mem_cons, List.not_mem_nil, or_false] at he
    rcases he with rfl | rfl | rfl | rfl
    · injection hx with hx
      rw [← hx]
      exact fun _ _ => rfl
    all_goals cases hx
  have hidx : harmonicInd demoProp (1 / 4) = 1 := by
    have hdf : demoProp.df = 4 / 9 := by rw [(dt_df demoProp).2]; norm_num [demoProp]
    unfold harmonicInd
    rw [hdf, show ⌊(1 / 4 : ℝ) / (4 / 9)⌋₊ = 0 by rw [Nat.floor_eq_zero]; norm_num]
    norm_num
  have hT : ∀ k, fft_ (fun i => (((![1, 0, 0, 0] : Fin 4 → ℝ) i : ℝ) : ℂ)) demoProp.dt k ≠ 0 := by
    intro k
    unfold fft_ npFft
    rw [dt_one, Fin.sum_univ_four]
    simp
  have hv : ∃ v, rfScore demoProp ![1, 0, 0, 0] 2 (1 / 4) s = .ok v := by
    unfold rfScore rfShift
    rw [dif_pos (by rw [hidx]; norm_num)]
    dsimp only
    rw [if_neg (hT _)]
    dsimp only
    rw [if_neg (by norm_num)]
    exact ⟨_, rfl⟩
  obtain ⟨v, hv⟩ := hv
  refine ⟨st, s, v, h, hs, C123_steady (by norm_num) hwin g_wf hp hmod hsrc h hs, hv, ?_⟩
  have := (C123_no_waveform (by norm_num) hwin g_wf hp hmod hsrc h hs hv).1
  refine le_trans (le_of_eq ?_) this
  unfold unevenness
  simp [Fin.sum_univ_four]
  norm_num

/-- One path: laser, phase modulator, detector. -/
def lane : Graph :=
  { nodes := [⟨0, src, 1⟩, ⟨1, split 8, 40⟩, ⟨2, split 9, 40⟩, ⟨3, snk, 2⟩]
    edges := [⟨0, 1, 0, laser 4, 10⟩, ⟨1, 2, 0, shaper 6, 31⟩, ⟨2, 3, 0, diode 7, 20⟩] }

theorem lane_wf : lane.WF where
  ids_nodup := by decide
  refs_nodup := by decide
  src_mem := by decide
  dst_mem := by decide

theorem lane_topo : lane.IsTopo [0, 1, 2, 3] where
  nodup := by decide
  mem_iff := by intro v; rw [show lane.ids = [0, 1, 2, 3] by decide]
  forward := by decide

theorem lane_plumbed (x : Signal 4) : Plumbed lane (Mzi.optic x (.phaseMod 1 (1 / 3) 0) .measure) (fun _ => .terminal) where
  entry := by
    intro e he hs
    simp only [lane, List.mem_cons, List.not_mem_nil, or_false] at he
    rcases he with rfl | rfl | rfl
    · exact ⟨x, rfl⟩
    · exact absurd rfl (hs ⟨0, 1, 0, laser 4, 10⟩ (by decide))
    · exact absurd rfl (hs ⟨1, 2, 0, shaper 6, 31⟩ (by decide))
  joined := by decide
  exit := by
    intro e he hd
    simp only [lane, List.mem_cons, List.not_mem_nil, or_false] at he
    rcases he with rfl | rfl | rfl
    · exact absurd hd id
    · exact absurd hd id
    · intro m hm hid
      simp only [lane, List.mem_cons, List.not_mem_nil, or_false] at hm
      rcases hm with rfl | rfl | rfl | rfl
      · exact absurd hid (by decide)
      · exact absurd hid (by decide)
      · exact absurd hid (by decide)
      · exact ⟨⟨by decide, by decide⟩, rfl⟩

/-- Though the clock of the phase modulator is out of step with the grid, the detector reads a constant. -/
example (inp : Signal 4) : ∃ st s, propagate lane (physics demoProp (Mzi.optic beat (.phaseMod 1 (1 / 3) 0) .measure) (fun _ => .terminal) (fun _ => false)) inp Store.empty = .ok st ∧
    st (.node 3) = some s ∧ EvenPower s := by
  have hen : Enough lane (physics demoProp (Mzi.optic beat (.phaseMod 1 (1 / 3) 0) .measure) (fun _ => .terminal) (fun _ => false)) := by
    refine ⟨?_, ?_, ?_⟩
    · intro m hm ins hin
      simp only [lane, List.mem_cons, List.not_mem_nil, or_false] at hm
      rcases hm with rfl | rfl | rfl | rfl <;> exact ⟨ins, rfl, by rw [hin]; decide⟩
    · intro e he s
      simp only [lane, List.mem_cons, List.not_mem_nil, or_false] at he
      rcases he with rfl | rfl | rfl <;> exact ⟨_, rfl⟩
    · intro e _ f hf s
      simp [physics] at hf
  obtain ⟨st, h⟩ := (C17_propagate_acyclic lane_wf hen inp Store.empty).1 lane_topo.acyclic
  obtain ⟨_, s, _, _, hs⟩ := ((propagate_iff lane_wf).1 h).2.sinks ⟨3, snk, 2⟩ (by decide) ⟨by decide, by decide⟩
  refine ⟨st, s, h, hs, C123_phase_only (by norm_num) (by norm_num [demoProp]) lane_wf (lane_plumbed beat) (by decide) (fun _ _ _ => by simp) ?_ h hs⟩
  intro e he
  simp only [lane, List.mem_cons, List.not_mem_nil, or_false] at he
  rcases he with rfl | rfl | rfl
  · refine .inl ⟨beat, rfl, fun i j => ?_⟩
    fin_cases i <;> fin_cases j <;> simp [beat]
  · exact .inr trivial
  · exact .inr trivial

/-- One period in the window of four samples, a third of a turn per sample: out of step; three periods: in step. -/
example : (¬ ∃ l : ℤ, (1 / 3 : ℝ) * ((4 : ℕ) * demoProp.dt) = l) ∧ ∃ l : ℤ, (1 : ℝ) * ((4 : ℕ) * demoProp.dt) = l := by
  have hwin : 0 < demoProp.window := by norm_num [demoProp]
  exact ⟨fun h => absurd ((C123_window (by norm_num) hwin (m := 1) (by norm_num [demoProp])).1 h) (by decide),
    (C123_window (by norm_num) hwin (m := 3) (by norm_num [demoProp])).2 (by decide)⟩

example : 0 < unevenness (![1, 0, 0, 0] : Fin 4 → ℝ) := by
  have h := C123_spread (![1, 0, 0, 0] : Fin 4 → ℝ)
  refine lt_of_le_of_ne h.1 fun h0 => ?_
  have := h.2.1 h0.symm 0 1
  simp at this

end RhythmExample

end Verif
