import Verif.Spec.Transforms
import Verif.Props.Amplifier
import Verif.Props.Dispersion
import Verif.Props.Propagate
import Verif.Props.Shaping
import Verif.Props.Fixture
import Verif.Spec.Physics
/-!
# C89: what components record is what they do to the light
-/

namespace Verif
open Complex Finset

variable {n : Nat}

theorem argmin_some {v : Fin n → ℝ} {i : Fin n} (h : argmin v = some i) : (∀ j, v i ≤ v j) ∧ ∀ j, j < i → v i < v j := by
  classical
  unfold argmin at h
  obtain ⟨h1, as, bs, h2, h3⟩ := List.find?_eq_some_iff_append.1 h
  have hmin : ∀ j, v i ≤ v j := by simpa using h1
  refine ⟨hmin, fun j hj => ?_⟩
  have hmem : j ∈ List.finRange n := List.mem_finRange j
  have hs : (List.finRange n).Pairwise (· < ·) := List.pairwise_lt_finRange n
  rw [h2] at hmem hs
  have hja : j ∈ as := by
    rcases List.mem_append.1 hmem with h | h
    · exact h
    · rcases List.mem_cons.1 h with h | h
      · exact absurd (h ▸ hj) (lt_irrefl _)
      · have := (List.pairwise_append.1 hs).2.1
        have := (List.pairwise_cons.1 this).1 j h
        exact absurd (this.trans hj) (lt_irrefl _)
  have := h3 j hja
  simp only [Bool.not_eq_true', decide_eq_false_iff_not, not_forall, not_le] at this
  obtain ⟨l, hl⟩ := this
  exact lt_of_le_of_lt (hmin l) hl

theorem argmin_exists (hn : 0 < n) (v : Fin n → ℝ) : ∃ i, argmin v = some i := by
  classical
  unfold argmin
  obtain ⟨i, -, hi⟩ := exists_min_image (univ : Finset (Fin n)) v ⟨⟨0, hn⟩, mem_univ _⟩
  have : ((List.finRange n).find? (fun i => decide (∀ j, v i ≤ v j))).isSome := by
    rw [List.find?_isSome]
    exact ⟨i, List.mem_finRange i, by simpa using hi⟩
  exact Option.isSome_iff_exists.1 this

theorem markOf_iff (hn : 0 < n) (P : Prop_ n) (d : ℝ) (i : Fin n) : markOf P d = some i ↔ Nearest P (-d) i := by
  constructor
  · intro h
    obtain ⟨a, b⟩ := argmin_some h
    exact ⟨a, b⟩
  · intro h
    obtain ⟨k, hk⟩ := argmin_exists hn (fun j => |P.t j - -d|)
    obtain ⟨a, b⟩ := argmin_some hk
    rcases lt_trichotomy i k with hik | hik | hik
    · exact absurd (b i hik) (not_lt.2 (h.closest k))
    · rw [hik]; exact hk
    · exact absurd (h.first k hik) (not_lt.2 (a i))

theorem Nearest.unique {P : Prop_ n} {s : ℝ} {i k : Fin n} (h : Nearest P s i) (h' : Nearest P s k) : i = k := by
  rcases lt_trichotomy i k with hik | hik | hik
  · exact absurd (h'.first i hik) (not_lt.2 (h.closest k))
  · exact hik
  · exact absurd (h.first k hik) (not_lt.2 (h'.closest i))

theorem Nearest.exists (hn : 0 < n) (P : Prop_ n) (s : ℝ) : ∃ i, Nearest P s i := by
  obtain ⟨i, hi⟩ := argmin_exists hn (fun j => |P.t j - - -s|)
  exact ⟨i, by simpa using (markOf_iff hn P (-s) i).1 hi⟩

/-! ### the light -/

/-- **C89.** Recording does not change the light: what a component delivers with `save_transforms=True` it delivers without, whatever was recorded before;
recording raises where the component otherwise works exactly for fibres and phase shifters (and then nothing is recorded). -/
theorem C89_same_light (hn : 0 < n) (P : Prop_ n) (o : Optic n) (x : Signal n) (old old' : Recorded n) :
    (o.run P false x old).2 = o.apply P x ∧
    (¬ o.CannotRecord → (o.run P true x old).2 = (o.run P false x old').2) ∧
    (o.CannotRecord → o.run P true x old = (old, .error .nameError) ∧ ∃ y, (o.run P false x old).2 = .ok y) := by
  have hmarks : ∀ (l : List (ℝ × ℝ)) (v : Fin n → ℝ), ∃ w, sdlMarks P l v = .ok w := by
    intro l
    induction l with
    | nil => exact fun v => ⟨v, rfl⟩
    | cons p l ih =>
      intro v
      obtain ⟨i, hi⟩ := argmin_exists hn (fun j => |P.t j - -p.2|)
      unfold sdlMarks
      rw [show markOf P p.2 = some i from hi]
      exact ih _
  have hdelay : ∀ d, ∃ t, delayRecord P d = .ok t := by
    intro d
    obtain ⟨i, hi⟩ := argmin_exists hn (fun j => |P.t j - -d|)
    exact ⟨_, by unfold delayRecord; rw [show markOf P d = some i from hi]⟩
  cases o with
  | fiber l => exact ⟨rfl, fun h => absurd trivial h, fun _ => ⟨rfl, _, rfl⟩⟩
  | phaseShifter p => exact ⟨rfl, fun h => absurd trivial h, fun _ => ⟨rfl, _, rfl⟩⟩
  | voa a => exact ⟨rfl, fun _ => rfl, fun h => h.elim⟩
  | phaseMod d f s => exact ⟨rfl, fun _ => rfl, fun h => h.elim⟩
  | intensityMod d f b => exact ⟨rfl, fun _ => rfl, fun h => h.elim⟩
  | waveguide => exact ⟨rfl, fun _ => rfl, fun h => h.elim⟩
  | edfa E => exact ⟨rfl, fun _ => rfl, fun h => h.elim⟩
  | source e => exact ⟨rfl, fun _ => rfl, fun h => h.elim⟩
  | measure => exact ⟨rfl, fun _ => rfl, fun h => h.elim⟩
  | photodiode D => exact ⟨rfl, fun _ => rfl, fun h => h.elim⟩
  | waveShaper a p =>
    have : ∀ save old, ((Optic.waveShaper a p).run P save x old).2 = waveShaper P a p x := by
      intro save old
      unfold Optic.run
      dsimp only
      cases ha : broadcast n (wsMask n (wsRepeat (wsBinLen P) a)) with
      | error e => simp [waveShaper, ha]
      | ok am =>
        cases hp : broadcast n (wsMask n (wsRepeat (wsBinLen P) p)) with
        | error e => simp [waveShaper, ha, hp]
        | ok pm => simp [waveShaper, ha, hp]
    exact ⟨this _ _, fun _ => (this _ _).trans (this _ _).symm, fun h => h.elim⟩
  | splitDelay r =>
    obtain ⟨w, hw⟩ := hmarks (r.zip sdlDelays) (fun _ => 0)
    refine ⟨rfl, fun _ => ?_, fun h => h.elim⟩
    simp [Optic.run, hw]
  | delayLine d =>
    obtain ⟨w, hw⟩ := hdelay d
    refine ⟨rfl, fun _ => ?_, fun h => h.elim⟩
    simp [Optic.run, withDelay, hw]
  | intDelayLine d =>
    obtain ⟨w, hw⟩ := hdelay (d * (1 / 10 ^ 12))
    refine ⟨rfl, fun _ => ?_, fun h => h.elim⟩
    unfold Optic.run withDelay
    simp only [hw, if_true, Bool.false_eq_true, if_false]
  | progFilter a p =>
    have : ∀ save old, ((Optic.progFilter a p).run P save x old).2 = progFilter P a p x := by
      intro save old
      unfold Optic.run
      dsimp only
      cases progFilter P a p x <;> rfl
    exact ⟨this _ _, fun _ => (this _ _).trans (this _ _).symm, fun h => h.elim⟩
  | squareFilter b =>
    have : ∀ save old, ((Optic.squareFilter b).run P save x old).2 = squareFilter P b x := by
      intro save old
      unfold Optic.run
      dsimp only
      cases squareFilter P b x <;> rfl
    exact ⟨this _ _, fun _ => (this _ _).trans (this _ _).symm, fun h => h.elim⟩

/-- **C89.** A whole system propagated with `save_transforms=True`: what it delivers it also delivers without recording; a system with a fibre or a phase
shifter anywhere never gets through, any other one behaves the same in every case. -/
theorem C89_whole_system (hn : 0 < n) {g : Graph} (hw : g.WF) (P : Prop_ n) (optic : Comp → Optic n) (conn : Comp → Connector) (hasNoise : Comp → Bool)
    (inp : Signal n) {order : List NodeId} (ho : g.IsTopo order) (old st : Store (Signal n)) :
    (propagateWith g (physicsSave P optic conn hasNoise true) inp order old = .ok st →
      propagateWith g (physics P optic conn hasNoise) inp order old = .ok st) ∧
    ((∃ e ∈ g.edges, (optic e.comp).CannotRecord) → propagateWith g (physicsSave P optic conn hasNoise true) inp order old ≠ .ok st) ∧
    ((∀ e ∈ g.edges, ¬ (optic e.comp).CannotRecord) →
      (propagateWith g (physicsSave P optic conn hasNoise true) inp order old = .ok st ↔
        propagateWith g (physics P optic conn hasNoise) inp order old = .ok st)) := by
  have hsame : ∀ c x, ¬ (optic c).CannotRecord → ((optic c).run P true x none).2 = (optic c).apply P x := fun c x h =>
    ((C89_same_light hn P (optic c) x none none).2.1 h).trans (C89_same_light hn P (optic c) x none none).1
  have hbad : ∀ c x, (optic c).CannotRecord → ((optic c).run P true x none).2 = .error .nameError := fun c x h => by
    rw [((C89_same_light hn P (optic c) x none none).2.2 h).1]
  have hno : (∃ e ∈ g.edges, (optic e.comp).CannotRecord) → propagateWith g (physicsSave P optic conn hasNoise true) inp order old ≠ .ok st := by
    rintro ⟨e, he, hc⟩ h
    have hf := (C18_solves_dataflow hw ho old st).1 h
    obtain ⟨m, -, -, outs, i, s, s1, s2, -, -, -, h1, -⟩ := hf.edges e he
    rw [show (physicsSave P optic conn hasNoise true).edge e.comp s = ((optic e.comp).run P true s none).2 from rfl, hbad _ _ hc] at h1
    cases h1
  have hyes : (∀ e ∈ g.edges, ¬ (optic e.comp).CannotRecord) →
      (propagateWith g (physicsSave P optic conn hasNoise true) inp order old = .ok st ↔
        propagateWith g (physics P optic conn hasNoise) inp order old = .ok st) := by
    intro hall
    rw [C18_solves_dataflow hw ho old st, C18_solves_dataflow hw ho old st]
    constructor
    · intro hf
      refine ⟨fun e he => ?_, hf.sinks, hf.only⟩
      obtain ⟨m, hm, hid, outs, i, s, s1, s2, h1, h2, h3, h4, h5⟩ := hf.edges e he
      exact ⟨m, hm, hid, outs, i, s, s1, s2, h1, h2, h3, (hsame e.comp s (hall e he)).symm.trans h4, h5⟩
    · intro hf
      refine ⟨fun e he => ?_, hf.sinks, hf.only⟩
      obtain ⟨m, hm, hid, outs, i, s, s1, s2, h1, h2, h3, h4, h5⟩ := hf.edges e he
      exact ⟨m, hm, hid, outs, i, s, s1, s2, h1, h2, h3, (hsame e.comp s (hall e he)).trans h4, h5⟩
  refine ⟨fun h => ?_, hno, hyes⟩
  by_cases hc : ∃ e ∈ g.edges, (optic e.comp).CannotRecord
  · exact absurd h (hno hc)
  · exact (hyes (fun e he h' => hc ⟨e, he, h'⟩)).1 h

/-! ### modulators -/

/-- **C89.** The record of a phase modulator is the phase it adds, sample by sample; that of an intensity modulator is the share of the power it lets
through, before its loss of 4 dB. -/
theorem C89_modulators (P : Prop_ n) (d f s : ℝ) (x : Signal n) (old : Recorded n) :
    (∃ v y, (Optic.phaseMod d f s).run P true x old = (some [⟨.time, v, "modulation"⟩], .ok y) ∧ ∀ j, y j = exp (I * (v j : ℂ)) * x j) ∧
    ∃ v y, (Optic.intensityMod d f s).run P true x old = (some [⟨.time, v, "modulation"⟩], .ok y) ∧
      ∀ j, 0 ≤ v j ∧ v j ≤ 1 ∧ power_ y j = (10 : ℝ) ^ (-(4 : ℝ) / 10) * (v j * power_ x j) := by
  constructor
  · refine ⟨_, _, rfl, fun j => ?_⟩
    rw [phaseMod, dbScale_zero, mul_comm]
  · refine ⟨_, _, rfl, fun j => ?_⟩
    set w : ℂ := exp (I * ((d * Real.cos (2 * Real.pi * f * P.t j) + s : ℝ) : ℂ)) with hw
    have hv : power_ (n := n) (fun j => 1 / 2 + 1 / 2 * exp (I * ((d * Real.cos (2 * Real.pi * f * P.t j) + s : ℝ) : ℂ))) j = ‖1 / 2 + 1 / 2 * w‖ ^ 2 := rfl
    rw [hv]
    have hle : ‖1 / 2 + 1 / 2 * w‖ ≤ 1 := by
      refine (norm_add_le _ _).trans ?_
      rw [norm_mul, hw, norm_expI]
      norm_num
    refine ⟨by positivity, by nlinarith [norm_nonneg (1 / 2 + 1 / 2 * w)], ?_⟩
    unfold intensityMod
    rw [power_dbScale]
    have : power_ (n := n) (fun j => x j / 2 + x j / 2 * exp (I * ((d * Real.cos (2 * Real.pi * f * P.t j) + s : ℝ) : ℂ))) j
        = ‖1 / 2 + 1 / 2 * w‖ ^ 2 * power_ x j := by
      show ‖x j / 2 + x j / 2 * w‖ ^ 2 = ‖1 / 2 + 1 / 2 * w‖ ^ 2 * ‖x j‖ ^ 2
      rw [← mul_pow, ← norm_mul]
      congr 2
      ring
    rw [this]

/-! ### filters -/

theorem axisOf_iff (j k : Fin n) : AxisOf n j k ↔ j = rotIdx (n / 2) k := by
  have hk := k.isLt
  have hj := j.isLt
  have hidx : (((rotIdx (n / 2) k : Fin n) : ℕ) : ℤ) = signedBin n k + ((n / 2 : ℕ) : ℤ) := by
    have : ((rotIdx (n / 2) k : Fin n) : ℕ) = (k + n / 2) % n := rfl
    rw [this]
    unfold signedBin
    split
    · rw [Nat.mod_eq_of_lt (by omega)]; push_cast; ring
    · rw [Nat.mod_eq_sub_mod (by omega), Nat.mod_eq_of_lt (by omega), Nat.cast_sub (by omega)]; push_cast; ring
  unfold AxisOf
  rw [← hidx, Fin.ext_iff]
  exact_mod_cast Iff.rfl

theorem fft_mask (c : ℝ) (H : Signal n) {dt : ℝ} (h : dt ≠ 0) (x : Signal n) (k : Fin n) :
    npFft (dbScale c (freqMul H dt x)) k = (dbAmp c : ℂ) * (H k * npFft x k) := by
  have : dbScale c (freqMul H dt x) = fun i => (dbAmp c : ℂ) * freqMul H dt x i := by
    funext i; unfold dbScale; ring
  rw [this, npFft_smul, freqMul_eq H h, npFft_npIfft]

/-- **C89.** The records of the wave shaper and of the programmable filter are the response they apply: every frequency of the output is that of the
input times the recorded amplitude with the recorded phase at its place on the frequency axis, less the loss of 4.5 dB.  The square filter records the
amplitude it applies, without loss. -/
theorem C89_filters (hn : 2 ≤ n) {P : Prop_ n} (hw : 0 < P.window) (o : Optic n) (x : Signal n) (old r : Recorded n) (y : Signal n)
    (h : o.run P true x old = (r, .ok y)) :
    ((∃ a p, o = .waveShaper a p) ∨ (∃ a p, o = .progFilter a p) →
      ∃ am ph, r = some [⟨.freq, am, "amplitude"⟩, ⟨.freq, ph, "phase"⟩] ∧
        ∀ j k, AxisOf n j k → npFft y k = ((10 : ℝ) ^ (-(45 : ℝ) / 200) : ℝ) * ((am j : ℂ) * exp (I * (ph j : ℂ))) * npFft x k) ∧
    ((∃ b, o = .squareFilter b) →
      ∃ am, r = some [⟨.freq, am, "amplitude"⟩] ∧ ∀ j k, AxisOf n j k → npFft y k = (am j : ℂ) * npFft x k) := by
  have hd := dt_ne_zero hn hw
  have hdb : dbAmp (-4.5) = (10 : ℝ) ^ (-(45 : ℝ) / 200) := by unfold dbAmp; norm_num
  refine ⟨?_, ?_⟩
  · rintro (⟨a, p, rfl⟩ | ⟨a, p, rfl⟩)
    · unfold Optic.run at h
      dsimp only at h
      cases ha : broadcast n (wsMask n (wsRepeat (wsBinLen P) a)) with
      | error e => simp [waveShaper, ha] at h
      | ok am =>
        cases hp : broadcast n (wsMask n (wsRepeat (wsBinLen P) p)) with
        | error e => simp [waveShaper, ha, hp] at h
        | ok pm =>
          simp only [waveShaper, ha, hp, if_true, Prod.mk.injEq, Except.ok.injEq] at h
          obtain ⟨rfl, rfl⟩ := h
          refine ⟨am, pm, rfl, fun j k hjk => ?_⟩
          rw [fft_mask _ _ hd, hdb, (axisOf_iff j k).1 hjk]
          simp only [ifftShift]
          ring
    · unfold Optic.run at h
      dsimp only at h
      by_cases hb : pfBwInt P = 0
      · simp [progFilter, hb] at h
      · simp only [progFilter, hb, if_true, if_false, Prod.mk.injEq, Except.ok.injEq] at h
        obtain ⟨rfl, rfl⟩ := h
        refine ⟨_, _, rfl, fun j k hjk => ?_⟩
        rw [fft_mask _ _ hd, hdb, (axisOf_iff j k).1 hjk]
        simp only [ifftShift]
        ring
  · rintro ⟨b, rfl⟩
    unfold Optic.run at h
    dsimp only at h
    by_cases hb : b = 0
    · simp [squareFilter, hb] at h
    · simp only [squareFilter, hb, if_true, if_false, Prod.mk.injEq, Except.ok.injEq] at h
      obtain ⟨rfl, rfl⟩ := h
      refine ⟨_, rfl, fun j k hjk => ?_⟩
      rw [fft_mask _ _ hd, dbAmp_zero, (axisOf_iff j k).1 hjk]
      simp only [ifftShift]
      push_cast
      ring

/-! ### amplifiers -/

/-- **C89, finding.** The record of an amplifier, labelled "gain (dB)", is half its gain in decibels: the power of a frequency grows by `10 ^ (v / 5)`,
not `10 ^ (v / 10)`.  For an even number of samples it stands at the frequency's place on the axis, for an odd number one place to the right of it (the highest
frequency at the left end). -/
theorem C89_amplifier (hn : 2 ≤ n) {P : Prop_ n} (hw : 0 < P.window) (E : Edfa) (hp : 0 < E.pOutMax) (x : Signal n) (old : Recorded n) :
    ∃ v y, (Optic.edfa E).run P true x old = (some [⟨.freq, v, "gain (dB)"⟩], .ok y) ∧
      ∀ i j k, AxisOf n j k → i.val = (if n % 2 = 0 then j.val else (j.val + 1) % n) →
        ‖npFft y k‖ ^ 2 = (10 : ℝ) ^ (v i / 5) * ‖npFft x k‖ ^ 2 := by
  have hd := dt_ne_zero hn hw
  refine ⟨_, _, rfl, fun i j k hjk hi => ?_⟩
  have hik : rotIdx (n / 2) i = k := by
    rw [axisOf_iff] at hjk
    have hj : j.val = (k.val + n / 2) % n := by rw [hjk]; rfl
    have hk := k.isLt
    apply Fin.ext
    show (i.val + n / 2) % n = k.val
    rw [hi, hj]
    split
    · rename_i he
      rw [Nat.mod_add_mod, show k.val + n / 2 + n / 2 = k.val + n by omega, Nat.add_mod_right, Nat.mod_eq_of_lt hk]
    · rename_i he
      rw [Nat.mod_add_mod, add_assoc, Nat.mod_add_mod, show k.val + n / 2 + (1 + n / 2) = k.val + n by omega, Nat.add_mod_right, Nat.mod_eq_of_lt hk]
  have hg := ((C61_output_limit E hn hw x hp).1 k).1
  have hy : npFft (E.propagate P x) k = (Real.sqrt (E.gain P x k) : ℂ) * npFft x k := by
    have : E.propagate P x = freqMul (fun k => (Real.sqrt (E.gain P x k) : ℂ)) P.dt x := rfl
    rw [this, freqMul_eq _ hd, npFft_npIfft]
  rw [hy, norm_mul, mul_pow]
  congr 1
  rw [Complex.norm_real, Real.norm_eq_abs, sq_abs, Real.sq_sqrt hg.le]
  show E.gain P x k = (10 : ℝ) ^ (10 * Real.logb 10 (Real.sqrt (E.gain P x (rotIdx (n / 2) i))) / 5)
  rw [hik, show 10 * Real.logb 10 (Real.sqrt (E.gain P x k)) / 5 = Real.logb 10 (E.gain P x k) by
    rw [Real.sqrt_eq_rpow, Real.logb_rpow_eq_mul_logb_of_pos hg]; ring]
  exact (Real.rpow_logb (by norm_num) (by norm_num) hg).symm

/-! ### delay lines -/

/-- **C89.** A delay line records a single one, at the sample nearest to minus its delay (that is where it moves a pulse from the middle of the window, C79);
the integrated one, whose parameter is in picoseconds, too. -/
theorem C89_delay_mark (hn : 0 < n) (P : Prop_ n) (d : ℝ) (x : Signal n) (old : Recorded n) :
    (∃ v i, ((Optic.delayLine d).run P true x old).1 = some [⟨.time, v, "delay"⟩] ∧ Nearest P (-d) i ∧ v i = 1 ∧ ∀ j, j ≠ i → v j = 0) ∧
    ∃ v i, ((Optic.intDelayLine d).run P true x old).1 = some [⟨.time, v, "delay"⟩] ∧ Nearest P (-(d / 10 ^ 12)) i ∧ v i = 1 ∧
      ∀ j, j ≠ i → v j = 0 := by
  constructor
  · obtain ⟨i, hi⟩ := Nearest.exists hn P (-d)
    refine ⟨fun j => if j = i then 1 else 0, i, ?_, hi, if_pos rfl, fun j hj => if_neg hj⟩
    simp [Optic.run, withDelay, delayRecord, (markOf_iff hn P d i).2 hi]
  · obtain ⟨i, hi⟩ := Nearest.exists hn P (-(d / 10 ^ 12))
    have he : d * (1 / 10 ^ 12) = d / 10 ^ 12 := by ring
    refine ⟨fun j => if j = i then 1 else 0, i, ?_, hi, if_pos rfl, fun j hj => if_neg hj⟩
    show (withDelay P (d * (1 / 10 ^ 12)) true (Verif.intDelayLine P d x) old).1 = _
    rw [he]
    simp [withDelay, delayRecord, (markOf_iff hn P (d / 10 ^ 12) i).2 hi]

theorem t_eq (hn : 2 ≤ n) (P : Prop_ n) (j : Fin n) : P.t j = P.dt * ((j : ℝ) - ((n : ℝ) - 1) / 2) := by
  have h1 : ((n : ℝ) - 1) ≠ 0 := by
    have : (2 : ℝ) ≤ n := by exact_mod_cast hn
    linarith
  unfold Prop_.t Prop_.dt Prop_.linspace Prop_.linstep
  field_simp
  ring

theorem dt_pos' (hn : 2 ≤ n) {P : Prop_ n} (hw : 0 < P.window) : 0 < P.dt := by
  have : (2 : ℝ) ≤ n := by exact_mod_cast hn
  unfold Prop_.dt Prop_.linstep
  apply div_pos <;> linarith

/-- A sample within half a step of `s` is the nearest one. -/
theorem nearest_of_half (hn : 2 ≤ n) {P : Prop_ n} (hw : 0 < P.window) {s : ℝ} {i : Fin n} (h : |P.t i - s| < P.dt / 2) : Nearest P s i := by
  have hdt := dt_pos' hn hw
  have key : ∀ j, j ≠ i → |P.t i - s| < |P.t j - s| := by
    intro j hj
    have hgap : P.dt ≤ |P.t j - P.t i| := by
      rw [t_eq hn P j, t_eq hn P i, ← mul_sub, abs_mul, abs_of_pos hdt]
      have : (1 : ℝ) ≤ |((j : ℝ) - ((n : ℝ) - 1) / 2 - ((i : ℝ) - ((n : ℝ) - 1) / 2))| := by
        rw [show ((j : ℝ) - ((n : ℝ) - 1) / 2 - ((i : ℝ) - ((n : ℝ) - 1) / 2)) = (((j.val : ℤ) - (i.val : ℤ) : ℤ) : ℝ) by push_cast; ring, ← Int.cast_abs]
        have hne : (j.val : ℤ) - (i.val : ℤ) ≠ 0 := fun h0 => hj (Fin.ext (by omega))
        exact_mod_cast Int.one_le_abs hne
      nlinarith
    have := abs_sub_abs_le_abs_sub (P.t j - P.t i) (s - P.t i)
    have e1 : |P.t j - P.t i - (s - P.t i)| = |P.t j - s| := by congr 1; ring
    have e2 : |s - P.t i| = |P.t i - s| := abs_sub_comm _ _
    rw [e1, e2] at this
    linarith
  refine ⟨fun j => ?_, fun j hj => key j (ne_of_lt hj)⟩
  by_cases hj : j = i
  · rw [hj]
  · exact (key j hj).le

/-- **C89.** For delays of `d` steps of the grid, up to a quarter of the window, on an odd number of samples, the record of a delay line is its response: the
power that comes out when a unit pulse in the middle of the window goes in. -/
theorem C89_delay_response {q : ℕ} (hq : 1 ≤ q) {P : Prop_ (2 * q + 1)} (hw : 0 < P.window) {d : ℕ} (hd : 4 * d ≤ 2 * q + 1) (x : Signal (2 * q + 1))
    (old : Recorded (2 * q + 1)) :
    ((Optic.delayLine (d * P.dt * ((((2 * q + 1 : ℕ) : ℝ) - 1) / (2 * q + 1 : ℕ)) ^ 2)).run P true x old).1 =
      some [⟨.time, power_ (delayLine P (d * P.dt * ((((2 * q + 1 : ℕ) : ℝ) - 1) / (2 * q + 1 : ℕ)) ^ 2) (impulseAt ⟨q, by omega⟩)), "delay"⟩] := by
  have hn : 2 ≤ 2 * q + 1 := by omega
  have hdt := dt_pos' hn hw
  have hpow : power_ (delayLine P (d * P.dt * ((((2 * q + 1 : ℕ) : ℝ) - 1) / (2 * q + 1 : ℕ)) ^ 2) (impulseAt ⟨q, by omega⟩)) =
      fun j => if j = ⟨q - d, by omega⟩ then 1 else 0 := by
    have := C79_earlier hn hw (d : ℤ) (impulseAt (n := 2 * q + 1) ⟨q, by omega⟩)
    rw [Int.cast_natCast] at this
    rw [this]
    funext j
    have hj := j.isLt
    unfold delayed power_ impulseAt
    have hiff : ((⟨(((j.val : ℤ) - -(d : ℤ)) % ((2 * q + 1 : ℕ) : ℤ)).toNat, by
        have := Int.emod_lt_of_pos ((j.val : ℤ) - -(d : ℤ)) (show (0 : ℤ) < ((2 * q + 1 : ℕ) : ℤ) by omega)
        have := Int.emod_nonneg ((j.val : ℤ) - -(d : ℤ)) (show ((2 * q + 1 : ℕ) : ℤ) ≠ 0 by omega)
        omega⟩ : Fin (2 * q + 1)) = ⟨q, by omega⟩) ↔ j = ⟨q - d, by omega⟩ := by
      rw [Fin.ext_iff, Fin.ext_iff]
      show (((j.val : ℤ) - -(d : ℤ)) % ((2 * q + 1 : ℕ) : ℤ)).toNat = q ↔ j.val = q - d
      rw [show (j.val : ℤ) - -(d : ℤ) = ((j.val + d : ℕ) : ℤ) by push_cast; ring, ← Int.natCast_mod, Int.toNat_natCast]
      rcases lt_or_ge (j.val + d) (2 * q + 1) with h | h
      · rw [Nat.mod_eq_of_lt h]; omega
      · rw [Nat.mod_eq_sub_mod h, Nat.mod_eq_of_lt (by omega)]; omega
    by_cases h : j = ⟨q - d, by omega⟩
    · rw [if_pos (hiff.2 h), if_pos h]; norm_num
    · rw [if_neg (fun h' => h (hiff.1 h')), if_neg h]; norm_num
  have hnear : Nearest P (-(d * P.dt * ((((2 * q + 1 : ℕ) : ℝ) - 1) / (2 * q + 1 : ℕ)) ^ 2)) ⟨q - d, by omega⟩ := by
    apply nearest_of_half hn hw
    rw [t_eq hn]
    have hN : (0 : ℝ) < ((2 * q + 1 : ℕ) : ℝ) := by positivity
    have hsub : (((⟨q - d, by omega⟩ : Fin (2 * q + 1)) : ℕ) : ℝ) = (q : ℝ) - d := by
      show ((q - d : ℕ) : ℝ) = _
      rw [Nat.cast_sub (by omega)]
    have hd' : 4 * (d : ℝ) ≤ ((2 * q + 1 : ℕ) : ℝ) := by exact_mod_cast hd
    have hqN : (q : ℝ) = (((2 * q + 1 : ℕ) : ℝ) - 1) / 2 := by push_cast; ring
    have hN1 : (3 : ℝ) ≤ ((2 * q + 1 : ℕ) : ℝ) := by exact_mod_cast (by omega : 3 ≤ 2 * q + 1)
    rw [hsub, hqN]
    generalize ((2 * q + 1 : ℕ) : ℝ) = N at *
    have e : P.dt * ((N - 1) / 2 - d - (N - 1) / 2) - -(d * P.dt * ((N - 1) / N) ^ 2) = -(P.dt * (d * ((2 * N - 1) / N ^ 2))) := by
      field_simp
      ring
    have hpos : 0 ≤ (d : ℝ) * ((2 * N - 1) / N ^ 2) := mul_nonneg (Nat.cast_nonneg d) (div_nonneg (by linarith) (by positivity))
    rw [e, abs_neg, abs_of_nonneg (mul_nonneg hdt.le hpos)]
    have : (d : ℝ) * ((2 * N - 1) / N ^ 2) < 1 / 2 := by
      rw [← mul_div_assoc, div_lt_div_iff₀ (by positivity) (by norm_num)]
      nlinarith
    nlinarith
  rw [hpow]
  have hm := (markOf_iff (by omega) P _ _).2 hnear
  generalize (d : ℝ) * P.dt * ((((2 * q + 1 : ℕ) : ℝ) - 1) / (2 * q + 1 : ℕ)) ^ 2 = τ at hm
  simp [Optic.run, withDelay, delayRecord, hm]

/-- **C89, finding.** Delays beyond half the window are all recorded at the first sample. -/
theorem C89_delay_outside (hn : 2 ≤ n) {P : Prop_ n} (hw : 0 < P.window) {d : ℝ} (hd : P.window / 2 ≤ d) (x : Signal n) (old : Recorded n) :
    ((Optic.delayLine d).run P true x old).1 = some [⟨.time, fun j => if j.val = 0 then 1 else 0, "delay"⟩] := by
  have hdt := dt_pos' hn hw
  have hnear : Nearest P (-d) ⟨0, by omega⟩ := by
    have h0 : P.t ⟨0, by omega⟩ = -(P.window / 2) := by unfold Prop_.t Prop_.linspace; simp; ring
    have hge : ∀ j, P.t ⟨0, by omega⟩ + P.dt * j.val ≤ P.t j := fun j => by
      rw [t_eq hn, t_eq hn]; simp; linarith
    refine ⟨fun j => ?_, fun j hj => absurd hj (by simp [Fin.lt_def])⟩
    have := hge j
    have hj : 0 ≤ P.dt * j.val := by positivity
    rw [abs_of_nonneg (by linarith), abs_of_nonneg (by linarith)]
    linarith
  have : (fun j : Fin n => if j = ⟨0, by omega⟩ then (1 : ℝ) else 0) = fun j => if j.val = 0 then 1 else 0 := by
    funext j; simp [Fin.ext_iff]
  simp [Optic.run, withDelay, delayRecord, (markOf_iff (by omega) P d _).2 hnear, this]

/-! ### the split-and-delay line -/

theorem sdlMarks_spec (hn : 0 < n) (P : Prop_ n) (l : List (ℝ × ℝ)) (v : Fin n → ℝ) :
    ∃ w, sdlMarks P l v = .ok w ∧ ∀ j,
      (∀ (k : ℕ) (r d : ℝ), l[k]? = some (r, d) → Nearest P (-d) j → (∀ (k' : ℕ) (r' d' : ℝ), k < k' → l[k']? = some (r', d') → ¬ Nearest P (-d') j) → w j = r) ∧
      ((∀ p ∈ l, ¬ Nearest P (-p.2) j) → w j = v j) := by
  induction l generalizing v with
  | nil => exact ⟨v, rfl, fun j => ⟨fun k r d h => by simp at h, fun _ => rfl⟩⟩
  | cons p l ih =>
    obtain ⟨i, hi⟩ := Nearest.exists hn P (-p.2)
    obtain ⟨w, hw, hs⟩ := ih (fun j => if j = i then p.1 else v j)
    refine ⟨w, ?_, fun j => ⟨fun k r d h hnear hlast => ?_, fun hnone => ?_⟩⟩
    · unfold sdlMarks
      rw [(markOf_iff hn P p.2 i).2 hi]
      exact hw
    · cases k with
      | zero =>
        simp only [List.getElem?_cons_zero, Option.some.injEq] at h
        subst h
        rw [(hs j).2 (fun q hq hnq => by
          obtain ⟨m, hm⟩ := List.mem_iff_getElem?.1 hq
          exact hlast (m + 1) q.1 q.2 (Nat.succ_pos m) (by simpa using hm) hnq)]
        exact if_pos (hnear.unique hi)
      | succ k =>
        refine (hs j).1 k r d (by simpa using h) hnear (fun k' r' d' hk h' => ?_)
        exact hlast (k' + 1) r' d' (Nat.succ_lt_succ hk) (by simpa using h')
    · rw [(hs j).2 (fun q hq => hnone q (List.mem_cons_of_mem _ hq))]
      refine if_neg (fun hji => ?_)
      exact hnone p List.mem_cons_self (hji ▸ hi)

theorem sdlStages (ratios : List ℝ) (k : ℕ) (r d : ℝ) :
    (ratios.zip sdlDelays)[k]? = some (r, d) ↔ k < 8 ∧ ratios[k]? = some r ∧ d = 2 ^ k / 10 ^ 12 := by
  rw [List.getElem?_zip_eq_some (z := (r, d))]
  unfold sdlDelays
  rw [List.getElem?_map]
  constructor
  · rintro ⟨h1, h2⟩
    rcases lt_or_ge k 8 with hk | hk
    · rw [List.getElem?_range hk] at h2
      simp only [Option.map_some, Option.some.injEq] at h2
      exact ⟨hk, h1, by rw [← h2]; ring⟩
    · rw [List.getElem?_eq_none (by simpa using hk)] at h2
      cases h2
  · rintro ⟨hk, h1, rfl⟩
    refine ⟨h1, ?_⟩
    rw [List.getElem?_range hk]
    simp only [Option.map_some, Option.some.injEq]
    ring

/-- **C89.** The split-and-delay line records, at the sample nearest to `-2^k` picoseconds, the coupling ratio of stage `k` – unless a later stage has the same
nearest sample – and zero at every sample that is nearest to none. -/
theorem C89_split_delay (hn : 0 < n) (P : Prop_ n) (ratios : List ℝ) (x : Signal n) (old : Recorded n) :
    ∃ v, ((Optic.splitDelay ratios).run P true x old).1 = some [⟨.time, v, "delay coupling ratios"⟩] ∧ ∀ j,
      (∀ k r, k < 8 → ratios[k]? = some r → Nearest P (-(2 ^ k / 10 ^ 12)) j →
        (∀ k', k < k' → k' < 8 → k' < ratios.length → ¬ Nearest P (-(2 ^ k' / 10 ^ 12)) j) → v j = r) ∧
      ((∀ k, k < 8 → k < ratios.length → ¬ Nearest P (-(2 ^ k / 10 ^ 12)) j) → v j = 0) := by
  obtain ⟨w, hw, hs⟩ := sdlMarks_spec hn P (ratios.zip sdlDelays) (fun _ => 0)
  refine ⟨w, by simp [Optic.run, hw], fun j => ⟨fun k r hk hr hnear hlast => ?_, fun hnone => ?_⟩⟩
  · refine (hs j).1 k r _ ((sdlStages ratios k r _).2 ⟨hk, hr, rfl⟩) hnear (fun k' r' d' hkk h' => ?_)
    obtain ⟨h8, hr', rfl⟩ := (sdlStages ratios k' r' d').1 h'
    exact hlast k' hkk h8 (List.getElem?_eq_some_iff.1 hr').1
  · refine (hs j).2 (fun p hp hnp => ?_)
    obtain ⟨m, hm⟩ := List.mem_iff_getElem?.1 hp
    obtain ⟨h8, hr, hd⟩ := (sdlStages ratios m p.1 p.2).1 hm
    exact hnone m h8 (List.getElem?_eq_some_iff.1 hr).1 (hd ▸ hnp)

/-- **C89, finding.** In a window of at most 128 picoseconds the last two stages are recorded at the same sample and the last one hides the other: two
settings have the same record, although one lets the light through and the other blocks it completely. -/
theorem C89_hidden_stage (hn : 2 ≤ n) {P : Prop_ n} (hw : 0 < P.window) (h128 : P.window ≤ 128 / 10 ^ 12) (x : Signal n) (old : Recorded n) :
    ((Optic.splitDelay [0, 0, 0, 0, 0, 0, 0, 0]).run P true x old).1 = ((Optic.splitDelay [0, 0, 0, 0, 0, 0, 1, 0]).run P true x old).1 ∧
    (∀ i, splitDelay P [0, 0, 0, 0, 0, 0, 0, 0] x i = ((10 : ℝ) ^ ((1 : ℝ) / 20) : ℝ) * x i) ∧
    ∀ i, splitDelay P [0, 0, 0, 0, 0, 0, 1, 0] x i = 0 := by
  have hn0 : 0 < n := by omega
  have hdt := dt_pos' hn hw
  have hfirst : ∀ d, P.window / 2 ≤ d → Nearest P (-d) ⟨0, hn0⟩ := by
    intro d hd
    have h0 : P.t ⟨0, hn0⟩ = -(P.window / 2) := by unfold Prop_.t Prop_.linspace; simp; ring
    refine ⟨fun j => ?_, fun j hj => absurd hj (by simp [Fin.lt_def])⟩
    have hge : P.t ⟨0, hn0⟩ + P.dt * j.val ≤ P.t j := by
      rw [t_eq hn, t_eq hn]; simp; linarith
    have hj : 0 ≤ P.dt * j.val := by positivity
    rw [abs_of_nonneg (by linarith), abs_of_nonneg (by linarith)]
    linarith
  have h6 := hfirst (2 ^ 6 / 10 ^ 12) (by norm_num at h128 ⊢; linarith)
  have h7 := hfirst (2 ^ 7 / 10 ^ 12) (by norm_num at h128 ⊢; linarith)
  refine ⟨?_, ?_, ?_⟩
  · obtain ⟨v, hv, hvs⟩ := C89_split_delay hn0 P [0, 0, 0, 0, 0, 0, 0, 0] x old
    obtain ⟨w, hw', hws⟩ := C89_split_delay hn0 P [0, 0, 0, 0, 0, 0, 1, 0] x old
    rw [hv, hw']
    have : v = w := by
      funext j
      by_cases hj : j = ⟨0, hn0⟩
      · rw [(hvs j).1 7 0 (by norm_num) rfl (hj ▸ h7) (fun k' h h' => by omega), (hws j).1 7 0 (by norm_num) rfl (hj ▸ h7) (fun k' h h' => by omega)]
      · have hzero : ∀ (ratios : List ℝ) (u : Fin n → ℝ), ratios.length = 8 → (∀ k, k < 6 → ratios[k]? = some 0) →
            ((∀ k r, k < 8 → ratios[k]? = some r → Nearest P (-(2 ^ k / 10 ^ 12)) j →
              (∀ k', k < k' → k' < 8 → k' < ratios.length → ¬ Nearest P (-(2 ^ k' / 10 ^ 12)) j) → u j = r) ∧
            ((∀ k, k < 8 → k < ratios.length → ¬ Nearest P (-(2 ^ k / 10 ^ 12)) j) → u j = 0)) → u j = 0 := by
          intro ratios u hlen h0 hu
          have n6 : ¬ Nearest P (-(2 ^ 6 / 10 ^ 12)) j := fun h => hj (h.unique h6)
          have n7 : ¬ Nearest P (-(2 ^ 7 / 10 ^ 12)) j := fun h => hj (h.unique h7)
          by_contra hne
          have hall : ∀ m, m ≤ 6 → ¬ Nearest P (-(2 ^ (6 - m) / 10 ^ 12)) j := by
            intro m
            induction m using Nat.strong_induction_on with
            | _ m ih =>
              intro hm hnear
              rcases Nat.eq_zero_or_pos m with rfl | hpos
              · exact n6 hnear
              · refine hne (hu.1 (6 - m) 0 (by omega) (h0 _ (by omega)) hnear (fun k' hk hk8 _ hk' => ?_))
                by_cases h7' : k' = 7
                · exact n7 (h7' ▸ hk')
                · have := ih (6 - k') (by omega) (by omega)
                  rw [show 6 - (6 - k') = k' by omega] at this
                  exact this hk'
          refine hne (hu.2 (fun k hk _ hk' => ?_))
          by_cases h7' : k = 7
          · exact n7 (h7' ▸ hk')
          · have := hall (6 - k) (by omega)
            rw [show 6 - (6 - k) = k by omega] at this
            exact this hk'
        rw [hzero _ v rfl (fun k hk => by interval_cases k <;> rfl) (hvs j), hzero _ w rfl (fun k hk => by interval_cases k <;> rfl) (hws j)]
    rw [this]
  · intro i
    rw [(C64_loss_amplifies hn hw [0, 0, 0, 0, 0, 0, 0, 0] (by simp) x).1, mul_comm]
  · intro i
    have hz : (sdlLoop P ([0, 0, 0, 0, 0, 0, 1, 0].zip sdlDelays) (fft_ x P.dt, fun _ => 0)).1 = fun _ => 0 := by
      have hdl : sdlDelays = [2 ^ 0 * (1 / 10 ^ 12), 2 ^ 1 * (1 / 10 ^ 12), 2 ^ 2 * (1 / 10 ^ 12), 2 ^ 3 * (1 / 10 ^ 12), 2 ^ 4 * (1 / 10 ^ 12),
          2 ^ 5 * (1 / 10 ^ 12), 2 ^ 6 * (1 / 10 ^ 12), 2 ^ 7 * (1 / 10 ^ 12)] := rfl
      rw [hdl]
      simp [sdlLoop, sdlStage]
    unfold splitDelay
    rw [hz]
    unfold dbScale ifft_ npIfft
    simp

/-! ### histories -/

/-- **C89.** A component used without recording has no record afterwards, so that a record always belongs to the last use – except for amplifiers, which keep the
record of their last recording through any number of later uses with other inputs and parameters (finding), and for components that never record. -/
theorem C89_history (P : Prop_ n) :
    (∀ (o : Optic n) (x y : Signal n) (old : Recorded n), o.Forgets → (o.run P false x old).2 = .ok y → (o.run P false x old).1 = none) ∧
    (∀ (E : Edfa) (x : Signal n) (calls : List (Edfa × Signal n)) (old : Recorded n),
      ∃ v, ((Optic.edfa E).run P true x old).1 = some [⟨.freq, v, "gain (dB)"⟩] ∧
        recordedAfter P ((.edfa E, true, x) :: calls.map (fun c => (.edfa c.1, false, c.2))) old = some [⟨.freq, v, "gain (dB)"⟩]) ∧
    ∀ (calls : List (Optic n × Bool × Signal n)) (old : Recorded n), (∀ c ∈ calls, ¬ c.1.Forgets ∧ ∀ E, c.1 ≠ .edfa E) → recordedAfter P calls old = old := by
  refine ⟨?_, ?_, ?_⟩
  · intro o x y old ho hy
    cases o with
    | fiber l => rfl
    | phaseShifter p => rfl
    | voa a => rfl
    | phaseMod d f s => rfl
    | intensityMod d f b => rfl
    | waveguide => exact ho.elim
    | edfa E => exact ho.elim
    | source e => exact ho.elim
    | measure => exact ho.elim
    | photodiode D => exact ho.elim
    | splitDelay r => rfl
    | delayLine d => rfl
    | intDelayLine d => rfl
    | waveShaper a p =>
      unfold Optic.run at hy ⊢
      dsimp only at hy ⊢
      cases ha : broadcast n (wsMask n (wsRepeat (wsBinLen P) a)) with
      | error e => simp [waveShaper, ha] at hy
      | ok am =>
        cases hp : broadcast n (wsMask n (wsRepeat (wsBinLen P) p)) with
        | error e => simp [waveShaper, ha, hp] at hy
        | ok pm => simp [waveShaper, ha, hp]
    | progFilter a p =>
      unfold Optic.run at hy ⊢
      dsimp only at hy ⊢
      cases h : progFilter P a p x with
      | error e => rw [h] at hy; cases hy
      | ok z => rfl
    | squareFilter b =>
      unfold Optic.run at hy ⊢
      dsimp only at hy ⊢
      cases h : squareFilter P b x with
      | error e => rw [h] at hy; cases hy
      | ok z => rfl
  · intro E x calls old
    refine ⟨_, rfl, ?_⟩
    show recordedAfter P (calls.map (fun c => (Optic.edfa c.1, false, c.2))) _ = _
    have : ∀ (calls : List (Edfa × Signal n)) (r : Recorded n), recordedAfter P (calls.map (fun c => (Optic.edfa c.1, false, c.2))) r = r := by
      intro calls
      induction calls with
      | nil => exact fun r => rfl
      | cons c calls ih => exact fun r => ih r
    exact this calls _
  · intro calls old h
    induction calls with
    | nil => rfl
    | cons c calls ih =>
      have hc := h c List.mem_cons_self
      have : (c.1.run P c.2.1 c.2.2 old).1 = old := by
        obtain ⟨o, s, x⟩ := c
        obtain ⟨h1, h2⟩ := hc
        cases o with
        | waveguide => rfl
        | source e => rfl
        | measure => rfl
        | photodiode D => rfl
        | edfa E => exact absurd rfl (h2 E)
        | _ => exact absurd trivial h1
      show recordedAfter P calls (c.1.run P c.2.1 c.2.2 old).1 = old
      rw [this]
      exact ih (fun c' hc' => h c' (List.mem_cons_of_mem _ hc'))

/-! ### cases -/

example (P : Prop_ 4) (x : Signal 4) := (C89_same_light (by norm_num) P (.delayLine 3) x none none).2.1 (fun h => h)
example (P : Prop_ 4) (x : Signal 4) := (C89_same_light (by norm_num) P (.fiber 1000) x none none).2.2 trivial

/-- A fibre beside a delay line between a laser and a detector: cannot be recorded. -/
noncomputable def recordDemo (c : Comp) : Optic 4 :=
  if c.cls = 10 then .source (fun _ => 1) else if c.cls = 30 then .fiber 1000 else if c.cls = 31 then .delayLine 1 else .measure

example (inp : Signal 4) (st : Store (Signal 4)) :=
  (C89_whole_system (by norm_num) Fixture.g_wf demoProp recordDemo (fun _ => .splitter [1 / 2]) (fun _ => false) inp Fixture.g_topo Store.empty st).2.1
    ⟨⟨1, 2, 0, Fixture.fiber 5, 30⟩, by decide, trivial⟩

example (x : Signal 4) := C89_modulators demoProp 2 3 1 x none

example (x : Signal 4) : ∃ r y, (Optic.squareFilter 1).run demoProp true x none = (r, .ok y) ∧ (∃ b, (Optic.squareFilter 1 : Optic 4) = .squareFilter b) :=
  ⟨some [⟨.freq, sfMask demoProp 1, "amplitude"⟩], dbScale 0 (freqMul (ifftShift (fun j => (sfMask demoProp 1 j : ℂ))) demoProp.dt x), by
    simp [Optic.run, squareFilter], 1, rfl⟩

example (x : Signal 4) := C89_amplifier (n := 4) (by norm_num) (P := demoProp) (by norm_num [demoProp]) ⟨10, 1, 1, 1, 1, 1, 0, 1, 1⟩ one_pos x none
example : AxisOf 5 2 0 ∧ AxisOf 5 0 3 := by constructor <;> unfold AxisOf signedBin <;> decide
example (x : Signal 4) := C89_delay_mark (n := 4) (by norm_num) demoProp 1 x none
example (x : Signal 9) := C89_delay_response (q := 4) (by norm_num) (P := ⟨1, 1⟩) (by norm_num) (d := 2) (by norm_num) x none
example (x : Signal 4) := C89_delay_outside (n := 4) (by norm_num) (P := demoProp) (by norm_num [demoProp]) (d := 7) (by norm_num [demoProp]) x none
example (x : Signal 4) := C89_split_delay (n := 4) (by norm_num) demoProp [1 / 2, 1 / 3] x none
example (x : Signal 4) := C89_hidden_stage (n := 4) (by norm_num) (P := ⟨100 / 10 ^ 12, 1⟩) (by norm_num) (by norm_num) x none
example := (C89_history demoProp).2.1 ⟨10, 1, 1, 1, 1, 1, 0, 1, 1⟩ 0 [(⟨20, 1, 1, 1, 1, 1, 0, 1, 1⟩, fun _ => 1)] none

end Verif
