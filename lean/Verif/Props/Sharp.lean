import Verif.Spec.Sharp
import Verif.Props.DelayNet
import Mathlib.Analysis.SpecialFunctions.Trigonometric.Bounds
/-!
# C132: how sharp and how exact the filters of delay networks are
-/

namespace Verif
open Graph

variable {n : Nat}

theorem netResponse_eq (P : Prop_ n) (optic : Comp → Optic n) (R : List (List Edge × ℂ)) (k : Fin n) :
    netResponse P optic R k = (R.map fun p => p.2 * turn (2 * Real.pi * lineFreq P k * wayDelay optic p.1)).sum := rfl

/-- Only differences of delays count for the modulus. -/
theorem netResponse_ref (P : Prop_ n) (optic : Comp → Optic n) (R : List (List Edge × ℂ)) (τ₀ : ℝ) (k : Fin n) :
    ‖netResponse P optic R k‖ = ‖(R.map fun p => p.2 * turn (2 * Real.pi * lineFreq P k * (wayDelay optic p.1 - τ₀))).sum‖ := by
  have : netResponse P optic R k = (R.map fun p => p.2 * turn (2 * Real.pi * lineFreq P k * (wayDelay optic p.1 - τ₀))).sum * turn (2 * Real.pi * lineFreq P k * τ₀) := by
    rw [netResponse_eq, ← List.sum_map_mul_right]
    congr 1
    refine List.map_congr_left fun p _ => ?_
    rw [mul_assoc p.2, ← turn_add]
    congr 2
    ring
  rw [this, norm_mul, turn_norm, mul_one]

theorem turn_lip (x y : ℝ) : ‖turn x - turn y‖ ≤ |x - y| := by
  have : turn x - turn y = turn y * (turn (x - y) - 1) := by
    rw [mul_sub, ← turn_add, mul_one]
    congr 2
    ring
  rw [this, norm_mul, turn_norm, one_mul]
  have h := Real.norm_exp_I_mul_ofReal_sub_one_le (x := x - y)
  rw [mul_comm, Real.norm_eq_abs] at h
  exact h

theorem norm_sum_le_list (R : List (List Edge × ℂ)) (f : List Edge × ℂ → ℂ) (b : List Edge × ℂ → ℝ) (h : ∀ p ∈ R, ‖f p‖ ≤ b p) : ‖(R.map f).sum‖ ≤ (R.map b).sum := by
  induction R with
  | nil => simp
  | cons p R ih =>
    rw [List.map_cons, List.map_cons, List.sum_cons, List.sum_cons]
    exact le_trans (norm_add_le _ _) (add_le_add (h p (by simp)) (ih fun q hq => h q (by simp [hq])))

theorem sum_sub_list (R : List (List Edge × ℂ)) (f f' : List Edge × ℂ → ℂ) : (R.map f).sum - (R.map f').sum = (R.map fun p => f p - f' p).sum := by
  induction R with
  | nil => simp
  | cons p R ih =>
    simp only [List.map_cons, List.sum_cons, ← ih]
    ring

/-- The modulus changes over frequency at most as fast as the spread of the delays. -/
theorem response_edge (P : Prop_ n) (optic : Comp → Optic n) (R : List (List Edge × ℂ)) (τ₀ : ℝ) (k k' : Fin n) :
    |‖netResponse P optic R k‖ - ‖netResponse P optic R k'‖| ≤ 2 * Real.pi * |lineFreq P k - lineFreq P k'| * (R.map fun p => ‖p.2‖ * |wayDelay optic p.1 - τ₀|).sum := by
  rw [netResponse_ref P optic R τ₀ k, netResponse_ref P optic R τ₀ k']
  refine le_trans (abs_norm_sub_norm_le _ _) ?_
  rw [sum_sub_list, ← List.sum_map_mul_left]
  refine norm_sum_le_list R _ _ fun p _ => ?_
  rw [← mul_sub, norm_mul]
  have := turn_lip (2 * Real.pi * lineFreq P k * (wayDelay optic p.1 - τ₀)) (2 * Real.pi * lineFreq P k' * (wayDelay optic p.1 - τ₀))
  rw [← sub_mul, ← mul_sub, abs_mul, abs_mul, abs_of_pos Real.two_pi_pos] at this
  calc ‖p.2‖ * _ ≤ ‖p.2‖ * _ := mul_le_mul_of_nonneg_left this (norm_nonneg _)
    _ = _ := by ring

/-- Errors of delays change the response at most by `2π` times the optical frequency times the sum over all ways of the product of their factor and the error of their delay. -/
theorem response_tolerance (P : Prop_ n) (optic optic' : Comp → Optic n) (R : List (List Edge × ℂ)) (k : Fin n) :
    ‖netResponse P optic R k - netResponse P optic' R k‖ ≤ 2 * Real.pi * |lineFreq P k| * (R.map fun p => ‖p.2‖ * |wayDelay optic p.1 - wayDelay optic' p.1|).sum := by
  rw [netResponse_eq, netResponse_eq, sum_sub_list, ← List.sum_map_mul_left]
  refine norm_sum_le_list R _ _ fun p _ => ?_
  rw [← mul_sub, norm_mul]
  have := turn_lip (2 * Real.pi * lineFreq P k * wayDelay optic p.1) (2 * Real.pi * lineFreq P k * wayDelay optic' p.1)
  rw [← mul_sub, abs_mul, abs_mul, abs_of_pos Real.two_pi_pos] at this
  calc ‖p.2‖ * _ ≤ ‖p.2‖ * _ := mul_le_mul_of_nonneg_left this (norm_nonneg _)
    _ = _ := by ring

theorem turn_int (m : ℤ) : turn (2 * Real.pi * m) = 1 := by
  unfold turn
  rw [Complex.exp_eq_one_iff]
  exact ⟨m, by push_cast; ring⟩

/-- Delays that differ by whole multiples of `T` make a response that repeats every `1 / T`. -/
theorem response_period (P : Prop_ n) (optic : Comp → Optic n) (R : List (List Edge × ℂ)) {τ₀ T : ℝ} (hT : ∀ p ∈ R, ∃ m : ℤ, wayDelay optic p.1 = τ₀ + m * T) {k k' : Fin n} {j : ℤ}
    (hk : (lineFreq P k - lineFreq P k') * T = j) : ‖netResponse P optic R k‖ = ‖netResponse P optic R k'‖ := by
  rw [netResponse_ref P optic R τ₀ k, netResponse_ref P optic R τ₀ k']
  congr 2
  refine List.map_congr_left fun p hp => ?_
  obtain ⟨m, hm⟩ := hT p hp
  have : 2 * Real.pi * lineFreq P k * (wayDelay optic p.1 - τ₀) = 2 * Real.pi * lineFreq P k' * (wayDelay optic p.1 - τ₀) + 2 * Real.pi * ((m * j : ℤ) : ℝ) := by
    push_cast
    rw [hm, ← hk]
    ring
  rw [this, turn_add, turn_int, mul_one]

/-- The spectrum at a meter. -/
theorem meter_response (hn : 2 ≤ n) {P : Prop_ n} (hwin : 0 < P.window) {g : Graph} (hw : g.WF) {optic : Comp → Optic n} {conn : Comp → Connector} {hasNoise : Comp → Bool}
    (hsp : ∀ v ∈ g.nodes, ∀ a, conn v.comp ≠ .freqSplitter a)
    (hent : ∀ e ∈ g.edges, (∀ e' ∈ g.edges, e'.dst ≠ e.src) → ∃ x, optic e.comp = .source x) {inp : Signal n} {old st : Store (Signal n)}
    (h : propagate g (physics P optic conn hasNoise) inp old = .ok st) {e : Edge} (he : e ∈ g.edges) (hm : optic e.comp = .waveguide)
    (hnet : ∀ d ∈ g.edges, g.Reach d.dst e.src → (optic d.comp).InDelayNet) {y : Signal n} (hx : ∀ d ∈ g.edges, ∀ z, optic d.comp = .source z → z = impulse P y)
    {R : List (List Edge × ℂ)} (hR : AllGains g optic conn e R) : ∃ s, st (.edge e.ref) = some s ∧ ∀ k, ‖fft_ s P.dt k‖ = ‖netResponse P optic R k‖ := by
  obtain ⟨t, s, h1, h2, h3⟩ := (C130_response hn hwin hw hsp hent h he (by intro z; rw [hm]; simp) hnet hx).2 R hR
  rw [hm] at h1
  simp only [Optic.apply, waveguide, Except.ok.injEq] at h1
  subst h1
  refine ⟨t, h2, fun k => ?_⟩
  unfold fft_
  rw [norm_mul, h3, norm_mul, mul_assoc, impulse_even hn hwin, mul_one]

/-- **C132.** No sharp edges without differences of delays: between two spectral lines the amplitude a field meter shows changes at most by `2π` times the difference of the frequencies times the sum over all ways of
the product of their factor and the difference of their delay to any delay `τ₀`. -/
theorem C132_edge (hn : 2 ≤ n) {P : Prop_ n} (hwin : 0 < P.window) {g : Graph} (hw : g.WF) {optic : Comp → Optic n} {conn : Comp → Connector} {hasNoise : Comp → Bool}
    (hsp : ∀ v ∈ g.nodes, ∀ a, conn v.comp ≠ .freqSplitter a)
    (hent : ∀ e ∈ g.edges, (∀ e' ∈ g.edges, e'.dst ≠ e.src) → ∃ x, optic e.comp = .source x) {inp : Signal n} {old st : Store (Signal n)}
    (h : propagate g (physics P optic conn hasNoise) inp old = .ok st) {e : Edge} (he : e ∈ g.edges) (hm : optic e.comp = .waveguide)
    (hnet : ∀ d ∈ g.edges, g.Reach d.dst e.src → (optic d.comp).InDelayNet) {y : Signal n} (hx : ∀ d ∈ g.edges, ∀ z, optic d.comp = .source z → z = impulse P y)
    {R : List (List Edge × ℂ)} (hR : AllGains g optic conn e R) (τ₀ : ℝ) :
    ∃ s, st (.edge e.ref) = some s ∧ ∀ k k', |‖fft_ s P.dt k‖ - ‖fft_ s P.dt k'‖| ≤ 2 * Real.pi * |lineFreq P k - lineFreq P k'| * (R.map fun p => ‖p.2‖ * |wayDelay optic p.1 - τ₀|).sum := by
  obtain ⟨s, h1, h2⟩ := meter_response hn hwin hw hsp hent h he hm hnet hx hR
  exact ⟨s, h1, fun k k' => by rw [h2, h2]; exact response_edge P optic R τ₀ k k'⟩

/-- **C132.** Where the delays of all ways differ by whole multiples of `T`, what a field meter shows repeats over frequency with period `1 / T`: no single band can be picked out. -/
theorem C132_period (hn : 2 ≤ n) {P : Prop_ n} (hwin : 0 < P.window) {g : Graph} (hw : g.WF) {optic : Comp → Optic n} {conn : Comp → Connector} {hasNoise : Comp → Bool}
    (hsp : ∀ v ∈ g.nodes, ∀ a, conn v.comp ≠ .freqSplitter a)
    (hent : ∀ e ∈ g.edges, (∀ e' ∈ g.edges, e'.dst ≠ e.src) → ∃ x, optic e.comp = .source x) {inp : Signal n} {old st : Store (Signal n)}
    (h : propagate g (physics P optic conn hasNoise) inp old = .ok st) {e : Edge} (he : e ∈ g.edges) (hm : optic e.comp = .waveguide)
    (hnet : ∀ d ∈ g.edges, g.Reach d.dst e.src → (optic d.comp).InDelayNet) {y : Signal n} (hx : ∀ d ∈ g.edges, ∀ z, optic d.comp = .source z → z = impulse P y)
    {R : List (List Edge × ℂ)} (hR : AllGains g optic conn e R) {τ₀ T : ℝ} (hT : ∀ p ∈ R, ∃ m : ℤ, wayDelay optic p.1 = τ₀ + m * T) :
    ∃ s, st (.edge e.ref) = some s ∧ ∀ k k', (∃ j : ℤ, (lineFreq P k - lineFreq P k') * T = j) → ‖fft_ s P.dt k‖ = ‖fft_ s P.dt k'‖ := by
  obtain ⟨s, h1, h2⟩ := meter_response hn hwin hw hsp hent h he hm hnet hx hR
  exact ⟨s, h1, fun k k' ⟨j, hj⟩ => by rw [h2, h2]; exact response_period P optic R hT hj⟩

theorem redelayed_source {optic : Comp → Optic n} {c : Comp} {τ τ' : ℝ} (hc : optic c = .delayLine τ) (c' : Comp) (x : Signal n) : redelayed optic c τ' c' = .source x ↔ optic c' = .source x := by
  unfold redelayed
  split
  · next h => rw [h, hc]; simp
  · rfl

theorem redelayed_gain {optic : Comp → Optic n} {c : Comp} {τ τ' : ℝ} (hc : optic c = .delayLine τ) (c' : Comp) : (redelayed optic c τ' c').lineGain = (optic c').lineGain := by
  unfold redelayed
  split
  · next h => rw [h, hc]; rfl
  · rfl

theorem way_redelayed {g : Graph} {optic : Comp → Optic n} {c : Comp} {τ τ' : ℝ} (hc : optic c = .delayLine τ) (w : List Edge) : Way g (redelayed optic c τ') w ↔ Way g optic w := by
  constructor
  · intro h
    induction h with
    | source he hs => exact .source he ((redelayed_source hc _ _).1 hs)
    | next h he hs hj ih => exact .next ih he (fun x hx => hs x ((redelayed_source hc _ _).2 hx)) hj
  · intro h
    induction h with
    | source he hs => exact .source he ((redelayed_source hc _ _).2 hs)
    | next h he hs hj ih => exact .next ih he (fun x hx => hs x ((redelayed_source hc _ _).1 hx)) hj

theorem wayGain_redelayed {g : Graph} {optic : Comp → Optic n} {conn : Comp → Connector} {c : Comp} {τ τ' : ℝ} (hc : optic c = .delayLine τ) {w : List Edge} {a : ℂ} (h : WayGain g optic conn w a) :
    WayGain g (redelayed optic c τ') conn w a := by
  induction h with
  | source hs => exact .source ((redelayed_source hc _ _).2 hs)
  | next h hp ih =>
    rw [← redelayed_gain (τ' := τ') hc]
    exact .next ih hp

/-- The ways and their factors do not depend on the settings of delay lines. -/
theorem allGains_redelayed {g : Graph} {optic : Comp → Optic n} {conn : Comp → Connector} {c : Comp} {τ τ' : ℝ} (hc : optic c = .delayLine τ) {e : Edge} {R : List (List Edge × ℂ)} (h : AllGains g optic conn e R) :
    AllGains g (redelayed optic c τ') conn e R where
  once := h.once
  all w := by rw [h.all, way_redelayed hc]
  gain p hp := by
    obtain ⟨d, a, b, h1, h2, h3, h4⟩ := h.gain p hp
    exact ⟨d, a, b, h1, wayGain_redelayed hc h2, h3, h4⟩

theorem wayDelay_redelayed {optic : Comp → Optic n} {c : Comp} {τ' : ℝ} {w : List Edge} (h : ∀ d ∈ w, d.comp ≠ c) : wayDelay (redelayed optic c τ') w = wayDelay optic w := by
  unfold wayDelay
  congr 1
  refine List.map_congr_left fun d hd => ?_
  unfold redelayed
  rw [if_neg (h d hd)]

/-- A phase can be reached with a change of the delay by at most half a period of the light. -/
theorem reach_phase {F : ℝ} (hF : 0 < F) (τ φ θ : ℝ) : ∃ τ', |τ' - τ| ≤ 1 / (2 * F) ∧ Real.cos (2 * Real.pi * F * τ' + φ) = Real.cos θ := by
  have hpi : Real.pi ≠ 0 := Real.pi_ne_zero
  set x := (θ - (2 * Real.pi * F * τ + φ)) / (2 * Real.pi) with hx
  refine ⟨τ + (x - round x) / F, ?_, ?_⟩
  · rw [add_sub_cancel_left, abs_div, abs_of_pos hF, div_le_div_iff₀ hF (by positivity)]
    nlinarith [abs_sub_round x]
  · have : 2 * Real.pi * F * (τ + (x - round x) / F) + φ = θ - round x * (2 * Real.pi) := by
      have h1 : 2 * Real.pi * x = θ - (2 * Real.pi * F * τ + φ) := by
        rw [hx]
        field_simp
      have h2 : F * ((x - round x) / F) = x - round x := by field_simp
      linear_combination h1 + 2 * Real.pi * h2
    rw [this, Real.cos_sub_int_mul_two_pi]

/-- Where two ways interfere and a delay line lies on one of them, an error of its delay by half a period of the light takes each spectral line all the way between the brightest and the darkest the two ways
can make, whatever the setting. -/
theorem response_imprecise {g : Graph} {optic : Comp → Optic n} {conn : Comp → Connector} {e : Edge} {p q : List Edge × ℂ} (hR : AllGains g optic conn e [p, q]) {l1 l2 : List Edge} {d : Edge} {τ : ℝ}
    (hp : p.1 = l1 ++ d :: l2) (hd : optic d.comp = .delayLine τ) (hne : ∀ d' ∈ l1 ++ l2 ++ q.1, d'.comp ≠ d.comp) (P : Prop_ n) (k : Fin n) (hF : 0 < lineFreq P k) {δ : ℝ} (hδ : 1 / (2 * lineFreq P k) ≤ δ) :
    ∃ τ₁ τ₂, |τ₁ - τ| ≤ δ ∧ |τ₂ - τ| ≤ δ ∧ AllGains g (redelayed optic d.comp τ₁) conn e [p, q] ∧ AllGains g (redelayed optic d.comp τ₂) conn e [p, q] ∧
      ‖netResponse P (redelayed optic d.comp τ₁) [p, q] k‖ = ‖p.2‖ + ‖q.2‖ ∧ ‖netResponse P (redelayed optic d.comp τ₂) [p, q] k‖ = |‖p.2‖ - ‖q.2‖| := by
  set S := wayDelay optic l1 + wayDelay optic l2 - wayDelay optic q.1
  have form : ∀ τ', ‖netResponse P (redelayed optic d.comp τ') [p, q] k‖ ^ 2 = ‖p.2‖ ^ 2 + ‖q.2‖ ^ 2 + 2 * ‖p.2‖ * ‖q.2‖ *
      Real.cos (2 * Real.pi * lineFreq P k * τ' + (2 * Real.pi * lineFreq P k * S + (p.2.arg - q.2.arg))) := by
    intro τ'
    rw [C130_two_ways]
    have hq : (q.1.map fun d' => (redelayed optic d.comp τ' d'.comp).lineDelay).sum = wayDelay optic q.1 :=
      wayDelay_redelayed (fun d' h' => hne d' (by simp [h']))
    have hpp : (p.1.map fun d' => (redelayed optic d.comp τ' d'.comp).lineDelay).sum = wayDelay optic l1 + τ' + wayDelay optic l2 := by
      rw [hp, List.map_append, List.map_cons, List.sum_append, List.sum_cons]
      have h1 : (l1.map fun d' => (redelayed optic d.comp τ' d'.comp).lineDelay).sum = wayDelay optic l1 := wayDelay_redelayed (fun d' h' => hne d' (by simp [h']))
      have h2 : (l2.map fun d' => (redelayed optic d.comp τ' d'.comp).lineDelay).sum = wayDelay optic l2 := wayDelay_redelayed (fun d' h' => hne d' (by simp [h']))
      have h3 : (redelayed optic d.comp τ' d.comp).lineDelay = τ' := by
        unfold redelayed
        rw [if_pos rfl]
        rfl
      rw [h1, h2, h3]
      ring
    rw [hq, hpp]
    congr 3
    change 2 * Real.pi * lineFreq P k * _ + _ = _
    ring
  obtain ⟨τ₁, a1, b1⟩ := reach_phase hF τ (2 * Real.pi * lineFreq P k * S + (p.2.arg - q.2.arg)) 0
  obtain ⟨τ₂, a2, b2⟩ := reach_phase hF τ (2 * Real.pi * lineFreq P k * S + (p.2.arg - q.2.arg)) Real.pi
  refine ⟨τ₁, τ₂, a1.trans hδ, a2.trans hδ, allGains_redelayed hd hR, allGains_redelayed hd hR, ?_, ?_⟩
  · refine (sq_eq_sq₀ (norm_nonneg _) (by positivity)).1 ?_
    rw [form, b1, Real.cos_zero]
    ring
  · refine (sq_eq_sq₀ (norm_nonneg _) (abs_nonneg _)).1 ?_
    rw [form, b2, Real.cos_pi, sq_abs]
    ring

/-- Whether a component runs does not depend on the light. -/
theorem apply_ok {P : Prop_ n} (o : Optic n) {s s1 : Signal n} (h : o.apply P s = .ok s1) (t : Signal n) : ∃ t1, o.apply P t = .ok t1 := by
  cases o <;> simp only [Optic.apply] at h ⊢ <;> try exact ⟨_, rfl⟩
  · unfold Verif.waveShaper at *
    split at h <;> simp_all
  · unfold Verif.progFilter at *
    split at h <;> simp_all
  · unfold Verif.squareFilter at *
    split at h <;> simp_all
  · unfold Photodiode.propagate filteredTime at *
    split at h <;> simp_all

/-- A design that runs, runs with each setting of a delay line. -/
theorem redelayed_runs {P : Prop_ n} {g : Graph} (hw : g.WF) {optic : Comp → Optic n} {conn : Comp → Connector} {hasNoise : Comp → Bool} {inp : Signal n} {old st : Store (Signal n)}
    (h : propagate g (physics P optic conn hasNoise) inp old = .ok st) (c : Comp) (τ' : ℝ) (old' : Store (Signal n)) : ∃ st', propagate g (physics P (redelayed optic c τ') conn hasNoise) inp old' = .ok st' := by
  refine rerun hw h (fun e _ s s1 hs t => ?_) old'
  unfold redelayed
  split
  · exact ⟨_, rfl⟩
  · exact apply_ok _ hs t

theorem redelayed_net {optic : Comp → Optic n} {c : Comp} {τ' : ℝ} {c' : Comp} (h : (optic c').InDelayNet) : (redelayed optic c τ' c').InDelayNet := by
  unfold redelayed
  split
  · exact trivial
  · exact h

/-- The spectrum at a meter with another setting of a delay line. -/
theorem meter_redelayed (hn : 2 ≤ n) {P : Prop_ n} (hwin : 0 < P.window) {g : Graph} (hw : g.WF) {optic : Comp → Optic n} {conn : Comp → Connector} {hasNoise : Comp → Bool}
    (hsp : ∀ v ∈ g.nodes, ∀ a, conn v.comp ≠ .freqSplitter a)
    (hent : ∀ e ∈ g.edges, (∀ e' ∈ g.edges, e'.dst ≠ e.src) → ∃ x, optic e.comp = .source x) {inp : Signal n} {old st : Store (Signal n)}
    (h : propagate g (physics P optic conn hasNoise) inp old = .ok st) {e : Edge} (he : e ∈ g.edges) (hm : optic e.comp = .waveguide)
    (hnet : ∀ d ∈ g.edges, g.Reach d.dst e.src → (optic d.comp).InDelayNet) {y : Signal n} (hx : ∀ d ∈ g.edges, ∀ z, optic d.comp = .source z → z = impulse P y)
    {R : List (List Edge × ℂ)} (hR : AllGains g optic conn e R) {c : Comp} {τ : ℝ} (hc : optic c = .delayLine τ) (τ' : ℝ) (old' : Store (Signal n)) :
    ∃ st' s, propagate g (physics P (redelayed optic c τ') conn hasNoise) inp old' = .ok st' ∧ st' (.edge e.ref) = some s ∧ ∀ k, ‖fft_ s P.dt k‖ = ‖netResponse P (redelayed optic c τ') R k‖ := by
  obtain ⟨st', h'⟩ := redelayed_runs hw h c τ' old'
  have hm' : redelayed optic c τ' e.comp = .waveguide := by
    unfold redelayed
    rw [if_neg (fun h' => by rw [h', hc] at hm; cases hm), hm]
  obtain ⟨s, h1, h2⟩ := meter_response hn hwin hw hsp (fun e he hs => let ⟨x, hx⟩ := hent e he hs; ⟨x, (redelayed_source hc _ _).2 hx⟩) h' he hm'
    (fun d hd hr => redelayed_net (hnet d hd hr)) (fun d hd z hz => hx d hd z ((redelayed_source hc _ _).1 hz)) (allGains_redelayed hc hR)
  exact ⟨st', s, h', h1, h2⟩

/-- **C132.** An error of the delay of one delay line changes the amplitude a field meter shows at a spectral line at most by `2π` times the optical frequency times the sum over all ways of the product of their factor
and the change of their delay. -/
theorem C132_tolerance (hn : 2 ≤ n) {P : Prop_ n} (hwin : 0 < P.window) {g : Graph} (hw : g.WF) {optic : Comp → Optic n} {conn : Comp → Connector} {hasNoise : Comp → Bool}
    (hsp : ∀ v ∈ g.nodes, ∀ a, conn v.comp ≠ .freqSplitter a)
    (hent : ∀ e ∈ g.edges, (∀ e' ∈ g.edges, e'.dst ≠ e.src) → ∃ x, optic e.comp = .source x) {inp : Signal n} {old st : Store (Signal n)}
    (h : propagate g (physics P optic conn hasNoise) inp old = .ok st) {e : Edge} (he : e ∈ g.edges) (hm : optic e.comp = .waveguide)
    (hnet : ∀ d ∈ g.edges, g.Reach d.dst e.src → (optic d.comp).InDelayNet) {y : Signal n} (hx : ∀ d ∈ g.edges, ∀ z, optic d.comp = .source z → z = impulse P y)
    {R : List (List Edge × ℂ)} (hR : AllGains g optic conn e R) {c : Comp} {τ : ℝ} (hc : optic c = .delayLine τ) (τ' : ℝ) (old' : Store (Signal n)) :
    ∃ st' s s', propagate g (physics P (redelayed optic c τ') conn hasNoise) inp old' = .ok st' ∧ st (.edge e.ref) = some s ∧ st' (.edge e.ref) = some s' ∧
      ∀ k, |‖fft_ s P.dt k‖ - ‖fft_ s' P.dt k‖| ≤ 2 * Real.pi * |lineFreq P k| * (R.map fun p => ‖p.2‖ * |wayDelay optic p.1 - wayDelay (redelayed optic c τ') p.1|).sum := by
  obtain ⟨s, h1, h2⟩ := meter_response hn hwin hw hsp hent h he hm hnet hx hR
  obtain ⟨st', s', h3, h4, h5⟩ := meter_redelayed hn hwin hw hsp hent h he hm hnet hx hR hc τ' old'
  exact ⟨st', s, s', h3, h1, h4, fun k => by rw [h2, h5]; exact (abs_norm_sub_norm_le _ _).trans (response_tolerance P _ _ R k)⟩

/-- **C132.** Where two ways interfere at a field meter and a delay line lies on one of them, errors of its delay of at most half a period of the light take each spectral line all the way between the brightest and
the darkest the two ways can make, whatever the setting. -/
theorem C132_imprecise (hn : 2 ≤ n) {P : Prop_ n} (hwin : 0 < P.window) {g : Graph} (hw : g.WF) {optic : Comp → Optic n} {conn : Comp → Connector} {hasNoise : Comp → Bool}
    (hsp : ∀ v ∈ g.nodes, ∀ a, conn v.comp ≠ .freqSplitter a)
    (hent : ∀ e ∈ g.edges, (∀ e' ∈ g.edges, e'.dst ≠ e.src) → ∃ x, optic e.comp = .source x) {inp : Signal n} {old st : Store (Signal n)}
    (h : propagate g (physics P optic conn hasNoise) inp old = .ok st) {e : Edge} (he : e ∈ g.edges) (hm : optic e.comp = .waveguide)
    (hnet : ∀ d ∈ g.edges, g.Reach d.dst e.src → (optic d.comp).InDelayNet) {y : Signal n} (hx : ∀ d ∈ g.edges, ∀ z, optic d.comp = .source z → z = impulse P y)
    {p q : List Edge × ℂ} (hR : AllGains g optic conn e [p, q]) {l1 l2 : List Edge} {d : Edge} {τ : ℝ}
    (hp : p.1 = l1 ++ d :: l2) (hd : optic d.comp = .delayLine τ) (hne : ∀ d' ∈ l1 ++ l2 ++ q.1, d'.comp ≠ d.comp) (k : Fin n) (hF : 0 < lineFreq P k) {δ : ℝ} (hδ : 1 / (2 * lineFreq P k) ≤ δ)
    (old' : Store (Signal n)) :
    ∃ τ₁ τ₂, |τ₁ - τ| ≤ δ ∧ |τ₂ - τ| ≤ δ ∧
      (∃ st' s, propagate g (physics P (redelayed optic d.comp τ₁) conn hasNoise) inp old' = .ok st' ∧ st' (.edge e.ref) = some s ∧ ‖fft_ s P.dt k‖ = ‖p.2‖ + ‖q.2‖) ∧
      ∃ st' s, propagate g (physics P (redelayed optic d.comp τ₂) conn hasNoise) inp old' = .ok st' ∧ st' (.edge e.ref) = some s ∧ ‖fft_ s P.dt k‖ = |‖p.2‖ - ‖q.2‖| := by
  obtain ⟨τ₁, τ₂, a1, a2, -, -, b1, b2⟩ := response_imprecise hR hp hd hne P k hF hδ
  obtain ⟨st1, s1, h1, h2, h3⟩ := meter_redelayed hn hwin hw hsp hent h he hm hnet hx hR hd τ₁ old'
  obtain ⟨st2, s2, k1, k2, k3⟩ := meter_redelayed hn hwin hw hsp hent h he hm hnet hx hR hd τ₂ old'
  exact ⟨τ₁, τ₂, a1, a2, ⟨st1, s1, h1, h2, by rw [h3, b1]⟩, st2, s2, k1, k2, by rw [k3, b2]⟩

namespace SharpExample
open Fixture FringeExample DelayNetExample

def arm (d : Edge) : List Edge := [d, ⟨0, 1, 0, laser 4, 10⟩]

/-- The two ways to the first output of the interferometer. -/
theorem two_ways (x : Signal 4) (w : List Edge) : (Way coupler (optic x) w ∧ ∃ d, w.head? = some d ∧ d.dst = 2) ↔ w = arm ⟨1, 2, 0, Fixture.fiber 5, 30⟩ ∨ w = arm ⟨1, 2, 1, shaper 6, 31⟩ := by
  have h0 : Way coupler (optic x) [⟨0, 1, 0, laser 4, 10⟩] := .source (x := impulse demoProp x) (by decide) rfl
  constructor
  · rintro ⟨hw, d, hd, h2⟩
    cases hw with
    | source he hs =>
      simp only [List.head?_cons, Option.some.injEq] at hd
      subst hd
      simp only [coupler, List.mem_cons, List.not_mem_nil, or_false] at he
      rcases he with rfl | rfl | rfl | rfl | rfl
      · simp at h2
      all_goals cases hs
    | next h he hs hj =>
      simp only [List.head?_cons, Option.some.injEq] at hd
      subst hd
      have tail : ∀ {d' : Edge} {w' : List Edge}, Way coupler (optic x) (d' :: w') → d'.dst = 1 → d' :: w' = [⟨0, 1, 0, laser 4, 10⟩] := by
        intro d' w' hw' h1
        cases hw' with
        | source he' hs' =>
          simp only [coupler, List.mem_cons, List.not_mem_nil, or_false] at he'
          rcases he' with rfl | rfl | rfl | rfl | rfl
          · rfl
          all_goals simp at h1
        | next _ he' hs' _ =>
          simp only [coupler, List.mem_cons, List.not_mem_nil, or_false] at he'
          rcases he' with rfl | rfl | rfl | rfl | rfl
          · exact absurd rfl (hs' (impulse demoProp x))
          all_goals simp at h1
      simp only [coupler, List.mem_cons, List.not_mem_nil, or_false] at he
      rcases he with rfl | rfl | rfl | rfl | rfl
      · simp at h2
      · exact .inl (by rw [tail h hj]; rfl)
      · exact .inr (by rw [tail h hj]; rfl)
      all_goals simp at h2
  · rintro (rfl | rfl)
    · exact ⟨.next h0 (by decide) (by intro y h; cases h) rfl, _, rfl, rfl⟩
    · exact ⟨.next h0 (by decide) (by intro y h; cases h) rfl, _, rfl, rfl⟩

/-- The list of the ways has exactly two entries. -/
theorem gains (x : Signal 4) : ∃ a b : ℂ, AllGains coupler (optic x) FringeExample.conn ⟨2, 3, 0, diode 7, 20⟩ [(arm ⟨1, 2, 0, Fixture.fiber 5, 30⟩, a), (arm ⟨1, 2, 1, shaper 6, 31⟩, b)] := by
  obtain ⟨st, h⟩ := runs x 0 Store.empty
  obtain ⟨⟨R, hR⟩, -⟩ := C130_response (by norm_num) (by norm_num [demoProp]) coupler_wf nosplit (entry x) h (e := ⟨2, 3, 0, diode 7, 20⟩) (by decide)
    (by intro y hy; cases hy) (fun d hd _ => net x d hd) (lit x)
  have m1 : arm ⟨1, 2, 0, Fixture.fiber 5, 30⟩ ∈ R.map (·.1) := (hR.all _).2 ((two_ways x _).2 (.inl rfl))
  have m2 : arm ⟨1, 2, 1, shaper 6, 31⟩ ∈ R.map (·.1) := (hR.all _).2 ((two_ways x _).2 (.inr rfl))
  obtain ⟨p, hp, e1⟩ := List.mem_map.1 m1
  obtain ⟨q, hq, e2⟩ := List.mem_map.1 m2
  refine ⟨p.2, q.2, (by decide : [arm ⟨1, 2, 0, Fixture.fiber 5, 30⟩, arm ⟨1, 2, 1, shaper 6, 31⟩].Nodup), fun w => ?_, fun r hr => ?_⟩
  · rw [two_ways]
    simp
  · simp only [List.mem_cons, List.not_mem_nil, or_false] at hr
    rcases hr with rfl | rfl
    · rw [← e1]
      exact hR.gain p hp
    · rw [← e2]
      exact hR.gain q hq

/-- `C132_edge`, `C132_period`: the delays are one second and none. -/
example (x inp : Signal 4) : ∃ st s a b, propagate coupler (physics demoProp (optic x) FringeExample.conn (fun _ => false)) inp Store.empty = .ok st ∧ st (.edge ⟨2, 3, 0⟩) = some s ∧
    (∀ k k', |‖fft_ s demoProp.dt k‖ - ‖fft_ s demoProp.dt k'‖| ≤ 2 * Real.pi * |lineFreq demoProp k - lineFreq demoProp k'| * (‖(a : ℂ)‖ * |1 - 0| + (‖(b : ℂ)‖ * |0 - 0| + 0))) ∧
    ∀ k k', (∃ j : ℤ, (lineFreq demoProp k - lineFreq demoProp k') * 1 = j) → ‖fft_ s demoProp.dt k‖ = ‖fft_ s demoProp.dt k'‖ := by
  obtain ⟨st, h⟩ := runs x inp Store.empty
  obtain ⟨a, b, hR⟩ := gains x
  have d1 : wayDelay (optic x) (arm ⟨1, 2, 0, Fixture.fiber 5, 30⟩) = 1 := by
    have h5 : optic x (Fixture.fiber 5) = .delayLine 1 := rfl
    have h4 : optic x (laser 4) = .source (impulse demoProp x) := rfl
    simp [wayDelay, arm, h4, h5, Optic.lineDelay]
  have d2 : wayDelay (optic x) (arm ⟨1, 2, 1, shaper 6, 31⟩) = 0 := by
    have h6 : optic x (shaper 6) = .phaseShifter 2 := rfl
    have h4 : optic x (laser 4) = .source (impulse demoProp x) := rfl
    simp [wayDelay, arm, h4, h6, Optic.lineDelay]
  obtain ⟨s, h1, h2⟩ := C132_edge (by norm_num) (by norm_num [demoProp]) coupler_wf nosplit (entry x) h (e := ⟨2, 3, 0, diode 7, 20⟩) (by decide) rfl (fun d hd _ => net x d hd) (lit x) hR 0
  obtain ⟨s', h1', h3⟩ := C132_period (τ₀ := 0) (T := 1) (by norm_num) (by norm_num [demoProp]) coupler_wf nosplit (entry x) h (e := ⟨2, 3, 0, diode 7, 20⟩) (by decide) rfl (fun d hd _ => net x d hd) (lit x) hR (by
    intro p hp
    simp only [List.mem_cons, List.not_mem_nil, or_false] at hp
    rcases hp with rfl | rfl
    · exact ⟨1, by rw [d1]; norm_num⟩
    · exact ⟨0, by rw [d2]; norm_num⟩)
  rw [h1] at h1'
  injection h1' with h1'
  subst h1'
  refine ⟨st, s, a, b, h, h1, fun k k' => ?_, h3⟩
  have := h2 k k'
  rw [List.map_cons, List.map_cons, List.map_nil, List.sum_cons, List.sum_cons, List.sum_nil, d1, d2] at this
  exact this

/-- The carrier of the demonstration grid is at some 193 THz. -/
theorem demo_freq (k : Fin 4) : 10 ^ 14 ≤ lineFreq demoProp k := by
  have : ∀ j : Fin 4, -1 ≤ demoProp.f j := fun j => by
    have : (0 : ℝ) ≤ ((j : ℕ) : ℝ) := by positivity
    unfold Prop_.f Prop_.linspace
    norm_num [demoProp]
    linarith
  have h1 := this (rotIdx (4 / 2) k)
  have h2 : 10 ^ 14 + 1 ≤ demoProp.central := by unfold Prop_.central lightSpeed; norm_num [demoProp]
  unfold lineFreq ifftShift
  linarith

/-- `C132_imprecise`: with the `parameter_imprecisions` of `DelayLine`, 10 ps (`single_path.py:742`). -/
example (x inp : Signal 4) (k : Fin 4) : ∃ a b τ₁ τ₂, |τ₁ - 1| ≤ 1 / 10 ^ 11 ∧ |τ₂ - 1| ≤ 1 / 10 ^ 11 ∧
    (∃ st s, propagate coupler (physics demoProp (redelayed (optic x) (Fixture.fiber 5) τ₁) FringeExample.conn (fun _ => false)) inp Store.empty = .ok st ∧ st (.edge ⟨2, 3, 0⟩) = some s ∧
      ‖fft_ s demoProp.dt k‖ = ‖(a : ℂ)‖ + ‖(b : ℂ)‖) ∧
    ∃ st s, propagate coupler (physics demoProp (redelayed (optic x) (Fixture.fiber 5) τ₂) FringeExample.conn (fun _ => false)) inp Store.empty = .ok st ∧ st (.edge ⟨2, 3, 0⟩) = some s ∧
      ‖fft_ s demoProp.dt k‖ = |‖a‖ - ‖b‖| := by
  obtain ⟨st, h⟩ := runs x inp Store.empty
  obtain ⟨a, b, hR⟩ := gains x
  have hF := demo_freq k
  exact ⟨a, b, C132_imprecise (by norm_num) (by norm_num [demoProp]) coupler_wf nosplit (entry x) h (e := ⟨2, 3, 0, diode 7, 20⟩) (by decide) rfl (fun d hd _ => net x d hd) (lit x) hR
    (l1 := []) (l2 := [⟨0, 1, 0, laser 4, 10⟩]) (d := ⟨1, 2, 0, Fixture.fiber 5, 30⟩) (τ := 1) rfl rfl
    (by
      intro d' hd'
      simp only [arm, List.nil_append, List.mem_append, List.mem_cons, List.not_mem_nil, or_false] at hd'
      rcases hd' with rfl | rfl | rfl <;> decide) k (by linarith) (δ := 1 / 10 ^ 11)
    (by rw [div_le_div_iff₀ (by linarith) (by norm_num)]; linarith) Store.empty⟩

/-- `C132_tolerance`: an error of one femtosecond on the way of the delay line. -/
example (x inp : Signal 4) : ∃ a st s st' s', propagate coupler (physics demoProp (optic x) FringeExample.conn (fun _ => false)) inp Store.empty = .ok st ∧
    propagate coupler (physics demoProp (redelayed (optic x) (Fixture.fiber 5) (1 + 1 / 10 ^ 15)) FringeExample.conn (fun _ => false)) inp Store.empty = .ok st' ∧
    st (.edge ⟨2, 3, 0⟩) = some s ∧ st' (.edge ⟨2, 3, 0⟩) = some s' ∧
    ∀ k, |‖fft_ s demoProp.dt k‖ - ‖fft_ s' demoProp.dt k‖| ≤ 2 * Real.pi * |lineFreq demoProp k| * (‖(a : ℂ)‖ * (1 / 10 ^ 15)) := by
  obtain ⟨st, h⟩ := runs x inp Store.empty
  obtain ⟨a, b, hR⟩ := gains x
  have h5 : optic x (Fixture.fiber 5) = .delayLine 1 := rfl
  have h4 : optic x (laser 4) = .source (impulse demoProp x) := rfl
  have h6 : optic x (shaper 6) = .phaseShifter 2 := rfl
  have r5 : redelayed (optic x) (Fixture.fiber 5) (1 + 1 / 10 ^ 15) (Fixture.fiber 5) = .delayLine (1 + 1 / 10 ^ 15) := if_pos rfl
  have r4 : redelayed (optic x) (Fixture.fiber 5) (1 + 1 / 10 ^ 15) (laser 4) = .source (impulse demoProp x) := if_neg (by decide)
  have r6 : redelayed (optic x) (Fixture.fiber 5) (1 + 1 / 10 ^ 15) (shaper 6) = .phaseShifter 2 := if_neg (by decide)
  obtain ⟨st', s, s', k1, k2, k3, k4⟩ := C132_tolerance (by norm_num) (by norm_num [demoProp]) coupler_wf nosplit (entry x) h (e := ⟨2, 3, 0, diode 7, 20⟩) (by decide) rfl (fun d hd _ => net x d hd) (lit x) hR
    h5 (1 + 1 / 10 ^ 15) Store.empty
  refine ⟨a, st, s, st', s', h, k1, k2, k3, fun k => (k4 k).trans (le_of_eq ?_)⟩
  simp only [wayDelay, arm, List.map_cons, List.map_nil, h4, h5, h6, r4, r5, r6, Optic.lineDelay, List.sum_cons, List.sum_nil]
  norm_num

end SharpExample

end Verif
