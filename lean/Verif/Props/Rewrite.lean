import Verif.Lemmas.Rewrite
import Verif.Props.Upstream
import Verif.Props.Dispersion
/-!
# C94: designs no output can tell apart

Components in a row that can be exchanged, merged or dropped, and what the Hessian shows of it.
-/

namespace Verif
open Graph Topology Filter Complex

section Main
variable {S : Type}

/-- **C94.** Two components in a row, and the node between them, may be replaced by any others that together do the same to the light that reaches them: the system
still runs, and every state except the one between the two is what it was. -/
theorem C94_rewrite {g : Graph} (hw : g.WF) {v : Node} {e1 e2 : Edge} (hr : InARow g v e1 e2) {B B' : Behav S}
    (hedges : ∀ e ∈ g.edges, e ≠ e1 → e ≠ e2 → SameEdge B B' e e) (hnodes : ∀ u ∈ g.nodes, u ≠ v → B'.node u.comp = B.node u.comp)
    (hsame : ∀ s t, (∃ m, Passes B v e1 e2 s m t) → ∃ m, Passes B' v e1 e2 s m t) {inp : S} {old : Store S} (old' : Store S) {st : Store S}
    (h : propagate g B inp old = .ok st) :
    ∃ st', propagate g B' inp old' = .ok st' ∧ ∀ key, key ≠ .edge e1.ref → st' key = st key := by
  obtain ⟨⟨order, ho⟩, hF⟩ := (propagate_iff hw).1 h
  obtain ⟨m, hm⟩ := rewrite_flow hw (topoSort_sound hw ho) hr hedges hnodes hsame hF
  exact ⟨_, (propagate_iff hw).2 ⟨⟨order, ho⟩, hm⟩, fun key hk => over_ne st hk⟩

end Main

variable {n : Nat}

theorem split_through (x : Signal n) : splitSignals [] 1 1 [x] = .ok [x] := by
  unfold splitSignals
  dsimp only
  rw [if_neg (by simp [splitWeights]), if_neg (by simp [splitWeights])]
  congr 1
  simp [splitWeights, splitRow, splitPhase]

theorem physics_noise {P : Prop_ n} {optic : Comp → Optic n} {conn : Comp → Connector} {hasNoise : Comp → Bool} {c : Comp} (s : Signal n) :
    (physics P optic conn hasNoise).noise c = none ∧ s = s ∨ ∃ f, (physics P optic conn hasNoise).noise c = some f ∧ f s = .ok s := by
  simp only [physics]
  cases hasNoise c
  · exact .inl ⟨rfl, trivial⟩
  · exact .inr ⟨_, rfl, rfl⟩

theorem passes_physics {P : Prop_ n} {optic : Comp → Optic n} {conn : Comp → Connector} {hasNoise : Comp → Bool} {v : Node} (hv : conn v.comp = .splitter []) {e1 e2 : Edge}
    {s t : Signal n} : (∃ m, Passes (physics P optic conn hasNoise) v e1 e2 s m t) ↔ Optic.Then P (optic e1.comp) (optic e2.comp) s t := by
  constructor
  · rintro ⟨m, ⟨s1, h1, h2⟩, outs, x, h3, h4, t1, h5, h6⟩
    obtain rfl := physics_through h2
    obtain rfl := physics_through h6
    have h3 : (conn v.comp).apply P [m] 1 1 = .ok outs := h3
    rw [hv] at h3
    have h3 : splitSignals [] 1 1 [m] = .ok outs := h3
    rw [split_through] at h3
    injection h3 with h3
    subst h3
    simp at h4
    subst h4
    exact ⟨m, h1, h5⟩
  · rintro ⟨m, h1, h2⟩
    refine ⟨m, ⟨m, h1, physics_noise m⟩, [m], m, ?_, rfl, t, h2, physics_noise t⟩
    show (conn v.comp).apply P [m] 1 1 = _
    rw [hv]
    exact split_through m

/-- **C94.** The same for optical systems: with a power splitter between them, two components in a row may be replaced by two that do the same in a row. -/
theorem C94_states {P : Prop_ n} {g : Graph} (hw : g.WF) {v : Node} {e1 e2 : Edge} (hr : InARow g v e1 e2) {optic optic' : Comp → Optic n} {conn : Comp → Connector}
    {hasNoise : Comp → Bool} (hv : conn v.comp = .splitter []) (ho : ∀ e ∈ g.edges, e ≠ e1 → e ≠ e2 → optic' e.comp = optic e.comp)
    (hs : SameInARow P (optic e1.comp) (optic e2.comp) (optic' e1.comp) (optic' e2.comp)) {inp : Signal n} {old : Store (Signal n)} (old' : Store (Signal n))
    {st : Store (Signal n)} (h : propagate g (physics P optic conn hasNoise) inp old = .ok st) :
    ∃ st', propagate g (physics P optic' conn hasNoise) inp old' = .ok st' ∧ ∀ key, key ≠ .edge e1.ref → st' key = st key :=
  C94_rewrite hw hr (B := physics P optic conn hasNoise) (B' := physics P optic' conn hasNoise) (fun e he h1 h2 => ⟨by simp only [physics]; rw [ho e he h1 h2], rfl⟩) (fun _ _ _ => rfl)
    (fun s t hp => (passes_physics hv).2 ((hs s t).1 ((passes_physics hv).1 hp))) old' h

/-- **C94.** So no evaluator can tell the two designs apart, unless it reads the state between the two components. -/
theorem C94_score {E : Type} {P : Prop_ n} {g : Graph} (hw : g.WF) {v : Node} {e1 e2 : Edge} (hr : InARow g v e1 e2) {optic : E → Comp → Optic n}
    {conn : E → Comp → Connector} {hasNoise : Comp → Bool} {θ θ' : E} (hv : conn θ v.comp = .splitter [])
    (ho : ∀ e ∈ g.edges, e ≠ e1 → e ≠ e2 → optic θ' e.comp = optic θ e.comp) (hc : ∀ u ∈ g.nodes, conn θ' u.comp = conn θ u.comp)
    (hs : SameInARow P (optic θ e1.comp) (optic θ e2.comp) (optic θ' e1.comp) (optic θ' e2.comp)) (inp : Signal n) (old : Store (Signal n)) {at_ : Key}
    (hat : at_ ≠ .edge e1.ref) (score : Signal n → Except Err ℝ) (val : ℝ) :
    systemScore P g optic conn hasNoise inp old at_ score θ = .ok val ↔ systemScore P g optic conn hasNoise inp old at_ score θ' = .ok val := by
  have key : ∀ θ θ' : E, conn θ v.comp = .splitter [] → (∀ e ∈ g.edges, e ≠ e1 → e ≠ e2 → optic θ' e.comp = optic θ e.comp) →
      (∀ u ∈ g.nodes, conn θ' u.comp = conn θ u.comp) →
      SameInARow P (optic θ e1.comp) (optic θ e2.comp) (optic θ' e1.comp) (optic θ' e2.comp) →
      systemScore P g optic conn hasNoise inp old at_ score θ = .ok val → systemScore P g optic conn hasNoise inp old at_ score θ' = .ok val := by
    intro θ θ' hv ho hc hs h
    unfold systemScore at h ⊢
    split at h
    · cases h
    · rename_i st hst
      obtain ⟨st', h1, h2⟩ := C94_rewrite hw hr (B := physics P (optic θ) (conn θ) hasNoise) (B' := physics P (optic θ') (conn θ') hasNoise)
        (fun e he h1 h2 => ⟨by simp only [physics]; rw [ho e he h1 h2], rfl⟩) (fun u hu _ => by simp only [physics]; rw [hc u hu])
        (fun s t hp => (passes_physics (by rw [hc v hr.mem]; exact hv)).2 ((hs s t).1 ((passes_physics hv).1 hp))) old hst
      rw [h1]
      dsimp only
      rw [h2 _ hat]
      exact h
  exact ⟨key θ θ' hv ho hc hs, key θ' θ (by rw [hc v hr.mem]; exact hv) (fun e he h1 h2 => (ho e he h1 h2).symm) (fun u hu => (hc u hu).symm)
    (fun x y => (hs x y).symm)⟩

/-! ### Which components can be exchanged, merged or dropped -/

theorem lti_lti (H K x : Signal n) : lti H (lti K x) = lti (fun k => H k * K k) x := by
  unfold lti
  rw [npFft_npIfft]
  congr 1
  funext k
  ring

theorem filter_lti {P : Prop_ n} (hdt : P.dt ≠ 0) {o : Optic n} (h : o.IsFilter) : (∃ H, ∀ x, o.apply P x = .ok (lti H x)) ∨ ∃ e, ∀ x, o.apply P x = .error e := by
  refine apply_lti hdt ?_ ?_ ?_ ?_
  · cases o <;> first | exact fun hc => hc | exact fun _ => h
  · cases o <;> first | exact fun hc => hc | exact fun _ => h
  · cases o <;> first | exact fun hc => hc | exact fun _ => h
  · rintro x rfl; exact h

theorem scalar_mul {P : Prop_ n} (hdt : P.dt ≠ 0) {o : Optic n} (h : o.IsScalar) : ∃ c : ℂ, ∀ x, o.apply P x = .ok (fun i => c * x i) := by
  cases o with
  | voa a => exact ⟨dbAmp a, fun x => by simp only [Optic.apply, voa]; congr 1; funext i; simp only [dbScale]; ring⟩
  | waveguide => exact ⟨1, fun x => by simp [Optic.apply, waveguide]⟩
  | phaseShifter p => exact ⟨exp (I * (p : ℂ)), fun x => by simp only [Optic.apply, phaseShifter, Bool.false_eq_true, if_false]; rw [freqMul_const _ hdt]⟩
  | _ => exact absurd h id

theorem same_of_funs {P : Prop_ n} {a b c d : Optic n} {f g f' g' : Signal n → Signal n} (ha : ∀ x, a.apply P x = .ok (f x)) (hb : ∀ x, b.apply P x = .ok (g x))
    (hc : ∀ x, c.apply P x = .ok (f' x)) (hd : ∀ x, d.apply P x = .ok (g' x)) (h : ∀ x, g (f x) = g' (f' x)) : SameInARow P a b c d := by
  intro x y
  unfold Optic.Then
  simp only [ha, hb, hc, hd, Except.ok.injEq, exists_eq_left', h]

/-- **C94.** Components that can change places: any two that are linear and do the same at all times (fibres, delay lines, shapers, filters, attenuators, phase
shifters); any two modulators; attenuators and phase shifters with any of these; and phase shifters with amplifiers. -/
theorem C94_exchange {P : Prop_ n} (hdt : P.dt ≠ 0) {a b : Optic n}
    (h : a.IsFilter ∧ b.IsFilter ∨ a.IsModulator ∧ b.IsModulator ∨ a.IsScalar ∧ b.IsModulator ∨ (∃ p E, a = .phaseShifter p ∧ b = .edfa E)) :
    SameInARow P a b b a ∧ SameInARow P b a a b := by
  suffices hs : SameInARow P a b b a from ⟨hs, fun x y => (hs x y).symm⟩
  rcases h with ⟨ha, hb⟩ | ⟨ha, hb⟩ | ⟨ha, hb⟩ | ⟨p, E, rfl, rfl⟩
  · rcases filter_lti hdt ha with ⟨H, h1⟩ | ⟨e, h1⟩
    · rcases filter_lti hdt hb with ⟨K, h2⟩ | ⟨e, h2⟩
      · refine same_of_funs h1 h2 h2 h1 fun x => ?_
        rw [lti_lti, lti_lti]
        congr 1
        funext k
        ring
      · intro x y
        unfold Optic.Then
        simp [h2]
    · intro x y
      unfold Optic.Then
      simp [h1]
  · obtain ⟨m, h1⟩ := apply_mod ha
    obtain ⟨k, h2⟩ := apply_mod hb
    exact same_of_funs h1 h2 h2 h1 fun x => by funext j; ring
  · obtain ⟨c, h1⟩ := scalar_mul hdt ha
    obtain ⟨k, h2⟩ := apply_mod hb
    exact same_of_funs h1 h2 h2 h1 fun x => by funext j; ring
  · have h1 : ∀ x, (Optic.phaseShifter p : Optic n).apply P x = .ok (fun i => exp (I * (p : ℂ)) * x i) := fun x => by
      simp only [Optic.apply, phaseShifter, Bool.false_eq_true, if_false]; rw [freqMul_const _ hdt]
    refine same_of_funs h1 (fun x => rfl) (fun x => rfl) h1 fun x => ?_
    have hg : E.gain P (fun i => exp (I * (p : ℂ)) * x i) = E.gain P x := edfa_gain_congr E (by rw [power_phase (norm_expI p)])
    rw [edfa_lti hdt, edfa_lti hdt, hg, lti_smul]

/-- **C94.** Settings that add up: only the sum of two lengths, delays, attenuations, phases or modulation depths in a row matters, and one component with the sum
in front of a waveguide does the same. -/
theorem C94_merge (hn : 2 ≤ n) {P : Prop_ n} (hw : 0 < P.window) {K : ℝ → Optic n} (hK : AddsUp K) (a b : ℝ) :
    (∀ c d, a + b = c + d → SameInARow P (K a) (K b) (K c) (K d)) ∧ SameInARow P (K a) (K b) (K (a + b)) .waveguide ∧ SameInARow P (K a) (K b) .waveguide (K (a + b)) := by
  have key : ∃ F : ℝ → Signal n → Signal n, (∀ a x, (K a).apply P x = .ok (F a x)) ∧ ∀ a b x, F b (F a x) = F (a + b) x := by
    cases hK with
    | fiber =>
      choose F hF using fun (a : ℝ) (x : Signal n) => (C55_fiber hn hw a 0 x).1
      refine ⟨F, fun a x => (hF a x).1, fun a b x => ?_⟩
      obtain ⟨y, h1, -, h2⟩ := (C55_fiber hn hw a b x).1
      have e1 := (hF a x).1
      rw [h1] at e1
      injection e1 with e1
      have e2 := (hF b (F a x)).1
      rw [← e1, h2, (hF (a + b) x).1] at e2
      injection e2 with e2
      rw [e2, e1]
    | voa => exact ⟨voa, fun a x => rfl, fun a b x => (C57_attenuator a b x).2.1⟩
    | delayLine => exact ⟨delayLine P, fun a x => rfl, fun a b x => (C55_delay_line hn hw a b x).2.1⟩
    | intDelayLine => exact ⟨intDelayLine P, fun a x => rfl, fun a b x => (C55_delay_line hn hw a b x).2.2.2.2.1⟩
    | phaseShifter =>
      refine ⟨fun a x i => exp (I * (a : ℂ)) * x i, fun a x => ?_, fun a b x => ?_⟩
      · simp only [Optic.apply, phaseShifter, Bool.false_eq_true, if_false]; rw [freqMul_const _ (dt_ne_zero hn hw)]
      · funext i
        push_cast
        rw [mul_add, Complex.exp_add]
        ring
    | phaseMod f s =>
      refine ⟨fun a => phaseMod P a f s (fun _ => 0), fun a x => rfl, fun a b x => ?_⟩
      funext j
      simp only [phaseMod, dbScale_zero]
      push_cast
      rw [add_mul, mul_add, Complex.exp_add]
      ring
  obtain ⟨F, h1, h2⟩ := key
  refine ⟨fun c d hs => same_of_funs (h1 a) (h1 b) (h1 c) (h1 d) fun x => by rw [h2, h2, hs], ?_, ?_⟩
  · exact same_of_funs (h1 a) (h1 b) (h1 _) (g' := fun x => x) (fun x => rfl) fun x => h2 a b x
  · exact same_of_funs (h1 a) (h1 b) (f' := fun x => x) (fun x => rfl) (h1 _) fun x => h2 a b x

/-- **C94.** Detectors see no phases: a phase shifter or a phase modulator right in front of a detector does nothing. -/
theorem C94_swallowed {P : Prop_ n} (hdt : P.dt ≠ 0) {a det : Optic n} (ha : (∃ p, a = .phaseShifter p) ∨ ∃ d f s, a = .phaseMod d f s) (hd : det.IsDetector) :
    SameInARow P a det .waveguide det := by
  have h1 : ∃ F : Signal n → Signal n, (∀ x, a.apply P x = .ok (F x)) ∧ ∀ x, power_ (F x) = power_ x := by
    rcases ha with ⟨p, rfl⟩ | ⟨d, f, s, rfl⟩
    · refine ⟨fun x i => exp (I * (p : ℂ)) * x i, fun x => ?_, fun x => power_phase (norm_expI p) x⟩
      simp only [Optic.apply, phaseShifter, Bool.false_eq_true, if_false]; rw [freqMul_const _ hdt]
    · refine ⟨_, fun x => rfl, fun x => ?_⟩
      funext j
      simp only [phaseMod, dbScale_zero, power_]
      rw [norm_mul, norm_expI, mul_one]
  obtain ⟨F, h1, h2⟩ := h1
  have h3 : ∀ x y : Signal n, power_ x = power_ y → det.apply P x = det.apply P y := by
    intro x y hxy
    cases det with
    | measure => simp only [Optic.apply]; congr 1; funext i; exact congrArg _ (congrFun hxy i)
    | photodiode D =>
      simp only [Optic.apply, Photodiode.propagate, hxy]
    | _ => exact absurd hd id
  intro x y
  have hwg : (Optic.waveguide : Optic n).apply P x = .ok x := rfl
  unfold Optic.Then
  simp only [h1, hwg, Except.ok.injEq, exists_eq_left', h3 _ _ (h2 x)]

/-- **C94, finding.** A modulator and a delay line can change places only if the modulation repeats with the delay: the delay line of `d` samples (of the grid of the
code, C79) and a modulator that multiplies by `m` at the instants do the same in both orders exactly if `m` is the same `d` samples later. -/
theorem C94_modulator_delay (hn : 2 ≤ n) {P : Prop_ n} (hw : 0 < P.window) (d : ℤ) {a : Optic n} {m : Signal n} (hm : ∀ x, a.apply P x = .ok (fun j => m j * x j)) :
    SameInARow P a (.delayLine (d * P.dt * (((n : ℝ) - 1) / n) ^ 2)) (.delayLine (d * P.dt * (((n : ℝ) - 1) / n) ^ 2)) a ↔ delayed d m = m := by
  obtain ⟨c, hc, h⟩ := C79_delay_line hn hw (d * P.dt * (((n : ℝ) - 1) / n) ^ 2)
  have hd := dt_ne_zero hn hw
  have h1 := two_le_cast hn
  have hn' : (n : ℝ) ≠ 0 := by exact_mod_cast (by omega : n ≠ 0)
  have e : -(d * P.dt * (((n : ℝ) - 1) / n) ^ 2 / P.dt * ((n : ℝ) / (n - 1)) ^ 2) = ((-d : ℤ) : ℝ) := by
    push_cast
    field_simp
  rw [e] at h
  simp only [fracDelay_int] at h
  have hc0 : c ≠ 0 := by
    rintro rfl
    simp at hc
  have hcancel : delayed d m = m ↔ delayed (-d) m = m := by
    have inv : ∀ (s : ℤ) (y : Signal n), delayed s (delayed (-s) y) = y := by
      intro s y
      funext i
      unfold delayed
      congr 1
      apply Fin.ext
      have hpos : (0 : ℤ) < n := by omega
      have hi : ((i.val : ℤ)) < n := by exact_mod_cast i.isLt
      have a1 := Int.emod_nonneg ((i.val : ℤ) - s) hpos.ne'
      simp only [Int.toNat_of_nonneg a1]
      rw [sub_neg_eq_add, Int.emod_add_emod, sub_add_cancel, Int.emod_eq_of_lt (by omega) hi]
      simp
    constructor
    · intro hh
      have := inv (-d) m
      rw [neg_neg, hh] at this
      exact this
    · intro hh
      have := inv d m
      rw [hh] at this
      exact this
  rw [hcancel]
  have hdl : ∀ x, (Optic.delayLine (d * P.dt * (((n : ℝ) - 1) / n) ^ 2) : Optic n).apply P x = .ok (fun i => c * delayed (-d) x i) := fun x => by
    simp only [Optic.apply]; rw [h]
  constructor
  · intro hs
    have h2 := (hs (fun _ => 1) (fun i => c * delayed (-d) (fun j => m j * 1) i)).1 ⟨_, hm _, hdl _⟩
    obtain ⟨y, h3, h4⟩ := h2
    rw [hdl] at h3
    injection h3 with h3
    subst h3
    rw [hm] at h4
    injection h4 with h4
    funext i
    have h5 := congrFun h4 i
    simp only [delayed, mul_one] at h5
    have h6 : c * m i = c * delayed (-d) m i := by
      rw [mul_comm]
      exact h5
    exact (mul_left_cancel₀ hc0 h6).symm
  · intro hs
    refine same_of_funs hm hdl hdl hm fun x => ?_
    funext i
    have h5 : m i = delayed (-d) m i := by rw [hs]
    show c * (delayed (-d) m i * delayed (-d) x i) = m i * (c * delayed (-d) x i)
    rw [← h5]
    ring

/-- **C94, finding.** An attenuator and an amplifier cannot change places: with the attenuator in front, every lit line of the spectrum comes out brighter than with
the attenuator behind, as the amplifier saturates less. -/
theorem C94_attenuate_first {P : Prop_ n} (hdt : P.dt ≠ 0) {E : Edfa} (hp : 0 < E.pOutMax) (ha : E.alpha = 1) {a : ℝ} (hneg : a < 0) {x : Signal n} {j : Fin n} (hx : x j ≠ 0)
    {k : Fin n} (hk : npFft x k ≠ 0) :
    ∃ y z, Optic.Then P (.voa a) (.edfa E) x y ∧ Optic.Then P (.edfa E) (.voa a) x z ∧ ‖npFft z k‖ < ‖npFft y k‖ := by
  refine ⟨_, _, ⟨_, rfl, rfl⟩, ⟨_, rfl, rfl⟩, ?_⟩
  have hv : ∀ u : Signal n, voa a u = fun i => (dbAmp a : ℂ) * u i := fun u => by funext i; simp only [voa, dbScale]; ring
  rw [hv, hv, npFft_smul, edfa_lti hdt, edfa_lti hdt]
  unfold lti
  rw [npFft_npIfft, npFft_npIfft, npFft_smul]
  have hs := E.smallSignal_pos P k
  have hA := dbAmp_pos a
  have hA1 : dbAmp a < 1 := by
    unfold dbAmp
    exact Real.rpow_lt_one_of_one_lt_of_neg (by norm_num) (by linarith)
  have hmean : 0 < npMean (power_ x) := by
    unfold npMean
    have hsum : 0 < ∑ i, power_ x i := Finset.sum_pos' (fun i _ => sq_nonneg _) ⟨j, Finset.mem_univ _, by unfold power_; positivity⟩
    have hn0 : (0 : ℝ) < n := by exact_mod_cast Nat.lt_of_le_of_lt (Nat.zero_le _) j.isLt
    positivity
  have hmean2 : npMean (power_ (fun i => (dbAmp a : ℂ) * x i)) = dbAmp a ^ 2 * npMean (power_ x) := by
    rw [power_scale]
    unfold npMean
    rw [← Finset.mul_sum, Complex.norm_real, Real.norm_of_nonneg hA.le]
    ring
  have hg : E.gain P x k < E.gain P (fun i => (dbAmp a : ℂ) * x i) k := by
    unfold Edfa.gain
    rw [ha, Real.rpow_one, Real.rpow_one, hmean2]
    have hsq : dbAmp a ^ 2 < 1 := by nlinarith
    have hm2 : dbAmp a ^ 2 * npMean (power_ x) < npMean (power_ x) := by nlinarith
    have h0 : 0 < dbAmp a ^ 2 * npMean (power_ x) := by positivity
    apply div_lt_div_of_pos_left hs (by positivity)
    have : E.smallSignal P k * (dbAmp a ^ 2 * npMean (power_ x)) / E.pOutMax < E.smallSignal P k * npMean (power_ x) / E.pOutMax :=
      div_lt_div_of_pos_right (mul_lt_mul_of_pos_left hm2 hs) hp
    linarith
  have hg0 : 0 ≤ E.gain P x k := by
    unfold Edfa.gain
    rw [ha, Real.rpow_one]
    positivity
  have hsq := Real.sqrt_lt_sqrt hg0 hg
  simp only [norm_mul, Complex.norm_real, Real.norm_of_nonneg hA.le, Real.norm_of_nonneg (Real.sqrt_nonneg _)]
  have hX : 0 < ‖npFft x k‖ := norm_pos_iff.2 hk
  have : Real.sqrt (E.gain P x k) * (dbAmp a * ‖npFft x k‖) < Real.sqrt (E.gain P (fun i => (dbAmp a : ℂ) * x i) k) * (dbAmp a * ‖npFft x k‖) :=
    mul_lt_mul_of_pos_right hsq (by positivity)
  linarith

/-! ### What the Hessian shows of two components of which one would do -/

section Flat
variable {m : Nat}

/-- The parameters with `t` moved from `j` to `i`. -/
def moved (q : Fin m → ℝ) (i j : Fin m) (t : ℝ) : Fin m → ℝ := Function.update (Function.update q i (q i + t)) j (q j - t)

theorem pderiv_flat {f : (Fin m → ℝ) → ℝ} {i j : Fin m} (hij : i ≠ j) (hf : ∀ q t, f (moved q i j t) = f q) (q : Fin m → ℝ) : pderiv i f q = pderiv j f q := by
  have key : (fun u => f (Function.update q i u)) = fun u => f (Function.update q j (u + (q j - q i))) := by
    funext u
    rw [← hf (Function.update q j (u + (q j - q i))) (u - q i)]
    congr 1
    funext k
    unfold moved
    by_cases hkj : k = j
    · subst hkj
      simp [Function.update_of_ne hij.symm]
    · rw [Function.update_of_ne hkj]
      by_cases hki : k = i
      · subst hki
        simp [Function.update_of_ne hij]
      · simp [Function.update_of_ne hki, Function.update_of_ne hkj]
  unfold pderiv
  rw [key, deriv_comp_add_const (fun u => f (Function.update q j u))]
  congr 1
  ring

theorem pderiv_moved {f : (Fin m → ℝ) → ℝ} {i j : Fin m} (hij : i ≠ j) (hf : ∀ q t, f (moved q i j t) = f q) (k : Fin m) (q : Fin m → ℝ) (t : ℝ) :
    pderiv k f (moved q i j t) = pderiv k f q := by
  obtain ⟨δ, hδ⟩ : ∃ δ : ℝ, δ = moved q i j t k - q k := ⟨_, rfl⟩
  have key : (fun u => f (Function.update (moved q i j t) k u)) = fun u => f (Function.update q k (u + -δ)) := by
    funext u
    rw [← hf (Function.update q k (u + -δ)) t]
    congr 1
    funext l
    rw [hδ]
    unfold moved
    by_cases hkj : k = j
    · subst hkj
      by_cases hlk : l = k
      · subst hlk; simp
      · by_cases hli : l = i
        · subst hli; simp [hlk]
        · simp [hlk, hli]
    · by_cases hki : k = i
      · subst hki
        by_cases hlk : l = k
        · subst hlk; simp [hij]
        · by_cases hlj : l = j
          · subst hlj; simp [hlk]
          · simp [hlk, hlj]
      · by_cases hlk : l = k
        · subst hlk; simp [hkj, hki]
        · by_cases hlj : l = j
          · subst hlj; simp [hlk]
          · by_cases hli : l = i
            · subst hli; simp [hlk, hlj]
            · simp [hlk, hlj, hli]
  unfold pderiv
  rw [key, deriv_comp_add_const (fun u => f (Function.update q k u)), hδ]
  congr 1
  ring

/-- **C94.** Two components of the same kind in a row, whose settings add up, with a parameter each.  Only the sum of the two parameters shows: what is taken from one
and added to the other leaves the score alone, so either can be set to zero and best parameters are never alone. -/
theorem C94_only_the_sum (hn : 2 ≤ n) {P : Prop_ n} (hwin : 0 < P.window) {g : Graph} (hw : g.WF) {v : Node} {e1 e2 : Edge} (hr : InARow g v e1 e2)
    {optic : (Fin m → ℝ) → Comp → Optic n} {conn : (Fin m → ℝ) → Comp → Connector} {hasNoise : Comp → Bool} {K : ℝ → Optic n} (hK : AddsUp K) {i j : Fin m}
    (h1 : ∀ q, optic q e1.comp = K (q i)) (h2 : ∀ q, optic q e2.comp = K (q j)) (hv : ∀ q, conn q v.comp = .splitter [])
    (ho : ∀ q q', (∀ k, k ≠ i → k ≠ j → q k = q' k) → ∀ e ∈ g.edges, e ≠ e1 → e ≠ e2 → optic q e.comp = optic q' e.comp)
    (hc : ∀ q q', (∀ k, k ≠ i → k ≠ j → q k = q' k) → ∀ u ∈ g.nodes, conn q u.comp = conn q' u.comp)
    (inp : Signal n) (old : Store (Signal n)) {at_ : Key} (hat : at_ ≠ .edge e1.ref) (score : Signal n → Except Err ℝ) {q q' : Fin m → ℝ}
    (hq : ∀ k, k ≠ i → k ≠ j → q k = q' k) (hsum : q i + q j = q' i + q' j) (val : ℝ) :
    systemScore P g optic conn hasNoise inp old at_ score q = .ok val ↔ systemScore P g optic conn hasNoise inp old at_ score q' = .ok val := by
  refine C94_score hw hr (hv q) (fun e he k1 k2 => (ho q q' hq e he k1 k2).symm) (fun u hu => (hc q q' hq u hu).symm) ?_ inp old hat score val
  rw [h1, h2, h1, h2]
  exact (C94_merge hn hwin hK (q i) (q j)).1 _ _ hsum

/-- **C94, finding.** What the analysis of the Hessian makes of this: the two parameters have the same slope, the same rows and columns and the same sensitivity, so
that moving from one to the other is a direction of zero curvature, and the component that is not needed looks as important as the one that is. -/
theorem C94_hidden (hn : 2 ≤ n) {P : Prop_ n} (hwin : 0 < P.window) {g : Graph} (hw : g.WF) {v : Node} {e1 e2 : Edge} (hr : InARow g v e1 e2)
    {optic : (Fin m → ℝ) → Comp → Optic n} {conn : (Fin m → ℝ) → Comp → Connector} {hasNoise : Comp → Bool} {K : ℝ → Optic n} (hK : AddsUp K) {i j : Fin m} (hij : i ≠ j)
    (h1 : ∀ q, optic q e1.comp = K (q i)) (h2 : ∀ q, optic q e2.comp = K (q j)) (hv : ∀ q, conn q v.comp = .splitter [])
    (ho : ∀ q q', (∀ k, k ≠ i → k ≠ j → q k = q' k) → ∀ e ∈ g.edges, e ≠ e1 → e ≠ e2 → optic q e.comp = optic q' e.comp)
    (hc : ∀ q q', (∀ k, k ≠ i → k ≠ j → q k = q' k) → ∀ u ∈ g.nodes, conn q u.comp = conn q' u.comp)
    (inp : Signal n) (old : Store (Signal n)) {at_ : Key} (hat : at_ ≠ .edge e1.ref) (score : Signal n → Except Err ℝ) (p : Fin m → ℝ) :
    pderiv i (funcOf P g optic conn hasNoise inp old at_ score) p = pderiv j (funcOf P g optic conn hasNoise inp old at_ score) p ∧
    (∀ k : Fin m, (autoHessian (funcOf P g optic conn hasNoise inp old at_ score) p).entry i k =
        (autoHessian (funcOf P g optic conn hasNoise inp old at_ score) p).entry j k ∧
      (autoHessian (funcOf P g optic conn hasNoise inp old at_ score) p).entry k i = (autoHessian (funcOf P g optic conn hasNoise inp old at_ score) p).entry k j) ∧
    (paramScores (autoHessian (funcOf P g optic conn hasNoise inp old at_ score) p))[(i : Nat)]? =
      (paramScores (autoHessian (funcOf P g optic conn hasNoise inp old at_ score) p))[(j : Nat)]? := by
  have hflat : ∀ q t, funcOf P g optic conn hasNoise inp old at_ score (moved q i j t) = funcOf P g optic conn hasNoise inp old at_ score q := by
    intro q t
    have key := C94_only_the_sum (hasNoise := hasNoise) hn hwin hw hr hK h1 h2 hv ho hc inp old hat score (q := moved q i j t) (q' := q)
      (fun k k1 k2 => by simp [moved, k1, k2]) (by simp [moved, hij])
    unfold funcOf
    cases ha : systemScore P g optic conn hasNoise inp old at_ score (moved q i j t) with
    | ok val => rw [(key val).1 ha]
    | error e =>
      cases hb : systemScore P g optic conn hasNoise inp old at_ score q with
      | error e' => rfl
      | ok val => rw [(key val).2 hb] at ha; cases ha
  obtain ⟨f, hf⟩ : ∃ f, f = funcOf P g optic conn hasNoise inp old at_ score := ⟨_, rfl⟩
  rw [← hf] at hflat ⊢
  have hrow : ∀ k : Fin m, (autoHessian f p).entry i k = (autoHessian f p).entry j k := by
    intro k
    rw [autoHessian_entry, autoHessian_entry]
    congr 1
    funext q
    exact pderiv_flat hij hflat q
  have hcol : ∀ k : Fin m, (autoHessian f p).entry k i = (autoHessian f p).entry k j := by
    intro k
    rw [autoHessian_entry, autoHessian_entry]
    exact pderiv_flat hij (pderiv_moved hij hflat k) p
  refine ⟨pderiv_flat hij hflat p, fun k => ⟨hrow k, hcol k⟩, ?_⟩
  unfold paramScores
  have hsz : (autoHessian f p).size = m := rfl
  rw [hsz]
  have hi : (i : Nat) < m := i.isLt
  have hj : (j : Nat) < m := j.isLt
  simp only [List.getElem?_map, List.getElem?_range hi, List.getElem?_range hj, Option.map_some]
  have e1 : (List.range m).map (fun k => |(autoHessian f p).entry k i|) = (List.range m).map (fun k => |(autoHessian f p).entry k j|) :=
    List.map_congr_left fun k hk => by rw [hcol ⟨k, List.mem_range.1 hk⟩]
  have e2 : (List.range m).map (fun k => |(autoHessian f p).entry i k|) = (List.range m).map (fun k => |(autoHessian f p).entry j k|) :=
    List.map_congr_left fun k hk => by rw [hrow ⟨k, List.mem_range.1 hk⟩]
  rw [e1, e2]

end Flat

/-! ### A case: two phase shifters in one arm of an interferometer -/

namespace Row
open Fixture

noncomputable def optic (x : Signal 4) (a b last : Optic 4) (c : Comp) : Optic 4 :=
  if c.uid = 4 then .source x else if c.uid = 6 then a else if c.uid = 8 then b else if c.uid = 7 then last else .waveguide

noncomputable def conn (c : Comp) : Connector :=
  if c.uid = 2 then .splitter [1 / 2] else if c.uid = 3 ∨ c.uid = 9 then .splitter [] else .terminal

theorem wf : gSer.WF where
  ids_nodup := by decide
  refs_nodup := by decide
  src_mem := by decide
  dst_mem := by decide

theorem topo : gSer.IsTopo [0, 1, 9, 2, 3] where
  nodup := by decide
  mem_iff := by intro v; rw [show gSer.ids = [0, 1, 2, 3, 9] by decide]; simp; tauto
  forward := by decide

theorem row : InARow gSer ⟨9, split 9, 40⟩ ⟨1, 9, 0, shaper 6, 31⟩ ⟨9, 2, 0, Fixture.fiber 8, 30⟩ := ⟨by decide, by decide, by decide⟩

theorem enough {P : Prop_ 4} {x : Signal 4} {a b last : Optic 4} (k0 : ∀ y, ∃ z, a.apply P y = .ok z)
    (k1 : ∀ y, ∃ z, b.apply P y = .ok z) (hl : ∀ y, ∃ z, last.apply P y = .ok z) (hasNoise : Comp → Bool) :
    Enough gSer (physics P (optic x a b last) conn hasNoise) where
  node := by
    intro m hm ins hin
    simp only [gSer, List.mem_cons, List.not_mem_nil, or_false] at hm
    rcases hm with rfl | rfl | rfl | rfl | rfl
    · exact ⟨ins, rfl, by rw [hin]; decide⟩
    · refine ⟨(splitWeights [1 / 2]).zipIdx.map (fun p => fun t => splitRow 1 2 p.1 p.2 (ins.map (· t))), ?_, by simp [splitWeights]; decide⟩
      show splitSignals [1 / 2] 1 2 ins = _
      have hh : ins.length = 1 := hin
      unfold splitSignals
      rw [if_neg (by simp [hh, splitWeights]), if_neg (by norm_num [splitWeights])]
    · refine ⟨(splitWeights ([] : List ℝ)).zipIdx.map (fun p => fun t => splitRow 2 1 p.1 p.2 (ins.map (· t))), ?_, by simp [splitWeights]; decide⟩
      show splitSignals [] 2 1 ins = _
      have h1 : ins.length = 2 := hin
      unfold splitSignals
      rw [if_neg (by simp [h1, splitWeights]), if_neg (by simp [splitWeights])]
    · exact ⟨ins, rfl, by rw [hin]; decide⟩
    · refine ⟨(splitWeights ([] : List ℝ)).zipIdx.map (fun p => fun t => splitRow 1 1 p.1 p.2 (ins.map (· t))), ?_, by simp [splitWeights]; decide⟩
      show splitSignals [] 1 1 ins = _
      have h1 : ins.length = 1 := hin
      unfold splitSignals
      rw [if_neg (by simp [h1, splitWeights]), if_neg (by simp [splitWeights])]
  edge := by
    intro e he s
    simp only [gSer, List.mem_cons, List.not_mem_nil, or_false] at he
    rcases he with rfl | rfl | rfl | rfl | rfl
    · exact ⟨x, rfl⟩
    · exact ⟨s, rfl⟩
    · exact k0 s
    · exact hl s
    · exact k1 s
  noise := by
    intro e _ f hf s
    simp only [physics] at hf
    split at hf
    · injection hf with hf; exact ⟨s, by rw [← hf]⟩
    · cases hf

theorem others (x : Signal 4) (a b a' b' last : Optic 4) : ∀ e ∈ gSer.edges, e ≠ ⟨1, 9, 0, shaper 6, 31⟩ → e ≠ ⟨9, 2, 0, Fixture.fiber 8, 30⟩ →
    optic x a' b' last e.comp = optic x a b last e.comp := by
  intro e he h1 h2
  simp only [gSer, List.mem_cons, List.not_mem_nil, or_false] at he
  rcases he with rfl | rfl | rfl | rfl | rfl
  · rfl
  · rfl
  · exact absurd rfl h1
  · rfl
  · exact absurd rfl h2

/-- A delay line and an attenuator in one arm, and the other way round: the detector sees the same. -/
example (x inp : Signal 4) : ∃ st st', propagate gSer (physics demoProp (optic x (.delayLine 3) (.voa (-2)) .measure) conn (fun _ => true)) inp Store.empty = .ok st ∧
    propagate gSer (physics demoProp (optic x (.voa (-2)) (.delayLine 3) .measure) conn (fun _ => true)) inp Store.empty = .ok st' ∧
    st' (.edge ⟨2, 3, 0⟩) = st (.edge ⟨2, 3, 0⟩) := by
  obtain ⟨st, h⟩ := (C17_propagate_acyclic wf (enough (P := demoProp) (x := x) (a := .delayLine 3) (b := .voa (-2)) (last := .measure)
    (fun y => ⟨_, rfl⟩) (fun y => ⟨_, rfl⟩) (fun y => ⟨_, rfl⟩) (fun _ => true)) inp Store.empty).1 topo.acyclic
  obtain ⟨st', h', h2⟩ := C94_states wf row rfl (others x _ _ (.voa (-2)) (.delayLine 3) .measure)
    (C94_exchange (a := .delayLine 3) (b := .voa (-2)) (dt_ne_zero Arms.demo2.1 Arms.demo2.2) (.inl ⟨trivial, trivial⟩)).1 Store.empty h
  exact ⟨st, st', h, h', h2 _ (by decide)⟩

/-- Two phase shifters in one arm: they have the same sensitivity. -/
example (x inp T : Signal 4) (p : Fin 2 → ℝ) :
    pderiv 0 (funcOf demoProp gSer (fun q : Fin 2 → ℝ => optic x (.phaseShifter (q 0)) (.phaseShifter (q 1)) .measure) (fun _ => conn) (fun _ => false) inp Store.empty
      (.edge ⟨2, 3, 0⟩) (fun y => .ok (noiseSuppressionScore T y))) p =
    pderiv 1 (funcOf demoProp gSer (fun q : Fin 2 → ℝ => optic x (.phaseShifter (q 0)) (.phaseShifter (q 1)) .measure) (fun _ => conn) (fun _ => false) inp Store.empty
      (.edge ⟨2, 3, 0⟩) (fun y => .ok (noiseSuppressionScore T y))) p :=
  (C94_hidden Arms.demo2.1 Arms.demo2.2 wf row .phaseShifter (i := 0) (j := 1) (by decide) (fun _ => rfl) (fun _ => rfl) (fun _ => rfl)
    (fun q q' _ => others x _ _ _ _ _) (fun _ _ _ _ _ => rfl) inp Store.empty (by decide) _ p).1

/-- One of them can be set to zero. -/
example (x inp T : Signal 4) (val : ℝ) :
    systemScore demoProp gSer (fun q : Fin 2 → ℝ => optic x (.phaseShifter (q 0)) (.phaseShifter (q 1)) .measure) (fun _ => conn) (fun _ => false) inp Store.empty
      (.edge ⟨2, 3, 0⟩) (fun y => .ok (noiseSuppressionScore T y)) ![1, 2] = .ok val ↔
    systemScore demoProp gSer (fun q : Fin 2 → ℝ => optic x (.phaseShifter (q 0)) (.phaseShifter (q 1)) .measure) (fun _ => conn) (fun _ => false) inp Store.empty
      (.edge ⟨2, 3, 0⟩) (fun y => .ok (noiseSuppressionScore T y)) ![3, 0] = .ok val :=
  C94_only_the_sum Arms.demo2.1 Arms.demo2.2 wf row .phaseShifter (i := 0) (j := 1) (fun _ => rfl) (fun _ => rfl) (fun _ => rfl)
    (fun q q' _ => others x _ _ _ _ _) (fun _ _ _ _ _ => rfl) inp Store.empty (by decide) _ (fun k h0 h1 => absurd h1 (by omega)) (by norm_num) val

example (d f s : ℝ) (D : Photodiode) : SameInARow demoProp (.phaseMod d f s) (.photodiode D) .waveguide (.photodiode D) :=
  C94_swallowed (dt_ne_zero Arms.demo2.1 Arms.demo2.2) (.inr ⟨d, f, s, rfl⟩) trivial

/-- A phase modulator that turns every second sample over. -/
theorem flips (x : Signal 4) : (.phaseMod Real.pi (1 / 4) (Real.pi / 4) : Optic 4).apply demoProp x = .ok (fun j => (![1, -1, 1, -1] : Signal 4) j * x j) := by
  have key : ∀ j : Fin 4, exp (I * ((Real.pi * Real.cos (2 * Real.pi * (1 / 4) * demoProp.t j + Real.pi / 4 + 0) : ℝ) : ℂ)) = (![1, -1, 1, -1] : Signal 4) j := by
    have hpi : exp (I * (Real.pi : ℂ)) = -1 := by rw [mul_comm]; exact Complex.exp_pi_mul_I
    have hneg : exp (I * ((-Real.pi : ℝ) : ℂ)) = -1 := by
      push_cast
      rw [mul_neg, Complex.exp_neg, hpi]
      norm_num
    intro j
    fin_cases j
    · have : 2 * Real.pi * (1 / 4) * demoProp.t 0 + Real.pi / 4 + 0 = -(Real.pi / 2) := by
        simp only [Prop_.t, Prop_.linspace, demoProp]; norm_num; ring
      simp only [Fin.zero_eta, this, Real.cos_neg, Real.cos_pi_div_two]
      simp
    · have : 2 * Real.pi * (1 / 4) * demoProp.t 1 + Real.pi / 4 + 0 = 0 := by
        simp only [Prop_.t, Prop_.linspace, demoProp]; norm_num; ring
      simp only [Fin.mk_one, this, Real.cos_zero, mul_one, hpi]
      simp
    · have : 2 * Real.pi * (1 / 4) * demoProp.t 2 + Real.pi / 4 + 0 = Real.pi / 2 := by
        simp only [Prop_.t, Prop_.linspace, demoProp]; norm_num; ring
      show exp (I * ((Real.pi * Real.cos (2 * Real.pi * (1 / 4) * demoProp.t 2 + Real.pi / 4 + 0) : ℝ) : ℂ)) = 1
      simp only [this, Real.cos_pi_div_two]
      simp
    · have : 2 * Real.pi * (1 / 4) * demoProp.t 3 + Real.pi / 4 + 0 = Real.pi := by
        simp only [Prop_.t, Prop_.linspace, demoProp]; norm_num; ring
      show exp (I * ((Real.pi * Real.cos (2 * Real.pi * (1 / 4) * demoProp.t 3 + Real.pi / 4 + 0) : ℝ) : ℂ)) = -1
      simp only [this, Real.cos_pi, mul_neg, mul_one]
      exact hneg
  simp only [Optic.apply, phaseMod, dbScale_zero, key]
  congr 1
  funext j
  ring

/-- A delay of one sample cannot change places with it, a delay of two samples can. -/
example : ¬ SameInARow demoProp (.phaseMod Real.pi (1 / 4) (Real.pi / 4)) (.delayLine ((1 : ℤ) * demoProp.dt * (((4 : ℕ) - 1 : ℝ) / (4 : ℕ)) ^ 2))
      (.delayLine ((1 : ℤ) * demoProp.dt * (((4 : ℕ) - 1 : ℝ) / (4 : ℕ)) ^ 2)) (.phaseMod Real.pi (1 / 4) (Real.pi / 4)) ∧
    SameInARow demoProp (.phaseMod Real.pi (1 / 4) (Real.pi / 4)) (.delayLine ((2 : ℤ) * demoProp.dt * (((4 : ℕ) - 1 : ℝ) / (4 : ℕ)) ^ 2))
      (.delayLine ((2 : ℤ) * demoProp.dt * (((4 : ℕ) - 1 : ℝ) / (4 : ℕ)) ^ 2)) (.phaseMod Real.pi (1 / 4) (Real.pi / 4)) := by
  rw [C94_modulator_delay Arms.demo2.1 Arms.demo2.2 1 flips, C94_modulator_delay Arms.demo2.1 Arms.demo2.2 2 flips]
  constructor
  · intro h
    have h0 : (-1 : ℂ) = 1 := congrFun h 0
    norm_num at h0
  · funext j
    fin_cases j <;> rfl

/-- An amplifier with the usual exponent, and constant light. -/
example : ∃ y z, Optic.Then demoProp (.voa (-3)) (.edfa ⟨10, 1, 1, 1, 1, 2, 0, 1, 5⟩) (fun _ => 1) y ∧
    Optic.Then demoProp (.edfa ⟨10, 1, 1, 1, 1, 2, 0, 1, 5⟩) (.voa (-3)) (fun _ => 1) z ∧ ‖npFft z 0‖ < ‖npFft y 0‖ :=
  C94_attenuate_first (dt_ne_zero Arms.demo2.1 Arms.demo2.2) (by norm_num) rfl (by norm_num) (j := 0) one_ne_zero (k := 0) (by simp [npFft])

end Row

end Verif
