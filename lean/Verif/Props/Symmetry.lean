import Verif.Lemmas.Symmetry
import Verif.Props.Propagate
import Verif.Props.Fixture
/-!
# C69: what happens to the whole system when the sources change

For every topology: phase, arrival time and power of the light at all outputs follow the sources as they should.
-/

namespace Verif
open Complex Graph

variable {n : Nat}

theorem acts_scale {P : Prop_ n} (hdt : P.dt ≠ 0) (c : ℂ) :
    Acts P (fun x i => c * x i) (fun x i => ((‖c‖ ^ 2 : ℝ) : ℂ) * x i) (fun o => ¬ o.Saturates) where
  pass := by
    intro o hs hd hsrc x y h
    by_cases hm : o.IsModulator
    · obtain ⟨m, hm⟩ := apply_mod (P := P) hm
      rw [hm] at h ⊢; injection h with h; rw [← h]
      congr 1; funext j; ring
    · rcases apply_lti hdt hd hm hs hsrc with ⟨H, hH⟩ | ⟨e, he⟩
      · rw [hH] at h ⊢; injection h with h; rw [← h, lti_smul]
      · rw [he] at h; cases h
  det := by
    intro o hs hd x y h
    cases o with
    | measure =>
      simp only [Optic.apply, measure] at h ⊢
      injection h with h
      rw [← h]; congr 1; funext i; rw [norm_mul, mul_pow]; push_cast; ring
    | photodiode D => exact absurd trivial hs
    | _ => exact absurd hd id
  conn := fun k _ _ _ _ h => conn_smul hdt c k h

theorem acts_phase {P : Prop_ n} (hdt : P.dt ≠ 0) {c : ℂ} (hc : ‖c‖ = 1) :
    Acts P (fun x i => c * x i) (fun x => x) (fun _ => True) where
  pass := by
    intro o _ hd hsrc x y h
    by_cases hs : o.Saturates
    · cases o with
      | edfa E =>
        simp only [Optic.apply] at h ⊢
        injection h with h
        rw [edfa_lti hdt, edfa_gain_congr E (y := x) (by rw [power_phase hc]), lti_smul, ← edfa_lti hdt, h]
      | photodiode D => exact absurd trivial hd
      | _ => exact absurd hs id
    · exact (acts_scale hdt c).pass o hs hd hsrc x y h
  det := by
    intro o _ hd x y h
    cases o with
    | measure =>
      simp only [Optic.apply, measure] at h ⊢
      rw [← h]; congr 1; funext i; rw [norm_mul, hc, one_mul]
    | photodiode D => simp only [Optic.apply, Photodiode.propagate] at h ⊢; rw [power_phase hc]; exact h
    | _ => exact absurd hd id
  conn := fun k _ _ _ _ h => conn_smul hdt c k h

theorem acts_delay {P : Prop_ n} (hdt : P.dt ≠ 0) (d : ℤ) :
    Acts P (delayed d) (delayed d) (fun o => ¬ o.IsModulator) where
  pass := by
    intro o hm hd hsrc x y h
    by_cases hs : o.Saturates
    · cases o with
      | edfa E =>
        simp only [Optic.apply] at h ⊢
        injection h with h
        rw [edfa_lti hdt, edfa_gain_congr E (y := x) (by rw [power_delayed, npMean_delayed]), lti_delayed, ← edfa_lti hdt, h]
      | photodiode D => exact absurd trivial hd
      | _ => exact absurd hs id
    · rcases apply_lti hdt hd hm hs hsrc with ⟨H, hH⟩ | ⟨e, he⟩
      · rw [hH] at h ⊢; injection h with h; rw [← h, lti_delayed]
      · rw [he] at h; cases h
  det := by
    intro o _ hd x y h
    cases o with
    | measure => simp only [Optic.apply, measure] at h ⊢; injection h with h; rw [← h]; rfl
    | photodiode D =>
      simp only [Optic.apply, Photodiode.propagate] at h ⊢
      rcases filtered_lti hdt (.butterworth D.bandwidth 1 D.order) with ⟨H, hH⟩ | ⟨e, he⟩
      · rw [hH] at h ⊢; injection h with h; rw [← h, ← lti_delayed]; rfl
      · rw [he] at h; cases h
    | _ => exact absurd hd id
  conn := fun k _ _ _ _ h => conn_delayed hdt d k h

/-- **C69.** Global phase: turning the phase of all sources by the same angle changes no detector reading and no power anywhere, in any
system — saturating amplifiers, modulators and splitters included. -/
theorem C69_global_phase (hn : 2 ≤ n) {P : Prop_ n} (hwin : 0 < P.window) {g : Graph} (hw : g.WF) {optic : Comp → Optic n} {conn : Comp → Connector}
    {hasNoise : Comp → Bool} (hp : Plumbed g optic conn) {inp : Signal n} {old st : Store (Signal n)} (old' : Store (Signal n))
    (h : propagate g (physics P optic conn hasNoise) inp old = .ok st) {c : ℂ} (hc : ‖c‖ = 1) :
    ∃ st', propagate g (physics P (fun k => (optic k).mapSource (fun x i => c * x i)) conn hasNoise) inp old' = .ok st' ∧
      (∀ k s, st k = some s → ∃ s', st' k = some s' ∧ ∀ i, ‖s' i‖ = ‖s i‖) ∧
      (∀ e ∈ g.edges, (optic e.comp).IsDetector → st' (.edge e.ref) = st (.edge e.ref)) ∧
      (∀ v, ReadBy g optic v → st' (.node v) = st (.node v)) := by
  obtain ⟨st', h1, h2, h3, h4⟩ := (acts_phase (dt_ne_zero hn hwin) hc).propagate hw hp (fun _ _ => trivial) old' h
  have hF := ((propagate_iff hw).1 h).2
  refine ⟨st', h1, fun k s hs => ?_, fun e he hd => ?_, fun v hv => ?_⟩
  · cases k with
    | edge r =>
      rcases hF.only (.edge r) (by rw [hs]; simp) with ⟨e, he, hk⟩ | ⟨_, _, _, hk⟩
      · rw [hk] at hs ⊢
        by_cases hd : (optic e.comp).IsDetector
        · exact ⟨_, (h2 e he s hs).1 hd, fun i => rfl⟩
        · exact ⟨_, (h2 e he s hs).2 hd, fun i => by rw [norm_mul, hc, one_mul]⟩
      · cases hk
    | node v =>
      by_cases hd : ReadBy g optic v
      · exact ⟨_, (h3 v s hs).1 hd, fun i => rfl⟩
      · exact ⟨_, (h3 v s hs).2 hd, fun i => by rw [norm_mul, hc, one_mul]⟩
  · cases hs : st (.edge e.ref) with
    | none => exact h4 _ hs
    | some s => exact (h2 e he s hs).1 hd
  · cases hs : st (.node v) with
    | none => exact h4 _ hs
    | some s => exact (h3 v s hs).1 hv

/-- **C69.** Time shift: without modulators (which have a clock of their own), delaying all sources by `d` samples delays every state of the
system by `d` samples — also behind saturating amplifiers and photodiodes. -/
theorem C69_time_shift (hn : 2 ≤ n) {P : Prop_ n} (hwin : 0 < P.window) {g : Graph} (hw : g.WF) {optic : Comp → Optic n} {conn : Comp → Connector}
    {hasNoise : Comp → Bool} (hp : Plumbed g optic conn) (hmod : ∀ e ∈ g.edges, ¬ (optic e.comp).IsModulator) {inp : Signal n}
    {old st : Store (Signal n)} (old' : Store (Signal n)) (h : propagate g (physics P optic conn hasNoise) inp old = .ok st) (d : ℤ) :
    propagate g (physics P (fun k => (optic k).mapSource (delayed d)) conn hasNoise) inp old' = .ok (fun k => (st k).map (delayed d)) := by
  obtain ⟨st', h1, h2, h3, h4⟩ := (acts_delay (dt_ne_zero hn hwin) d).propagate hw hp hmod old' h
  have hF := ((propagate_iff hw).1 h).2
  rw [h1]; congr 1; funext k
  cases hs : st k with
  | none => exact h4 k hs
  | some s =>
    cases k with
    | edge r =>
      rcases hF.only (.edge r) (by rw [hs]; simp) with ⟨e, he, hk⟩ | ⟨_, _, _, hk⟩
      · rw [hk] at hs ⊢
        by_cases hd : (optic e.comp).IsDetector
        · exact (h2 e he s hs).1 hd
        · exact (h2 e he s hs).2 hd
      · cases hk
    | node v =>
      by_cases hd : ReadBy g optic v
      · exact (h3 v s hs).1 hd
      · exact (h3 v s hs).2 hd

/-- **C69.** Power: without saturating components, sources `‖c‖²` times as strong give readings `‖c‖²` times as high, and fields `c` times the old ones. -/
theorem C69_power_scaling (hn : 2 ≤ n) {P : Prop_ n} (hwin : 0 < P.window) {g : Graph} (hw : g.WF) {optic : Comp → Optic n} {conn : Comp → Connector}
    {hasNoise : Comp → Bool} (hp : Plumbed g optic conn) (hsat : ∀ e ∈ g.edges, ¬ (optic e.comp).Saturates) {inp : Signal n}
    {old st : Store (Signal n)} (old' : Store (Signal n)) (h : propagate g (physics P optic conn hasNoise) inp old = .ok st) (c : ℂ) :
    ∃ st', propagate g (physics P (fun k => (optic k).mapSource (fun x i => c * x i)) conn hasNoise) inp old' = .ok st' ∧
      (∀ e ∈ g.edges, ∀ s, st (.edge e.ref) = some s →
        ((optic e.comp).IsDetector → st' (.edge e.ref) = some (fun i => ((‖c‖ ^ 2 : ℝ) : ℂ) * s i)) ∧
        (¬ (optic e.comp).IsDetector → st' (.edge e.ref) = some (fun i => c * s i))) ∧
      (∀ v s, st (.node v) = some s →
        (ReadBy g optic v → st' (.node v) = some (fun i => ((‖c‖ ^ 2 : ℝ) : ℂ) * s i)) ∧
        (¬ ReadBy g optic v → st' (.node v) = some (fun i => c * s i))) := by
  obtain ⟨st', h1, h2, h3, -⟩ := (acts_scale (dt_ne_zero hn hwin) c).propagate hw hp hsat old' h
  exact ⟨st', h1, h2, h3⟩

/-- **C69.** Superposition: in a system of linear components the fields emitted in two runs add up, at every edge and output node: with the
sources emitting `a f₁ + b f₂` every state is `a` times the state for `f₁` plus `b` times the state for `f₂`. -/
theorem C69_superposition (hn : 2 ≤ n) {P : Prop_ n} (hwin : 0 < P.window) {g : Graph} (hw : g.WF) {optic : Comp → Optic n} {conn : Comp → Connector}
    {hasNoise : Comp → Bool} (hp : Plumbed g optic conn) (hl : ∀ e ∈ g.edges, ¬ (optic e.comp).IsDetector ∧ ¬ (optic e.comp).Saturates)
    (f1 f2 : Comp → Signal n) {inp : Signal n} {old1 old2 st1 st2 : Store (Signal n)} (old : Store (Signal n))
    (h1 : propagate g (physics P (fun c => (optic c).mapSource (fun _ => f1 c)) conn hasNoise) inp old1 = .ok st1)
    (h2 : propagate g (physics P (fun c => (optic c).mapSource (fun _ => f2 c)) conn hasNoise) inp old2 = .ok st2) (a b : ℂ) :
    ∃ st, propagate g (physics P (fun c => (optic c).mapSource (fun _ i => a * f1 c i + b * f2 c i)) conn hasNoise) inp old = .ok st ∧
      ∀ k, (st k = none ∧ st1 k = none ∧ st2 k = none) ∨
        ∃ s1 s2, st1 k = some s1 ∧ st2 k = some s2 ∧ st k = some (fun i => a * s1 i + b * s2 i) := by
  obtain ⟨ho, F1⟩ := (propagate_iff hw).1 h1
  obtain ⟨-, F2⟩ := (propagate_iff hw).1 h2
  refine ⟨_, (propagate_iff hw).2 ⟨ho, mix_flow (dt_ne_zero hn hwin) a b hw hp hl f1 f2 F1 F2⟩, fun k => ?_⟩
  have hdom : ∀ {B : Behav (Signal n)} {st}, IsFlow g B inp st → (st k ≠ none ↔ (∃ e ∈ g.edges, k = .edge e.ref) ∨ (∃ n ∈ g.nodes, g.IsSink n.id ∧ k = .node n.id)) := by
    intro B st hF
    refine ⟨hF.only k, ?_⟩
    rintro (⟨e, he, rfl⟩ | ⟨m, hm, hs, rfl⟩)
    · obtain ⟨_, _, _, _, _, _, _, s2, _, _, _, _, _, h⟩ := hF.edges e he
      rw [h]; simp
    · obtain ⟨_, s, _, _, h⟩ := hF.sinks m hm hs
      rw [h]; simp
  cases e1 : st1 k with
  | none =>
    refine .inl ⟨by simp, rfl, ?_⟩
    by_contra h
    exact (hdom F1).2 ((hdom F2).1 h) e1
  | some s1 =>
    cases e2 : st2 k with
    | none => exact absurd e2 ((hdom F2).2 ((hdom F1).1 (by rw [e1]; simp)))
    | some s2 => exact .inr ⟨s1, s2, rfl, rfl, by simp only [Option.map_some, Option.getD_some]; rfl⟩

/-- **C69.** In terms of the lasers' parameters: `peak_power` times `r²` is the field times `r` (both laser models, every pulse shape). -/
theorem C69_laser_power (P : Prop_ n) {r : ℝ} (hr : 0 ≤ r) (peak width rep : ℝ) (shape : String) (x : Signal n) :
    (cwLaser (r ^ 2 * peak) x = fun i => (r : ℂ) * cwLaser peak x i) ∧
    (∀ y, pulsedLaser P width rep peak shape x = .ok y → pulsedLaser P width rep (r ^ 2 * peak) shape x = .ok (fun i => (r : ℂ) * y i)) := by
  have hs : ((Real.sqrt (r ^ 2 * peak) : ℝ) : ℂ) = (r : ℂ) * (Real.sqrt peak : ℂ) := by
    rw [Real.sqrt_mul (by positivity), Real.sqrt_sq hr]; push_cast; ring
  have hp : ∀ t b, pulseAt t width rep (r ^ 2 * peak) shape b = (pulseAt t width rep peak shape b).map (fun z => (r : ℂ) * z) := by
    intro t b
    unfold pulseAt
    split
    · simp only [Except.map, hs]; congr 1; ring
    split
    · simp only [Except.map, hs]; congr 1; ring
    split
    · simp only [Except.map, hs]; congr 1; ring
    · rfl
  refine ⟨?_, fun y hy => ?_⟩
  · funext i; simp only [cwLaser, hs]; ring
  · unfold pulsedLaser at hy ⊢
    rw [hp]
    cases h0 : pulseAt 0 width rep peak shape false with
    | error e => rw [h0] at hy; cases hy
    | ok z =>
      rw [h0] at hy
      simp only [Except.map] at hy ⊢
      injection hy with hy
      rw [← hy]
      congr 1; funext i
      simp only
      rw [hp]
      generalize pulseAt (P.t i) width rep peak shape (decide (i.val = 0)) = q
      cases q with
      | error e => simp [Except.map]
      | ok z => simp [Except.map]

/-! ### A Mach–Zehnder interferometer: source, splitter, two arms (fibre and another component), combiner, detector -/

namespace Mzi
open Fixture

noncomputable def optic (field : Signal 4) (arm last : Optic 4) (c : Comp) : Optic 4 :=
  if c.uid = 4 then .source field else if c.uid = 5 then .fiber 1000 else if c.uid = 6 then arm else last

noncomputable def conn (c : Comp) : Connector :=
  if c.uid = 2 then .splitter [1 / 2] else if c.uid = 3 then .splitter [] else .terminal

theorem plumbed (x : Signal 4) {arm : Optic 4} (ha : ¬ arm.IsDetector) (last : Optic 4) : Plumbed g (optic x arm last) conn where
  entry := by
    intro e he hs
    simp only [g, List.mem_cons, List.not_mem_nil, or_false] at he
    rcases he with rfl | rfl | rfl | rfl
    · exact ⟨x, rfl⟩
    · exact absurd rfl (hs ⟨0, 1, 0, laser 4, 10⟩ (by decide))
    · exact absurd rfl (hs ⟨0, 1, 0, laser 4, 10⟩ (by decide))
    · exact absurd rfl (hs ⟨1, 2, 0, Fixture.fiber 5, 30⟩ (by decide))
  joined := by decide
  exit := by
    intro e he hd
    simp only [g, List.mem_cons, List.not_mem_nil, or_false] at he
    rcases he with rfl | rfl | rfl | rfl
    · exact absurd hd id
    · exact absurd hd id
    · exact absurd hd ha
    · intro m hm hid
      simp only [g, List.mem_cons, List.not_mem_nil, or_false] at hm
      rcases hm with rfl | rfl | rfl | rfl
      · exact absurd hid (by decide)
      · exact absurd hid (by decide)
      · exact absurd hid (by decide)
      · exact ⟨⟨by decide, by decide⟩, rfl⟩

theorem enough {P : Prop_ 4} {x : Signal 4} {arm last : Optic 4} (ha : ∀ y, ∃ z, arm.apply P y = .ok z) (hl : ∀ y, ∃ z, last.apply P y = .ok z)
    (hasNoise : Comp → Bool) : Enough g (physics P (optic x arm last) conn hasNoise) where
  node := by
    intro m hm ins hin
    simp only [g, List.mem_cons, List.not_mem_nil, or_false] at hm
    rcases hm with rfl | rfl | rfl | rfl
    · exact ⟨ins, rfl, by rw [hin]; decide⟩
    · refine ⟨(splitWeights [(1 / 2 : ℝ)]).zipIdx.map (fun p => fun t => splitRow 1 2 p.1 p.2 (ins.map (· t))), ?_, by simp [splitWeights]; decide⟩
      show splitSignals [1 / 2] 1 2 ins = _
      have h1 : ins.length = 1 := hin
      unfold splitSignals
      rw [if_neg (by simp [h1, splitWeights]), if_neg (by simp [splitWeights]; norm_num)]
    · refine ⟨(splitWeights ([] : List ℝ)).zipIdx.map (fun p => fun t => splitRow 2 1 p.1 p.2 (ins.map (· t))), ?_, by simp [splitWeights]; decide⟩
      show splitSignals [] 2 1 ins = _
      have h1 : ins.length = 2 := hin
      unfold splitSignals
      rw [if_neg (by simp [h1, splitWeights]), if_neg (by simp [splitWeights])]
    · exact ⟨ins, rfl, by rw [hin]; decide⟩
  edge := by
    intro e he s
    simp only [g, List.mem_cons, List.not_mem_nil, or_false] at he
    rcases he with rfl | rfl | rfl | rfl
    · exact ⟨x, rfl⟩
    · exact ⟨_, rfl⟩
    · exact ha s
    · exact hl s
  noise := by
    intro e _ f hf s
    simp only [physics] at hf
    split at hf
    · injection hf with hf; exact ⟨s, by rw [← hf]⟩
    · cases hf

theorem runs {P : Prop_ 4} (x : Signal 4) {arm last : Optic 4} (ha : ∀ y, ∃ z, arm.apply P y = .ok z) (hl : ∀ y, ∃ z, last.apply P y = .ok z)
    (hasNoise : Comp → Bool) (inp : Signal 4) : ∃ st, propagate g (physics P (optic x arm last) conn hasNoise) inp Store.empty = .ok st :=
  (C17_propagate_acyclic g_wf (enough ha hl hasNoise) inp _).1 g_acyclic

/-- With an amplifier in one arm and a power meter at the end: the phase of the source does not matter. -/
example (x inp : Signal 4) (E : Edfa) : ∃ st st', propagate g (physics demoProp (optic x (.edfa E) .measure) conn (fun _ => true)) inp Store.empty = .ok st ∧
    propagate g (physics demoProp (fun k => (optic x (.edfa E) .measure k).mapSource (fun y i => I * y i)) conn (fun _ => true)) inp Store.empty = .ok st' ∧
    st' (.node 3) = st (.node 3) := by
  obtain ⟨st, h⟩ := runs (P := demoProp) x (arm := .edfa E) (last := .measure) (fun y => ⟨_, rfl⟩) (fun y => ⟨_, rfl⟩) (fun _ => true) inp
  obtain ⟨st', h1, -, -, h2⟩ := C69_global_phase (by norm_num) (by norm_num [demoProp]) g_wf (plumbed x (arm := .edfa E) id .measure) Store.empty h Complex.norm_I
  exact ⟨st, st', h, h1, h2 3 ⟨⟨2, 3, 0, diode 7, 20⟩, by decide, trivial⟩⟩

/-- … its arrival time shows at the output … -/
example (x inp : Signal 4) (E : Edfa) : ∃ st, propagate g (physics demoProp (optic x (.edfa E) .measure) conn (fun _ => true)) inp Store.empty = .ok st ∧
    propagate g (physics demoProp (fun k => (optic x (.edfa E) .measure k).mapSource (delayed 3)) conn (fun _ => true)) inp Store.empty =
      .ok (fun k => (st k).map (delayed 3)) := by
  obtain ⟨st, h⟩ := runs (P := demoProp) x (arm := .edfa E) (last := .measure) (fun y => ⟨_, rfl⟩) (fun y => ⟨_, rfl⟩) (fun _ => true) inp
  refine ⟨st, h, C69_time_shift (by norm_num) (by norm_num [demoProp]) g_wf (plumbed x (arm := .edfa E) id .measure) ?_ Store.empty h 3⟩
  intro e he
  simp only [g, List.mem_cons, List.not_mem_nil, or_false] at he
  rcases he with rfl | rfl | rfl | rfl <;> exact id

theorem linear {x : Signal 4} {arm last : Optic 4} (ha : ¬ arm.IsDetector ∧ ¬ arm.Saturates) (hl : ¬ last.IsDetector ∧ ¬ last.Saturates) :
    ∀ e ∈ g.edges, ¬ (optic x arm last e.comp).IsDetector ∧ ¬ (optic x arm last e.comp).Saturates := by
  intro e he
  simp only [g, List.mem_cons, List.not_mem_nil, or_false] at he
  rcases he with rfl | rfl | rfl | rfl
  · exact ⟨id, id⟩
  · exact ⟨id, id⟩
  · exact ha
  · exact hl

/-- … three times the field reads nine times the power (a phase modulator in the second arm) … -/
example (x inp : Signal 4) : ∃ st st' s, propagate g (physics demoProp (optic x (.phaseMod 1 2 0) .measure) conn (fun _ => false)) inp Store.empty = .ok st ∧
    propagate g (physics demoProp (fun k => (optic x (.phaseMod 1 2 0) .measure k).mapSource (fun y i => 3 * y i)) conn (fun _ => false)) inp Store.empty = .ok st' ∧
    st (.node 3) = some s ∧ st' (.node 3) = some (fun i => 9 * s i) := by
  obtain ⟨st, h⟩ := runs (P := demoProp) x (arm := .phaseMod 1 2 0) (last := .measure) (fun y => ⟨_, rfl⟩) (fun y => ⟨_, rfl⟩) (fun _ => false) inp
  obtain ⟨st', h1, -, h2⟩ := C69_power_scaling (by norm_num) (by norm_num [demoProp]) g_wf (plumbed x (arm := .phaseMod 1 2 0) id .measure) (by
    intro e he
    simp only [g, List.mem_cons, List.not_mem_nil, or_false] at he
    rcases he with rfl | rfl | rfl | rfl <;> exact id) Store.empty h 3
  obtain ⟨_, s, _, _, hs⟩ := ((propagate_iff g_wf).1 h).2.sinks ⟨3, snk, 2⟩ (by decide) ⟨by decide, by decide⟩
  refine ⟨st, st', s, h, h1, hs, ?_⟩
  have := (h2 3 s hs).1 ⟨⟨2, 3, 0, diode 7, 20⟩, by decide, trivial⟩
  rw [this]
  norm_num

/-- … and fields add up (a filter at the end). -/
example (x f1 f2 inp : Signal 4) : ∃ st1 st2 st s1 s2,
    propagate g (physics demoProp (fun k => (optic x (.phaseMod 1 2 0) (.voa (-3)) k).mapSource (fun _ => f1)) conn (fun _ => false)) inp Store.empty = .ok st1 ∧
    propagate g (physics demoProp (fun k => (optic x (.phaseMod 1 2 0) (.voa (-3)) k).mapSource (fun _ => f2)) conn (fun _ => false)) inp Store.empty = .ok st2 ∧
    propagate g (physics demoProp (fun k => (optic x (.phaseMod 1 2 0) (.voa (-3)) k).mapSource (fun _ i => 2 * f1 i + I * f2 i)) conn (fun _ => false)) inp Store.empty = .ok st ∧
    st1 (.node 3) = some s1 ∧ st2 (.node 3) = some s2 ∧ st (.node 3) = some (fun i => 2 * s1 i + I * s2 i) := by
  have hsrc : ∀ f : Signal 4, (fun k => (optic x (.phaseMod 1 2 0) (.voa (-3)) k).mapSource (fun _ => f)) = optic f (.phaseMod 1 2 0) (.voa (-3)) := by
    intro f; funext k; unfold optic; split
    · rfl
    split
    · rfl
    split <;> rfl
  have hr := fun f => runs (P := demoProp) f (arm := .phaseMod 1 2 0) (last := .voa (-3)) (fun y => ⟨_, rfl⟩) (fun y => ⟨_, rfl⟩) (fun _ => false) inp
  obtain ⟨st1, h1⟩ := hr f1
  obtain ⟨st2, h2⟩ := hr f2
  rw [← hsrc] at h1 h2
  obtain ⟨st, h, hk⟩ := C69_superposition (by norm_num) (by norm_num [demoProp]) g_wf (plumbed x (arm := .phaseMod 1 2 0) id (.voa (-3)))
    (linear ⟨id, id⟩ ⟨id, id⟩) (fun _ => f1) (fun _ => f2) Store.empty h1 h2 2 I
  obtain ⟨_, s, _, _, hs⟩ := ((propagate_iff g_wf).1 h1).2.sinks ⟨3, snk, 2⟩ (by decide) ⟨by decide, by decide⟩
  rcases hk (.node 3) with ⟨_, h0, _⟩ | ⟨s1, s2, e1, e2, e3⟩
  · rw [h0] at hs; cases hs
  · exact ⟨st1, st2, st, s1, s2, h1, h2, h, e1, e2, e3⟩

end Mzi

end Verif
