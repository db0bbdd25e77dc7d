import Verif.Spec.Dark
import Verif.Props.Interferometer
/-! # Components in the dark -/

namespace Verif
open Graph Complex

variable {n : Nat}

theorem npFft_dark : npFft (fun _ : Fin n => (0 : ℂ)) = fun _ => 0 := by
  funext k; unfold npFft; simp

theorem npIfft_dark : npIfft (fun _ : Fin n => (0 : ℂ)) = fun _ => 0 := by
  funext k; unfold npIfft; simp

theorem fft_dark (dt : ℝ) : fft_ (fun _ : Fin n => (0 : ℂ)) dt = fun _ => 0 := by
  unfold fft_; rw [npFft_dark]; simp

theorem ifft_dark (dt : ℝ) : ifft_ (fun _ : Fin n => (0 : ℂ)) dt = fun _ => 0 := by
  unfold ifft_; rw [npIfft_dark]; simp

theorem freqMul_dark (H : Signal n) (dt : ℝ) : freqMul H dt (fun _ => 0) = fun _ => 0 := by
  unfold freqMul
  rw [fft_dark]
  simp only [mul_zero]
  exact ifft_dark dt

theorem dbScale_dark (a : ℝ) : dbScale a (fun _ : Fin n => (0 : ℂ)) = fun _ => 0 := by
  unfold dbScale; simp

theorem sdlLoop_dark (P : Prop_ n) (l : List (ℝ × ℝ)) : sdlLoop P l (fun _ => 0, fun _ => 0) = (fun _ => 0, fun _ => 0) := by
  induction l with
  | nil => rfl
  | cons p l ih =>
    rw [sdlLoop]
    have : sdlStage P p.1 p.2 (fun _ => 0, fun _ => 0) = (fun _ => 0, fun _ => 0) := by
      unfold sdlStage; simp
    rw [this, ih]

theorem filteredTime_dark {P : Prop_ n} {sh : Shape} {y : Signal n} (h : filteredTime P sh (fun _ => 0) = .ok y) : y = fun _ => 0 := by
  unfold filteredTime at h
  split at h
  · cases h
  · injection h with h
    rw [← h, fft_dark]
    simp only [zero_mul]
    exact ifft_dark _

/-- Components make no light out of darkness, unless they are sources. -/
theorem apply_dark {P : Prop_ n} {o : Optic n} (h : ¬ o.IsSource) {y : Signal n} (hy : o.apply P (fun _ => 0) = .ok y) : y = fun _ => 0 := by
  cases o with
  | source x => exact absurd trivial h
  | fiber l =>
    simp only [Optic.apply, Verif.fiber, Bool.false_eq_true, if_false] at hy
    injection hy with hy; rw [← hy, freqMul_dark, dbScale_dark]
  | voa a => injection hy with hy; rw [← hy]; exact dbScale_dark _
  | phaseMod d f s => injection hy with hy; rw [← hy]; simp only [phaseMod, zero_mul]; exact dbScale_dark _
  | intensityMod d f b => injection hy with hy; rw [← hy]; simp only [intensityMod, zero_mul, zero_div, add_zero]; exact dbScale_dark _
  | waveShaper a p =>
    simp only [Optic.apply, waveShaper] at hy
    split at hy
    · injection hy with hy; rw [← hy, freqMul_dark, dbScale_dark]
    · cases hy
    · cases hy
  | splitDelay r =>
    injection hy with hy; rw [← hy]; simp only [splitDelay]
    rw [fft_dark, sdlLoop_dark, ifft_dark, dbScale_dark]
  | delayLine d => injection hy with hy; rw [← hy]; simp only [delayLine]; rw [freqMul_dark, dbScale_dark]
  | intDelayLine d => injection hy with hy; rw [← hy]; simp only [intDelayLine, delayLine]; rw [freqMul_dark, dbScale_dark]
  | waveguide => injection hy with hy; rw [← hy]; rfl
  | phaseShifter p =>
    simp only [Optic.apply, Verif.phaseShifter, Bool.false_eq_true, if_false] at hy
    injection hy with hy; rw [← hy, freqMul_dark]
  | edfa E =>
    injection hy with hy; rw [← hy]; unfold Edfa.propagate
    rw [fft_dark]; simp only [mul_zero]; exact ifft_dark _
  | progFilter a p =>
    simp only [Optic.apply, progFilter] at hy
    split at hy
    · cases hy
    · injection hy with hy; rw [← hy, freqMul_dark, dbScale_dark]
  | squareFilter b =>
    simp only [Optic.apply, squareFilter] at hy
    split at hy
    · cases hy
    · injection hy with hy; rw [← hy, freqMul_dark, dbScale_dark]
  | measure => injection hy with hy; rw [← hy]; funext i; simp [measure]
  | photodiode D =>
    have : (fun i => ((D.current (power_ (fun _ : Fin n => (0 : ℂ)) i) * D.load : ℝ) : ℂ)) = fun _ => 0 := by
      funext i; simp [Photodiode.current, power_]
    simp only [Optic.apply, Photodiode.propagate] at hy
    rw [this] at hy
    exact filteredTime_dark hy

theorem splitRow_dark (nIn nOut : Nat) (w : ℝ) (j : Nat) {s : List ℂ} (h : ∀ x ∈ s, x = 0) : splitRow nIn nOut w j s = 0 := by
  unfold splitRow
  apply List.sum_eq_zero
  intro x hx
  obtain ⟨p, hp, rfl⟩ := List.mem_map.1 hx
  rw [h p.1 (List.fst_mem_of_mem_zipIdx hp), mul_zero]

theorem splitRow_shut (nIn nOut j : Nat) (s : List ℂ) : splitRow nIn nOut 0 j s = 0 := by
  unfold splitRow
  apply List.sum_eq_zero
  intro x hx
  obtain ⟨p, hp, rfl⟩ := List.mem_map.1 hx
  simp

theorem node_dark {P : Prop_ n} {c : Connector} {ins outs : List (Signal n)} {nIn nOut : Nat} (h : c.apply P ins nIn nOut = .ok outs)
    (hin : ∀ x ∈ ins, x = fun _ => 0) : ∀ y ∈ outs, y = fun _ => 0 := by
  cases c with
  | terminal => injection h with h; rw [← h]; exact hin
  | splitter a =>
    simp only [Connector.apply, splitSignals] at h
    split at h
    · cases h
    · split at h
      · cases h
      · injection h with h
        rw [← h]
        intro y hy
        obtain ⟨p, -, rfl⟩ := List.mem_map.1 hy
        funext t
        refine splitRow_dark _ _ _ _ fun x hx => ?_
        obtain ⟨z, hz, rfl⟩ := List.mem_map.1 hx
        rw [hin z hz]
  | freqSplitter a =>
    injection h with h
    rw [← h]
    intro y hy
    obtain ⟨p, -, rfl⟩ := List.mem_map.1 hy
    have : sumSignals ins = fun _ => 0 := by
      funext t
      unfold sumSignals
      apply List.sum_eq_zero
      intro x hx
      obtain ⟨z, hz, rfl⟩ := List.mem_map.1 hx
      rw [hin z hz]
    rw [this, freqMul_dark]

/-- A shut output has no share of the power. -/
theorem shut_weight {a : List ℝ} {j : Nat} (h : Shut a j) {w : ℝ} (hw : (splitWeights a)[j]? = some w) : w = 0 := by
  unfold splitWeights at hw
  by_cases hj : j < a.length
  · rw [List.getElem?_append_left (by simpa using hj)] at hw
    simp only [List.getElem?_map, List.getElem?_zipIdx, List.getElem?_eq_getElem hj, Option.map_some, Nat.zero_add, Option.some.injEq] at hw
    rw [← hw]
    rcases h with h | ⟨k, hk, h⟩
    · rw [List.getElem?_eq_getElem hj] at h
      injection h with h
      rw [h]; ring
    · have : (a.take j).prod = 0 := List.prod_eq_zero (by
        rw [List.mem_take_iff_getElem]
        have hk' : k < a.length := lt_trans hk hj
        rw [List.getElem?_eq_getElem hk'] at h
        injection h with h
        exact ⟨k, by omega, h⟩)
      rw [this, mul_zero]
  · rw [List.getElem?_append_right (by simpa using Nat.le_of_not_lt hj)] at hw
    rcases h with h | ⟨k, hk, h⟩
    · rw [List.getElem?_eq_none (Nat.le_of_not_lt hj)] at h; cases h
    · have h0 : a.prod = 0 := List.prod_eq_zero (List.mem_of_getElem? h)
      rw [h0] at hw
      have := List.mem_of_getElem? hw
      simpa using this

theorem split_shut {a : List ℝ} {ins outs : List (Signal n)} {nIn nOut : Nat} (h : splitSignals a nIn nOut ins = .ok outs) {j : Nat} (hj : Shut a j) {y : Signal n}
    (hy : outs[j]? = some y) : y = fun _ => 0 := by
  unfold splitSignals at h
  dsimp only at h
  split at h
  · cases h
  · split at h
    · cases h
    · injection h with h
      rw [← h, List.getElem?_map, List.getElem?_zipIdx] at hy
      cases hw : (splitWeights a)[j]? with
      | none => rw [hw] at hy; cases hy
      | some w =>
        rw [hw] at hy
        simp only [Option.map_some, Option.some.injEq] at hy
        rw [← hy, shut_weight hj hw]
        funext t
        exact splitRow_shut _ _ _ _

theorem physics_noise_id {P : Prop_ n} {optic : Comp → Optic n} {conn : Comp → Connector} {hasNoise : Comp → Bool} {c : Comp} {s t : Signal n}
    (h : (physics P optic conn hasNoise).noise c = none ∧ t = s ∨ ∃ f, (physics P optic conn hasNoise).noise c = some f ∧ f s = .ok t) : t = s := by
  simp only [physics] at h
  rcases h with ⟨-, h⟩ | ⟨f, h1, h2⟩
  · exact h
  · split at h1
    · injection h1 with h1; rw [← h1] at h2; injection h2 with h2; exact h2.symm
    · cases h1

section
variable {P : Prop_ n} {g : Graph} {optic optic' : Comp → Optic n} {conn conn' : Comp → Connector} {hasNoise : Comp → Bool} {inp : Signal n} {st : Store (Signal n)}

theorem ports_nodup (hw : g.WF) (v : NodeId) : (g.outEdges v).Nodup := by
  have : g.edges.Nodup := List.Nodup.of_map _ hw.refs_nodup
  exact this.filter _

theorem port_unique (hw : g.WF) {v : NodeId} {i j : Nat} {e : Edge} (hi : (g.outEdges v)[i]? = some e) (hj : (g.outEdges v)[j]? = some e) : i = j := by
  obtain ⟨h1, k1⟩ := List.getElem?_eq_some_iff.1 hi
  obtain ⟨h2, k2⟩ := List.getElem?_eq_some_iff.1 hj
  exact (List.Nodup.getElem_inj_iff (ports_nodup hw v)).1 (k1.trans k2.symm)

/-- What an edge behind an unlit port stores. -/
theorem unlit_state (hw : g.WF) (hF : IsFlow g (physics P optic conn hasNoise) inp st) {e : Edge} (hu : Unlit g (physics P optic conn hasNoise) inp st e)
    (hs : ¬ (optic e.comp).IsSource) : st (.edge e.ref) = some (fun _ => 0) := by
  obtain ⟨v, hv, outs, j, h1, h2, h3⟩ := hu
  obtain ⟨he, hsrc⟩ := mem_outEdges.1 (List.mem_of_getElem? h2)
  obtain ⟨u, hu, hid, outs', i, s, s1, s2, k1, k2, k3, k4, k5, k6⟩ := hF.edges e he
  have huv : u = v := node_unique hw hu hv (hid.trans hsrc)
  subst huv
  rw [← hid] at k2
  have hij := port_unique hw k2 h2
  subst hij
  have ho := outputs_unique k1 h1
  subst ho
  rw [h3] at k3
  injection k3 with k3
  subst k3
  rw [k6, physics_noise_id k5, apply_dark hs k4]

end

end Verif
