import Verif.Lemmas.Smooth
import Verif.Props.Splitter
/-! # Components are continuous functions of their settings, up to the bounds -/

namespace Verif
open Filter Topology

variable {n : Nat} {X : Type} [TopologicalSpace X] {K : Set X} {x₀ : X}

/-- What an edge does, as a function of parameters that move within `K`. -/
theorem edge_cont (P : Prop_ n) {N : Nat} {o : (Fin N → ℝ) → Optic n} {a : X → Fin N → ℝ} (ha : ContinuousWithinAt a K x₀) {s : X → Signal n}
    (hs : ContinuousWithinAt s K x₀) (ho : Optic.SmoothAt 0 (a x₀, s x₀) (fun q : (Fin N → ℝ) × Signal n => o q.1)) {y₀ : Signal n}
    (h : (o (a x₀)).apply P (s x₀) = .ok y₀) :
    ∃ y : X → Signal n, ContinuousWithinAt y K x₀ ∧ ∀ᶠ x in 𝓝[K] x₀, (o (a x)).apply P (s x) = .ok (y x) := by
  obtain ⟨y, h1, h2⟩ := optic_family P ho (x := Prod.snd) contDiffAt_snd h
  have ht : Tendsto (fun x => (a x, s x)) (𝓝[K] x₀) (𝓝 (a x₀, s x₀)) := ha.prodMk hs
  exact ⟨fun x => y (a x, s x), h1.continuousAt.tendsto.comp ht, ht.eventually h2⟩

theorem cw_listSum {F : Type} [NormedAddCommGroup F] : ∀ {L : List (X → F)}, (∀ f ∈ L, ContinuousWithinAt f K x₀) →
    ContinuousWithinAt (fun x => (L.map (· x)).sum) K x₀
  | [], _ => by simpa using continuousWithinAt_const
  | f :: L, h => by
    simp only [List.map_cons, List.sum_cons]
    exact (h f (by simp)).add (cw_listSum fun f' hf' => h f' (by simp [hf']))

omit [TopologicalSpace X] in
theorem list_family {α : Type} (ss : List (X → α)) (x : X) : (List.finRange ss.length).map (fun i => ss[i] x) = ss.map (· x) := by
  apply List.ext_getElem
  · simp
  · intro i h1 h2
    rw [List.getElem_map, List.getElem_map]
    have : (List.finRange ss.length)[i]'(by simpa using h1) = ⟨i, by simpa using h1⟩ := by simp
    rw [this]
    rfl

/-- What a power splitter does, with ratios within their bounds in `K`. -/
theorem splitter_cont (P : Prop_ n) {N : Nat} {a : X → Fin N → ℝ} (ha : ContinuousWithinAt a K x₀) (h01 : ∀ x ∈ K, ∀ i, 0 ≤ a x i ∧ a x i ≤ 1)
    {ss : List (X → Signal n)} (hs : ∀ s ∈ ss, ContinuousWithinAt s K x₀) (nIn nOut : Nat) {o : List (Signal n)}
    (h : (Connector.splitter (List.ofFn (a x₀))).apply P (ss.map (· x₀)) nIn nOut = .ok o) :
    ∃ outs : List (X → Signal n), (∀ s ∈ outs, ContinuousWithinAt s K x₀) ∧
      ∀ᶠ x in 𝓝[K] x₀, (Connector.splitter (List.ofFn (a x))).apply P (ss.map (· x)) nIn nOut = .ok (outs.map (· x)) := by
  obtain ⟨W, hW, hW', -⟩ := splitWeights_family (E := Fin N → ℝ) (k := 0) (θ₀ := a x₀) (a := List.ofFn (fun i : Fin N => fun q : Fin N → ℝ => q i)) (by
    intro f hf
    obtain ⟨i, rfl⟩ := (List.mem_ofFn' _ _).1 hf
    exact contDiffAt_pi.1 contDiffAt_id i)
  have he : ∀ q : Fin N → ℝ, (List.ofFn (fun i : Fin N => fun q : Fin N → ℝ => q i)).map (· q) = List.ofFn q := by
    intro q
    rw [List.map_ofFn]
    rfl
  have hW2 : ∀ x, splitWeights (List.ofFn (a x)) = W.map (· (a x)) := fun x => by rw [← he, hW']
  have hap : ∀ x, (Connector.splitter (List.ofFn (a x))).apply P (ss.map (· x)) nIn nOut = splitSignals (List.ofFn (a x)) nIn nOut (ss.map (· x)) := fun x => rfl
  have hpos : ∀ x ∈ K, ¬ ∃ w ∈ splitWeights (List.ofFn (a x)), w < 0 := by
    rintro x hx ⟨w, hw, hneg⟩
    refine absurd (C38_nonneg (fun y hy => ?_) w hw).1 (not_le.2 hneg)
    obtain ⟨i, rfl⟩ := (List.mem_ofFn' _ _).1 hy
    exact h01 x hx i
  unfold splitSignals at hap
  simp only [hW2, List.length_map] at hap
  by_cases hlen : ss.length ≠ nIn ∨ W.length ≠ nOut
  · simp only [if_pos hlen] at hap
    rw [hap x₀] at h; cases h
  · simp only [if_neg hlen] at hap
    refine ⟨W.zipIdx.map (fun p => fun x t => splitRow nIn nOut (p.1 (a x)) p.2 ((ss.map (· x)).map (· t))), ?_, ?_⟩
    · intro s hs'
      obtain ⟨p, hp, rfl⟩ := List.mem_map.1 hs'
      have hp1 := List.fst_mem_of_mem_zipIdx hp
      refine continuousWithinAt_pi.2 fun t => ?_
      have he : (fun x => splitRow nIn nOut (p.1 (a x)) p.2 ((ss.map (· x)).map (· t))) = fun x =>
          ((ss.zipIdx.map (fun q => fun x => ((Real.sqrt (p.1 (a x)) / Real.sqrt nOut : ℝ) : ℂ) * splitPhase nIn nOut q.2 p.2 * q.1 x t)).map (· x)).sum := by
        funext x
        unfold splitRow
        rw [List.map_map, List.zipIdx_map, List.map_map, List.map_map]
        rfl
      rw [he]
      refine cw_listSum fun f hf => ?_
      obtain ⟨q, hq, rfl⟩ := List.mem_map.1 hf
      have h1 : ContinuousWithinAt (fun x => p.1 (a x)) K x₀ := (hW _ hp1).continuousAt.tendsto.comp ha
      have h2 : ContinuousWithinAt (fun x => ((Real.sqrt (p.1 (a x)) / Real.sqrt nOut : ℝ) : ℂ)) K x₀ :=
        Complex.continuous_ofReal.continuousAt.comp_continuousWithinAt (h1.sqrt.div_const _)
      exact (h2.mul continuousWithinAt_const).mul (continuousWithinAt_pi.1 (hs _ (List.fst_mem_of_mem_zipIdx hq)) t)
    · filter_upwards [self_mem_nhdsWithin] with x hx
      have := hpos x hx
      rw [hW2] at this
      rw [hap x, if_neg this]
      rw [List.zipIdx_map, List.map_map, List.map_map]
      rfl

/-- What a frequency splitter does. -/
theorem freqSplitter_cont (P : Prop_ n) {N : Nat} {a : X → Fin N → ℝ} (ha : ContinuousWithinAt a K x₀) {ss : List (X → Signal n)}
    (hs : ∀ s ∈ ss, ContinuousWithinAt s K x₀) (nIn nOut : Nat) :
    ∃ outs : List (X → Signal n), (∀ s ∈ outs, ContinuousWithinAt s K x₀) ∧
      ∀ᶠ x in 𝓝[K] x₀, (Connector.freqSplitter (List.ofFn (a x))).apply P (ss.map (· x)) nIn nOut = .ok (outs.map (· x)) := by
  have he : ∀ q : (Fin N → ℝ) × (Fin ss.length → Signal n), (List.ofFn (fun i : Fin N => fun q : (Fin N → ℝ) × (Fin ss.length → Signal n) => q.1 i)).map (· q) = List.ofFn q.1 := by
    intro q
    rw [List.map_ofFn]
    rfl
  obtain ⟨x1, hx1⟩ : ∃ x1 : (Fin N → ℝ) × (Fin ss.length → Signal n), x1 = (a x₀, fun i => ss[i] x₀) := ⟨_, rfl⟩
  obtain ⟨outs, h1, h2⟩ := connector_family (E := (Fin N → ℝ) × (Fin ss.length → Signal n)) (k := 0) (θ₀ := x1) P
    (c := fun q => .freqSplitter ((List.ofFn (fun i : Fin N => fun q : (Fin N → ℝ) × (Fin ss.length → Signal n) => q.1 i)).map (· q)))
    (.freqSplitter (by
      intro f hf
      obtain ⟨i, rfl⟩ := (List.mem_ofFn' _ _).1 hf
      exact contDiffAt_pi.1 contDiffAt_fst i))
    (ss := (List.finRange ss.length).map (fun i => fun q : (Fin N → ℝ) × (Fin ss.length → Signal n) => q.2 i)) (by
      intro s hs'
      obtain ⟨i, -, rfl⟩ := List.mem_map.1 hs'
      exact contDiffAt_pi.1 contDiffAt_snd i) nIn nOut rfl
  have ht : Tendsto (fun x => ((a x, fun i => ss[i] x) : (Fin N → ℝ) × (Fin ss.length → Signal n))) (𝓝[K] x₀) (𝓝 x1) := by
    rw [hx1]
    exact ha.prodMk (continuousWithinAt_pi.2 fun i => hs _ (List.getElem_mem _))
  refine ⟨outs.map (fun f => fun x => f (a x, fun i => ss[i] x)), ?_, (ht.eventually h2).mono fun x hx => ?_⟩
  · intro s hs'
    obtain ⟨f, hf, rfl⟩ := List.mem_map.1 hs'
    have h3 : ContinuousAt f x1 := (h1 f hf).continuousAt
    rw [hx1] at h3 ht
    exact h3.tendsto.comp ht
  · rw [he, List.map_map] at hx
    have e1 : (List.finRange ss.length).map ((fun f => f (a x, fun i => ss[i] x)) ∘ fun i => fun q : (Fin N → ℝ) × (Fin ss.length → Signal n) => q.2 i) = ss.map (· x) :=
      list_family ss x
    rw [e1] at hx
    rw [hx, List.map_map]
    rfl

end Verif
