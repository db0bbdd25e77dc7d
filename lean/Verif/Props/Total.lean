import Verif.Spec.Total
import Verif.Props.Grow
import Verif.Props.Dark
import Verif.Props.ShapingMore
import Verif.Props.Operators
import Verif.Props.Undo
import Verif.Props.Tables
/-! # C98: designs that run at every setting within bounds -/

namespace Verif
open Graph

variable {n : Nat}

theorem roundEven_zero {x : ℝ} (hx : 0 ≤ x) : roundEven x = 0 ↔ x ≤ 1 / 2 := by
  have h0 := Int.floor_le x
  have h1 := Int.lt_floor_add_one x
  have hf : 0 ≤ ⌊x⌋ := Int.floor_nonneg.2 hx
  unfold roundEven
  constructor
  · intro h
    split at h
    · rename_i h2; rw [h] at h2; push_cast at h2; linarith
    · split at h
      · omega
      · split at h
        · rename_i h2 h3 h4
          rw [h] at h3; push_cast at h3; linarith
        · omega
  · intro h
    have hz : ⌊x⌋ = 0 := by rw [Int.floor_eq_iff]; push_cast; constructor <;> linarith
    rw [hz]
    push_cast
    split
    · rfl
    · rw [if_neg (by linarith)]

theorem pfBwInt_zero (hn : 2 ≤ n) {P : Prop_ n} (hw : 0 < P.window) : pfBwInt P = 0 ↔ 5 * 10 ^ 12 * P.window * ((n : ℝ) - 1) ≤ n := by
  have h2 : (2 : ℝ) ≤ n := by exact_mod_cast hn
  have hdf := df_pos hn hw
  have hd : P.df = n / P.window / (n - 1) := by
    unfold Prop_.df Prop_.linstep; congr 1; ring
  have hp : (0 : ℝ) ≤ pfBand / 2 / P.df := by unfold pfBand; positivity
  unfold pfBwInt
  rw [roundEven_zero hp, div_le_iff₀ hdf, hd]
  have h1 : (0 : ℝ) < n - 1 := by linarith
  have e : 1 / 2 * ((n : ℝ) / P.window / (n - 1)) = (n / 2) / (P.window * (n - 1)) := by field_simp
  rw [e, le_div_iff₀ (by positivity)]
  unfold pfBand
  constructor <;> intro h <;> nlinarith

theorem waveShaper_runs (hn : 3 ≤ n) {P : Prop_ n} (amps phases : List ℝ) (hl : phases.length = amps.length) (x : Signal n) :
    (∃ y, waveShaper P amps phases x = .ok y) ↔ ¬ (n < amps.length * wsBinLen P ∧ (amps.length * wsBinLen P - n) % 2 = 1) := by
  have la := wsMask_length (n := n) (wsRepeat (wsBinLen P) amps)
  have lp := wsMask_length (n := n) (wsRepeat (wsBinLen P) phases)
  rw [wsRepeat_length] at la lp
  rw [hl] at lp
  constructor
  · rintro ⟨y, hy⟩ h
    rw [if_pos h] at la lp
    unfold waveShaper at hy
    rw [broadcast_short la hn, broadcast_short lp hn] at hy
    cases hy
  · intro h
    rw [if_neg h] at la lp
    obtain ⟨a, ha, ha'⟩ := broadcast_of_length la
    obtain ⟨p, hp, hp'⟩ := broadcast_of_length lp
    exact ⟨_, by unfold waveShaper; rw [ha, hp]⟩

theorem binLen_iff (hn : 2 ≤ n) {P : Prop_ n} (hw : 0 < P.window) (m : Nat) : wsBinLen P = m ↔
    (m : ℝ) ≤ n * (P.window / (n - 1)) * (12 * 10 ^ 9) ∧ n * (P.window / (n - 1)) * (12 * 10 ^ 9) < m + 1 := by
  have h2 : (2 : ℝ) ≤ n := by exact_mod_cast hn
  have h1 : (0 : ℝ) < n - 1 := by linarith
  obtain ⟨k, hk⟩ : ∃ k, k = ⌊(n : ℝ) * (P.window / (n - 1)) * (12 * 10 ^ 9)⌋₊ := ⟨_, rfl⟩
  have hpos : (0 : ℝ) ≤ n * (P.window / (n - 1)) * (12 * 10 ^ 9) := by positivity
  have hk1 : (k : ℝ) ≤ n * (P.window / (n - 1)) * (12 * 10 ^ 9) := by rw [hk]; exact Nat.floor_le hpos
  have hk2 : n * (P.window / (n - 1)) * (12 * 10 ^ 9) < (k : ℝ) + 1 := by rw [hk]; exact Nat.lt_floor_add_one _
  constructor
  · intro h
    have : wsBinLen P = k := wsBinLen_eq hn hw ⟨hk1, hk2⟩
    have hm : m = k := by omega
    rw [hm]
    exact ⟨hk1, hk2⟩
  · exact fun h => wsBinLen_eq hn hw h

/-- **C98.** Which settings of a component raise: of those within bounds exactly the trapped ones do, and those raise on every light. -/
theorem C98_component (hn : 3 ≤ n) {P : Prop_ n} (hw : 0 < P.window) {S : Settings} {rest : Part → List ℝ → Optic n}
    (hrest : ∀ p ps x, ∃ y, (rest p ps).apply P x = .ok y) {p : Part} {k : Nat} {ps : List ℝ} (ha : (sheet S p k).Within ps) (x : Signal n) :
    (∃ y, (p.optic S rest ps).apply P x = .ok y) ↔ ¬ p.Trapped P S ps := by
  have hl := ha.length
  cases p with
  | squareFilter =>
    obtain ⟨b, rfl⟩ : ∃ b, ps = [b] := List.length_eq_one_iff.1 hl
    show (∃ y, squareFilter P b x = .ok y) ↔ _
    unfold squareFilter Part.Trapped
    by_cases hb : b = 0
    · simp [hb]
    · simp [hb]
  | programmableFilter =>
    show (∃ y, progFilter P _ _ x = .ok y) ↔ _
    unfold progFilter Part.Trapped
    have := pfBwInt_zero (by omega) hw
    by_cases hb : pfBwInt P = 0
    · simp [hb, this.1 hb]
    · simp [hb, mt this.2 hb]
  | waveShaper =>
    have hl' : ps.length = 2 * S.bins := hl
    show (∃ y, waveShaper P (ps.take S.bins) (ps.drop S.bins) x = .ok y) ↔ _
    rw [waveShaper_runs hn _ _ (by rw [List.length_take, List.length_drop]; omega) x, List.length_take, Nat.min_eq_left (by omega)]
    unfold Part.Trapped
    have key : (n < S.bins * wsBinLen P ∧ (S.bins * wsBinLen P - n) % 2 = 1) ↔
        ∃ m : Nat, (m : ℝ) ≤ n * (P.window / (n - 1)) * (12 * 10 ^ 9) ∧ n * (P.window / (n - 1)) * (12 * 10 ^ 9) < m + 1 ∧ n < S.bins * m ∧ (S.bins * m - n) % 2 = 1 :=
      ⟨fun h => ⟨_, ((binLen_iff (by omega) hw _).1 rfl).1, ((binLen_iff (by omega) hw _).1 rfl).2, h⟩,
        fun ⟨m, h1, h2, h3⟩ => by rw [(binLen_iff (by omega) hw m).2 ⟨h1, h2⟩]; exact h3⟩
    rw [key]
    simp
  | terminalSource | terminalSink | splitter | freqSplitter | pulsedLaser | cwLaser | noisySignal | impulse | meter | fieldMeter | photodiode =>
    refine iff_of_true (hrest _ _ x) ?_
    simp [Part.Trapped]
  | dispersiveFiber | attenuator | phaseModulator | intensityModulator | splitDelay | amplifier | delayLine | integratedDelay | waveguide | phaseShifter =>
    refine iff_of_true ⟨_, rfl⟩ ?_
    simp [Part.Trapped]

theorem freqCutoffs_length (a : List ℝ) : (freqCutoffs a).length = a.length + 2 := by
  simp [freqCutoffs, splitWeights_length]

theorem ratios_allowed {nOut : Nat} {ps : List ℝ} (h : (splitSheet nOut).Within ps) : ps.length = nOut - 1 ∧ ∀ x ∈ ps, 0 ≤ x ∧ x ≤ 1 := by
  refine ⟨h.length, fun x hx => ?_⟩
  obtain ⟨k, hk, rfl⟩ := List.getElem_of_mem hx
  have hk' : k < nOut - 1 := by rw [← show ps.length = nOut - 1 from h.length]; exact hk
  have := h.free rfl k ps[k] 0 1 (List.getElem?_eq_getElem hk) (by simp [splitSheet, hk']) (by simp [splitSheet, entries, hk']) (by simp [splitSheet, entries, hk'])
  simpa using this

/-- **C98.** Which numbers of edges a node takes: with ratios within bounds it turns the states at its inputs into one state for every output (and one to be
stored at an output node) exactly if the numbers suit its class. -/
theorem C98_node {P : Prop_ n} {S : Settings} {cls : ClassId → Part} {g : Graph} {v : Node} {ps : List ℝ}
    (ha : (sheet S (cls v.comp.cls) (g.outEdges v.id).length).Within ps) (ins : List (Signal n)) (hi : ins.length = max 1 (g.inEdges v.id).length) :
    (∃ outs, ((cls v.comp.cls).connector ps).apply P ins (g.inEdges v.id).length (g.outEdges v.id).length = .ok outs ∧
      max 1 (g.outEdges v.id).length ≤ outs.length) ↔ FitsAt cls g v := by
  unfold FitsAt
  cases hc : cls v.comp.cls with
  | splitter =>
    rw [hc] at ha
    obtain ⟨h1, h2⟩ := ratios_allowed ha
    show (∃ outs, splitSignals ps _ _ ins = .ok outs ∧ _) ↔ _
    unfold splitSignals
    have hw : ¬ ∃ x ∈ splitWeights ps, x < 0 := fun ⟨x, hx, h⟩ => absurd (C38_nonneg h2 x hx).1 (not_le.2 h)
    simp only [splitWeights_length, h1, hw, if_false]
    by_cases h : 1 ≤ (g.inEdges v.id).length ∧ 1 ≤ (g.outEdges v.id).length
    · rw [if_neg (by omega)]
      refine iff_of_true ⟨_, rfl, ?_⟩ h
      rw [List.length_map, List.length_zipIdx, splitWeights_length, h1]
      omega
    · rw [if_pos (by omega)]
      refine iff_of_false ?_ h
      rintro ⟨_, h', _⟩
      cases h'
  | freqSplitter =>
    rw [hc] at ha
    obtain ⟨h1, h2⟩ := ratios_allowed ha
    refine iff_of_true ⟨_, rfl, ?_⟩ trivial
    unfold freqSplit
    rw [List.length_map, List.length_zip, List.length_dropLast, List.length_tail, freqCutoffs_length, h1]
    omega
  | _ =>
    constructor
    · rintro ⟨outs, h1, h2⟩
      injection h1 with h1
      subst h1
      rw [← hi]; exact h2
    · intro h
      exact ⟨ins, rfl, by rw [hi]; exact h⟩

/-- **C98.** Exactly when a design without loops runs at a setting within bounds: the numbers of edges at its nodes suit their classes, and no component is trapped. -/
theorem C98_runs (hn : 3 ≤ n) {P : Prop_ n} (hw : 0 < P.window) {S : Settings} {cls : ClassId → Part} {rest : Part → List ℝ → Optic n}
    (hrest : ∀ p ps x, ∃ y, (rest p ps).apply P x = .ok y) {g : Graph} (hwf : g.WF) (hac : g.Acyclic) {θ : Comp → List ℝ} (ha : InRange S cls g θ)
    (hasNoise : Comp → Bool) (inp : Signal n) (old : Store (Signal n)) :
    (∃ st, propagate g (physics P (fun c => (cls c.cls).optic S rest (θ c)) (fun c => (cls c.cls).connector (θ c)) hasNoise) inp old = .ok st) ↔
      (∀ v ∈ g.nodes, FitsAt cls g v) ∧ ∀ e ∈ g.edges, ¬ (cls e.comp.cls).Trapped P S (θ e.comp) := by
  constructor
  · rintro ⟨st, h⟩
    obtain ⟨-, hF⟩ := (propagate_iff hwf).1 h
    refine ⟨fun v hv => ?_, fun e he ht => ?_⟩
    · by_cases hk : (g.outEdges v.id).length = 0
      · have hs : g.IsSink v.id := (isSink_iff_outEdges hv).2 (List.length_eq_zero_iff.1 hk)
        obtain ⟨outs, s, ⟨ins, hin, hout⟩, h0, -⟩ := hF.sinks v hv hs
        refine (C98_node (ha.nodes v hv) ins (inputs_length hin)).1 ⟨outs, hout, ?_⟩
        have := (List.getElem?_eq_some_iff.1 h0).1
        omega
      · have hlt : (g.outEdges v.id).length - 1 < (g.outEdges v.id).length := by omega
        obtain ⟨e, hee⟩ : ∃ e, e = (g.outEdges v.id)[(g.outEdges v.id).length - 1] := ⟨_, rfl⟩
        obtain ⟨he, hes⟩ := mem_outEdges.1 (hee ▸ List.getElem_mem hlt)
        obtain ⟨w, hw', hws, outs, i, s, s1, s2, ⟨ins, hin, hout⟩, hi, hs, -⟩ := hF.edges e he
        have hvw : w = v := List.inj_on_of_nodup_map hwf.ids_nodup hw' hv (hws.trans hes)
        subst hvw
        refine (C98_node (ha.nodes w hv) ins (inputs_length hin)).1 ⟨outs, hout, ?_⟩
        obtain ⟨hi1, hi2⟩ := List.getElem?_eq_some_iff.1 hi
        obtain ⟨hs1, -⟩ := List.getElem?_eq_some_iff.1 hs
        have : i = (g.outEdges w.id).length - 1 := by
          have hnd := outEdges_nodup hwf w.id
          refine (List.Nodup.getElem_inj_iff hnd (hi := by rw [hes] at hi1; exact hi1) (hj := hlt)).1 ?_
          rw [← hee]
          have := hi
          rw [hes] at this
          exact (List.getElem?_eq_some_iff.1 this).2
        omega
    · obtain ⟨w, hw', hws, outs, i, s, s1, s2, -, hi, hs, h1, -⟩ := hF.edges e he
      exact (C98_component hn hw hrest (ha.edges e he) s).1 ⟨s1, h1⟩ ht
  · rintro ⟨h1, h2⟩
    refine (C17_propagate_acyclic hwf ⟨fun v hv ins hi => ?_, fun e he s => ?_, fun e he f hf s => ?_⟩ inp old).1 hac
    · exact (C98_node (ha.nodes v hv) ins hi).2 (h1 v hv)
    · exact (C98_component hn hw hrest (ha.edges e he) s).2 (h2 e he)
    · have hf' : (if hasNoise e.comp then some Except.ok else none) = some f := hf
      split at hf'
      · injection hf' with hf'; exact ⟨s, by rw [← hf']⟩
      · cases hf'

/-! ### Evolution keeps the ends -/

theorem ended_of {cls : ClassId → Part} {g g' : Graph} (h : WellEnded cls g) (t1 : ∀ v, g'.IsSource v ↔ g.IsSource v) (t2 : ∀ v, g'.IsSink v ↔ g.IsSink v)
    (hx : ∀ x ∈ g'.nodes, (∃ y ∈ g.nodes, y.id = x.id ∧ y.comp = x.comp ∧ (g.IsSource x.id ∨ g.IsSink x.id → g'.outDeg x.id ≤ g.outDeg x.id)) ∨
      (¬ g.IsSource x.id ∧ ¬ g.IsSink x.id ∧ cls x.comp.cls ∈ [Part.splitter, .freqSplitter])) : WellEnded cls g' where
  ends := by
    intro x hx' hs
    rw [t1, t2] at hs
    rcases hx x hx' with ⟨y, hy, h1, h2, h3⟩ | ⟨h1, h2, -⟩
    · obtain ⟨h4, h5⟩ := h.ends y hy (by rw [h1]; exact hs)
      rw [h2] at h4
      rw [h1] at h5
      exact ⟨h4, (h3 hs).trans h5⟩
    · rcases hs with hs | hs
      · exact absurd hs h1
      · exact absurd hs h2
  inner := by
    intro x hx' hs hk
    rw [t1] at hs
    rw [t2] at hk
    rcases hx x hx' with ⟨y, hy, h1, h2, h3⟩ | ⟨-, -, h3⟩
    · rw [← h2]; exact h.inner y hy (by rw [h1]; exact hs) (by rw [h1]; exact hk)
    · exact h3

theorem not_source_of {g : Graph} {e : Edge} (he : e ∈ g.edges) : ¬ g.IsSource e.dst := fun hc => hc.2 e he rfl

theorem not_sink_of {g : Graph} {e : Edge} (he : e ∈ g.edges) : ¬ g.IsSink e.src := fun hc => hc.2 e he rfl

theorem not_source_deg {g : Graph} {v : NodeId} (h : g.inDeg v ≠ 0) : ¬ g.IsSource v := fun hc => h (by
  unfold inDeg
  rw [List.length_eq_zero_iff]
  exact List.filter_eq_nil_iff.2 (fun x hx => by simpa using hc.2 x hx))

theorem not_sink_deg {g : Graph} {v : NodeId} (h : g.outDeg v ≠ 0) : ¬ g.IsSink v := fun hc => h (by
  unfold outDeg
  rw [List.length_eq_zero_iff]
  exact List.filter_eq_nil_iff.2 (fun x hx => by simpa using hc.2 x hx))

theorem step_ended {cls : ClassId → Part} {lib : Library} (hlib : ∀ c ∈ lib.node, cls c ∈ [Part.splitter, .freqSplitter]) {g g' : Graph} {r : StepRec} (hw : g.WF)
    (ha : g.Acyclic) (hs : LegalStep lib g r g') (h : WellEnded cls g) : WellEnded cls g' := by
  obtain ⟨t1, t2⟩ := step_terminals hw ha hs
  refine ended_of h t1 t2 fun x hx => ?_
  cases legal_kind hs with
  | series i hop _ hi hnid _ hnc h' =>
    obtain ⟨e, he, _, h'', h1, hnodes, hperm⟩ := addSeries_shape hw hi hnid r.draw.ec r.draw.nc
    rw [h'] at h1; injection h1 with h1; subst h1
    have hg := removeEdge_perm hw he
    rw [hnodes, List.mem_append] at hx
    rcases hx with hx | hx
    · refine .inl ⟨x, hx, rfl, rfl, fun _ => ?_⟩
      have hne : ¬ (r.draw.nid = x.id) := fun hc => hnid (hc ▸ List.mem_map_of_mem hx)
      rw [outDeg_perm hperm, outDeg_perm hg, List.countP_cons]
      split <;> simp only [List.cons_append, List.nil_append, List.countP_cons, hne, decide_false] <;> simp
    · rw [List.mem_singleton] at hx
      subst hx
      exact .inr ⟨fun hc => hnid hc.1, fun hc => hnid hc.1, hlib _ hnc⟩
  | parallel u v o _ _ ho hi _ h' =>
    subst h'
    obtain ⟨_, _, h3, -, _⟩ := parallelLocs_spec ho hi
    obtain ⟨nu, hu, d1, d2, -⟩ := parallelOk_iff.1 h3
    refine .inl ⟨x, hx, rfl, rfl, fun hc => ?_⟩
    have hne : u ≠ x.id := by
      rintro rfl
      rcases hc with hc | hc
      · exact not_source_deg d1 hc
      · exact not_sink_deg d2 hc
    have p := addEdge_perm g u v r.draw.ec r.draw.ec.cls
    unfold addParallel
    rw [outDeg_perm p, List.countP_cons]
    rw [outDeg_perm (List.Perm.refl g.edges)]
    simp [hne]
  | remove i hop hloc hi h' =>
    obtain ⟨e, he, nu, mu, nv, mv, hr, iu, iv, hnode, pe, pu, pv, hin, hout⟩ := removeLocs_spec hw hi
    obtain ⟨keep, hk, hkid, hres⟩ := removeComp_shape hw he hr hnode
    rw [h'] at hres; injection hres with hres
    by_cases hp : (g.removeEdge e.ref).hasPath e.src e.dst = true
    · rw [if_pos hp] at hres
      subst hres
      refine .inl ⟨x, hx, rfl, rfl, fun _ => ?_⟩
      have hg := removeEdge_perm hw he
      rw [outDeg_perm hg, List.countP_cons, outDeg_perm (List.Perm.refl _)]
      omega
    · rw [if_neg hp] at hres
      obtain ⟨-, -, d3⟩ := merge_degrees hw ha he (mergeFacts ha he hp)
      have hoth : ∀ y, y ≠ e.src → y ≠ e.dst → g'.outDeg y = g.outDeg y := fun y h1 h2 => by subst hres; exact (d3 y h1 h2).2
      subst hres
      simp only [setNode, contract_nodes, removeEdge, List.mem_map, List.mem_filter, decide_eq_true_eq] at hx
      obtain ⟨y, ⟨hy, hyd⟩, hx⟩ := hx
      split at hx
      · rename_i hc
        subst hx
        refine .inr ⟨?_, ?_, ?_⟩
        · show ¬ g.IsSource y.id
          rw [hc]; exact not_source_deg hin
        · show ¬ g.IsSink y.id
          rw [hc]; exact not_sink_of he
        · refine h.inner keep hk ?_ ?_
          · rw [hkid]
            rcases hnode with hh | hh <;> rw [hh]
            · exact not_source_deg hin
            · exact not_source_of he
          · rw [hkid]
            rcases hnode with hh | hh <;> rw [hh]
            · exact not_sink_of he
            · exact not_sink_deg hout
      · rename_i hc
        subst hx
        exact .inl ⟨y, hy, rfl, rfl, fun _ => (hoth y.id hc hyd).le⟩
  | swapNode v _ hloc hi hc h' =>
    subst h'
    obtain ⟨m, hm, hmx⟩ := List.mem_map.1 hx
    split at hmx
    · rename_i hmv
      subst hmx
      have hin : m.id = v := hmv
      rw [hloc] at hi hc
      have hsw : ∃ y ∈ g.nodes, y.id = v ∧ g.inDeg y.id ≠ 0 ∧ g.outDeg y.id ≠ 0 := by
        unfold swapLocs at hi
        rw [List.mem_append, List.mem_map, List.mem_map] at hi
        rcases hi with ⟨y, hy, hyv⟩ | ⟨y, hy, hyv⟩
        · rw [List.mem_filter] at hy
          have := of_decide_eq_true hy.2
          exact ⟨y, hy.1, by injection hyv, this.2.1, this.2.2.1⟩
        · cases hyv
      obtain ⟨y, hy, hyv, q1, q2⟩ := hsw
      refine .inr ⟨?_, ?_, ?_⟩
      · show ¬ g.IsSource m.id
        rw [hin, ← hyv]; exact not_source_deg q1
      · show ¬ g.IsSink m.id
        rw [hin, ← hyv]; exact not_sink_deg q2
      · show cls r.draw.ec.cls ∈ _
        refine hlib _ ?_
        unfold swapSet at hc
        dsimp only at hc
        split at hc
        · simp at hc
        · exact (List.mem_filter.1 hc).1
    · subst hmx
      exact .inl ⟨m, hm, rfl, rfl, fun _ => le_refl _⟩
  | swapEdge v _ _ _ _ h' =>
    subst h'
    refine .inl ⟨x, hx, rfl, rfl, fun _ => ?_⟩
    have := congrArg (List.countP (fun r : EdgeRef => decide (r.src = x.id))) (setEdge_comp_refs g v r.draw.ec)
    rw [List.countP_map, List.countP_map] at this
    rw [outDeg_perm (List.Perm.refl _), outDeg_perm (List.Perm.refl _)]
    exact le_of_eq this

theorem fits_of_ended {cls : ClassId → Part} {g : Graph} (h : WellEnded cls g) {v : Node} (hv : v ∈ g.nodes) : FitsAt cls g v := by
  have hid : v.id ∈ g.ids := List.mem_map_of_mem hv
  unfold FitsAt
  by_cases hs : g.IsSource v.id ∨ g.IsSink v.id
  · obtain ⟨h1, h2⟩ := h.ends v hv hs
    simp only [List.mem_cons, List.not_mem_nil, or_false] at h1
    rcases h1 with h1 | h1 <;> rw [h1] <;> dsimp only <;> omega
  · push Not at hs
    have h1 := h.inner v hv hs.1 hs.2
    simp only [List.mem_cons, List.not_mem_nil, or_false] at h1
    rcases h1 with h1 | h1 <;> rw [h1] <;> dsimp only
    obtain ⟨e, he, hd⟩ := not_source_in hid hs.1
    have h2 : g.outEdges v.id ≠ [] := fun hc => hs.2 ((isSink_iff_outEdges hv).2 hc)
    exact ⟨List.length_pos_iff.2 (List.ne_nil_of_mem (mem_inEdges.2 ⟨he, hd⟩)), List.length_pos_iff.2 h2⟩

/-- **C98.** Whatever evolution makes of a design with terminals at its ends and splitters in between runs at every setting within bounds at which no component is
trapped: its objective never raises for reasons of the design.  Every edge and every output node then has its state. -/
theorem C98_evolved (hn : 3 ≤ n) {P : Prop_ n} (hw : 0 < P.window) {S : Settings} {cls : ClassId → Part} {rest : Part → List ℝ → Optic n}
    (hrest : ∀ p ps x, ∃ y, (rest p ps).apply P x = .ok y) {lib : Library} (hlib : ∀ c ∈ lib.node, cls c ∈ [Part.splitter, .freqSplitter])
    {g0 g : Graph} {rs : List (Graph × StepRec)} (hwf : g0.WF) (hac : g0.Acyclic) (he : WellEnded cls g0) (h : History lib g0 rs g) :
    WellEnded cls g ∧ ∀ θ, InRange S cls g θ → (∀ e ∈ g.edges, ¬ (cls e.comp.cls).Trapped P S (θ e.comp)) → ∀ hasNoise inp old,
      ∃ st, propagate g (physics P (fun c => (cls c.cls).optic S rest (θ c)) (fun c => (cls c.cls).connector (θ c)) hasNoise) inp old = .ok st ∧
        (∀ e ∈ g.edges, (st (.edge e.ref)).isSome) ∧ ∀ v, g0.IsSink v → (st (.node v)).isSome := by
  have hE : WellEnded cls g := by
    induction h with
    | nil => exact he
    | step hh hs ih => exact step_ended hlib (history_dag hwf hac hh).1 (history_dag hwf hac hh).2 hs ih
  obtain ⟨hwf', hac'⟩ := history_dag hwf hac h
  refine ⟨hE, fun θ ha ht hasNoise inp old => ?_⟩
  obtain ⟨st, hst⟩ := (C98_runs hn hw hrest hwf' hac' ha hasNoise inp old).2 ⟨fun v hv => fits_of_ended hE hv, ht⟩
  obtain ⟨-, hF⟩ := (propagate_iff hwf').1 hst
  refine ⟨st, hst, fun e he' => ?_, fun v hv => ?_⟩
  · obtain ⟨_, _, _, _, _, _, _, _, _, _, _, _, _, hs⟩ := hF.edges e he'
    rw [hs]; rfl
  · have hv' := ((history_terminals hwf hac h).2 v).2 hv
    obtain ⟨m, hm, rfl⟩ := List.mem_map.1 hv'.1
    obtain ⟨_, _, _, _, hs⟩ := hF.sinks m hm hv'
    rw [hs]; rfl

/-! ### The values the objects hold -/

theorem OfSheet.within {s : Sheet} (hs : s.Sound) {m : PModel} (ho : OfSheet s m) (hb : InBounds m) : s.Within (m.params.map (fun q : ℚ => (q : ℝ))) where
  length := by
    rw [List.length_map, ho.length]
    simp [Sheet.model, hs.defaults]
  free := by
    intro hnl k x lo up hx hl h1 h2
    obtain ⟨y, hy, h3, h4⟩ := hb (by rw [ho.nodeLock]; exact hnl) k (by rw [ho.locks]; exact hl) lo up
      (by rw [ho.lower]; simp [Sheet.model, List.getElem?_map, h1, Entry.toNum]) (by rw [ho.upper]; simp [Sheet.model, List.getElem?_map, h2, Entry.toNum])
    rw [List.getElem?_map, hy] at hx
    injection hx with hx
    rw [← hx]
    show (lo : ℝ) ≤ (y : ℝ) ∧ (y : ℝ) ≤ (up : ℝ)
    exact ⟨by exact_mod_cast h3, by exact_mod_cast h4⟩

/-- **C98.** At every moment of a design's life (assembled, evolved, tuned within bounds, sampled, updated) the values its components hold are within bounds, and
with these values it runs, if it has terminals at the ends and splitters in between and no component is trapped.  The next evolution step keeps the ends. -/
theorem C98_life (hn : 3 ≤ n) {P : Prop_ n} (hw : 0 < P.window) {S : Settings} (hS : S.Sensible) {cls : ClassId → Part} {rest : Part → List ℝ → Optic n}
    (hrest : ∀ p ps x, ∃ y, (rest p ps).apply P x = .ok y) {lib : Library} (hf : LibraryFits cls lib)
    (hlib : ∀ c ∈ lib.node, cls c ∈ [Part.splitter, .freqSplitter]) {g : Graph} {h : Heap} (hl : Lifetime S cls lib g h) :
    InRange S cls g (held h) ∧
    (WellEnded cls g → (∀ e ∈ g.edges, ¬ (cls e.comp.cls).Trapped P S (held h e.comp)) → ∀ hasNoise inp old,
      ∃ st, propagate g (physics P (fun c => (cls c.cls).optic S rest (held h c)) (fun c => (cls c.cls).connector (held h c)) hasNoise) inp old = .ok st) ∧
    (WellEnded cls g → ∀ r g', LegalStep lib g r g' → WellEnded cls g') := by
  have hs := hl.stocked hS hf
  have hb := withinOwnBounds_iff.1 hs.bounds
  have hr : InRange S cls g (held h) :=
    ⟨fun e he => (hs.edges e he).within (C75_sheets hS _ _) (hb _ (List.mem_append_right _ (List.mem_map_of_mem he))),
      fun v hv => (hs.nodes v hv).within (C75_sheets hS _ _) (hb _ (List.mem_append_left _ (List.mem_map_of_mem hv)))⟩
  exact ⟨hr, fun he ht hasNoise inp old => (C98_runs hn hw hrest hs.wf hs.acyclic hr hasNoise inp old).2 ⟨fun v hv => fits_of_ended he hv, ht⟩,
    fun he r g' hst => step_ended hlib hs.wf hs.acyclic hst he⟩

theorem Allowed.inRange {S : Settings} {cls : ClassId → Part} {g : Graph} {θ : Comp → List ℝ} (h : Allowed S cls g θ) : InRange S cls g θ :=
  ⟨fun e he => ⟨(h.edges e he).length, fun _ => (h.edges e he).free⟩, fun v hv => ⟨(h.nodes v hv).length, fun _ => (h.nodes v hv).free⟩⟩

/-! ### Examples -/

namespace Steady
open Fixture

/-- A square filter of bandwidth 0 is within bounds, and raises. -/
example (rest : Part → List ℝ → Optic 4) (hrest : ∀ p ps x, ∃ y, (rest p ps).apply demoProp x = .ok y) (x : Signal 4) :
    (sheet stdSettings .squareFilter 1).Within [0] ∧ ¬ ∃ y, (Part.squareFilter.optic stdSettings rest [0]).apply demoProp x = .ok y := by
  have hin : (sheet stdSettings .squareFilter 1).Within [0] := by
    refine ⟨rfl, fun _ k x lo up hx hl h1 h2 => ?_⟩
    match k with
    | 0 =>
      simp [sheet, entries] at hx h1 h2
      subst hx h1 h2
      norm_num
    | k + 1 => simp at hx
  exact ⟨hin, fun h => (C98_component (by norm_num) (by norm_num [demoProp]) hrest hin x).1 h (.inl ⟨rfl, rfl⟩)⟩

/-- A power splitter with two outputs. -/
example (x : Signal 4) : ∃ outs, (Part.splitter.connector [1 / 4]).apply demoProp [x] 1 2 = .ok outs ∧ 2 ≤ outs.length := by
  have ha : (sheet stdSettings .splitter 2).Within [1 / 4] := by
    refine ⟨rfl, fun _ k x lo up hx hl h1 h2 => ?_⟩
    match k with
    | 0 =>
      simp [sheet, splitSheet, entries] at hx h1 h2
      subst hx h1 h2
      norm_num
    | k + 1 => simp at hx
  exact (C98_node (P := demoProp) (S := stdSettings) (cls := Idle.cls) (g := g) (v := ⟨1, split 2, 40⟩) (ps := [1 / 4]) ha [x] rfl).2 ⟨by decide, by decide⟩

theorem rest_ok (p : Part) (ps : List ℝ) (x : Signal 4) : ∃ y, (Idle.rest p ps).apply demoProp x = .ok y := by
  unfold Idle.rest
  split <;> exact ⟨_, rfl⟩

theorem untrapped {p : Part} (h : p ∉ [Part.squareFilter, .programmableFilter, .waveShaper]) (ps : List ℝ) : ¬ p.Trapped demoProp stdSettings ps := by
  simp only [List.mem_cons, List.not_mem_nil, or_false, not_or] at h
  simp [Part.Trapped, h]

/-- The line runs. -/
example (inp : Signal 4) : ∃ st, propagate line (physics demoProp (fun c => (Idle.cls c.cls).optic stdSettings Idle.rest (Idle.θ c))
    (fun c => (Idle.cls c.cls).connector (Idle.θ c)) (fun _ => true)) inp Store.empty = .ok st := by
  refine (C98_runs (by norm_num) (by norm_num [demoProp]) rest_ok line_wf line_acyclic Idle.θ_allowed.inRange _ inp _).2 ⟨?_, fun e he => untrapped ?_ _⟩
  · intro v hv
    simp only [line, List.mem_cons, List.not_mem_nil, or_false] at hv
    rcases hv with rfl | rfl | rfl | rfl
    · show max 1 _ ≤ max 1 _; decide
    · show 1 ≤ _ ∧ 1 ≤ _; decide
    · show 1 ≤ _ ∧ 1 ≤ _; decide
    · show max 1 _ ≤ max 1 _; decide
  · exact (show ∀ e ∈ line.edges, Idle.cls e.comp.cls ∉ [Part.squareFilter, .programmableFilter, .waveShaper] by decide) e he

theorem g_ended : WellEnded fixCls g where
  ends := by
    intro v hv
    simp only [g, List.mem_cons, List.not_mem_nil, or_false] at hv
    rcases hv with rfl | rfl | rfl | rfl
    · exact fun _ => ⟨by decide, by decide⟩
    · rintro (h | h)
      · exact absurd rfl (h.2 ⟨0, 1, 0, laser 4, 10⟩ (by decide))
      · exact absurd rfl (h.2 ⟨1, 2, 0, Fixture.fiber 5, 30⟩ (by decide))
    · rintro (h | h)
      · exact absurd rfl (h.2 ⟨1, 2, 0, Fixture.fiber 5, 30⟩ (by decide))
      · exact absurd rfl (h.2 ⟨2, 3, 0, diode 7, 20⟩ (by decide))
    · exact fun _ => ⟨by decide, by decide⟩
  inner := by
    intro v hv
    simp only [g, List.mem_cons, List.not_mem_nil, or_false] at hv
    rcases hv with rfl | rfl | rfl | rfl
    · exact fun h => absurd ⟨by decide, by decide⟩ h
    · exact fun _ _ => by decide
    · exact fun _ _ => by decide
    · exact fun _ h => absurd ⟨by decide, by decide⟩ h

/-- The bins of the wave shaper exceed the grid of the examples by an even number. -/
theorem shaper_fits (ps : List ℝ) : ¬ Part.waveShaper.Trapped demoProp stdSettings ps := by
  rintro (⟨h, -⟩ | ⟨h, -⟩ | ⟨-, m, h1, h2, h3, h4⟩)
  · cases h
  · cases h
  · norm_num [demoProp] at h1 h2
    have e1 : m ≤ 48000000000 := by exact_mod_cast h1
    have e2 : 48000000000 < m + 1 := by exact_mod_cast h2
    have : m = 48000000000 := by omega
    subst this
    norm_num [stdSettings] at h4

/-- Two arms, lengthened by an evolution step and sampled: runs. -/
example (inp : Signal 4) : ∃ h, Lifetime stdSettings fixCls lib gSer h ∧
    ∃ st, propagate gSer (physics demoProp (fun c => (fixCls c.cls).optic stdSettings Idle.rest (held h c)) (fun c => (fixCls c.cls).connector (held h c)) (fun _ => true))
      inp Store.empty = .ok st := by
  obtain ⟨h, hl⟩ := fix_start
  obtain ⟨h1, -, h2, -⟩ := C75_evolve std_sensible fix_fits hl ser_legal fix_new
  obtain ⟨h3, h4, -⟩ := (C75_ready std_sensible fix_fits h2).2.2 (fun _ => ⟨1 / 2, 0⟩) (fun _ => by norm_num)
  have hL : Lifetime stdSettings fixCls lib gSer h3 := .sample h2 (fun _ => by norm_num) h4
  have hw : (0 : ℝ) < demoProp.window := by norm_num [demoProp]
  have hE := (C98_life (by norm_num) hw std_sensible rest_ok fix_fits (by decide) hl).2.2 g_ended _ _ ser_legal
  refine ⟨h3, hL, (C98_life (by norm_num) hw std_sensible rest_ok fix_fits (by decide) hL).2.1 hE (fun e he => ?_) _ inp _⟩
  have hcase := (show ∀ e ∈ gSer.edges, fixCls e.comp.cls = .waveShaper ∨ fixCls e.comp.cls ∉ [Part.squareFilter, .programmableFilter, .waveShaper] by decide) e he
  rcases hcase with h | h
  · rw [h]; exact shaper_fits _
  · exact untrapped h _

/-- The same from the histories: it runs for every setting within bounds. -/
example (θ : Comp → List ℝ) (h : InRange stdSettings fixCls gSer θ) (inp : Signal 4) : ∃ st, propagate gSer (physics demoProp (fun c => (fixCls c.cls).optic stdSettings Idle.rest (θ c))
    (fun c => (fixCls c.cls).connector (θ c)) (fun _ => true)) inp Store.empty = .ok st := by
  obtain ⟨st, h1, -⟩ := (C98_evolved (by norm_num) (by norm_num [demoProp]) rest_ok (lib := lib) (by decide) g_wf g_acyclic g_ended (.step .nil ser_legal)).2 θ h
    (fun e he => by
      have hcase := (show ∀ e ∈ gSer.edges, fixCls e.comp.cls = .waveShaper ∨ fixCls e.comp.cls ∉ [Part.squareFilter, .programmableFilter, .waveShaper] by decide) e he
      rcases hcase with h | h
      · rw [h]; exact shaper_fits _
      · exact untrapped h _) (fun _ => true) inp Store.empty
  exact ⟨st, h1⟩

/-- A source with two edges going out. -/
def fan : Graph :=
  { nodes := [⟨0, src, 1⟩, ⟨1, split 2, 40⟩, ⟨3, snk, 2⟩]
    edges := [⟨0, 1, 0, laser 4, 10⟩, ⟨0, 1, 1, laser 5, 10⟩, ⟨1, 3, 0, diode 7, 20⟩] }

theorem fan_wf : fan.WF := ⟨by decide, by decide, by decide, by decide⟩

theorem fan_topo : fan.IsTopo [0, 1, 3] where
  nodup := by decide
  mem_iff := by intro v; rw [show fan.ids = [0, 1, 3] by decide]
  forward := by decide

/-- It never runs: a terminal has one state to give, and the second laser asks for another. -/
example (θ : Comp → List ℝ) (h : InRange stdSettings Idle.cls fan θ) (inp : Signal 4) : ¬ ∃ st, propagate fan (physics demoProp
    (fun c => (Idle.cls c.cls).optic stdSettings Idle.rest (θ c)) (fun c => (Idle.cls c.cls).connector (θ c)) (fun _ => true)) inp Store.empty = .ok st := by
  intro hr
  have := ((C98_runs (by norm_num) (by norm_num [demoProp]) rest_ok fan_wf fan_topo.acyclic h _ inp _).1 hr).1 ⟨0, src, 1⟩ (by decide)
  exact absurd (show max 1 (fan.outEdges 0).length ≤ max 1 (fan.inEdges 0).length from this) (by decide)

end Steady

end Verif
