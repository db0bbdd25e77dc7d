import Verif.Lemmas.Energy
import Verif.Props.Amplifier
import Verif.Props.Shaping
import Verif.Props.Symmetry
import Verif.Props.Copy
/-!
# C71: energy in whole systems

Bounds for every topology on the energy arriving at the outputs.
-/

namespace Verif
open Complex Graph

variable {n : Nat}

/-- **C71.** How much the components can raise the energy: not at all for fibres, delay lines, waveguides, phase shifters, modulators,
attenuators, square filters and power meters; wave shapers (with amplitudes up to one) lose 4.5 dB, programmable filters on even grids as well; the split-and-delay
line can *gain* 1 dB; an amplifier at most its small-signal gain. -/
theorem C71_gains (hn : 2 ≤ n) {P : Prop_ n} (hw : 0 < P.window) :
    (∀ l, (Optic.fiber l : Optic n).GainAtMost P 1) ∧ (∀ a, (Optic.voa a : Optic n).GainAtMost P ((10 : ℝ) ^ (a / 10))) ∧
    (∀ a ≤ 0, (Optic.voa a : Optic n).GainAtMost P 1) ∧
    (∀ d f s, (Optic.phaseMod d f s : Optic n).GainAtMost P 1) ∧ (∀ d f b, (Optic.intensityMod d f b : Optic n).GainAtMost P 1) ∧
    (∀ d, (Optic.delayLine d : Optic n).GainAtMost P 1) ∧ (∀ d, (Optic.intDelayLine d : Optic n).GainAtMost P 1) ∧
    (Optic.waveguide : Optic n).GainAtMost P 1 ∧ (∀ p, (Optic.phaseShifter p : Optic n).GainAtMost P 1) ∧
    (∀ b, 0 < b → (Optic.squareFilter b : Optic n).GainAtMost P 1) ∧ (Optic.measure : Optic n).GainAtMost P 1 ∧
    (∀ r, (Optic.splitDelay r : Optic n).GainAtMost P ((10 : ℝ) ^ ((1 : ℝ) / 10))) ∧
    (∀ E : Edfa, 0 ≤ E.flatnessDb → 0 < E.bandLower → E.bandLower < E.peakWl → 0 < E.pOutMax →
      (Optic.edfa E : Optic n).GainAtMost P ((10 : ℝ) ^ (E.gainDb / 10))) ∧
    (3 ≤ n → ∀ a p : List ℝ, p.length = a.length → (∀ x ∈ a, (10 : ℝ) ^ (-(7 : ℝ) / 2) ≤ x ∧ x ≤ 1) → (Optic.waveShaper a p : Optic n).GainAtMost P 1) ∧
    (n % 2 = 0 → (∀ m : ℤ, (5 * 10 ^ 12 : ℝ) / 2 / P.df ≠ m + 1 / 2) → pfBwInt P ≠ 0 → ∀ a p : List ℝ, a ≠ [] → (∀ x ∈ a, 0 ≤ x ∧ x ≤ 1) →
      (Optic.progFilter a p : Optic n).GainAtMost P 1) := by
  have hd := dt_ne_zero hn hw
  have loss : (10 : ℝ) ^ (-(45 : ℝ) / 100) ≤ 1 := Real.rpow_le_one_of_one_le_of_nonpos (by norm_num) (by norm_num)
  have hv : ∀ a, (Optic.voa a : Optic n).GainAtMost P ((10 : ℝ) ^ (a / 10)) := by
    intro a x y h
    simp only [Optic.apply] at h; injection h with h; subst h
    exact (energy_dbScale a x).le
  have hdl : ∀ d, (Optic.delayLine d : Optic n).GainAtMost P 1 := by
    intro d x y h
    simp only [Optic.apply] at h; injection h with h; subst h
    simp only [Optic.delivered]
    rw [delayLine_eq, energy_freqMul_eq hd (c := 1) (fun k => norm_expI _)]
    simp
  refine ⟨?_, hv, ?_, ?_, ?_, hdl, ?_, ?_, ?_, ?_, ?_, ?_, ?_, ?_, ?_⟩
  · intro l x y h
    obtain ⟨⟨z, hz, he, -⟩, -⟩ := C55_fiber hn hw l 0 x
    simp only [Optic.apply] at h
    rw [hz] at h
    injection h with h; subst h
    simp only [Optic.delivered, he, one_mul, le_refl]
  · intro a ha x y h
    refine (hv a x y h).trans (mul_le_mul_of_nonneg_right ?_ (energy_nonneg x))
    exact Real.rpow_le_one_of_one_le_of_nonpos (by norm_num) (by linarith)
  · intro d f s x y h
    simp only [Optic.apply] at h; injection h with h; subst h
    simp only [Optic.delivered]
    rw [energy_eq_sum_power, C56_phase_modulator, ← energy_eq_sum_power, one_mul]
  · intro d f b x y h
    simp only [Optic.apply] at h; injection h with h; subst h
    simp only [Optic.delivered, one_mul]
    rw [energy_eq_sum_power, energy_eq_sum_power]
    refine Finset.sum_le_sum (fun i _ => (C56_intensity_modulator P d f b x i).2.2.trans ?_)
    have : (10 : ℝ) ^ (-(4 : ℝ) / 10) ≤ 1 := Real.rpow_le_one_of_one_le_of_nonpos (by norm_num) (by norm_num)
    have h2 : 0 ≤ power_ x i := by unfold power_; positivity
    nlinarith
  · intro d x y h
    exact hdl (d * (1 / 10 ^ 12)) x y h
  · intro x y h
    simp only [Optic.apply, waveguide] at h; injection h with h; subst h
    simp [Optic.delivered]
  · intro p x y h
    simp only [Optic.apply, phaseShifter] at h
    injection h with h; subst h
    simp only [Optic.delivered]
    rw [energy_freqMul_eq hd (c := 1) (fun k => norm_expI _)]
    simp
  · intro b hb x y h
    simp only [Optic.apply, squareFilter, if_neg hb.ne'] at h
    injection h with h; subst h
    simp only [Optic.delivered]
    rw [dbScale_zero]
    have := energy_freqMul_le hd (c := 1) (H := ifftShift (fun j => (sfMask P b j : ℂ))) (fun k => by
      simp only [ifftShift, sfMask]
      have h1 := logistic_pos_lt ((P.f (rotIdx (n / 2) k) + b / 2) * (60 / b))
      have h2 := logistic_pos_lt ((-P.f (rotIdx (n / 2) k) + b / 2) * (60 / b))
      rw [Complex.norm_real, Real.norm_of_nonneg (by nlinarith)]
      nlinarith) x
    linarith
  · intro x y h
    simp only [Optic.apply] at h; injection h with h; subst h
    simp only [Optic.delivered, measure, one_mul]
    refine le_of_eq (Finset.sum_congr rfl (fun i _ => ?_))
    rw [Complex.norm_real, Real.norm_of_nonneg (by positivity)]
  · intro r x y h
    simp only [Optic.apply] at h; injection h with h; subst h
    exact C64_split_delay hn hw r x
  · intro E h1 h2 h3 h4 x y h
    simp only [Optic.apply] at h; injection h with h; subst h
    refine E.energy_propagate hn hw x h4 (fun k => ?_)
    exact ((C61_output_limit E hn hw x h4).1 k).2.trans (C61_small_signal E P k h1 h2 h3).2.1
  · intro h3 a p hl hb x y h
    obtain ⟨c1, c2⟩ := C59_wave_shaper h3 hw a p hl hb x
    simp only [Optic.apply] at h
    by_cases hc : a.length * wsBinLen P ≤ n ∨ (a.length * wsBinLen P - n) % 2 = 0
    · obtain ⟨z, hz, hle⟩ := c1 hc
      rw [hz] at h; injection h with h; subst h
      refine hle.trans (mul_le_mul_of_nonneg_right loss (energy_nonneg x))
    · rw [c2 (by omega)] at h; cases h
  · intro he ht hb a p ha hab x y h
    obtain ⟨z, hz, hle⟩ := (C60_filter_even hn he hw ht hb).2 a p ha hab x
    simp only [Optic.apply] at h
    rw [hz] at h; injection h with h; subst h
    exact hle.trans (mul_le_mul_of_nonneg_right loss (energy_nonneg x))

theorem delivered_eq {o : Optic n} (h : o ≠ .measure) (y : Signal n) : o.delivered y = energy y := by
  cases o <;> first | rfl | exact absurd rfl h

theorem delivered_nonneg (o : Optic n) (y : Signal n) : 0 ≤ o.delivered y := by
  cases o <;> first | exact energy_nonneg y | exact Finset.sum_nonneg (fun _ _ => norm_nonneg _)

theorem edgeEnergy_nonneg (optic : Comp → Optic n) (st : Store (Signal n)) (e : Edge) : 0 ≤ edgeEnergy optic st e := by
  unfold edgeEnergy
  split
  · exact delivered_nonneg _ _
  · exact le_rfl

/-- **C71.** Energy budget.  Whatever the topology: if prices can be put on the nodes such that no inner node sells (through its components)
for more than it pays, then the energy arriving at the outputs, at its price, is worth at most the energy emitted by the sources. -/
theorem C71_energy_budget (hn : 2 ≤ n) {P : Prop_ n} (hwin : 0 < P.window) {g : Graph} (hw : g.WF) {optic : Comp → Optic n} {conn : Comp → Connector}
    {hasNoise : Comp → Bool} (hnet : Network g optic conn) {k : Edge → ℝ} {W : NodeId → ℝ} (hp : Prices P g optic conn k W)
    {inp : Signal n} {old st : Store (Signal n)} (h : propagate g (physics P optic conn hasNoise) inp old = .ok st) :
    ((g.edges.filter (fun e => g.outEdges e.dst = [])).map (fun e => W e.dst * edgeEnergy optic st e)).sum ≤
      ((g.edges.filter (fun e => g.inEdges e.src = [])).map (fun e => W e.dst * (optic e.comp).emitted)).sum := by
  have hF := ((propagate_iff hw).1 h).2
  have hdt := dt_ne_zero hn hwin
  have hedge : ∀ e ∈ g.edges, ∃ m ∈ g.nodes, m.id = e.src ∧ ∃ outs, ∃ i : Nat, ∃ s y, Outputs g (physics P optic conn hasNoise) inp st m outs ∧
      (g.outEdges e.src)[i]? = some e ∧ outs[i]? = some s ∧ (optic e.comp).apply P s = .ok y ∧ st (.edge e.ref) = some y := by
    intro e he
    obtain ⟨m, hm, hs, outs, i, s, s1, s2, ho, hi, hs', h1, h2, h3⟩ := hF.edges e he
    exact ⟨m, hm, hs, outs, i, s, s2, ho, hi, hs', onEdge_physics.1 ⟨s1, h1, h2⟩, h3⟩
  have hnd : ∀ v, (g.outEdges v).Nodup := fun v => (List.Nodup.of_map _ hw.refs_nodup).filter _
  have hb := balance hw (edgeEnergy optic st) W (by
    intro v hv hin hout
    obtain ⟨m, hm, rfl⟩ := List.mem_map.1 hv
    obtain ⟨outs, ho⟩ := hF.outputs hw hm
    have ho' := ho
    obtain ⟨ins, hins, hnode⟩ := ho
    -- what comes in
    have hinsum : (ins.map energy).sum = ((g.inEdges m.id).map (edgeEnergy optic st)).sum := by
      rcases hins with ⟨h0, -⟩ | ⟨-, h1⟩
      · exact absurd h0 hin
      · have key : ∀ (es : List Edge) (l : List (Signal n)), es.map (fun e => st (.edge e.ref)) = l.map some → (∀ e ∈ es, optic e.comp ≠ .measure) →
            (l.map energy).sum = (es.map (edgeEnergy optic st)).sum := by
          intro es
          induction es with
          | nil => intro l hl _; cases l with
            | nil => rfl
            | cons => simp at hl
          | cons e es ih =>
            intro l hl hm'
            cases l with
            | nil => simp at hl
            | cons s l =>
              simp only [List.map_cons, List.cons.injEq] at hl
              simp only [List.map_cons, List.sum_cons]
              rw [ih l hl.2 (fun e he => hm' e (by simp [he]))]
              congr 1
              unfold edgeEnergy
              rw [hl.1]
              exact (delivered_eq (hm' e (by simp)) s).symm
        refine key _ _ h1 ?_
        intro e he hme
        obtain ⟨he, hed⟩ := mem_inEdges.1 he
        have := hnet.meters e he hme
        rw [hed] at this
        exact hout this
    have hlen := ins_length hins hin
    have hE0 : 0 ≤ ((g.inEdges m.id).map (edgeEnergy optic st)).sum := List.sum_nonneg (fun x hx => by
      obtain ⟨e, -, rfl⟩ := List.mem_map.1 hx
      exact edgeEnergy_nonneg _ _ _)
    -- what an out-edge makes of it
    have hoe : ∀ (i : Nat) e, (g.outEdges m.id)[i]? = some e → ∃ s, outs[i]? = some s ∧ edgeEnergy optic st e ≤ k e * energy s ∧ 0 ≤ k e := by
      intro i e hie
      obtain ⟨he, hes⟩ := mem_outEdges.1 (List.mem_of_getElem? hie)
      obtain ⟨m', hm', hs', outs', i', s, y, ho2, hi', hsi, hap, hst⟩ := hedge e he
      have : m' = m := List.inj_on_of_nodup_map hw.ids_nodup hm' hm (hs'.trans hes)
      subst this
      have := outputs_unique ho2 ho'
      subst this
      rw [hes] at hi'
      have hii : i' = i := by
        have hl1 := (List.getElem?_eq_some_iff.1 hi').1
        have hl2 := (List.getElem?_eq_some_iff.1 hie).1
        rw [List.getElem?_eq_getElem hl1] at hi'
        rw [List.getElem?_eq_getElem hl2] at hie
        exact (hnd _).getElem_inj_iff.1 (Option.some.inj (hi'.trans hie.symm))
      subst hii
      obtain ⟨hk0, hk⟩ := hp.gain e he (by rw [hes]; exact hin)
      refine ⟨s, hsi, ?_, hk0⟩
      unfold edgeEnergy
      rw [hst]
      exact hk s y hap
    have hnode' : (conn m.comp).apply P ins (g.inEdges m.id).length (g.outEdges m.id).length = .ok outs := hnode
    rcases hnet.inner m hm hin hout with ⟨a, ha⟩ | ⟨a, ha⟩
    · rw [ha] at hnode'
      simp only [Connector.apply] at hnode'
      obtain ⟨hwl, hw0, hsh⟩ := energy_splitSignals hnode'
      have := sum_le_shares (fun e => W e.dst * edgeEnergy optic st e) (W m.id * ((g.inEdges m.id).map (edgeEnergy optic st)).sum) (g.outEdges m.id)
        (splitWeights a) hwl.symm (by
          intro i e w hie hiw
          obtain ⟨s, hs, hle, hk0⟩ := hoe i e hie
          have h1 := hsh i w s hiw hs
          rw [hinsum] at h1
          have hsp := hp.split m hm hin a ha e (List.mem_of_getElem? hie)
          have hwi := hw0 w (List.mem_of_getElem? hiw)
          have hW := hp.nonneg e.dst
          have hno : (0 : ℝ) < (g.outEdges m.id).length := by exact_mod_cast List.length_pos_iff.2 hout
          have hcal : W e.dst * edgeEnergy optic st e ≤ W e.dst * (k e * (w * (((g.inEdges m.id).length : ℝ) / (g.outEdges m.id).length *
              ((g.inEdges m.id).map (edgeEnergy optic st)).sum))) :=
            mul_le_mul_of_nonneg_left (hle.trans (mul_le_mul_of_nonneg_left h1 hk0)) hW
          refine hcal.trans ?_
          have hq : ((g.inEdges m.id).length : ℝ) * (k e * W e.dst) / (g.outEdges m.id).length ≤ W m.id := by
            rw [div_le_iff₀ hno]; linarith
          calc _ = w * (((g.inEdges m.id).length : ℝ) * (k e * W e.dst) / (g.outEdges m.id).length * ((g.inEdges m.id).map (edgeEnergy optic st)).sum) := by
                field_simp
            _ ≤ w * (W m.id * ((g.inEdges m.id).map (edgeEnergy optic st)).sum) :=
                mul_le_mul_of_nonneg_left (mul_le_mul_of_nonneg_right hq hE0) hwi)
      rw [C38_sum_one, one_mul] at this
      exact this
    · rw [ha] at hnode'
      simp only [Connector.apply] at hnode'
      injection hnode' with hnode'
      have hle : ∀ e ∈ g.outEdges m.id, W e.dst * edgeEnergy optic st e ≤
          (((g.inEdges m.id).length : ℝ) * ((g.inEdges m.id).map (edgeEnergy optic st)).sum) * (k e * W e.dst) := by
        intro e he
        obtain ⟨i, hi, hie⟩ := List.getElem_of_mem he
        obtain ⟨s, hs, hle, hk0⟩ := hoe i e (by rw [List.getElem?_eq_getElem hi, hie])
        have h1 := energy_freqSplit hdt (by rw [hnode']; exact List.mem_of_getElem? hs : s ∈ freqSplit P a ins)
        rw [hlen, hinsum] at h1
        have h2 := mul_le_mul_of_nonneg_left (hle.trans (mul_le_mul_of_nonneg_left h1 hk0)) (hp.nonneg e.dst)
        refine h2.trans (le_of_eq (by ring))
      have := List.sum_le_sum hle
      rw [List.sum_map_mul_left] at this
      refine this.trans ?_
      have hb := mul_le_mul_of_nonneg_right (hp.bands m hm hin a ha) hE0
      linarith)
  refine hb.trans (le_of_eq ?_)
  congr 1
  apply List.map_congr_left
  intro e he
  rw [List.mem_filter] at he
  simp only [decide_eq_true_eq] at he
  obtain ⟨x, hx⟩ := hnet.entry e he.1 he.2
  obtain ⟨m, hm, hs', outs, i, s, y, ho2, hi', hsi, hap, hst⟩ := hedge e he.1
  rw [hx] at hap
  simp only [Optic.apply] at hap
  injection hap with hap
  simp only [edgeEnergy, hst, hx, Optic.emitted]
  rw [delivered_eq (by simp), hap]


/-- The product of the factors from `v` on, in the order of propagation. -/
noncomputable def tailProd (g : Graph) (order : List NodeId) (v : NodeId) : ℝ := ((order.drop (order.idxOf v)).map (fanIn g)).prod

theorem fanIn_ge (g : Graph) (v : NodeId) : 1 ≤ fanIn g v := by
  unfold fanIn
  split
  · exact le_rfl
  · exact le_max_left _ _

theorem prod_fanIn_ge (g : Graph) (l : List NodeId) : 1 ≤ (l.map (fanIn g)).prod := by
  induction l with
  | nil => simp
  | cons v l ih =>
    simp only [List.map_cons, List.prod_cons]
    have := fanIn_ge g v
    nlinarith

theorem prod_drop_le (g : Graph) (l : List NodeId) (i : Nat) : ((l.drop i).map (fanIn g)).prod ≤ (l.map (fanIn g)).prod := by
  have h := List.take_append_drop i l
  have : (l.map (fanIn g)).prod = ((l.take i).map (fanIn g)).prod * ((l.drop i).map (fanIn g)).prod := by
    conv_lhs => rw [← h]
    rw [List.map_append, List.prod_append]
  rw [this]
  have h1 := prod_fanIn_ge g (l.take i)
  have h2 := prod_fanIn_ge g (l.drop i)
  nlinarith

/-- **C71.** A system of components that do not raise the energy, joined by power splitters, multiplies the energy of its sources at most by
the product, over the inner nodes, of (number of inputs) / (number of outputs) where this exceeds one. -/
theorem C71_passive_bound (hn : 2 ≤ n) {P : Prop_ n} (hwin : 0 < P.window) {g : Graph} (hw : g.WF) {optic : Comp → Optic n} {conn : Comp → Connector}
    {hasNoise : Comp → Bool} (hnet : Network g optic conn) (hsp : ∀ m ∈ g.nodes, ∀ a, conn m.comp ≠ .freqSplitter a)
    (hpas : ∀ e ∈ g.edges, g.inEdges e.src ≠ [] → (optic e.comp).GainAtMost P 1)
    {inp : Signal n} {old st : Store (Signal n)} (h : propagate g (physics P optic conn hasNoise) inp old = .ok st) :
    energyOut g optic st ≤ (g.ids.map (fanIn g)).prod * energyIn g optic := by
  obtain ⟨⟨order, ho⟩, -⟩ := (propagate_iff hw).1 h
  have ht := topoSort_sound hw ho
  have hperm : order.Perm g.ids := (List.perm_ext_iff_of_nodup ht.nodup hw.ids_nodup).2 ht.mem_iff
  have hprod : (g.ids.map (fanIn g)).prod = (order.map (fanIn g)).prod := ((hperm.map _).prod_eq).symm
  have hprices : Prices P g optic conn (fun _ => 1) (tailProd g order) := by
    refine ⟨fun v => zero_le_one.trans (prod_fanIn_ge g _), fun e he hin => ⟨zero_le_one, hpas e he hin⟩, ?_, fun m hm _ a ha => absurd ha (hsp m hm a)⟩
    intro m hm hin a ha e he
    obtain ⟨he', hes⟩ := mem_outEdges.1 he
    have hout : g.outEdges m.id ≠ [] := List.ne_nil_of_mem he
    have hno : (0 : ℝ) < (g.outEdges m.id).length := by exact_mod_cast List.length_pos_iff.2 hout
    have hlt := ht.forward e he'
    rw [hes] at hlt
    have hidx : order.idxOf m.id < order.length := List.idxOf_lt_length_iff.2 ((ht.mem_iff _).2 (List.mem_map.2 ⟨m, hm, rfl⟩))
    have hstep : fanIn g m.id * tailProd g order e.dst ≤ tailProd g order m.id := by
      unfold tailProd
      rw [List.drop_eq_getElem_cons hidx, List.map_cons, List.prod_cons, List.getElem_idxOf]
      refine mul_le_mul_of_nonneg_left ?_ (zero_le_one.trans (fanIn_ge g _))
      have : order.drop (order.idxOf e.dst) = (order.drop (order.idxOf m.id + 1)).drop (order.idxOf e.dst - (order.idxOf m.id + 1)) := by
        rw [List.drop_drop]
        congr 1
        exact (Nat.add_sub_cancel' hlt).symm
      rw [this]
      exact prod_drop_le g _ _
    have hfan : ((g.inEdges m.id).length : ℝ) / (g.outEdges m.id).length ≤ fanIn g m.id := by
      unfold fanIn
      rw [if_neg (by tauto)]
      exact le_max_right _ _
    rw [div_le_iff₀ hno] at hfan
    have hT : 0 ≤ tailProd g order e.dst := zero_le_one.trans (prod_fanIn_ge g _)
    calc ((g.inEdges m.id).length : ℝ) * (1 * tailProd g order e.dst) ≤ (fanIn g m.id * (g.outEdges m.id).length) * tailProd g order e.dst := by
          rw [one_mul]; exact mul_le_mul_of_nonneg_right hfan hT
      _ = (g.outEdges m.id).length * (fanIn g m.id * tailProd g order e.dst) := by ring
      _ ≤ _ := mul_le_mul_of_nonneg_left hstep hno.le
  have hb := C71_energy_budget hn hwin hw hnet hprices h
  have hl : energyOut g optic st ≤ ((g.edges.filter (fun e => g.outEdges e.dst = [])).map (fun e => tailProd g order e.dst * edgeEnergy optic st e)).sum := by
    refine List.sum_le_sum (fun e _ => ?_)
    have h1 := prod_fanIn_ge g (order.drop (order.idxOf e.dst))
    have h2 := edgeEnergy_nonneg optic st e
    unfold tailProd
    nlinarith
  have hr : ((g.edges.filter (fun e => g.inEdges e.src = [])).map (fun e => tailProd g order e.dst * (optic e.comp).emitted)).sum ≤
      (g.ids.map (fanIn g)).prod * energyIn g optic := by
    unfold energyIn
    rw [← List.sum_map_mul_left]
    refine List.sum_le_sum (fun e _ => mul_le_mul_of_nonneg_right ?_ ?_)
    · rw [hprod]; exact prod_drop_le g _ _
    · unfold Optic.emitted
      split
      · exact energy_nonneg _
      · exact le_rfl
  linarith

/-- **C71.** In particular, where no splitter has more inputs than outputs, the outputs never receive more energy than the sources emit. -/
theorem C71_no_gain (hn : 2 ≤ n) {P : Prop_ n} (hwin : 0 < P.window) {g : Graph} (hw : g.WF) {optic : Comp → Optic n} {conn : Comp → Connector}
    {hasNoise : Comp → Bool} (hnet : Network g optic conn) (hsp : ∀ m ∈ g.nodes, ∀ a, conn m.comp ≠ .freqSplitter a)
    (hpas : ∀ e ∈ g.edges, g.inEdges e.src ≠ [] → (optic e.comp).GainAtMost P 1)
    (hfan : ∀ m ∈ g.nodes, g.outEdges m.id ≠ [] → (g.inEdges m.id).length ≤ (g.outEdges m.id).length)
    {inp : Signal n} {old st : Store (Signal n)} (h : propagate g (physics P optic conn hasNoise) inp old = .ok st) :
    energyOut g optic st ≤ energyIn g optic := by
  have hb := C71_passive_bound hn hwin hw hnet hsp hpas h
  have : (g.ids.map (fanIn g)).prod = 1 := by
    have h1 : ∀ v ∈ g.ids, fanIn g v = 1 := by
      intro v hv
      obtain ⟨m, hm, rfl⟩ := List.mem_map.1 hv
      unfold fanIn
      split
      · rfl
      · rename_i hc
        push Not at hc
        have hno : (0 : ℝ) < (g.outEdges m.id).length := by exact_mod_cast List.length_pos_iff.2 hc.2
        have := hfan m hm hc.2
        refine max_eq_left ((div_le_one hno).2 (by exact_mod_cast this))
    rw [List.map_congr_left h1]
    simp
  rwa [this, one_mul] at hb


/-! ### A combiner that makes energy -/

namespace Combiner
open Fixture

/-- Two lasers joined by a connector with two inputs and one output, and a power meter. -/
def sys : Graph :=
  { nodes := [⟨0, src, 1⟩, ⟨1, src, 1⟩, ⟨2, split 2, 40⟩, ⟨3, snk, 2⟩]
    edges := [⟨0, 2, 0, laser 4, 10⟩, ⟨1, 2, 0, laser 5, 10⟩, ⟨2, 3, 0, diode 6, 20⟩] }

/-- The second laser has the opposite phase. -/
noncomputable def optic (x : Signal n) (c : Comp) : Optic n := if c.uid = 4 then .source x else if c.uid = 5 then .source (fun i => -x i) else .measure

/-- One output: no ratio. -/
noncomputable def conn (c : Comp) : Connector := if c.cls = 40 then .splitter [] else .terminal

theorem wf : sys.WF where
  ids_nodup := by decide
  refs_nodup := by decide
  src_mem := by decide
  dst_mem := by decide

theorem topo : sys.topoSort = .ok [1, 0, 2, 3] := by rfl

theorem network (x : Signal n) : Network sys (optic x) conn where
  entry := by
    intro e he
    simp only [sys, List.mem_cons, List.not_mem_nil, or_false] at he
    rcases he with rfl | rfl | rfl
    · exact fun _ => ⟨_, rfl⟩
    · exact fun _ => ⟨_, rfl⟩
    · intro h; exact absurd h (by decide)
  inner := by
    intro m hm
    simp only [sys, List.mem_cons, List.not_mem_nil, or_false] at hm
    rcases hm with rfl | rfl | rfl | rfl
    · exact fun h => absurd (show sys.inEdges 0 = [] by decide) h
    · exact fun h => absurd (show sys.inEdges 1 = [] by decide) h
    · exact fun _ _ => .inl ⟨[], rfl⟩
    · exact fun _ h => absurd (show sys.outEdges 3 = [] by decide) h
  meters := by
    intro e he
    simp only [sys, List.mem_cons, List.not_mem_nil, or_false] at he
    rcases he with rfl | rfl | rfl
    · intro h; simp [optic, laser] at h
    · intro h; simp [optic, laser] at h
    · intro _; decide

theorem sums (x : Signal n) : splitSignals [] 2 1 [x, fun i => -x i] = .ok [fun i => 2 * x i] := by
  have hw : splitWeights ([] : List ℝ) = [1] := by simp [splitWeights]
  have e1 : Complex.exp (-(2 * Real.pi * (1 / 2) : ℝ) * Complex.I) = -1 := by
    rw [show (-(2 * Real.pi * (1 / 2) : ℝ) * Complex.I : ℂ) = -(Real.pi * Complex.I) by push_cast; ring, Complex.exp_neg, Complex.exp_pi_mul_I]
    norm_num
  unfold splitSignals
  rw [if_neg (by simp [hw]), if_neg (by rw [hw]; simp), hw]
  congr 1
  simp only [List.zipIdx_cons, List.zipIdx_nil, List.map_cons, List.map_nil, List.cons.injEq, and_true]
  funext t
  have hp0 : splitPhase 2 1 0 0 = 1 := by simp [splitPhase]
  have hp1 : splitPhase 2 1 1 0 = -1 := by
    unfold splitPhase
    rw [← e1]
    congr 2
    norm_num
  simp only [splitRow, List.zipIdx_cons, List.zipIdx_nil, List.map_cons, List.map_nil, List.sum_cons, List.sum_nil, Nat.zero_add, hp0, hp1]
  norm_num
  ring

end Combiner

/-- **C71.** The bound is reached: two lasers of opposite phase on a connector with two inputs and one output deliver twice the energy they
emit (together; four times that of either). -/
theorem C71_combiner_gains (P : Prop_ n) (x inp : Signal n) :
    ∃ st, propagate Combiner.sys (physics P (Combiner.optic x) Combiner.conn (fun _ => false)) inp Store.empty = .ok st ∧
      energyIn Combiner.sys (Combiner.optic x) = 2 * energy x ∧
      energyOut Combiner.sys (Combiner.optic x) st = 2 * energyIn Combiner.sys (Combiner.optic x) := by
  set B := physics P (Combiner.optic x) Combiner.conn (fun _ => false) with hB
  set M : Signal n := fun i => ((‖2 * x i‖ ^ 2 : ℝ) : ℂ) with hM
  have s1 : ∀ st : Store (Signal n), propNode Combiner.sys B inp 1 st = .ok (st.put (.edge ⟨1, 2, 0⟩) (fun i => -x i)) := by
    intro st; rfl
  have s0 : ∀ st : Store (Signal n), propNode Combiner.sys B inp 0 st = .ok (st.put (.edge ⟨0, 2, 0⟩) x) := by
    intro st; rfl
  have s2 : ∀ st : Store (Signal n), propNode Combiner.sys B inp 2 ((st.put (.edge ⟨1, 2, 0⟩) (fun i => -x i)).put (.edge ⟨0, 2, 0⟩) x) =
      .ok (((st.put (.edge ⟨1, 2, 0⟩) (fun i => -x i)).put (.edge ⟨0, 2, 0⟩) x).put (.edge ⟨2, 3, 0⟩) M) := by
    intro st
    have e : B.node (Fixture.split 2) [x, fun i => -x i] 2 1 = .ok [fun i => 2 * x i] := Combiner.sums x
    have hc : collect ((st.put (.edge ⟨1, 2, 0⟩) (fun i => -x i)).put (.edge ⟨0, 2, 0⟩) x) [⟨0, 2, 0, Fixture.laser 4, 10⟩, ⟨1, 2, 0, Fixture.laser 5, 10⟩] =
      .ok [x, fun i => -x i] := rfl
    have hnn : Combiner.sys.node? 2 = some ⟨2, Fixture.split 2, 40⟩ := rfl
    have hi : Combiner.sys.inEdges 2 = [⟨0, 2, 0, Fixture.laser 4, 10⟩, ⟨1, 2, 0, Fixture.laser 5, 10⟩] := rfl
    have ho : Combiner.sys.outEdges 2 = [⟨2, 3, 0, Fixture.diode 6, 20⟩] := rfl
    have hid : Combiner.sys.inDeg 2 = 2 := rfl
    have hod : Combiner.sys.outDeg 2 = 1 := rfl
    unfold propNode
    rw [hnn, hid, hod, hi, ho, if_neg (by simp), hc]
    dsimp only
    rw [e]
    rfl
  have s3 : ∀ st : Store (Signal n), propNode Combiner.sys B inp 3 (st.put (.edge ⟨2, 3, 0⟩) M) = .ok ((st.put (.edge ⟨2, 3, 0⟩) M).put (.node 3) M) := by
    intro st; rfl
  have hin : energyIn Combiner.sys (Combiner.optic x) = 2 * energy x := by
    have : energyIn Combiner.sys (Combiner.optic x) = energy x + (energy (fun i => -x i) + 0) := rfl
    rw [this]
    have : energy (fun i => -x i) = energy x := by simp [energy]
    rw [this]; ring
  refine ⟨(((Store.empty.put (.edge ⟨1, 2, 0⟩) (fun i => -x i)).put (.edge ⟨0, 2, 0⟩) x).put (.edge ⟨2, 3, 0⟩) M).put (.node 3) M, ?_, hin, ?_⟩
  · unfold propagate
    rw [Combiner.topo]
    dsimp only
    unfold propagateWith
    simp only [propLoop, s0, s1, s3, s2]
  · have : energyOut Combiner.sys (Combiner.optic x)
        ((((Store.empty.put (.edge ⟨1, 2, 0⟩) (fun i => -x i)).put (.edge ⟨0, 2, 0⟩) x).put (.edge ⟨2, 3, 0⟩) M).put (.node 3) M) = (∑ i, ‖M i‖) + 0 := rfl
    rw [this, hin, hM]
    unfold energy
    rw [add_zero, ← mul_assoc, Finset.mul_sum]
    refine Finset.sum_congr rfl (fun i _ => ?_)
    rw [Complex.norm_real, Real.norm_of_nonneg (by positivity), norm_mul]
    norm_num
    ring

/-- The combiner meets the hypotheses of the bounds: its nodes allow a factor of two, and it delivers twice what the lasers emit. -/
example : ∃ st, propagate Combiner.sys (physics demoProp (Combiner.optic (fun _ => 1)) Combiner.conn (fun _ => false)) 0 Store.empty = .ok st ∧
    energyIn Combiner.sys (Combiner.optic (n := 4) (fun _ => 1)) = 8 ∧ energyOut Combiner.sys (Combiner.optic (fun _ => 1)) st = 16 ∧
    (Combiner.sys.ids.map (fanIn Combiner.sys)).prod = 2 ∧
    energyOut Combiner.sys (Combiner.optic (fun _ => 1)) st ≤
      (Combiner.sys.ids.map (fanIn Combiner.sys)).prod * energyIn Combiner.sys (Combiner.optic (n := 4) (fun _ => 1)) := by
  obtain ⟨st, h, h1, h2⟩ := C71_combiner_gains demoProp (fun _ => 1) 0
  have e1 : energy (fun _ : Fin 4 => (1 : ℂ)) = 4 := by simp [energy]
  refine ⟨st, h, by rw [h1, e1]; norm_num, by rw [h2, h1, e1]; norm_num, ?_, ?_⟩
  · have f0 : fanIn Combiner.sys 0 = 1 := if_pos (.inl (by decide))
    have f1 : fanIn Combiner.sys 1 = 1 := if_pos (.inl (by decide))
    have f3 : fanIn Combiner.sys 3 = 1 := if_pos (.inr (by decide))
    have f2 : fanIn Combiner.sys 2 = 2 := by
      unfold fanIn
      rw [if_neg (by decide), show (Combiner.sys.inEdges 2).length = 2 by decide, show (Combiner.sys.outEdges 2).length = 1 by decide]
      norm_num
    have : Combiner.sys.ids = [0, 1, 2, 3] := rfl
    rw [this]
    simp [f0, f1, f2, f3]
  · refine C71_passive_bound (by norm_num) (by norm_num [demoProp]) Combiner.wf (Combiner.network _) ?_ ?_ h
    · intro m _ a
      unfold Combiner.conn
      split <;> simp
    · intro e he
      simp only [Combiner.sys, List.mem_cons, List.not_mem_nil, or_false] at he
      rcases he with rfl | rfl | rfl
      · exact fun h => absurd (show Combiner.sys.inEdges 0 = [] by decide) h
      · exact fun h => absurd (show Combiner.sys.inEdges 1 = [] by decide) h
      · intro _
        exact (C71_gains (by norm_num) (by norm_num [demoProp] : (0 : ℝ) < demoProp.window)).2.2.2.2.2.2.2.2.2.2.1

/-- Prices for the combiner: energy in front of the connector is worth twice as much as behind it. -/
theorem Combiner.prices : Prices demoProp Combiner.sys (Combiner.optic (fun _ => 1)) Combiner.conn (fun _ => 1) (fun v => if v = 2 then 2 else 1) where
  nonneg := by intro v; split <;> norm_num
  gain := by
    intro e he
    simp only [Combiner.sys, List.mem_cons, List.not_mem_nil, or_false] at he
    rcases he with rfl | rfl | rfl
    · exact fun h => absurd (show Combiner.sys.inEdges 0 = [] by decide) h
    · exact fun h => absurd (show Combiner.sys.inEdges 1 = [] by decide) h
    · exact fun _ => ⟨zero_le_one, (C71_gains (by norm_num) (by norm_num [demoProp] : (0 : ℝ) < demoProp.window)).2.2.2.2.2.2.2.2.2.2.1⟩
  split := by
    intro m hm hin a ha e he
    simp only [Combiner.sys, List.mem_cons, List.not_mem_nil, or_false] at hm
    rcases hm with rfl | rfl | rfl | rfl
    · exact absurd (show Combiner.sys.inEdges 0 = [] by decide) hin
    · exact absurd (show Combiner.sys.inEdges 1 = [] by decide) hin
    · have : Combiner.sys.outEdges 2 = [⟨2, 3, 0, Fixture.diode 6, 20⟩] := rfl
      rw [this, List.mem_singleton] at he
      subst he
      rw [show (Combiner.sys.inEdges 2).length = 2 by decide, show (Combiner.sys.outEdges 2).length = 1 by decide]
      norm_num
    · rw [show Combiner.sys.outEdges 3 = [] from rfl] at he
      simp at he
  bands := by
    intro m _ _ a ha
    unfold Combiner.conn at ha
    split at ha <;> simp at ha

example (inp : Signal 4) (old st : Store (Signal 4))
    (h : propagate Combiner.sys (physics demoProp (Combiner.optic (fun _ => 1)) Combiner.conn (fun _ => false)) inp old = .ok st) :=
  C71_energy_budget (by norm_num) (by norm_num [demoProp]) Combiner.wf (Combiner.network _) Combiner.prices h

/-- A laser split into two arms: no more arrives than is emitted. -/
example (x inp : Signal 4) : ∃ st, propagate (Wye.sys 0) (physics demoProp (fun c => Wye.optic x c.cls [1 / 3])
      (fun c => if c.cls = 40 then .splitter [1 / 3] else .terminal) (fun _ => false)) inp Store.empty = .ok st ∧
    energyOut (Wye.sys 0) (fun c => Wye.optic x c.cls [1 / 3]) st ≤ energyIn (Wye.sys 0) (fun c => Wye.optic x c.cls [1 / 3]) := by
  obtain ⟨st, h, -⟩ := Wye.out demoProp x inp 0 (fun _ => [1 / 3]) (by norm_num) (by norm_num) rfl
  have e : (fiberKinds demoProp (· = 40) (Wye.optic x)).behav (fun _ => [1 / 3]) = physics demoProp (fun c => Wye.optic x c.cls [1 / 3])
      (fun c => if c.cls = 40 then .splitter [1 / 3] else .terminal) (fun _ => false) := by
    unfold physics Kinds.behav fiberKinds
    simp
  rw [e] at h
  refine ⟨st, h, C71_no_gain (by norm_num) (by norm_num [demoProp]) Wye.wf ?_ ?_ ?_ ?_ h⟩
  · refine ⟨?_, ?_, ?_⟩
    · intro e he
      simp only [Wye.sys, List.mem_cons, List.not_mem_nil, or_false] at he
      rcases he with rfl | rfl | rfl
      · exact fun _ => ⟨_, rfl⟩
      · intro h; exact absurd h (by decide)
      · intro h; exact absurd h (by decide)
    · intro m hm
      simp only [Wye.sys, List.mem_cons, List.not_mem_nil, or_false] at hm
      rcases hm with rfl | rfl | rfl | rfl
      · exact fun h => absurd (show (Wye.sys 0).inEdges 0 = [] by decide) h
      · exact fun _ _ => .inl ⟨_, rfl⟩
      · exact fun _ h => absurd (show (Wye.sys 0).outEdges 2 = [] by decide) h
      · exact fun _ h => absurd (show (Wye.sys 0).outEdges 3 = [] by decide) h
    · intro e _ h
      unfold Wye.optic at h
      split at h <;> simp at h
  · intro m _ a
    split <;> simp
  · intro e he
    simp only [Wye.sys, List.mem_cons, List.not_mem_nil, or_false] at he
    have := (C71_gains (by norm_num) (by norm_num [demoProp] : (0 : ℝ) < demoProp.window)).2.2.2.2.2.2.2.1
    rcases he with rfl | rfl | rfl
    · exact fun h => absurd (show (Wye.sys 0).inEdges 0 = [] by decide) h
    · exact fun _ => this
    · exact fun _ => this
  · intro m hm
    simp only [Wye.sys, List.mem_cons, List.not_mem_nil, or_false] at hm
    rcases hm with rfl | rfl | rfl | rfl <;> decide

end Verif
