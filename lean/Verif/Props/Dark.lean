import Verif.Lemmas.Dark
import Verif.Props.Rewrite
/-!
# C95: parts of a system that get no light

Arms behind a shut output of a splitter, and whatever else is in the dark: nothing there matters, and still taking it out changes the rest.
-/

namespace Verif
open Graph Topology Filter Complex

section Main
variable {n : Nat} {P : Prop_ n} {g : Graph} {optic optic' : Comp → Optic n} {conn conn' : Comp → Connector} {hasNoise : Comp → Bool} {inp : Signal n}
  {old st : Store (Signal n)}

theorem dark_unlit (hw : g.WF) (hF : IsFlow g (physics P optic conn hasNoise) inp st) {e : Edge} (he : InTheDark g optic conn e) :
    Unlit g (physics P optic conn hasNoise) inp st e := by
  induction he with
  | @shut e v a j hv hj ha hs ho =>
    obtain ⟨hem, hsrc⟩ := mem_outEdges.1 (List.mem_of_getElem? hj)
    obtain ⟨u, hu, hid, outs, i, s, s1, s2, k1, k2, k3, k4, k5, k6⟩ := hF.edges e hem
    have huv : u = v := node_unique hw hu hv (hid.trans hsrc)
    subst huv
    rw [← hid] at k2
    have hij := port_unique hw k2 hj
    subst hij
    refine ⟨u, hv, outs, i, k1, hj, ?_⟩
    obtain ⟨ins, -, hn⟩ := k1
    change (conn u.comp).apply P _ _ _ = _ at hn
    rw [ha] at hn
    rw [k3, split_shut hn hs k3]
  | @behind e hem hex _ ho ih =>
    obtain ⟨u, hu, hid, outs, i, s, s1, s2, k1, k2, k3, k4, k5, k6⟩ := hF.edges e hem
    refine ⟨u, hu, outs, i, k1, by rw [hid]; exact k2, ?_⟩
    obtain ⟨ins, hI, hn⟩ := k1
    have hin : ∀ x ∈ ins, x = fun _ => 0 := by
      rcases hI with ⟨h0, -⟩ | ⟨-, h1⟩
      · obtain ⟨d, hd, hdd⟩ := hex
        have : d ∈ g.inEdges u.id := mem_inEdges.2 ⟨hd, hdd.trans hid.symm⟩
        rw [h0] at this; cases this
      · intro x hx
        have : some x ∈ (g.inEdges u.id).map (fun e => st (.edge e.ref)) := by rw [h1]; exact List.mem_map_of_mem hx
        obtain ⟨d, hd, hdx⟩ := List.mem_map.1 this
        obtain ⟨hd1, hd2⟩ := mem_inEdges.1 hd
        rename_i hdark
        have hns : ¬ (optic d.comp).IsSource := by
          cases hdark d hd1 (hd2.trans hid) <;> assumption
        rw [unlit_state hw hF (ih d hd1 (hd2.trans hid)) hns] at hdx
        injection hdx with hdx
        exact hdx.symm
    rw [k3, node_dark hn hin s (List.mem_of_getElem? k3)]

/-- **C95.** What is behind a shut output of a splitter, and only fed from there, is dark: whatever the components are, as long as none makes light of its own, every
edge there carries nothing, and an output node fed only from there shows nothing. -/
theorem C95_dark (hw : g.WF) (h : propagate g (physics P optic conn hasNoise) inp old = .ok st) :
    (∀ e, InTheDark g optic conn e → st (.edge e.ref) = some (fun _ => 0)) ∧
    ∀ v ∈ g.nodes, g.IsSink v.id → (∃ d ∈ g.edges, d.dst = v.id) → (∀ d ∈ g.edges, d.dst = v.id → InTheDark g optic conn d) →
      st (.node v.id) = some (fun _ => 0) := by
  have hF := ((propagate_iff hw).1 h).2
  have hE : ∀ e, InTheDark g optic conn e → st (.edge e.ref) = some (fun _ => 0) := fun e he =>
    unlit_state hw hF (dark_unlit hw hF he) (by cases he <;> assumption)
  refine ⟨hE, fun v hv hs hex hall => ?_⟩
  obtain ⟨outs, s, ⟨ins, hI, hn⟩, k2, k3⟩ := hF.sinks v hv hs
  have hin : ∀ x ∈ ins, x = fun _ => 0 := by
    rcases hI with ⟨h0, -⟩ | ⟨-, h1⟩
    · obtain ⟨d, hd, hdd⟩ := hex
      have : d ∈ g.inEdges v.id := mem_inEdges.2 ⟨hd, hdd⟩
      rw [h0] at this; cases this
    · intro x hx
      have : some x ∈ (g.inEdges v.id).map (fun e => st (.edge e.ref)) := by rw [h1]; exact List.mem_map_of_mem hx
      obtain ⟨d, hd, hdx⟩ := List.mem_map.1 this
      obtain ⟨hd1, hd2⟩ := mem_inEdges.1 hd
      rw [hE d (hall d hd1 hd2)] at hdx
      injection hdx with hdx
      exact hdx.symm
  rw [k3, node_dark hn hin s (List.mem_of_getElem? k2)]

theorem inputs_length {v : NodeId} {ins : List (Signal n)} (h : Inputs g inp st v ins) : ins.length = max 1 (g.inEdges v).length := by
  rcases h with ⟨h0, rfl⟩ | ⟨h0, h1⟩
  · rw [h0]; rfl
  · have := congrArg List.length h1
    rw [List.length_map, List.length_map] at this
    rw [← this]
    have : (g.inEdges v).length ≠ 0 := by simpa using h0
    omega

/-- **C95.** Where no light enters, it does not matter what is there: components on edges and nodes that get no light, be it because of a shut output or because light
cancels, may be replaced by any others that make no light of their own and do not raise.  The system still runs, and every state is what it was. -/
theorem C95_states (hw : g.WF) (h : propagate g (physics P optic conn hasNoise) inp old = .ok st)
    (hedge : ∀ e ∈ g.edges, optic' e.comp ≠ optic e.comp → Unlit g (physics P optic conn hasNoise) inp st e ∧ ¬ (optic e.comp).IsSource ∧ (optic' e.comp).Idle P)
    (hnode : ∀ v ∈ g.nodes, conn' v.comp ≠ conn v.comp → UnlitNode g inp st v ∧ (conn' v.comp).Idle P (g.inEdges v.id).length (g.outEdges v.id).length)
    (old' : Store (Signal n)) : propagate g (physics P optic' conn' hasNoise) inp old' = .ok st := by
  obtain ⟨hord, hF⟩ := (propagate_iff hw).1 h
  refine (propagate_iff hw).2 ⟨hord, ?_⟩
  -- what leaves the nodes
  have hout : ∀ v ∈ g.nodes, ∀ outs, Outputs g (physics P optic conn hasNoise) inp st v outs → ∀ (j : Nat), j < max 1 (g.outEdges v.id).length → ∀ s, outs[j]? = some s →
      ∃ outs', Outputs g (physics P optic' conn' hasNoise) inp st v outs' ∧ outs'[j]? = some s := by
    intro v hv outs ⟨ins, hI, hn⟩ j hj s hs
    by_cases hc : conn' v.comp = conn v.comp
    · refine ⟨outs, ⟨ins, hI, ?_⟩, hs⟩
      show (conn' v.comp).apply P _ _ _ = _
      rw [hc]; exact hn
    · obtain ⟨⟨ins', hI', hin⟩, outs', ho, hlen⟩ := hnode v hv hc
      have hii := inputs_unique hI hI'
      subst hii
      have hrep : ins = List.replicate (max 1 (g.inEdges v.id).length) (fun _ => 0) := List.eq_replicate_iff.2 ⟨inputs_length hI, hin⟩
      refine ⟨outs', ⟨ins, hI, ?_⟩, ?_⟩
      · rw [hrep]; exact ho
      · have hj' : j < outs'.length := by omega
        rw [List.getElem?_eq_getElem hj', node_dark ho (fun x hx => List.eq_of_mem_replicate hx) _ (List.getElem_mem hj'),
          node_dark hn hin s (List.mem_of_getElem? hs)]
  refine ⟨?_, ?_, hF.only⟩
  · intro e he
    obtain ⟨u, hu, hid, outs, i, s, s1, s2, k1, k2, k3, k4, k5, k6⟩ := hF.edges e he
    have hi : i < max 1 (g.outEdges u.id).length := by
      rw [hid]
      have := (List.getElem?_eq_some_iff.1 k2).1
      omega
    obtain ⟨outs', l1, l2⟩ := hout u hu outs k1 i hi s k3
    by_cases hc : optic' e.comp = optic e.comp
    · refine ⟨u, hu, hid, outs', i, s, s1, s2, l1, k2, l2, ?_, k5, k6⟩
      show (optic' e.comp).apply P s = _
      rw [hc]; exact k4
    · obtain ⟨hun, hso, hid', y, hy⟩ := hedge e he hc
      have hst := unlit_state hw hF hun hso
      obtain ⟨v, hv, outs2, j, m1, m2, m3⟩ := hun
      have huv : u = v := node_unique hw hu hv (hid.trans (mem_outEdges.1 (List.mem_of_getElem? m2)).2)
      subst huv
      rw [← hid] at k2
      have hij := port_unique hw k2 m2
      subst hij
      have ho := outputs_unique k1 m1
      subst ho
      rw [m3] at k3
      injection k3 with k3
      subst k3
      have hs2 : s2 = y := by
        rw [hst] at k6
        injection k6 with k6
        rw [← k6, apply_dark hid' hy]
      refine ⟨u, hu, hid, outs', i, _, y, y, l1, by rw [← hid]; exact k2, l2, hy, physics_noise y, by rw [← hs2]; exact k6⟩
  · intro v hv hsink
    obtain ⟨outs, s, k1, k2, k3⟩ := hF.sinks v hv hsink
    obtain ⟨outs', l1, l2⟩ := hout v hv outs k1 0 (by omega) s k2
    exact ⟨outs', s, l1, l2, k3⟩

end Main

/-! ### What the Hessian shows of it -/

section Slopes
variable {n m : Nat} {P : Prop_ n} {g : Graph} {optic : (Fin m → ℝ) → Comp → Optic n} {conn : (Fin m → ℝ) → Comp → Connector} {hasNoise : Comp → Bool}
  {inp : Signal n} {old : Store (Signal n)} {at_ : Key} {score : Signal n → Except Err ℝ} {p : Fin m → ℝ}

/-- **C95.** A parameter of components that get no light at `p` alone, because light happens to cancel in front of them: its slope is 0 there, and so is its own
curvature; the rest of its row need not be. -/
theorem C95_unlit (hw : g.WF) {st : Store (Signal n)} (h : propagate g (physics P (optic p) (conn p) hasNoise) inp old = .ok st) (i : Fin m)
    (hedge : ∀ u, ∀ e ∈ g.edges, optic (Function.update p i u) e.comp ≠ optic p e.comp →
      Unlit g (physics P (optic p) (conn p) hasNoise) inp st e ∧ ¬ (optic p e.comp).IsSource ∧ (optic (Function.update p i u) e.comp).Idle P)
    (hnode : ∀ u, ∀ v ∈ g.nodes, conn (Function.update p i u) v.comp ≠ conn p v.comp →
      UnlitNode g inp st v ∧ (conn (Function.update p i u) v.comp).Idle P (g.inEdges v.id).length (g.outEdges v.id).length) :
    (∀ u, systemScore P g optic conn hasNoise inp old at_ score (Function.update p i u) = systemScore P g optic conn hasNoise inp old at_ score p) ∧
    pderiv i (funcOf P g optic conn hasNoise inp old at_ score) p = 0 ∧
    (autoHessian (funcOf P g optic conn hasNoise inp old at_ score) p).entry i i = 0 := by
  have hS : ∀ u, systemScore P g optic conn hasNoise inp old at_ score (Function.update p i u) = systemScore P g optic conn hasNoise inp old at_ score p := by
    intro u
    unfold systemScore
    rw [h, C95_states hw h (hedge u) (hnode u) old]
  have hf : ∀ u, funcOf P g optic conn hasNoise inp old at_ score (Function.update p i u) = funcOf P g optic conn hasNoise inp old at_ score p := fun u => by
    unfold funcOf; rw [hS]
  have hd : ∀ u, pderiv i (funcOf P g optic conn hasNoise inp old at_ score) (Function.update p i u) = 0 := by
    intro u
    unfold pderiv
    simp only [Function.update_idem, hf]
    simp
  refine ⟨hS, ?_, ?_⟩
  · have := hd (p i)
    rwa [Function.update_eq_self] at this
  · rw [autoHessian_entry]
    unfold pderiv at hd ⊢
    simp only [hd]
    simp

theorem flat_param {f : (Fin m → ℝ) → ℝ} {i : Fin m} (hf : ∀ q u, f (Function.update q i u) = f q) (p : Fin m → ℝ) :
    pderiv i f p = 0 ∧ (∀ k : Fin m, (autoHessian f p).entry i k = 0 ∧ (autoHessian f p).entry k i = 0) ∧ (paramScores (autoHessian f p))[(i : Nat)]? = some 0 := by
  have h1 : ∀ q, pderiv i f q = 0 := fun q => by unfold pderiv; simp only [hf]; simp
  have h2 : ∀ k q u, pderiv k f (Function.update q i u) = pderiv k f q := by
    intro k q u
    by_cases hk : k = i
    · subst hk; rw [h1, h1]
    · unfold pderiv
      rw [Function.update_of_ne hk]
      congr 1
      funext x
      rw [Function.update_comm (Ne.symm hk), hf]
  have hrow : ∀ k : Fin m, (autoHessian f p).entry i k = 0 := by
    intro k
    rw [autoHessian_entry]
    unfold pderiv at h1 ⊢
    simp only [h1]
    simp
  have hcol : ∀ k : Fin m, (autoHessian f p).entry k i = 0 := by
    intro k
    rw [autoHessian_entry]
    show deriv (fun u => pderiv k f (Function.update p i u)) (p i) = 0
    simp only [h2]
    simp
  refine ⟨h1 p, fun k => ⟨hrow k, hcol k⟩, ?_⟩
  obtain ⟨q, hq, -, hzero, -⟩ := (C43_parameters (autoHessian f p)).2 i i.2
  rw [hq, hzero.2]
  intro j hj
  exact ⟨hrow ⟨j, hj⟩, hcol ⟨j, hj⟩⟩

/-- **C95.** A parameter of components that are in the dark because of a shut splitter, whatever the parameters are: it changes nothing, so it has slope 0, a zero row
and column in the Hessian and sensitivity 0.  This needs no smoothness of anything else: the share of a shut output itself has no slope (`C91_splitter_edge`). -/
theorem C95_free_wheeling (hw : g.WF) (i : Fin m)
    (hedge : ∀ q, ∀ e ∈ g.edges, (∃ u, optic (Function.update q i u) e.comp ≠ optic q e.comp) → InTheDark g (optic q) (conn q) e ∧ (optic q e.comp).Idle P)
    (hnode : ∀ q, ∀ v ∈ g.nodes, (∃ u, conn (Function.update q i u) v.comp ≠ conn q v.comp) →
      ((∃ d ∈ g.edges, d.dst = v.id) ∧ ∀ d ∈ g.edges, d.dst = v.id → InTheDark g (optic q) (conn q) d) ∧
      (conn q v.comp).Idle P (g.inEdges v.id).length (g.outEdges v.id).length) :
    (∀ q u val, systemScore P g optic conn hasNoise inp old at_ score (Function.update q i u) = .ok val ↔ systemScore P g optic conn hasNoise inp old at_ score q = .ok val) ∧
    pderiv i (funcOf P g optic conn hasNoise inp old at_ score) p = 0 ∧
    (∀ j : Fin m, (autoHessian (funcOf P g optic conn hasNoise inp old at_ score) p).entry i j = 0 ∧
      (autoHessian (funcOf P g optic conn hasNoise inp old at_ score) p).entry j i = 0) ∧
    (paramScores (autoHessian (funcOf P g optic conn hasNoise inp old at_ score) p))[(i : Nat)]? = some 0 := by
  have key : ∀ q u st, propagate g (physics P (optic q) (conn q) hasNoise) inp old = .ok st →
      propagate g (physics P (optic (Function.update q i u)) (conn (Function.update q i u)) hasNoise) inp old = .ok st := by
    intro q u st h
    have hF := ((propagate_iff hw).1 h).2
    have hback : Function.update (Function.update q i u) i (q i) = q := by rw [Function.update_idem, Function.update_eq_self]
    refine C95_states hw h ?_ ?_ old
    · intro e he hne
      obtain ⟨h1, h2, -⟩ := hedge q e he ⟨u, hne⟩
      exact ⟨dark_unlit hw hF h1, h2, (hedge (Function.update q i u) e he ⟨q i, by rw [hback]; exact hne.symm⟩).2⟩
    · intro v hv hne
      obtain ⟨⟨⟨d, hd, hdd⟩, h1⟩, -⟩ := hnode q v hv ⟨u, hne⟩
      refine ⟨⟨List.replicate (g.inEdges v.id).length (fun _ => 0), .inr ⟨?_, ?_⟩, fun x hx => List.eq_of_mem_replicate hx⟩,
        (hnode (Function.update q i u) v hv ⟨q i, by rw [hback]; exact hne.symm⟩).2⟩
      · intro h0
        have : d ∈ g.inEdges v.id := mem_inEdges.2 ⟨hd, hdd⟩
        rw [h0] at this; cases this
      · rw [List.map_replicate, List.eq_replicate_iff]
        refine ⟨by rw [List.length_map], fun x hx => ?_⟩
        obtain ⟨d, hd, rfl⟩ := List.mem_map.1 hx
        obtain ⟨hd1, hd2⟩ := mem_inEdges.1 hd
        exact (C95_dark hw h).1 d (h1 d hd1 hd2)
  have hS : ∀ q u val, systemScore P g optic conn hasNoise inp old at_ score (Function.update q i u) = .ok val ↔
      systemScore P g optic conn hasNoise inp old at_ score q = .ok val := by
    intro q u val
    have one : ∀ q u, systemScore P g optic conn hasNoise inp old at_ score q = .ok val →
        systemScore P g optic conn hasNoise inp old at_ score (Function.update q i u) = .ok val := by
      intro q u h
      unfold systemScore at h ⊢
      cases hp : propagate g (physics P (optic q) (conn q) hasNoise) inp old with
      | error e => rw [hp] at h; cases h
      | ok st =>
        rw [hp] at h
        rw [key q u st hp]
        exact h
    refine ⟨fun h => ?_, one q u⟩
    have := one _ (q i) h
    rwa [Function.update_idem, Function.update_eq_self] at this
  refine ⟨hS, flat_param (fun q u => ?_) p⟩
  unfold funcOf
  cases ha : systemScore P g optic conn hasNoise inp old at_ score (Function.update q i u) with
  | ok val => rw [(hS q u val).1 ha]
  | error e =>
    cases hb : systemScore P g optic conn hasNoise inp old at_ score q with
    | error e' => rfl
    | ok val => rw [(hS q u val).2 hb] at ha; cases ha

end Slopes

/-! ### Taking a dark arm out -/

section Prune
variable {n : Nat}

/-- **C95, finding.** An arm that gets no light can not be taken out without effect: a power splitter divides by the number of its outputs, so with the dark one of its
two arms removed (and its ratio gone with it, as `update_attributes` leaves it) the other arm carries twice the power it did. -/
theorem C95_prune (hn : 2 ≤ n) {P : Prop_ n} (hwin : 0 < P.window) {g : Graph} (hw : g.WF) (ha : g.Acyclic) {optic : Comp → Optic n} {conn conn' : Comp → Connector}
    {hasNoise : Comp → Bool} {a : Node} (ham : a ∈ g.nodes) {eIn e0 e1 : Edge} (hin : g.inEdges a.id = [eIn]) (hout : g.outEdges a.id = [e0, e1])
    (hr : conn a.comp = .splitter [0]) (hr' : conn' a.comp = .splitter (splitUpdate ℝ 1).params) (hc : ∀ u ∈ g.nodes, u ≠ a → conn' u.comp = conn u.comp)
    (h1 : ¬ (optic e0.comp).IsDetector) (h2 : ¬ (optic e0.comp).Saturates) (h3 : ¬ (optic e0.comp).IsSource) (h4 : ¬ (optic e1.comp).IsSource)
    {inp : Signal n} {old old' st st' : Store (Signal n)} (h : propagate g (physics P optic conn hasNoise) inp old = .ok st)
    (h' : propagate (g.removeEdge e1.ref) (physics P optic conn' hasNoise) inp old' = .ok st') :
    st (.edge e1.ref) = some (fun _ => 0) ∧
    ∃ y y', st (.edge e0.ref) = some y ∧ st' (.edge e0.ref) = some y' ∧ ∀ t, y' t = (Real.sqrt 2 : ℝ) * y t ∧ ‖y' t‖ ^ 2 = 2 * ‖y t‖ ^ 2 := by
  have hw' := hw.removeEdge e1.ref
  have hF := ((propagate_iff hw).1 h).2
  have hF' := ((propagate_iff hw').1 h').2
  obtain ⟨he0, hsrc0⟩ := mem_outEdges.1 (by rw [hout]; simp : e0 ∈ g.outEdges a.id)
  obtain ⟨he1, hsrc⟩ := mem_outEdges.1 (by rw [hout]; simp : e1 ∈ g.outEdges a.id)
  obtain ⟨heI, hdst⟩ := mem_inEdges.1 (by rw [hin]; simp : eIn ∈ g.inEdges a.id)
  have hnew : g.Reach e1.src e1.dst := Relation.ReflTransGen.single ⟨e1, he1, rfl, rfl⟩
  have h01 : e0 ≠ e1 := by
    have := ports_nodup hw a.id
    rw [hout] at this
    simpa using this
  have hr01 : e0.ref ≠ e1.ref := fun hc => h01 (ref_inj hw he0 he1 hc)
  have hout' : (g.removeEdge e1.ref).outEdges a.id = [e0] := by
    have : (g.removeEdge e1.ref).outEdges a.id = (g.outEdges a.id).filter (fun y => y.ref ≠ e1.ref) := by
      unfold removeEdge outEdges
      rw [List.filter_filter, List.filter_filter]
      refine List.filter_congr fun y _ => ?_
      rw [Bool.and_comm]
    rw [this, hout]
    simp [hr01]
  have hin_of : ∀ x, ¬ g.Reach e1.src x ∨ x = a.id → (g.removeEdge e1.ref).inEdges x = g.inEdges x := by
    intro x hx
    unfold removeEdge inEdges
    rw [List.filter_filter]
    refine List.filter_congr fun y _ => ?_
    by_cases hy : y.dst = x
    · have : y.ref ≠ e1.ref := fun hc => by
        have hyd : e1.dst = x := by rw [← hy]; exact (congrArg EdgeRef.dst hc).symm
        rcases hx with hx | hx
        · exact hx (hyd ▸ hnew)
        · exact ha a.id (Relation.TransGen.single ⟨e1, he1, hsrc, hyd.trans hx⟩)
      simp [this]
    · simp [hy]
  have hou_of : ∀ x, ¬ g.Reach e1.src x → (g.removeEdge e1.ref).outEdges x = g.outEdges x := fun x hx => by
    unfold removeEdge outEdges
    rw [List.filter_filter]
    refine List.filter_congr fun y _ => ?_
    by_cases hy : y.src = x
    · have : y.ref ≠ e1.ref := fun hc => hx (by rw [← hy, show y.src = e1.src from congrArg EdgeRef.src hc]; exact Relation.ReflTransGen.refl)
      simp [this]
    · simp [hy]
  obtain ⟨x, y, k1, k2, k3, k4⟩ := arm_field hw ham (j := 0) hin (by rw [hout]; rfl) hr hF
  obtain ⟨x', y', l1, l2, l3, l4⟩ := arm_field hw' (show a ∈ (g.removeEdge e1.ref).nodes from ham) (j := 0) (by rw [hin_of _ (.inr rfl)]; exact hin) (by rw [hout']; rfl) hr' hF'
  have hnr : ¬ g.Reach e1.src eIn.src := fun hc => ha a.id (by
    have hadj : g.Adj eIn.src a.id := ⟨eIn, heI, rfl, hdst⟩
    rw [hsrc] at hc
    exact Relation.TransGen.tail' hc hadj)
  have hS : SameUpstream g (g.removeEdge e1.ref) (physics P optic conn hasNoise) (physics P optic conn' hasNoise) (fun x => ¬ g.Reach e1.src x) := by
    refine ⟨?_, ?_, ?_, ?_, ?_⟩
    · intro y hy hx hc
      exact hx (hc.tail ⟨y, hy, rfl, rfl⟩)
    · intro z hz hzr z' hz' hid
      rw [node_unique hw (by exact hz') hz hid]
      have : z ≠ a := by rintro rfl; exact hzr (by rw [hsrc]; exact Relation.ReflTransGen.refl)
      simp only [physics]; rw [hc z hz this]
    · intro z hz
      rw [hin_of z (.inl hz)]
    · intro z hz
      rw [hou_of z hz]
    · intro z i y hz hi _
      exact ⟨y, by rw [hou_of z hz]; exact hi, rfl, rfl, rfl⟩
  have hx : x' = x := by
    obtain ⟨i, hi⟩ := List.mem_iff_getElem?.1 (mem_outEdges.2 ⟨heI, rfl⟩ : eIn ∈ g.outEdges eIn.src)
    have := (C92_upstream hw hw' hS h h').2.1 i eIn eIn hnr hi (by rw [hou_of _ hnr]; exact hi) ⟨rfl, rfl⟩
    rw [k1, l1] at this
    injection this
  subst hx
  refine ⟨(C95_dark hw h).1 e1 (.shut ham (j := 1) (by rw [hout]; rfl) hr (.inr ⟨0, by omega, rfl⟩) h4), y, y', k2, l2, ?_⟩
  have hf : armFactor (splitUpdate ℝ 1).params ((g.removeEdge e1.ref).outEdges a.id).length 0 = ((Real.sqrt 2 : ℝ) : ℂ) * armFactor [0] (g.outEdges a.id).length 0 := by
    rw [hout, hout']
    simp [armFactor, splitWeights, splitUpdate, defaultRatios, turn_zero]
  have := scales_of (dt_ne_zero hn hwin) h1 h2 (fun z hz => h3 (by rw [hz]; trivial)) ((Real.sqrt 2 : ℝ) : ℂ) k4
  rw [hf] at l4
  simp only [mul_assoc] at l4
  rw [l4] at this
  injection this with this
  intro t
  have ht : y' t = ((Real.sqrt 2 : ℝ) : ℂ) * y t := congrFun this t
  refine ⟨ht, ?_⟩
  rw [ht, norm_mul, mul_pow, Complex.norm_real, Real.norm_of_nonneg (Real.sqrt_nonneg _), Real.sq_sqrt (by norm_num)]

end Prune

/-! ### A case: two arms, the second one shut -/

namespace Dark
open Fixture

theorem second (x : Signal 4) (o0 o1 last : Optic 4) (h : ¬ o1.IsSource) : InTheDark Fixture.g (Arms.optic x o0 o1 last) (Arms.conn 0) ⟨1, 2, 1, shaper 6, 31⟩ :=
  .shut (v := ⟨1, split 2, 40⟩) (j := 1) (by decide) (by decide) rfl (.inr ⟨0, by omega, rfl⟩) h

/-- The second arm is dark, with an amplifier in it as well as without. -/
example (x inp : Signal 4) (E : Edfa) : ∃ st, propagate Fixture.g (physics demoProp (Arms.optic x .waveguide (.edfa E) .measure) (Arms.conn 0) (fun _ => true)) inp Store.empty = .ok st ∧
    st (.edge ⟨1, 2, 1⟩) = some (fun _ => 0) := by
  obtain ⟨st, h⟩ := Arms.runs (P := demoProp) x (r := 0) le_rfl zero_le_one (o0 := .waveguide) (o1 := .edfa E) (last := .measure)
    (fun y => ⟨_, rfl⟩) (fun y => ⟨_, rfl⟩) (fun y => ⟨_, rfl⟩) (fun _ => true) inp Store.empty
  exact ⟨st, h, (C95_dark g_wf h).1 _ (second x _ _ _ (fun hc => hc))⟩

/-- A source in the first arm and a second output behind it: node 2 of the fork and the output behind it are fed from the shut arm only, and show nothing. -/
example (x inp : Signal 4) (E : Edfa) {st : Store (Signal 4)}
    (h : propagate Ahead.fork (physics demoProp (fun c => if c.uid = 4 then .source x else if c.uid = 5 then .edfa E else .waveguide)
      (fun c => if c.uid = 2 then .splitter [1] else if c.uid = 3 then .splitter [] else .terminal) (fun _ => true)) inp Store.empty = .ok st) :
    st (.node 3) = some (fun _ => 0) := by
  have h0 : InTheDark Ahead.fork (fun c => if c.uid = 4 then Optic.source x else if c.uid = 5 then .edfa E else .waveguide)
      (fun c => if c.uid = 2 then .splitter [1] else if c.uid = 3 then .splitter [] else .terminal) ⟨1, 2, 0, Fixture.fiber 5, 30⟩ :=
    .shut (v := ⟨1, split 2, 40⟩) (j := 0) (by decide) (by decide) rfl (.inl rfl) (fun hc => hc)
  refine (C95_dark Ahead.fork_wf h).2 ⟨3, snk, 2⟩ (by decide) ⟨by decide, by decide⟩ ⟨⟨2, 3, 0, diode 7, 20⟩, by decide, rfl⟩ ?_
  intro d hd hdd
  have : d = ⟨2, 3, 0, diode 7, 20⟩ := by
    simp only [Ahead.fork, List.mem_cons, List.not_mem_nil, or_false] at hd
    rcases hd with rfl | rfl | rfl | rfl
    · exact absurd hdd (by decide)
    · exact absurd hdd (by decide)
    · exact absurd hdd (by decide)
    · rfl
  subst this
  refine .behind (by decide) ⟨⟨1, 2, 0, Fixture.fiber 5, 30⟩, by decide, rfl⟩ ?_ (fun hc => hc)
  intro d hd hdd
  simp only [Ahead.fork, List.mem_cons, List.not_mem_nil, or_false] at hd
  rcases hd with rfl | rfl | rfl | rfl
  · exact absurd hdd (by decide)
  · exact h0
  · exact absurd hdd (by decide)
  · exact absurd hdd (by decide)

/-- … and may hold something else just as well: every state stays what it was. -/
example (x inp : Signal 4) (E : Edfa) (φ : ℝ) : ∃ st, propagate Fixture.g (physics demoProp (Arms.optic x .waveguide (.edfa E) .measure) (Arms.conn 0) (fun _ => true)) inp Store.empty = .ok st ∧
    propagate Fixture.g (physics demoProp (Arms.optic x .waveguide (.phaseShifter φ) .measure) (Arms.conn 0) (fun _ => true)) inp Store.empty = .ok st := by
  obtain ⟨st, h⟩ := Arms.runs (P := demoProp) x (r := 0) le_rfl zero_le_one (o0 := .waveguide) (o1 := .edfa E) (last := .measure)
    (fun y => ⟨_, rfl⟩) (fun y => ⟨_, rfl⟩) (fun y => ⟨_, rfl⟩) (fun _ => true) inp Store.empty
  refine ⟨st, h, C95_states g_wf h ?_ (fun v _ hne => absurd rfl hne) Store.empty⟩
  intro e he hne
  simp only [Fixture.g, List.mem_cons, List.not_mem_nil, or_false] at he
  rcases he with rfl | rfl | rfl | rfl
  · exact absurd rfl hne
  · exact absurd rfl hne
  · exact ⟨dark_unlit g_wf ((propagate_iff g_wf).1 h).2 (second x _ _ _ (fun hc => hc)), fun hc => hc, fun hc => hc, _, rfl⟩
  · exact absurd rfl hne

/-- The two arms without the second one, and the ratio gone. -/
noncomputable def connOne (c : Comp) : Connector := if c.uid = 2 then .splitter [] else if c.uid = 3 then .splitter [] else .terminal

theorem enoughOne (x : Signal 4) : Enough (Fixture.g.removeEdge ⟨1, 2, 1⟩) (physics demoProp (Arms.optic x .waveguide .waveguide .measure) connOne (fun _ => true)) where
  node := by
    intro m hm ins hin
    have hm' : m ∈ Fixture.g.nodes := hm
    simp only [Fixture.g, List.mem_cons, List.not_mem_nil, or_false] at hm'
    rcases hm' with rfl | rfl | rfl | rfl
    · exact ⟨ins, rfl, by rw [hin]; decide⟩
    · refine ⟨(splitWeights ([] : List ℝ)).zipIdx.map (fun p => fun t => splitRow 1 1 p.1 p.2 (ins.map (· t))), ?_, by simp [splitWeights]; decide⟩
      show splitSignals [] 1 1 ins = _
      have h1 : ins.length = 1 := hin
      unfold splitSignals
      rw [if_neg (by simp [h1, splitWeights]), if_neg (by simp [splitWeights])]
    · refine ⟨(splitWeights ([] : List ℝ)).zipIdx.map (fun p => fun t => splitRow 1 1 p.1 p.2 (ins.map (· t))), ?_, by simp [splitWeights]; decide⟩
      show splitSignals [] 1 1 ins = _
      have h1 : ins.length = 1 := hin
      unfold splitSignals
      rw [if_neg (by simp [h1, splitWeights]), if_neg (by simp [splitWeights])]
    · exact ⟨ins, rfl, by rw [hin]; decide⟩
  edge := by
    intro e he s
    have he' := (List.mem_filter.1 he).1
    simp only [Fixture.g, List.mem_cons, List.not_mem_nil, or_false] at he'
    rcases he' with rfl | rfl | rfl | rfl
    · exact ⟨x, rfl⟩
    · exact ⟨s, rfl⟩
    · exact ⟨s, rfl⟩
    · exact ⟨_, rfl⟩
  noise := by
    intro e _ f hf s
    simp only [physics] at hf
    injection hf with hf; exact ⟨s, by rw [← hf]⟩

theorem acyclicOne : (Fixture.g.removeEdge ⟨1, 2, 1⟩).Acyclic :=
  (show (Fixture.g.removeEdge ⟨1, 2, 1⟩).IsTopo [0, 1, 2, 3] from
    ⟨by decide, by intro v; rw [show (Fixture.g.removeEdge ⟨1, 2, 1⟩).ids = [0, 1, 2, 3] by decide], by decide⟩).acyclic

/-- Taking the dark arm out: twice the power in the other. -/
example (x inp : Signal 4) : ∃ st st' y y', propagate Fixture.g (physics demoProp (Arms.optic x .waveguide .waveguide .measure) (Arms.conn 0) (fun _ => true)) inp Store.empty = .ok st ∧
    propagate (Fixture.g.removeEdge ⟨1, 2, 1⟩) (physics demoProp (Arms.optic x .waveguide .waveguide .measure) connOne (fun _ => true)) inp Store.empty = .ok st' ∧
    st (.edge ⟨1, 2, 0⟩) = some y ∧ st' (.edge ⟨1, 2, 0⟩) = some y' ∧ ∀ t, ‖y' t‖ ^ 2 = 2 * ‖y t‖ ^ 2 := by
  obtain ⟨st, h⟩ := Arms.runs (P := demoProp) x (r := 0) le_rfl zero_le_one (o0 := .waveguide) (o1 := .waveguide) (last := .measure)
    (fun y => ⟨_, rfl⟩) (fun y => ⟨_, rfl⟩) (fun y => ⟨_, rfl⟩) (fun _ => true) inp Store.empty
  obtain ⟨st', h'⟩ := (C17_propagate_acyclic (g_wf.removeEdge ⟨1, 2, 1⟩) (enoughOne x) inp Store.empty).1 acyclicOne
  obtain ⟨-, y, y', k1, k2, k3⟩ := C95_prune Arms.demo2.1 Arms.demo2.2 g_wf g_acyclic (a := ⟨1, split 2, 40⟩) (eIn := ⟨0, 1, 0, laser 4, 10⟩)
    (e0 := ⟨1, 2, 0, Fixture.fiber 5, 30⟩) (e1 := ⟨1, 2, 1, shaper 6, 31⟩) (by decide) (by decide) (by decide) (optic := Arms.optic x .waveguide .waveguide .measure)
    (conn := Arms.conn 0) (conn' := connOne) rfl rfl
    (by
      intro u hu hne
      simp only [Fixture.g, List.mem_cons, List.not_mem_nil, or_false] at hu
      rcases hu with rfl | rfl | rfl | rfl
      · rfl
      · exact absurd rfl hne
      · rfl
      · rfl) (fun hc => hc) (fun hc => hc) (fun hc => hc) (fun hc => hc) h h'
  exact ⟨st, st', y, y', h, h', k1, k2, fun t => (k3 t).2⟩

noncomputable def opt (x : Signal 4) (q : Fin 2 → ℝ) : Comp → Optic 4 := Arms.optic x (.voa (q 1)) (.phaseShifter (q 0)) .measure

/-- A phase shifter in the shut arm, an attenuator in the other. -/
example (x inp T : Signal 4) (p : Fin 2 → ℝ) :
    pderiv 0 (funcOf demoProp Fixture.g (opt x) (fun _ => Arms.conn 0) (fun _ => true) inp Store.empty (.node 3) (fun s => .ok (∑ k, ‖s k - T k‖ ^ 2))) p = 0 ∧
    (paramScores (autoHessian (funcOf demoProp Fixture.g (opt x) (fun _ => Arms.conn 0) (fun _ => true) inp Store.empty (.node 3)
      (fun s => .ok (∑ k, ‖s k - T k‖ ^ 2))) p))[0]? = some 0 := by
  have := C95_free_wheeling (P := demoProp) (optic := opt x) (conn := fun _ => Arms.conn 0) (hasNoise := fun _ => true) (inp := inp) (old := Store.empty) (at_ := .node 3)
    (score := fun s => .ok (∑ k, ‖s k - T k‖ ^ 2)) (p := p) g_wf 0 ?_ (fun q v _ ⟨u, hu⟩ => absurd rfl hu)
  · exact ⟨this.2.1, this.2.2.2⟩
  · intro q e he ⟨u, hu⟩
    simp only [Fixture.g, List.mem_cons, List.not_mem_nil, or_false] at he
    rcases he with rfl | rfl | rfl | rfl
    · exact absurd rfl hu
    · exact absurd (by show Optic.voa _ = .voa _; congr 1) hu
    · exact ⟨second x _ _ _ (fun hc => hc), fun hc => hc, _, rfl⟩
    · exact absurd rfl hu

/-- Two arms half a wave apart: no light leaves, and an attenuator behind them has no slope there. -/
noncomputable def opt2 (x : Signal 4) (q : Fin 2 → ℝ) : Comp → Optic 4 := Arms.optic x (.phaseShifter (q 1)) .waveguide (.voa (q 0))

example (x inp T : Signal 4) (a : ℝ) :
    pderiv 0 (funcOf demoProp Fixture.g (opt2 x) (fun _ => Arms.conn (1 / 2)) (fun _ => true) inp Store.empty (.node 3) (fun s => .ok (∑ k, ‖s k - T k‖ ^ 2)))
      ![a, Real.pi] = 0 := by
  obtain ⟨st, h⟩ := Arms.runs (P := demoProp) x (r := 1 / 2) (by norm_num) (by norm_num) (o0 := .phaseShifter Real.pi) (o1 := .waveguide) (last := .voa a)
    (fun y => ⟨_, rfl⟩) (fun y => ⟨_, rfl⟩) (fun y => ⟨_, rfl⟩) (fun _ => true) inp Store.empty
  have h' : propagate Fixture.g (physics demoProp (opt2 x ![a, Real.pi]) (Arms.conn (1 / 2)) (fun _ => true)) inp Store.empty = .ok st := h
  refine (C95_unlit (at_ := .node 3) (score := fun s => .ok (∑ k, ‖s k - T k‖ ^ 2)) (conn := fun _ => Arms.conn (1 / 2)) g_wf h' 0 ?_ (fun u v _ hu => absurd rfl hu)).2.1
  obtain ⟨y, z, k1, k2, k3⟩ := C88_phases g_wf Arms.two_inter (r := [1 / 2]) rfl rfl (φ := fun j => if j = 0 then Real.pi else 0) (by
    intro j e hj
    rcases j with _ | _ | j
    · injection hj with hj; subst hj; exact turns_phaseShifter Arms.demo2.1 Arms.demo2.2 _
    · injection hj with hj; subst hj; exact turns_waveguide _
    · cases hj) h
  have hz : z = fun _ => 0 := by
    refine apply_dark (P := demoProp) (o := .voa a) (fun hc => hc) ?_
    rw [← k3]
    show _ = Optic.apply demoProp (.voa a) _
    congr 1
    funext t
    have : phaseResponse [1 / 2] 2 (fun j => if j = 0 then Real.pi else 0) = 0 := by
      unfold phaseResponse
      rw [Finset.sum_range_succ, Finset.sum_range_one]
      have e1 : turn Real.pi = -1 := by unfold turn; exact Complex.exp_pi_mul_I
      have e2 : turn (-(2 * Real.pi)) = 1 := by
        unfold turn
        push_cast
        rw [neg_mul, Complex.exp_neg, Complex.exp_two_pi_mul_I, inv_one]
      have e3 : (0 : ℝ) - 4 * Real.pi * (((1 : ℕ) : ℝ) / ((2 : ℕ) : ℝ)) = -(2 * Real.pi) := by push_cast; ring
      have e4 : Real.pi - 4 * Real.pi * (((0 : ℕ) : ℝ) / ((2 : ℕ) : ℝ)) = Real.pi := by simp
      dsimp only
      rw [if_pos rfl, if_neg one_ne_zero, e3, e4, e1, e2]
      have w0 : (splitWeights [(1 / 2 : ℝ)]).getD 0 0 = 1 / 2 := by norm_num [splitWeights]
      have w1 : (splitWeights [(1 / 2 : ℝ)]).getD 1 0 = 1 / 2 := by norm_num [splitWeights]
      rw [w0, w1]
      ring
    change 0 = phaseResponse [1 / 2] 2 _ * y t
    rw [this, zero_mul]
  intro u e he hu
  simp only [Fixture.g, List.mem_cons, List.not_mem_nil, or_false] at he
  rcases he with rfl | rfl | rfl | rfl
  · exact absurd rfl hu
  · exact absurd (by show Optic.phaseShifter _ = .phaseShifter _; congr 1) hu
  · exact absurd rfl hu
  · refine ⟨?_, fun hc => hc, fun hc => hc, _, rfl⟩
    obtain ⟨v, hv, hid, outs, i, s, s1, s2, m1, m2, m3, m4, m5, m6⟩ := ((propagate_iff g_wf).1 h').2.edges ⟨2, 3, 0, diode 7, 20⟩ (by decide)
    refine ⟨v, hv, outs, i, m1, by rw [hid]; exact m2, ?_⟩
    rw [m3]
    congr 1
    have hs : s2 = fun _ => 0 := by
      have : some s2 = some z := m6.symm.trans k2
      injection this with this
      rw [this, hz]
    obtain rfl := physics_noise_id m5
    subst hs
    injection m4 with m4
    funext t
    have ht := congrFun m4 t
    have : s t * (dbAmp a : ℂ) = 0 := ht
    rcases mul_eq_zero.1 this with h0 | h0
    · exact h0
    · exact absurd h0 (by exact_mod_cast (by unfold dbAmp; positivity : dbAmp a ≠ 0))

end Dark

end Verif
