import Verif.Lemmas.Upstream
import Verif.Props.Objective
/-!
# C92: light runs forward

What is stored at a place depends only on what is upstream of it.
-/

namespace Verif
open Graph Topology Filter

section Main
variable {S : Type}

/-- **C92.** Two systems that agree on a set of nodes closed under going upstream have the same states there: on every edge into the set, on every edge out of it
that carries the same component on the same port, and at the sinks in it – whatever the rest of the two systems looks like. -/
theorem C92_upstream {g g' : Graph} (hw : g.WF) (hw' : g'.WF) {B B' : Behav S} {U : NodeId → Prop} (hs : SameUpstream g g' B B' U)
    {inp : S} {old old' st st' : Store S} (h : propagate g B inp old = .ok st) (h' : propagate g' B' inp old' = .ok st') :
    (∀ e ∈ g.edges, U e.dst → st' (.edge e.ref) = st (.edge e.ref)) ∧
    (∀ (i : Nat) e e', U e.src → (g.outEdges e.src)[i]? = some e → (g'.outEdges e.src)[i]? = some e' → SameEdge B B' e e' →
      st' (.edge e'.ref) = st (.edge e.ref)) ∧
    ∀ v ∈ g.nodes, U v.id → g.IsSink v.id → v.id ∈ g'.ids → st' (.node v.id) = st (.node v.id) := by
  obtain ⟨⟨order, ho⟩, hF⟩ := (propagate_iff hw).1 h
  have hF' := ((propagate_iff hw').1 h').2
  have he := fun e he hu => upstream_edges hw hw' (topoSort_sound hw ho) hs hF hF' _ e he rfl hu
  have hin : ∀ u, U u → ∀ d ∈ g.inEdges u, st' (.edge d.ref) = st (.edge d.ref) := by
    intro u hu d hd
    have hd := mem_inEdges.1 hd
    exact he d hd.1 (by rw [hd.2]; exact hu)
  refine ⟨he, fun i e e' hu hi hi' hse => edge_same hw hw' hs hF hF' hi hi' hu hse (hin _ hu), fun v hv hu hsink hv' => ?_⟩
  obtain ⟨v', hv', hid⟩ := List.mem_map.1 hv'
  have hout : g.outEdges v.id = [] := by
    unfold outEdges
    rw [List.filter_eq_nil_iff]
    intro e he hc
    exact hsink.2 e he (by simpa using hc)
  have hsink' : g'.IsSink v'.id := by
    refine ⟨List.mem_map.2 ⟨v', hv', rfl⟩, fun e he hc => ?_⟩
    have h1 := hs.ports v.id hu
    rw [hout, List.length_nil, List.length_eq_zero_iff] at h1
    have h2 : e ∈ g'.outEdges v.id := mem_outEdges.2 ⟨he, hc.trans hid⟩
    rw [h1] at h2
    cases h2
  obtain ⟨outs, s, h1, h2, h3⟩ := hF.sinks v hv hsink
  obtain ⟨outs', s', k1, k2, k3⟩ := hF'.sinks v' hv' hsink'
  rw [outputs_same hs hv hv' hid hu (hin _ hu) h1 k1, k2] at h2
  injection h2 with h2
  rw [h3, ← hid, k3, h2]

/-- **C92.** Changing components changes nothing that is not downstream of a change: if the components differ only on the edges `D` and the nodes `N`, then every edge
that is not itself in `D` and does not start downstream of `D` or `N` carries the same state. -/
theorem C92_components {g : Graph} (hw : g.WF) {B B' : Behav S} {D : Edge → Prop} {N : Node → Prop}
    (hD : ∀ e ∈ g.edges, ¬ D e → SameEdge B B' e e) (hN : ∀ v ∈ g.nodes, ¬ N v → B'.node v.comp = B.node v.comp)
    {inp : S} {old old' st st' : Store S} (h : propagate g B inp old = .ok st) (h' : propagate g B' inp old' = .ok st')
    {e : Edge} (he : e ∈ g.edges) (heD : ¬ D e) (h1 : ∀ d ∈ g.edges, D d → ¬ g.Reach d.dst e.src) (h2 : ∀ v ∈ g.nodes, N v → ¬ g.Reach v.id e.src) :
    st' (.edge e.ref) = st (.edge e.ref) := by
  have hs : SameUpstream g g B B' (fun u => g.Reach u e.src) := by
    refine ⟨?_, ?_, fun _ _ => rfl, fun _ _ => rfl, ?_⟩
    · intro d hd hr
      exact Relation.ReflTransGen.head ⟨d, hd, rfl, rfl⟩ hr
    · intro v hv hr v' hv' hid
      rw [node_unique hw hv' hv hid]
      exact hN v hv (fun hc => h2 v hv hc hr)
    · intro u i d _ hi hr
      exact ⟨d, hi, rfl, hD d (mem_outEdges.1 (List.mem_of_getElem? hi)).1 (fun hc => h1 d (mem_outEdges.1 (List.mem_of_getElem? hi)).1 hc hr)⟩
  obtain ⟨i, hi⟩ := List.mem_iff_getElem?.1 (mem_outEdges.2 ⟨he, rfl⟩ : e ∈ g.outEdges e.src)
  exact (C92_upstream hw hw hs h h').2.1 i e e Relation.ReflTransGen.refl hi hi (hD e he heD)

/-! ### Evolution operators -/

/-- **C92.** Swapping the component on an edge leaves every state alone that is not downstream of that edge. -/
theorem C92_swap_edge {g g' : Graph} (hw : g.WF) {lib : Library} {verbose : Bool} {r : EdgeRef} {c : Comp}
    (hs : swapComp lib verbose g (.edge r) c = .ok g') {B : Behav S} {inp : S} {old old' st st' : Store S}
    (h : propagate g B inp old = .ok st) (h' : propagate g' B inp old' = .ok st')
    {e : Edge} (he : e ∈ g.edges) (hne : e.ref ≠ r) (hr : ¬ g.Reach r.dst e.src) : st' (.edge e.ref) = st (.edge e.ref) := by
  have hg : g' = g ∨ g' = g.setEdge r (fun e => { e with comp := c }) := by
    unfold swapComp at hs
    dsimp only at hs
    split at hs
    · cases hs
    · split at hs
      · split at hs
        · cases hs
        · injection hs with hs; exact .inl hs.symm
      · injection hs with hs; exact .inr hs.symm
  rcases hg with rfl | rfl
  · exact C92_components hw (D := fun _ => False) (N := fun _ => False) (fun _ _ _ => ⟨rfl, rfl⟩) (fun _ _ _ => rfl) h h' he id (fun _ _ h => h.elim) (fun _ _ h => h.elim)
  · have hw' : (g.setEdge r (fun e => { e with comp := c })).WF := hw.of_eq rfl (setEdge_comp_refs g r c)
    obtain ⟨f, hf⟩ : ∃ f : Edge → Edge, f = fun e => if e.ref = r then { e with comp := c } else e := ⟨_, rfl⟩
    have hfr : ∀ e, (f e).ref = e.ref ∧ (f e).src = e.src ∧ (f e).dst = e.dst := by
      intro e; rw [hf]; dsimp only; split <;> exact ⟨rfl, rfl, rfl⟩
    have hin : ∀ u, (g.setEdge r (fun e => { e with comp := c })).inEdges u = (g.inEdges u).map f := by
      intro u
      unfold inEdges setEdge
      rw [List.filter_map, ← hf]
      congr 1
      apply List.filter_congr
      intro x _
      simp [(hfr x).2.2]
    have hout : ∀ u, (g.setEdge r (fun e => { e with comp := c })).outEdges u = (g.outEdges u).map f := by
      intro u
      unfold outEdges setEdge
      rw [List.filter_map, ← hf]
      congr 1
      apply List.filter_congr
      intro x _
      simp [(hfr x).2.1]
    have hS : SameUpstream g (g.setEdge r (fun e => { e with comp := c })) B B (fun u => ¬ g.Reach r.dst u) := by
      refine ⟨?_, ?_, ?_, ?_, ?_⟩
      · intro d hd hu hc
        exact hu (hc.tail ⟨d, hd, rfl, rfl⟩)
      · intro v hv _ v' hv' hid
        rw [node_unique hw (by exact hv') hv hid]
      · intro u _
        rw [hin, List.map_map]
        exact List.map_congr_left fun x _ => (hfr x).1
      · intro u _
        rw [hout, List.length_map]
      · intro u i d _ hi hd
        have hdr : d.ref ≠ r := by
          intro hc
          apply hd
          rw [← hc]
          exact Relation.ReflTransGen.refl
        refine ⟨d, ?_, rfl, rfl, rfl⟩
        rw [hout, List.getElem?_map, hi, hf]
        simp [hdr]
    obtain ⟨i, hi⟩ := List.mem_iff_getElem?.1 (mem_outEdges.2 ⟨he, rfl⟩ : e ∈ g.outEdges e.src)
    refine (C92_upstream hw hw' hS h h').2.1 i e e hr hi ?_ ⟨rfl, rfl⟩
    rw [hout, List.getElem?_map, hi, hf]
    simp [hne]

/-- **C92.** Swapping the component of a node leaves every state alone that is not downstream of that node. -/
theorem C92_swap_node {g g' : Graph} (hw : g.WF) {lib : Library} {verbose : Bool} {v : NodeId} {c : Comp}
    (hs : swapComp lib verbose g (.node v) c = .ok g') {B : Behav S} {inp : S} {old old' st st' : Store S}
    (h : propagate g B inp old = .ok st) (h' : propagate g' B inp old' = .ok st')
    {e : Edge} (he : e ∈ g.edges) (hr : ¬ g.Reach v e.src) : st' (.edge e.ref) = st (.edge e.ref) := by
  have hg : g' = g ∨ g' = g.setNode v (fun n => { n with comp := c }) := by
    unfold swapComp at hs
    dsimp only at hs
    split at hs
    · cases hs
    · split at hs
      · split at hs
        · cases hs
        · injection hs with hs; exact .inl hs.symm
      · injection hs with hs; exact .inr hs.symm
  rcases hg with rfl | rfl
  · exact C92_components hw (D := fun _ => False) (N := fun _ => False) (fun _ _ _ => ⟨rfl, rfl⟩) (fun _ _ _ => rfl) h h' he id (fun _ _ h => h.elim) (fun _ _ h => h.elim)
  · have hw' : (g.setNode v (fun n => { n with comp := c })).WF := hw.of_eq (setNode_comp_ids g v c) rfl
    have hS : SameUpstream g (g.setNode v (fun n => { n with comp := c })) B B (fun u => ¬ g.Reach v u) := by
      refine ⟨?_, ?_, fun _ _ => rfl, fun _ _ => rfl, fun u i d _ hi _ => ⟨d, hi, rfl, rfl, rfl⟩⟩
      · intro d hd hu hc
        exact hu (hc.tail ⟨d, hd, rfl, rfl⟩)
      · intro x hx hu x' hx' hid
        obtain ⟨y, hy, rfl⟩ := List.mem_map.1 hx'
        by_cases hyv : y.id = v
        · rw [if_pos hyv] at hid
          exact absurd (by rw [← hid, show ({ y with comp := c } : Node).id = v from hyv]; exact Relation.ReflTransGen.refl) hu
        · rw [if_neg hyv] at hid ⊢
          rw [node_unique hw hy hx hid]
    obtain ⟨i, hi⟩ := List.mem_iff_getElem?.1 (mem_outEdges.2 ⟨he, rfl⟩ : e ∈ g.outEdges e.src)
    exact (C92_upstream hw hw' hS h h').2.1 i e e hr hi hi ⟨rfl, rfl⟩

/-- **C92.** A parallel component from `u` to `v` leaves every state alone on edges that do not start at or downstream of `u`. -/
theorem C92_parallel {g : Graph} (hw : g.WF) {u v : NodeId} (hu : u ∈ g.ids) (hv : v ∈ g.ids) {ec : Comp} {B : Behav S} {inp : S} {old old' st st' : Store S}
    (h : propagate g B inp old = .ok st) (h' : propagate (addParallel g u v ec) B inp old' = .ok st')
    {e : Edge} (he : e ∈ g.edges) (hr : ¬ (addParallel g u v ec).Reach u e.src) : st' (.edge e.ref) = st (.edge e.ref) := by
  have hw' : (addParallel g u v ec).WF := hw.addEdge hu hv _ _
  have hmem : ∀ x ∈ g.edges, x ∈ (addParallel g u v ec).edges := fun x hx => mem_addEdge.2 (.inr hx)
  have hnew : (addParallel g u v ec).Reach u v := Relation.ReflTransGen.single (adj_addEdge.2 (.inl ⟨rfl, rfl⟩))
  have hS : SameUpstream g (addParallel g u v ec) B B (fun x => ¬ (addParallel g u v ec).Reach u x) := by
    have hne : ∀ x, ¬ (addParallel g u v ec).Reach u x → u ≠ x ∧ v ≠ x := by
      refine fun x hx => ⟨fun hc => hx (by rw [hc]; exact Relation.ReflTransGen.refl), fun hc => hx (by rw [← hc]; exact hnew)⟩
    have hout : ∀ x, ¬ (addParallel g u v ec).Reach u x → (addParallel g u v ec).outEdges x = g.outEdges x := fun x hx => by
      unfold addParallel outEdges
      exact addEdge_filter _ _ _ _ _ (by simpa using (hne x hx).1)
    refine ⟨?_, ?_, ?_, ?_, ?_⟩
    · intro d hd hx hc
      exact hx (hc.tail ⟨d, hmem d hd, rfl, rfl⟩)
    · intro x hx _ x' hx' hid
      rw [node_unique hw (by exact hx') hx hid]
    · intro x hx
      congr 1
      unfold addParallel inEdges
      exact addEdge_filter _ _ _ _ _ (by simpa using (hne x hx).2)
    · intro x hx
      rw [hout x hx]
    · intro x i d hx hi _
      exact ⟨d, by rw [hout x hx]; exact hi, rfl, rfl, rfl⟩
  obtain ⟨i, hi⟩ := List.mem_iff_getElem?.1 (mem_outEdges.2 ⟨he, rfl⟩ : e ∈ g.outEdges e.src)
  refine (C92_upstream hw hw' hS h h').2.1 i e e hr hi ?_ ⟨rfl, rfl⟩
  unfold addParallel outEdges
  rw [addEdge_filter _ _ _ _ _ (by simpa using fun hc : u = e.src => hr (by rw [← hc]; exact Relation.ReflTransGen.refl))]
  exact hi

/-- **C92.** Removing a component that has another path beside it leaves every state alone on edges that do not start at or downstream of its first node. -/
theorem C92_remove_parallel {g : Graph} (hw : g.WF) {r : EdgeRef} {B : Behav S} {inp : S} {old old' st st' : Store S} (hre : ∃ d ∈ g.edges, d.ref = r)
    (h : propagate g B inp old = .ok st) (h' : propagate (g.removeEdge r) B inp old' = .ok st')
    {e : Edge} (he : e ∈ g.edges) (hr : ¬ g.Reach r.src e.src) : st' (.edge e.ref) = st (.edge e.ref) := by
  have hw' := hw.removeEdge r
  obtain ⟨d, hd, rfl⟩ := hre
  have hnew : g.Reach d.src d.dst := Relation.ReflTransGen.single ⟨d, hd, rfl, rfl⟩
  have hout : ∀ x, ¬ g.Reach d.src x → (g.removeEdge d.ref).outEdges x = g.outEdges x := fun x hx => by
    unfold removeEdge outEdges
    rw [List.filter_filter]
    refine List.filter_congr fun y _ => ?_
    by_cases hy : y.src = x
    · have : y.ref ≠ d.ref := fun hc => hx (by rw [← hy, show y.src = d.src from congrArg EdgeRef.src hc]; exact Relation.ReflTransGen.refl)
      simp [this]
    · simp [hy]
  have hS : SameUpstream g (g.removeEdge d.ref) B B (fun x => ¬ g.Reach d.src x) := by
    refine ⟨?_, ?_, ?_, ?_, ?_⟩
    · intro y hy hx hc
      exact hx (hc.tail ⟨y, hy, rfl, rfl⟩)
    · intro x hx _ x' hx' hid
      rw [node_unique hw (by exact hx') hx hid]
    · intro x hx
      congr 1
      unfold removeEdge inEdges
      rw [List.filter_filter]
      refine List.filter_congr fun y _ => ?_
      by_cases hy : y.dst = x
      · have : y.ref ≠ d.ref := fun hc => hx (by rw [← hy, show y.dst = d.dst from congrArg EdgeRef.dst hc]; exact hnew)
        simp [this]
      · simp [hy]
    · intro x hx
      rw [hout x hx]
    · intro x i y hx hi _
      exact ⟨y, by rw [hout x hx]; exact hi, rfl, rfl, rfl⟩
  obtain ⟨i, hi⟩ := List.mem_iff_getElem?.1 (mem_outEdges.2 ⟨he, rfl⟩ : e ∈ g.outEdges e.src)
  exact (C92_upstream hw hw' hS h h').2.1 i e e hr hi (by rw [hout _ hr]; exact hi) ⟨rfl, rfl⟩

/-- **C92.** Inserting a component leaves every state alone on edges that do not start at or downstream of the node the chosen edge starts from. -/
theorem C92_insert {g g' : Graph} (hw : g.WF) (ha : g.Acyclic) {i : Iface} (hi : i ∈ g.interfaces) {nid : NodeId} (hn : nid ∉ g.ids) {ec nc : Comp}
    (hs : addSeries g i nid ec nc = .ok g') {B : Behav S} {inp : S} {old old' st st' : Store S}
    (h : propagate g B inp old = .ok st) (h' : propagate g' B inp old' = .ok st')
    {e : Edge} (he : e ∈ g.edges) (hr : ¬ g.Reach i.edge.src e.src) : st' (.edge e.ref) = st (.edge e.ref) := by
  have hw' := addSeries_wf hw hi hn hs
  obtain ⟨d, hd, hdr, -⟩ := mem_interfaces.1 hi
  have hdsrc : i.edge.src = d.src := by rw [hdr]; rfl
  rw [hdsrc] at hr
  have hne : d.src ≠ d.dst := fun hc => ha d.src (Relation.TransGen.single ⟨d, hd, rfl, hc.symm⟩)
  obtain ⟨-, ho, hin, hnodes⟩ := addSeries_order hw hi hn hs hd hdr hne
  have hS : SameUpstream g g' B B (fun u => u ∈ g.ids ∧ ¬ g.Reach d.src u) := by
    have hun : ∀ u, (u ∈ g.ids ∧ ¬ g.Reach d.src u) → u ≠ nid ∧ u ≠ d.src ∧ u ≠ d.dst := by
      rintro u ⟨h1, h2⟩
      refine ⟨fun hc => hn (hc ▸ h1), fun hc => h2 (by rw [hc]; exact Relation.ReflTransGen.refl), fun hc => h2 ?_⟩
      rw [hc]
      exact Relation.ReflTransGen.single ⟨d, hd, rfl, rfl⟩
    refine ⟨?_, ?_, ?_, ?_, ?_⟩
    · intro x hx hu
      exact ⟨hw.src_mem x hx, fun hc => hu.2 (hc.tail ⟨x, hx, rfl, rfl⟩)⟩
    · intro v hv hu v' hv' hid
      rw [hnodes, List.mem_append, List.mem_singleton] at hv'
      rcases hv' with hv' | rfl
      · rw [node_unique hw hv' hv hid]
      · exact absurd hid.symm (hun _ hu).1
    · intro u hu
      rw [hin u (hun u hu).2.2 (hun u hu).1]
    · intro u hu
      rw [ho u (hun u hu).2.1 (hun u hu).1]
    · intro u j x hu hj hx
      refine ⟨x, ?_, rfl, rfl, rfl⟩
      rw [ho u (hun u hu).2.1 (hun u hu).1]
      exact hj
  have hesrc : e.src ∈ g.ids ∧ ¬ g.Reach d.src e.src := ⟨hw.src_mem e he, hr⟩
  have h1 : e.src ≠ d.src := fun hc => hr (by rw [hc]; exact Relation.ReflTransGen.refl)
  have h2 : e.src ≠ nid := fun hc => hn (hc ▸ hw.src_mem e he)
  obtain ⟨j, hj⟩ := List.mem_iff_getElem?.1 (mem_outEdges.2 ⟨he, rfl⟩ : e ∈ g.outEdges e.src)
  exact (C92_upstream hw hw' hS h h').2.1 j e e hesrc hj (by rw [ho _ h1 h2]; exact hj) ⟨rfl, rfl⟩

/-- **C92, finding.** Inserting a component into one of several arms behind a node moves that arm to the last port, and every arm behind it one port forward. -/
theorem C92_insert_ports {g g' : Graph} (hw : g.WF) (ha : g.Acyclic) {i : Iface} (hi : i ∈ g.interfaces) {nid : NodeId} (hn : nid ∉ g.ids) {ec nc : Comp}
    (hs : addSeries g i nid ec nc = .ok g') {e : Edge} {l1 l2 : List Edge} (hie : i.edge = e.ref) (hout : g.outEdges e.src = l1 ++ e :: l2) :
    ∃ e', g'.outEdges e.src = l1 ++ l2 ++ [e'] ∧ e'.ref = ⟨e.src, nid, 0⟩ := by
  have he : e ∈ g.edges := (mem_outEdges.1 (by rw [hout]; simp : e ∈ g.outEdges e.src)).1
  have hne : e.src ≠ e.dst := fun hc => ha e.src (Relation.TransGen.single ⟨e, he, rfl, hc.symm⟩)
  obtain ⟨⟨c, nm, ho⟩, -⟩ := addSeries_order hw hi hn hs he hie hne
  refine ⟨⟨e.src, nid, 0, c, nm⟩, ?_, rfl⟩
  rw [ho, hout]
  have hnd := outEdges_nodup hw e.src
  rw [hout] at hnd
  have hmem : ∀ x ∈ l1 ++ e :: l2, x ∈ g.edges := fun x hx => (mem_outEdges.1 (by rw [hout]; exact hx)).1
  have hf : ∀ x ∈ l1 ++ l2, x.ref ≠ e.ref := by
    intro x hx hc
    have hxe : x = e := ref_inj hw (hmem x (by
      rcases List.mem_append.1 hx with h | h <;> simp [h])) he hc
    subst hxe
    have := (List.nodup_middle.1 hnd)
    exact (List.nodup_cons.1 this).1 hx
  congr 1
  rw [List.filter_append, List.filter_cons_of_neg (by simp)]
  rw [List.filter_eq_self.2 (fun x hx => by simpa using hf x (by simp [hx])), List.filter_eq_self.2 (fun x hx => by simpa using hf x (by simp [hx]))]

/-- A light field behind a splitter with one input. -/
theorem arm_field {n : Nat} {P : Prop_ n} {g : Graph} (hw : g.WF) {optic : Comp → Optic n} {conn : Comp → Connector} {hasNoise : Comp → Bool}
    {a : Node} (ha : a ∈ g.nodes) {eIn e : Edge} (hin : g.inEdges a.id = [eIn]) {j : Nat} (hj : (g.outEdges a.id)[j]? = some e)
    {r : List ℝ} (hr : conn a.comp = .splitter r) {inp : Signal n} {st : Store (Signal n)} (hF : IsFlow g (physics P optic conn hasNoise) inp st) :
    ∃ x y, st (.edge eIn.ref) = some x ∧ st (.edge e.ref) = some y ∧ (∀ w ∈ splitWeights r, 0 ≤ w) ∧
      (optic e.comp).apply P (fun t => armFactor r (g.outEdges a.id).length j * x t) = .ok y := by
  have hein : eIn ∈ g.edges := (mem_inEdges.1 (by rw [hin]; simp : eIn ∈ g.inEdges a.id)).1
  obtain ⟨_, _, _, _, _, _, _, x, _, _, _, _, _, hx⟩ := hF.edges eIn hein
  obtain ⟨hm, hsrc⟩ := mem_outEdges.1 (List.mem_of_getElem? hj)
  obtain ⟨na, hna, hnaid, outs', k, s', s1', y, ⟨ins', hins1, hoc1⟩, hk, hs', he', hy, hsy⟩ := hF.edges e hm
  obtain rfl : na = a := node_unique hw hna ha (hnaid.trans hsrc)
  obtain rfl := physics_through hy
  have hxs : ins' = [x] := by
    rcases hins1 with ⟨h1, _⟩ | ⟨_, h2⟩
    · rw [hin] at h1; cases h1
    · rw [hin] at h2
      simp only [List.map_cons, List.map_nil, hx] at h2
      cases ins' with
      | nil => simp at h2
      | cons q l =>
        simp only [List.map_cons, List.cons.injEq, Option.some.injEq] at h2
        obtain ⟨rfl, h3⟩ := h2
        rw [List.map_eq_nil_iff.1 h3.symm]
  subst hxs
  rw [hin] at hoc1
  simp only [physics, hr, Connector.apply, splitSignals] at hoc1
  split at hoc1
  · cases hoc1
  split at hoc1
  · cases hoc1
  rename_i hng
  push Not at hng
  injection hoc1 with hoc1
  rw [hsrc] at hk
  have hkj : k = j := (List.getElem?_inj (List.getElem?_eq_some_iff.1 hk).1 (outEdges_nodup hw na.id)).1 (hk.trans hj.symm)
  subst hkj
  refine ⟨x, y, hx, hsy, hng, ?_⟩
  rw [← hoc1] at hs'
  rw [List.getElem?_map, List.getElem?_zipIdx] at hs'
  cases hwk : (splitWeights r)[k]? with
  | none => simp [hwk] at hs'
  | some w =>
    simp only [hwk, Option.map_some, Option.some.injEq, Nat.zero_add] at hs'
    have hse : s' = fun t => armFactor r (g.outEdges na.id).length k * x t := by
      rw [← hs']
      funext t
      unfold splitRow armFactor
      rw [List.getD_eq_getElem?_getD, hwk]
      simp only [List.map_cons, List.map_nil, List.zipIdx_cons, List.zipIdx_nil, List.sum_cons, List.sum_nil, add_zero, Option.getD_some, splitPhase_turn]
      simp
    rw [← hse]
    exact he'

/-- **C92, finding.** Inserting a component into the first of two arms behind a splitter changes the light in the *other* arm: its share of the power was `r`, and is `1 - r`. -/
theorem C92_insert_exchanges {n : Nat} {P : Prop_ n} {g g' : Graph} (hw : g.WF) (ha : g.Acyclic) {optic : Comp → Optic n} {conn : Comp → Connector} {hasNoise : Comp → Bool}
    {a : Node} (ham : a ∈ g.nodes) {eIn e0 e1 : Edge} (hin : g.inEdges a.id = [eIn]) (hout : g.outEdges a.id = [e0, e1]) {r : ℝ} (hr : conn a.comp = .splitter [r])
    {φ : ℝ} (h1 : TurnsPhase P (optic e1.comp) φ)
    {i : Iface} (hi : i ∈ g.interfaces) (hie : i.edge = e0.ref) {nid : NodeId} (hn : nid ∉ g.ids) {ec nc : Comp} (hs : addSeries g i nid ec nc = .ok g')
    {inp : Signal n} {old old' st st' : Store (Signal n)} (h : propagate g (physics P optic conn hasNoise) inp old = .ok st)
    (h' : propagate g' (physics P optic conn hasNoise) inp old' = .ok st') :
    ∃ x y y', st (.edge eIn.ref) = some x ∧ st' (.edge eIn.ref) = some x ∧ st (.edge e1.ref) = some y ∧ st' (.edge e1.ref) = some y' ∧
      ∀ t, ‖y t‖ ^ 2 = r / 2 * ‖x t‖ ^ 2 ∧ ‖y' t‖ ^ 2 = (1 - r) / 2 * ‖x t‖ ^ 2 := by
  have hw' := addSeries_wf hw hi hn hs
  have hF := ((propagate_iff hw).1 h).2
  have hF' := ((propagate_iff hw').1 h').2
  obtain ⟨he0, hsrc⟩ := mem_outEdges.1 (by rw [hout]; simp : e0 ∈ g.outEdges a.id)
  obtain ⟨heI, hdst⟩ := mem_inEdges.1 (by rw [hin]; simp : eIn ∈ g.inEdges a.id)
  have hne : e0.src ≠ e0.dst := fun hc => ha e0.src (Relation.TransGen.single ⟨e0, he0, rfl, hc.symm⟩)
  have hida : a.id ∈ g.ids := List.mem_map.2 ⟨a, ham, rfl⟩
  obtain ⟨-, -, hin', hnodes⟩ := addSeries_order hw hi hn hs he0 hie hne
  obtain ⟨e', hout', -⟩ := C92_insert_ports hw ha hi hn hs hie (l1 := []) (l2 := [e1]) (by rw [hsrc]; exact hout)
  rw [hsrc] at hout'
  have hin2 : g'.inEdges a.id = [eIn] := by
    rw [hin' a.id (by rw [← hsrc]; exact hne) (fun hc => hn (hc ▸ hida)), hin]
  have ham' : a ∈ g'.nodes := by rw [hnodes]; simp [ham]
  obtain ⟨x, y, k1, k2, k3, k4⟩ := arm_field hw ham (j := 1) hin (by rw [hout]; rfl) hr hF
  obtain ⟨x', y', l1, l2, l3, l4⟩ := arm_field hw' ham' (j := 0) hin2 (by rw [hout']; rfl) hr hF'
  have hx : x' = x := by
    have := C92_insert hw ha hi hn hs h h' heI (fun hc => ha a.id (by
      have hadj : g.Adj eIn.src a.id := ⟨eIn, heI, rfl, hdst⟩
      rw [hie] at hc
      change g.Reach e0.src eIn.src at hc
      rw [hsrc] at hc
      exact Relation.TransGen.tail' hc hadj))
    rw [k1, l1] at this
    injection this
  subst hx
  have hw0 : 0 ≤ 1 - r := k3 _ (by simp [splitWeights])
  have hw1 : 0 ≤ r := k3 _ (by simp [splitWeights])
  rw [h1] at k4 l4
  injection k4 with k4
  injection l4 with l4
  refine ⟨x', y, y', k1, l1, k2, l2, fun t => ?_⟩
  have e2 : (2 : ℝ) = Real.sqrt 2 ^ 2 := (Real.sq_sqrt (by norm_num)).symm
  constructor
  · rw [← k4, hout]
    simp only [armFactor, norm_mul, turn_norm, Complex.norm_real, mul_pow, one_mul, mul_one, norm_div, Real.norm_eq_abs, abs_of_nonneg (Real.sqrt_nonneg _), div_pow]
    simp only [splitWeights, List.length_cons, List.length_nil]
    simp [Real.sq_sqrt hw1]
  · rw [← l4, hout']
    simp only [armFactor, norm_mul, turn_norm, Complex.norm_real, mul_pow, one_mul, mul_one, norm_div, Real.norm_eq_abs, abs_of_nonneg (Real.sqrt_nonneg _), div_pow]
    simp only [splitWeights]
    simp [Real.sq_sqrt hw0]

/-! ### Parameters that do not matter -/

variable {n m : Nat} {P : Prop_ n} {g : Graph} {optic : (Fin m → ℝ) → Comp → Optic n} {conn : (Fin m → ℝ) → Comp → Connector} {hasNoise : Comp → Bool}
  {inp : Signal n} {old : Store (Signal n)} {score : Signal n → Except Err ℝ} {p : Fin m → ℝ}

/-- Where a smooth system is read it runs, also with one parameter put back to its old value. -/
theorem both_run {at_ : Key} (h : SmoothSystemAt 2 P g optic conn hasNoise inp old at_ score p) (i : Fin m) :
    ∀ᶠ q in 𝓝 p, (∃ v, systemScore P g optic conn hasNoise inp old at_ score q = .ok v) ∧
      ∃ v, systemScore P g optic conn hasNoise inp old at_ score (Function.update q i (p i)) = .ok v := by
  have h1 := (C91_objective h).1
  have hc : Tendsto (fun q : Fin m → ℝ => Function.update q i (p i)) (𝓝 p) (𝓝 p) := by
    have : Continuous (fun q : Fin m → ℝ => Function.update q i (p i)) := continuous_id.update i continuous_const
    have h2 := this.tendsto p
    rwa [Function.update_eq_self] at h2
  filter_upwards [h1, hc.eventually h1] with q hq hq'
  exact ⟨⟨_, hq⟩, ⟨_, hq'⟩⟩

theorem score_runs {at_ : Key} {q : Fin m → ℝ} {v : ℝ} (h : systemScore P g optic conn hasNoise inp old at_ score q = .ok v) :
    ∃ st, propagate g (physics P (optic q) (conn q) hasNoise) inp old = .ok st ∧
      systemScore P g optic conn hasNoise inp old at_ score q = match st at_ with | none => .error .keyError | some s => score s := by
  unfold systemScore at h ⊢
  cases hp : propagate g (physics P (optic q) (conn q) hasNoise) inp old with
  | error e => rw [hp] at h; cases h
  | ok st => exact ⟨st, rfl, rfl⟩

/-- **C92.** A parameter that enters only components that are not upstream of the edge where the evaluator reads has slope 0, a zero row and column in the
Hessian, and sensitivity 0: the free wheeling analysis reports it. -/
theorem C92_insensitive (hw : g.WF) {e : Edge} (he : e ∈ g.edges) (h : SmoothSystemAt 2 P g optic conn hasNoise inp old (.edge e.ref) score p) (i : Fin m)
    (hopt : ∀ q, ∀ d ∈ g.edges, (d = e ∨ g.Reach d.dst e.src) → optic q d.comp = optic (Function.update q i (p i)) d.comp)
    (hconn : ∀ q, ∀ v ∈ g.nodes, g.Reach v.id e.src → conn q v.comp = conn (Function.update q i (p i)) v.comp) :
    pderiv i (funcOf P g optic conn hasNoise inp old (.edge e.ref) score) p = 0 ∧
    (∀ j : Fin m, (autoHessian (funcOf P g optic conn hasNoise inp old (.edge e.ref) score) p).entry i j = 0 ∧
      (autoHessian (funcOf P g optic conn hasNoise inp old (.edge e.ref) score) p).entry j i = 0) ∧
    (paramScores (autoHessian (funcOf P g optic conn hasNoise inp old (.edge e.ref) score) p))[(i : Nat)]? = some 0 := by
  refine C91_free_wheeling h i ?_
  filter_upwards [both_run h i] with q hq
  obtain ⟨⟨v, hv⟩, v', hv'⟩ := hq
  obtain ⟨st, k1, k2⟩ := score_runs hv
  obtain ⟨st', k1', k2'⟩ := score_runs hv'
  rw [k2, k2']
  have := C92_components hw (B := physics P (optic q) (conn q) hasNoise) (B' := physics P (optic (Function.update q i (p i))) (conn (Function.update q i (p i))) hasNoise)
    (D := fun d => ¬ (d = e ∨ g.Reach d.dst e.src)) (N := fun v => ¬ g.Reach v.id e.src)
    (fun d hd hn => ⟨by simp only [physics]; rw [hopt q d hd (not_not.1 hn)], rfl⟩)
    (fun v hv hn => by simp only [physics]; rw [hconn q v hv (not_not.1 hn)]) k1 k1' he (by simp)
    (fun d _ hd hc => hd (.inr hc)) (fun v _ hv hc => hv hc)
  rw [this]

/-- **C92.** The same for an evaluator that reads an output node. -/
theorem C92_insensitive_sink (hw : g.WF) {w : Node} (hwm : w ∈ g.nodes) (hsink : g.IsSink w.id) (h : SmoothSystemAt 2 P g optic conn hasNoise inp old (.node w.id) score p)
    (i : Fin m) (hopt : ∀ q, ∀ d ∈ g.edges, g.Reach d.dst w.id → optic q d.comp = optic (Function.update q i (p i)) d.comp)
    (hconn : ∀ q, ∀ v ∈ g.nodes, g.Reach v.id w.id → conn q v.comp = conn (Function.update q i (p i)) v.comp) :
    pderiv i (funcOf P g optic conn hasNoise inp old (.node w.id) score) p = 0 ∧
    (∀ j : Fin m, (autoHessian (funcOf P g optic conn hasNoise inp old (.node w.id) score) p).entry i j = 0 ∧
      (autoHessian (funcOf P g optic conn hasNoise inp old (.node w.id) score) p).entry j i = 0) ∧
    (paramScores (autoHessian (funcOf P g optic conn hasNoise inp old (.node w.id) score) p))[(i : Nat)]? = some 0 := by
  refine C91_free_wheeling h i ?_
  filter_upwards [both_run h i] with q hq
  obtain ⟨⟨v, hv⟩, v', hv'⟩ := hq
  obtain ⟨st, k1, k2⟩ := score_runs hv
  obtain ⟨st', k1', k2'⟩ := score_runs hv'
  rw [k2, k2']
  have hS : SameUpstream g g (physics P (optic q) (conn q) hasNoise) (physics P (optic (Function.update q i (p i))) (conn (Function.update q i (p i))) hasNoise)
      (fun u => g.Reach u w.id) := by
    refine ⟨fun d hd hr => Relation.ReflTransGen.head ⟨d, hd, rfl, rfl⟩ hr, ?_, fun _ _ => rfl, fun _ _ => rfl, ?_⟩
    · intro x hx hr x' hx' hid
      rw [node_unique hw hx' hx hid]
      simp only [physics]; rw [hconn q x hx hr]
    · intro u j d _ hj hr
      exact ⟨d, hj, rfl, by simp only [physics]; rw [hopt q d (mem_outEdges.1 (List.mem_of_getElem? hj)).1 hr], rfl⟩
  rw [(C92_upstream hw hw hS k1 k1').2.2 w hwm Relation.ReflTransGen.refl hsink hsink.1]

end Main

/-! ### Examples -/

namespace Ahead
open Fixture

theorem demo_runs {h : Graph} (hw : h.WF) (ha : h.Acyclic) : ∃ st, propagate h demo [7] Store.empty = .ok st :=
  (C17_propagate_acyclic hw (demo_enough _) _ _).1 ha

/-- A splitter 1 with arms to 2 and to 4, both sinks reached separately. -/
def fork : Graph :=
  { nodes := [⟨0, src, 1⟩, ⟨1, split 2, 40⟩, ⟨2, split 3, 40⟩, ⟨3, snk, 2⟩, ⟨4, snk, 2⟩]
    edges := [⟨0, 1, 0, laser 4, 10⟩, ⟨1, 2, 0, Fixture.fiber 5, 30⟩, ⟨1, 4, 0, shaper 6, 31⟩, ⟨2, 3, 0, diode 7, 20⟩] }

theorem fork_wf : fork.WF where
  ids_nodup := by decide
  refs_nodup := by decide
  src_mem := by decide
  dst_mem := by decide

theorem fork_topo : fork.IsTopo [0, 1, 2, 3, 4] where
  nodup := by decide
  mem_iff := by intro v; rw [show fork.ids = [0, 1, 2, 3, 4] by decide]
  forward := by decide

theorem not_reach {h : Graph} {u v : NodeId} (hp : h.hasPath u v = false) : ¬ h.Reach u v := fun hc => by
  rw [hasPath_iff.2 hc] at hp; cases hp

theorem acyclic_of {h : Graph} {o : List NodeId} (ho : h.IsTopo o) : h.Acyclic := ho.acyclic

/-- Another component behind node 2 of the fork does not change the light in the other arm, nor at its sink. -/
example : ∃ st st', propagate fork demo [7] Store.empty = .ok st ∧
    propagate (fork.setEdge ⟨2, 3, 0⟩ (fun e => { e with comp := shaper 9 })) demo [7] Store.empty = .ok st' ∧
    st' (.edge ⟨1, 4, 0⟩) = st (.edge ⟨1, 4, 0⟩) ∧ st' (.edge ⟨1, 2, 0⟩) = st (.edge ⟨1, 2, 0⟩) := by
  have hw' : (fork.setEdge ⟨2, 3, 0⟩ (fun e => { e with comp := shaper 9 })).WF := fork_wf.of_eq rfl (setEdge_comp_refs _ _ _)
  obtain ⟨st, h⟩ := demo_runs fork_wf fork_topo.acyclic
  obtain ⟨st', h'⟩ := demo_runs hw' (acyclic_of (o := [0, 1, 2, 3, 4])
    ⟨by decide, by intro v; rw [show (fork.setEdge ⟨2, 3, 0⟩ (fun e => { e with comp := shaper 9 })).ids = [0, 1, 2, 3, 4] by decide], by decide⟩)
  have hs : swapComp ⟨[10, 11], [20, 21], [30, 31], [40]⟩ false fork (.edge ⟨2, 3, 0⟩) (shaper 9) =
      .ok (fork.setEdge ⟨2, 3, 0⟩ (fun e => { e with comp := shaper 9 })) := by decide +kernel
  exact ⟨st, st', h, h', C92_swap_edge fork_wf hs h h' (e := ⟨1, 4, 0, shaper 6, 31⟩) (by decide) (by decide) (not_reach (by decide)),
    C92_swap_edge fork_wf hs h h' (e := ⟨1, 2, 0, Fixture.fiber 5, 30⟩) (by decide) (by decide) (not_reach (by decide))⟩

example : ∃ st st', propagate fork demo [7] Store.empty = .ok st ∧
    propagate (fork.setNode 2 (fun n => { n with comp := ⟨9, 41, false, .multiPath, 2⟩ })) demo [7] Store.empty = .ok st' ∧
    st' (.edge ⟨1, 4, 0⟩) = st (.edge ⟨1, 4, 0⟩) ∧ st' (.edge ⟨1, 2, 0⟩) = st (.edge ⟨1, 2, 0⟩) := by
  have hw' : (fork.setNode 2 (fun n => { n with comp := ⟨9, 41, false, .multiPath, 2⟩ })).WF := fork_wf.of_eq (setNode_comp_ids _ _ _) rfl
  obtain ⟨st, h⟩ := demo_runs fork_wf fork_topo.acyclic
  obtain ⟨st', h'⟩ := demo_runs hw' fork_topo.acyclic
  have hs : swapComp lib2 false fork (.node 2) ⟨9, 41, false, .multiPath, 2⟩ = .ok (fork.setNode 2 (fun n => { n with comp := ⟨9, 41, false, .multiPath, 2⟩ })) := by decide +kernel
  exact ⟨st, st', h, h', C92_swap_node fork_wf hs h h' (e := ⟨1, 4, 0, shaper 6, 31⟩) (by decide) (not_reach (by decide)),
    C92_swap_node fork_wf hs h h' (e := ⟨1, 2, 0, Fixture.fiber 5, 30⟩) (by decide) (not_reach (by decide))⟩

def demo5 : Behav (List Nat) := ⟨demo.node, fun c s => if c.uid = 5 then .ok (0 :: s) else demo.edge c s, demo.noise⟩

/-- Changing what the class of fibres does leaves the light in the other arm alone. -/
example : ∃ st st', propagate fork demo [7] Store.empty = .ok st ∧
    propagate fork demo5 [7] Store.empty = .ok st' ∧
    st' (.edge ⟨1, 4, 0⟩) = st (.edge ⟨1, 4, 0⟩) := by
  obtain ⟨st, h⟩ := demo_runs fork_wf fork_topo.acyclic
  have he : Enough fork demo5 :=
    ⟨(demo_enough fork).node, fun e _ s => by
      unfold demo5
      dsimp only
      split
      · exact ⟨_, rfl⟩
      · exact ⟨_, rfl⟩, (demo_enough fork).noise⟩
  obtain ⟨st', h'⟩ := (C17_propagate_acyclic fork_wf he [7] Store.empty).1 fork_topo.acyclic
  refine ⟨st, st', h, h', C92_components fork_wf (B := demo) (B' := demo5) (D := fun e => e.comp.uid = 5) (N := fun _ => False) ?_ (fun _ _ _ => rfl) h h'
    (e := ⟨1, 4, 0, shaper 6, 31⟩) (by decide) (by decide) ?_ (fun _ _ hf => hf.elim)⟩
  · intro e _ hn
    exact ⟨by funext s; exact if_neg hn, rfl⟩
  · intro d hd h5
    simp only [fork, List.mem_cons, List.not_mem_nil, or_false] at hd
    rcases hd with rfl | rfl | rfl | rfl
    · exact absurd h5 (by decide)
    · exact not_reach (by decide)
    · exact absurd h5 (by decide)
    · exact absurd h5 (by decide)

theorem gSer_topo : gSer.IsTopo [0, 1, 9, 2, 3] where
  nodup := by decide
  mem_iff := by intro v; rw [show gSer.ids = [0, 1, 2, 3, 9] by decide]; simp; tauto
  forward := by decide

/-- Inserting into an arm does not change the light in front of the splitter. -/
example : ∃ st st', propagate g demo [7] Store.empty = .ok st ∧ propagate gSer demo [7] Store.empty = .ok st' ∧ st' (.edge ⟨0, 1, 0⟩) = st (.edge ⟨0, 1, 0⟩) := by
  have hs : addSeries g ⟨2, ⟨1, 2, 1⟩⟩ 9 (Fixture.fiber 8) (split 9) = .ok gSer := by decide +kernel
  have hw' := addSeries_wf g_wf (by decide) (by decide) hs
  obtain ⟨st, h⟩ := demo_runs g_wf g_acyclic
  obtain ⟨st', h'⟩ := demo_runs hw' gSer_topo.acyclic
  exact ⟨st, st', h, h', C92_insert g_wf g_acyclic (i := ⟨2, ⟨1, 2, 1⟩⟩) (by decide) (by decide) hs h h' (e := ⟨0, 1, 0, laser 4, 10⟩) (by decide) (not_reach (by decide))⟩

/-- Inserting into the first arm: the second arm moves to the first port. -/
def gFirst : Graph :=
  { nodes := [⟨0, src, 1⟩, ⟨1, split 2, 40⟩, ⟨2, split 3, 40⟩, ⟨3, snk, 2⟩, ⟨9, split 9, 40⟩]
    edges := [⟨0, 1, 0, laser 4, 10⟩, ⟨1, 2, 1, shaper 6, 31⟩, ⟨1, 9, 0, Fixture.fiber 8, 30⟩, ⟨2, 3, 0, diode 7, 20⟩, ⟨9, 2, 0, Fixture.fiber 5, 30⟩] }

theorem first_series : addSeries g ⟨1, ⟨1, 2, 0⟩⟩ 9 (Fixture.fiber 8) (split 9) = .ok gFirst := by decide +kernel

theorem gFirst_topo : gFirst.IsTopo [0, 1, 9, 2, 3] where
  nodup := by decide
  mem_iff := by intro v; rw [show gFirst.ids = [0, 1, 2, 3, 9] by decide]; simp; tauto
  forward := by decide

example := C92_insert_ports g_wf g_acyclic (i := ⟨1, ⟨1, 2, 0⟩⟩) (by decide) (by decide) first_series (e := ⟨1, 2, 0, Fixture.fiber 5, 30⟩) (l1 := [])
  (l2 := [⟨1, 2, 1, shaper 6, 31⟩]) rfl (by decide)

theorem first_runs (x inp : Signal 4) :
    ∃ st', propagate gFirst (physics demoProp (Arms.optic x .waveguide .waveguide .waveguide) (Arms.conn (1 / 4)) (fun _ => false)) inp Store.empty = .ok st' := by
  have he : Enough gFirst (physics demoProp (Arms.optic x .waveguide .waveguide .waveguide) (Arms.conn (1 / 4)) (fun _ => false)) := by
    refine ⟨?_, ?_, ?_⟩
    · intro m hm ins hin
      simp only [gFirst, List.mem_cons, List.not_mem_nil, or_false] at hm
      rcases hm with rfl | rfl | rfl | rfl | rfl
      · exact ⟨ins, rfl, by rw [hin]; decide⟩
      · refine ⟨(splitWeights [(1 / 4 : ℝ)]).zipIdx.map (fun p => fun t => splitRow 1 2 p.1 p.2 (ins.map (· t))), ?_, by simp [splitWeights]; decide⟩
        show splitSignals [1 / 4] 1 2 ins = _
        have hh : ins.length = 1 := hin
        unfold splitSignals
        rw [if_neg (by simp [hh, splitWeights]), if_neg (by norm_num [splitWeights])]
      · refine ⟨(splitWeights ([] : List ℝ)).zipIdx.map (fun p => fun t => splitRow 2 1 p.1 p.2 (ins.map (· t))), ?_, by simp [splitWeights]; decide⟩
        show splitSignals [] 2 1 ins = _
        have h1 : ins.length = 2 := hin
        unfold splitSignals
        rw [if_neg (by simp [h1, splitWeights]), if_neg (by simp [splitWeights])]
      · exact ⟨ins, rfl, by rw [hin]; decide⟩
      · exact ⟨ins, rfl, by rw [hin]; decide⟩
    · intro e he s
      simp only [gFirst, List.mem_cons, List.not_mem_nil, or_false] at he
      rcases he with rfl | rfl | rfl | rfl | rfl
      · exact ⟨x, rfl⟩
      all_goals exact ⟨_, rfl⟩
    · intro e _ f hf s
      cases hf
  exact (C17_propagate_acyclic (addSeries_wf g_wf (by decide) (by decide) first_series) he inp Store.empty).1 gFirst_topo.acyclic

/-- A quarter of the power through the second arm; with another waveguide in the first arm, three quarters. -/
example (x inp : Signal 4) : ∃ st st' y y', propagate g (physics demoProp (Arms.optic x .waveguide .waveguide .waveguide) (Arms.conn (1 / 4)) (fun _ => false)) inp Store.empty = .ok st ∧
    propagate gFirst (physics demoProp (Arms.optic x .waveguide .waveguide .waveguide) (Arms.conn (1 / 4)) (fun _ => false)) inp Store.empty = .ok st' ∧
    st (.edge ⟨1, 2, 1⟩) = some y ∧ st' (.edge ⟨1, 2, 1⟩) = some y' ∧
    ∃ z : Signal 4, ∀ t, ‖y t‖ ^ 2 = 1 / 4 / 2 * ‖z t‖ ^ 2 ∧ ‖y' t‖ ^ 2 = (1 - 1 / 4) / 2 * ‖z t‖ ^ 2 := by
  obtain ⟨st, h⟩ := Arms.runs (P := demoProp) x (r := 1 / 4) (by norm_num) (by norm_num) (o0 := .waveguide) (o1 := .waveguide) (last := .waveguide)
    (fun y => ⟨_, rfl⟩) (fun y => ⟨_, rfl⟩) (fun y => ⟨_, rfl⟩) (fun _ => false) inp Store.empty
  obtain ⟨st', h'⟩ := first_runs x inp
  obtain ⟨z, y, y', -, -, k3, k4, k5⟩ := C92_insert_exchanges (P := demoProp) g_wf g_acyclic (a := ⟨1, split 2, 40⟩) (by decide) (eIn := ⟨0, 1, 0, laser 4, 10⟩)
    (e0 := ⟨1, 2, 0, Fixture.fiber 5, 30⟩) (e1 := ⟨1, 2, 1, shaper 6, 31⟩) (by decide) (by decide) (r := 1 / 4) rfl (turns_waveguide demoProp)
    (i := ⟨1, ⟨1, 2, 0⟩⟩) (by decide) rfl (by decide) first_series h h'
  exact ⟨st, st', y, y', h, h', k3, k4, z, k5⟩

/-- A parallel component at the splitter, and its removal, leave the light in front of it alone. -/
example : ∃ st st', propagate g demo [7] Store.empty = .ok st ∧ propagate (addParallel g 1 2 (Fixture.fiber 8)) demo [7] Store.empty = .ok st' ∧
    st' (.edge ⟨0, 1, 0⟩) = st (.edge ⟨0, 1, 0⟩) := by
  have ht : (addParallel g 1 2 (Fixture.fiber 8)).IsTopo [0, 1, 2, 3] :=
    ⟨by decide, by intro v; rw [show (addParallel g 1 2 (Fixture.fiber 8)).ids = [0, 1, 2, 3] by decide], by decide⟩
  obtain ⟨st, h⟩ := demo_runs g_wf g_acyclic
  obtain ⟨st', h'⟩ := demo_runs (g_wf.addEdge (u := 1) (v := 2) (by decide) (by decide) (Fixture.fiber 8) 30) ht.acyclic
  exact ⟨st, st', h, h', C92_parallel g_wf (by decide) (by decide) h h' (e := ⟨0, 1, 0, laser 4, 10⟩) (by decide) (not_reach (by decide))⟩

example : ∃ st st', propagate g demo [7] Store.empty = .ok st ∧ propagate (g.removeEdge ⟨1, 2, 1⟩) demo [7] Store.empty = .ok st' ∧
    st' (.edge ⟨0, 1, 0⟩) = st (.edge ⟨0, 1, 0⟩) := by
  have ht : (g.removeEdge ⟨1, 2, 1⟩).IsTopo [0, 1, 2, 3] :=
    ⟨by decide, by intro v; rw [show (g.removeEdge ⟨1, 2, 1⟩).ids = [0, 1, 2, 3] by decide], by decide⟩
  obtain ⟨st, h⟩ := demo_runs g_wf g_acyclic
  obtain ⟨st', h'⟩ := demo_runs (g_wf.removeEdge ⟨1, 2, 1⟩) ht.acyclic
  exact ⟨st, st', h, h', C92_remove_parallel g_wf ⟨⟨1, 2, 1, shaper 6, 31⟩, by decide, rfl⟩ h h' (e := ⟨0, 1, 0, laser 4, 10⟩) (by decide) (not_reach (by decide))⟩

/-- The evaluator reads in front of the attenuator's arm end: the settings of the phase shifter in the other arm do not matter there. -/
example (x T inp : Signal 4) : pderiv 0 (funcOf demoProp g (Tuned.optic x) Tuned.conn (fun _ => false) inp Store.empty (.edge ⟨1, 2, 1⟩) (fun y => .ok (noiseSuppressionScore T y))) Tuned.p = 0 := by
  have hs := Tuned.smooth (k := 2) x T inp Store.empty Tuned.p_pos Tuned.p_lt
  obtain ⟨st, _, h, _⟩ := hs.runs
  obtain ⟨_, y, _, _, hy, _⟩ := C88_field g_wf Arms.two_inter (r := [Tuned.p 2]) rfl rfl h
  have hr : SmoothSystemAt 2 demoProp g (Tuned.optic x) Tuned.conn (fun _ => false) inp Store.empty (.edge ⟨1, 2, 1⟩) (fun y => .ok (noiseSuppressionScore T y)) Tuned.p :=
    ⟨hs.optics, hs.conns, st, y ⟨1, by decide⟩, h, (hy ⟨1, by decide⟩).2, C91_score_noise T _⟩
  refine (C92_insensitive g_wf (e := ⟨1, 2, 1, shaper 6, 31⟩) (by decide) hr 0 ?_ ?_).1
  · intro q d hd hup
    simp only [g, List.mem_cons, List.not_mem_nil, or_false] at hd
    rcases hd with rfl | rfl | rfl | rfl
    · rfl
    · rcases hup with hc | hc
      · exact absurd hc (by decide)
      · exact absurd hc (not_reach (by decide))
    · simp [Tuned.optic, Arms.optic, Function.update, shaper]
    · rcases hup with hc | hc
      · exact absurd hc (by decide)
      · exact absurd hc (not_reach (by decide))
  · intro q v _ _
    simp [Tuned.conn, Function.update]

noncomputable def tap (c : Comp) : Connector := if c.uid = 2 then .splitter [1 / 4] else .terminal

/-- Two detectors behind a splitter: the phase in front of one does not matter to the score at the other. -/
example (x T inp : Signal 4) :
    let f := funcOf demoProp fork (fun (θ : Fin 2 → ℝ) => Arms.optic x (.phaseShifter (θ 0)) (.voa (θ 1)) .measure)
        (fun _ => tap) (fun _ => false) inp Store.empty (.node 4) (fun y => .ok (noiseSuppressionScore T y))
    pderiv 0 f (fun _ => 1) = 0 := by
  have he : Enough fork (physics demoProp (Arms.optic x (.phaseShifter 1) (.voa 1) .measure) tap (fun _ => false)) := by
    refine ⟨?_, ?_, ?_⟩
    · intro m hm ins hin
      simp only [fork, List.mem_cons, List.not_mem_nil, or_false] at hm
      rcases hm with rfl | rfl | rfl | rfl | rfl
      · exact ⟨ins, rfl, by rw [hin]; decide⟩
      · refine ⟨(splitWeights [(1 / 4 : ℝ)]).zipIdx.map (fun p => fun t => splitRow 1 2 p.1 p.2 (ins.map (· t))), ?_, by simp [splitWeights]; decide⟩
        show splitSignals [1 / 4] 1 2 ins = _
        have hh : ins.length = 1 := hin
        unfold splitSignals
        rw [if_neg (by simp [hh, splitWeights]), if_neg (by norm_num [splitWeights])]
      · exact ⟨ins, rfl, by rw [hin]; decide⟩
      · exact ⟨ins, rfl, by rw [hin]; decide⟩
      · exact ⟨ins, rfl, by rw [hin]; decide⟩
    · intro e he s
      simp only [fork, List.mem_cons, List.not_mem_nil, or_false] at he
      rcases he with rfl | rfl | rfl | rfl
      · exact ⟨x, rfl⟩
      all_goals exact ⟨_, rfl⟩
    · intro e _ f hf s
      cases hf
  obtain ⟨st, h⟩ := (C17_propagate_acyclic fork_wf he inp Store.empty).1 fork_topo.acyclic
  have hsink : fork.IsSink 4 := ⟨by decide, by decide⟩
  obtain ⟨_, y, _, _, hy⟩ := ((propagate_iff fork_wf).1 h).2.sinks ⟨4, snk, 2⟩ (by decide) hsink
  have hs : SmoothSystemAt 2 demoProp fork (fun (θ : Fin 2 → ℝ) => Arms.optic x (.phaseShifter (θ 0)) (.voa (θ 1)) .measure)
      (fun _ => tap) (fun _ => false) inp Store.empty (.node 4) (fun y => .ok (noiseSuppressionScore T y)) (fun _ => 1) := by
    refine ⟨?_, ?_, st, y, h, hy, C91_score_noise T _⟩
    · intro e he
      simp only [fork, List.mem_cons, List.not_mem_nil, or_false] at he
      rcases he with rfl | rfl | rfl | rfl
      · exact .source contDiffAt_const
      · exact .phaseShifter (contDiff_apply ℝ ℝ 0).contDiffAt
      · exact .voa (contDiff_apply ℝ ℝ 1).contDiffAt
      · exact .measure
    · intro v hv
      simp only [fork, List.mem_cons, List.not_mem_nil, or_false] at hv
      rcases hv with rfl | rfl | rfl | rfl | rfl
      · exact .terminal
      · exact .splitter (a := [fun _ : Fin 2 → ℝ => 1 / 4]) (by simpa using ⟨contDiffAt_const, by norm_num⟩)
      · exact .terminal
      · exact .terminal
      · exact .terminal
  refine (C92_insensitive_sink fork_wf (w := ⟨4, snk, 2⟩) (by decide) hsink hs 0 ?_ (fun _ _ _ _ => rfl)).1
  intro q d hd hup
  simp only [fork, List.mem_cons, List.not_mem_nil, or_false] at hd
  rcases hd with rfl | rfl | rfl | rfl
  · rfl
  · exact absurd hup (not_reach (by decide))
  · simp [Arms.optic, Function.update, shaper]
  · exact absurd hup (not_reach (by decide))

end Ahead

end Verif
