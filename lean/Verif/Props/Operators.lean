import Verif.Lemmas.OpsMore
import Verif.Props.Fixture
/-!
# Effect of each evolution operator (C04, C05, C06, C07, C10) and the topological order (C19)
-/

namespace Verif
open Graph Relation

/-- **C04.** Inserting in series at an offered interface never fails; it appends one node, leaves every other edge
as it is, keeps the component of the interface edge on the side away from the interface node, and puts the new
component between the interface node and the new node. -/
theorem C04_add_series_effect (lib : Library) {g : Graph} (h : g.WF) {i : Iface} (hi : i ∈ seriesLocs g) {nid}
    (hn : nid ∉ g.ids) (ec nc : Comp) :
    ∃ e rest g', i.edge = e.ref ∧ g.edges.Perm (e :: rest) ∧
      applyOp lib g .addSeries (.iface i) ⟨nid, ec, nc⟩ = .ok g' ∧
      g'.nodes = g.nodes ++ [⟨nid, nc, nc.cls⟩] ∧
      ((i.node = e.src ∧
        g'.edges.Perm (⟨i.node, nid, 0, ec, ec.cls⟩ :: ⟨nid, e.dst, 0, e.comp, e.name⟩ :: rest)) ∨
       (i.node = e.dst ∧
        g'.edges.Perm (⟨e.src, nid, 0, e.comp, e.name⟩ :: ⟨nid, i.node, 0, ec, ec.cls⟩ :: rest))) := by
  obtain ⟨e, he, hr, g', hg, hnodes, hperm⟩ := addSeries_shape h hi hn ec nc
  refine ⟨e, (g.removeEdge e.ref).edges, g', hr, removeEdge_perm h he, hg, hnodes, ?_⟩
  split at hperm
  · rename_i hc
    exact Or.inl ⟨hc, by rw [hc]; exact hperm⟩
  · rename_i hc
    obtain ⟨e', he', hr', hnode⟩ := mem_interfaces.1 hi
    have : e' = e := List.inj_on_of_nodup_map h.refs_nodup he' he (hr'.symm.trans hr)
    subst this
    have hd : i.node = e'.dst := hnode.elim (fun h => absurd h.1 hc) And.left
    exact Or.inr ⟨hd, by rw [hd]; exact hperm⟩

/-- **C04.** Between the old nodes, the same paths exist before and after. -/
theorem C04_add_series_reach {g g' : Graph} (h : g.WF) {i : Iface} (hi : i ∈ seriesLocs g) {nid}
    (hn : nid ∉ g.ids) {lib ec nc}
    (hg : applyOp lib g .addSeries (.iface i) ⟨nid, ec, nc⟩ = .ok g') {x y} (hx : x ∈ g.ids) (hy : y ∈ g.ids) :
    g'.Reach x y ↔ g.Reach x y := addSeries_reach h hi hn hg hx hy

example : (⟨2, ⟨1, 2, 1⟩⟩ : Iface) ∈ seriesLocs Fixture.g ∧ 9 ∉ Fixture.g.ids := by decide

/-- **C05.** Every offered pair consists of distinct, unprotected nodes with inputs and outputs, both below their
limit in both directions, and no path leads from the second to the first. -/
theorem C05_offered_pairs_legal {g : Graph} (hw : g.WF) {o} (ho : g.IsTopo o) {u v}
    (h : (u, v) ∈ parallelLocs g o) :
    u ≠ v ∧ ¬ g.Reach v u ∧ ∀ w, w = u ∨ w = v → ¬ g.IsSource w ∧ ¬ g.IsSink w ∧
      ∃ n ∈ g.nodes, n.id = w ∧ n.comp.prot = false ∧ (g.inEdges w).length < n.comp.maxIn ∧
        (g.outEdges w).length < n.comp.maxIn := by
  obtain ⟨_, _, h3, h4, h5⟩ := parallelLocs_spec ho h
  have hr := not_reach_of_idx ho h5
  refine ⟨fun hc => hr (hc ▸ .refl), hr, fun w hw' => ?_⟩
  have hok : parallelOk g w = true := by rcases hw' with rfl | rfl <;> assumption
  obtain ⟨n, hn, hi, ho', hp, l1, l2⟩ := parallelOk_iff.1 hok
  obtain ⟨a, ha, had⟩ := inDeg_ne_zero.1 hi
  obtain ⟨b, hb, hbs⟩ := outDeg_ne_zero.1 ho'
  obtain ⟨hm, hid⟩ := (node?_eq_some hw).1 hn
  exact ⟨fun hs => hs.2 a ha had, fun hs => hs.2 b hb hbs, n, hm, hid, hp, l1, l2⟩

/-- **C05.** Conversely, any two such nodes are offered, in the direction of the order. -/
theorem C05_all_legal_pairs_offered {g : Graph} {o} (ho : g.IsTopo o) {u v} (hu : u ∈ g.ids) (hv : v ∈ g.ids)
    (hne : u ≠ v) (h : ∀ w, w = u ∨ w = v → ∃ n, g.node? w = some n ∧ g.inDeg w ≠ 0 ∧ g.outDeg w ≠ 0 ∧
      n.comp.prot = false ∧ g.inDeg w < n.comp.maxIn ∧ g.outDeg w < n.comp.maxIn) :
    (u, v) ∈ parallelLocs g o ∨ (v, u) ∈ parallelLocs g o := by
  have mu : u ∈ o.filter (parallelOk g) :=
    List.mem_filter.2 ⟨(ho.mem_iff u).2 hu, parallelOk_iff.2 (h u (Or.inl rfl))⟩
  have mv : v ∈ o.filter (parallelOk g) :=
    List.mem_filter.2 ⟨(ho.mem_iff v).2 hv, parallelOk_iff.2 (h v (Or.inr rfl))⟩
  unfold parallelLocs
  obtain ⟨l1, l2, hl⟩ := List.append_of_mem mu
  rw [hl] at mv ⊢
  rcases List.mem_append.1 mv with hm | hm
  · right
    obtain ⟨a, b, rfl⟩ := List.append_of_mem hm
    exact mem_pairs_iff.2 ⟨a, b, l2, by simp⟩
  · left
    rcases List.mem_cons.1 hm with hm | hm
    · exact absurd hm.symm hne
    · obtain ⟨a, b, rfl⟩ := List.append_of_mem hm
      exact mem_pairs_iff.2 ⟨l1, a, b, by simp⟩

/-- **C05.** The effect is exactly one more edge, with an unused key. -/
theorem C05_add_parallel_effect (lib : Library) (g : Graph) (u v : NodeId) (d : Draw) :
    ∃ g', applyOp lib g .addParallel (.pair u v) d = .ok g' ∧ g'.nodes = g.nodes ∧
    ∃ k, (∀ e ∈ g.edges, e.src = u → e.dst = v → e.key ≠ k) ∧
      g'.edges.Perm (⟨u, v, k, d.ec, d.ec.cls⟩ :: g.edges) :=
  ⟨addParallel g u v d.ec, rfl, rfl, g.newKey u v, fun e he h1 h2 => newKey_fresh g u v e he h1 h2, addEdge_perm g u v _ _⟩

/-- After a series insertion two nodes of the fixture are below the limit and are offered. -/
example : parallelLocs Fixture.line [0, 1, 2, 3] = [(1, 2)] := by decide

/-- **C06.** Removing at an offered interface never fails and has one of two effects.
If another path joins the ends of the edge, the edge disappears and nothing else changes.
Otherwise the target is merged into the source: all other nodes are as before, the merged node has the model and
name of the interface's node, and the other components survive one-to-one with renamed ends, those not at the
merged node with unchanged keys. -/
theorem C06_remove_effect (lib : Library) (d : Draw) {g : Graph} (hw : g.WF) (ha : g.Acyclic) {i : Iface}
    (hi : i ∈ removeLocs g) :
    ∃ e ∈ g.edges, i.edge = e.ref ∧ ∃ g', applyOp lib g .remove (.iface i) d = .ok g' ∧
      (g.Bypassed e → g' = g.without e) ∧
      (¬ g.Bypassed e →
        let f := fun x => if x = e.dst then e.src else x
        (∀ n, n.id ≠ e.src → (n ∈ g'.nodes ↔ n ∈ g.nodes ∧ n.id ≠ e.dst)) ∧
        (∃ keep ∈ g.nodes, keep.id = i.node ∧
          ∀ n, n.id = e.src → (n ∈ g'.nodes ↔ n = ⟨e.src, keep.comp, keep.name⟩)) ∧
        (g'.edges.map (fun x => (x.src, x.dst, x.comp, x.name))).Perm
          ((g.without e).edges.map (fun x => (f x.src, f x.dst, x.comp, x.name))) ∧
        (∀ x ∈ (g.without e).edges, x.src ≠ e.dst → x.dst ≠ e.dst → x ∈ g'.edges)) := by
  obtain ⟨e, he, nu, mu, nv, mv, hr, iu, iv, hnode, pe, pu, pv, hin, hout⟩ := removeLocs_spec hw hi
  obtain ⟨keep, hk, hkid, hres⟩ := removeComp_shape hw he hr hnode
  refine ⟨e, he, hr, _, hres, ?_, ?_⟩
  · intro hb
    rw [if_pos ((bypassed_iff hw he).1 hb), without_eq hw he]
  · intro hb
    have hp := fun hc => hb ((bypassed_iff hw he).2 hc)
    have m := mergeFacts ha he hp
    obtain ⟨n1, n2, n3⟩ := m.no_edges ha
    obtain ⟨new, hc1, _, hc3⟩ := contract_edges n1 n2 n3
    rw [if_neg hp, without_eq hw he]
    simp only
    refine ⟨?_, ⟨keep, hk, hkid, ?_⟩, hc3, ?_⟩
    · intro n hn
      simp only [setNode, contract_nodes, List.mem_map, List.mem_filter, removeEdge_nodes]
      constructor
      · rintro ⟨a, ⟨ha1, ha2⟩, ha3⟩
        split at ha3
        · rename_i hc; exact absurd (by rw [← ha3]; exact hc) hn
        · subst ha3; exact ⟨ha1, by simpa using ha2⟩
      · rintro ⟨h1, h2⟩
        exact ⟨n, ⟨h1, by simpa using h2⟩, by rw [if_neg hn]⟩
    · intro n hn
      simp only [setNode, contract_nodes, List.mem_map, List.mem_filter, removeEdge_nodes]
      constructor
      · rintro ⟨a, ⟨ha1, ha2⟩, ha3⟩
        split at ha3
        · rename_i hc; rw [← ha3, hc]
        · rename_i hc; rw [← ha3] at hn; exact absurd hn hc
      · rintro rfl
        refine ⟨nu, ⟨mu, ?_⟩, ?_⟩
        · simpa [iu] using m.ne
        · rw [if_pos iu, iu]
    · intro x hx h1 h2
      exact hc1.mem_iff.2 (List.mem_append.2 (Or.inr (List.mem_filter.2 ⟨hx, by simp [h1, h2]⟩)))

/-- **C06.** Paths: nothing that was connected is separated; new connections arise only through the merged node, from
what reached the edge's target to what was reachable from its source.  Without a merge paths are exactly as before. -/
theorem C06_remove_reach {lib : Library} {d : Draw} {g g' : Graph} (hw : g.WF) (ha : g.Acyclic) {i : Iface}
    (hi : i ∈ removeLocs g) (hg : applyOp lib g .remove (.iface i) d = .ok g') :
    ∃ e ∈ g.edges, i.edge = e.ref ∧
      (g.Bypassed e → ∀ x y, g'.Reach x y ↔ g.Reach x y) ∧
      (¬ g.Bypassed e → ∀ x ∈ g'.ids, ∀ y ∈ g'.ids,
        (g'.Reach x y ↔ g.Reach x y ∨ (g.Reach x e.dst ∧ g.Reach e.src y))) := by
  obtain ⟨e, he, nu, mu, nv, mv, hr, iu, iv, hnode, pe, pu, pv, hin, hout⟩ := removeLocs_spec hw hi
  obtain ⟨keep, hk, hkid, hres⟩ := removeComp_shape hw he hr hnode
  have hg : removeComp g i = .ok g' := hg
  rw [hg] at hres; injection hres with hres
  refine ⟨e, he, hr, ?_, ?_⟩
  · intro hb x y
    have hp := (bypassed_iff hw he).1 hb
    rw [if_pos hp] at hres
    subst hres
    exact reach_remove_bypassed (hasPath_iff.1 hp)
  · intro hb x hx y hy
    have hp := fun hc => hb ((bypassed_iff hw he).2 hc)
    have m := mergeFacts ha he hp
    obtain ⟨n1, n2, n3⟩ := m.no_edges ha
    rw [if_neg hp] at hres
    subst hres
    rw [setNode_ids _ _ (fun n : Node => { n with comp := keep.comp, name := keep.name }) (fun _ => rfl),
      contract_ids] at hx hy
    exact reach_merge he (fun x y => contract_adj n1 n2 n3) (by simpa using (List.mem_filter.1 hx).2)
      (by simpa using (List.mem_filter.1 hy).2)

example : (⟨1, ⟨1, 2, 0⟩⟩ : Iface) ∈ removeLocs Fixture.line ∧ (⟨2, ⟨1, 2, 1⟩⟩ : Iface) ∈ removeLocs Fixture.g := by
  decide

/-- 0 → 1 → 2 → 3 with side branches 1 → 5 → 3 and 0 → 6 → 2: merging 1 and 2 joins 6 to 5. -/
def crossG : Graph :=
  { nodes := [⟨0, Fixture.src, 1⟩, ⟨1, Fixture.split 1, 40⟩, ⟨2, Fixture.split 2, 40⟩, ⟨3, Fixture.snk, 2⟩,
      ⟨5, Fixture.split 5, 40⟩, ⟨6, Fixture.split 6, 40⟩]
    edges := [⟨0, 1, 0, Fixture.laser 10, 10⟩, ⟨0, 6, 0, Fixture.laser 11, 10⟩, ⟨1, 2, 0, Fixture.fiber 12, 30⟩,
      ⟨1, 5, 0, Fixture.fiber 13, 30⟩, ⟨2, 3, 0, Fixture.fiber 14, 30⟩, ⟨5, 3, 0, Fixture.fiber 15, 30⟩,
      ⟨6, 2, 0, Fixture.fiber 16, 30⟩] }

/-- Finding: a removal can create a light path that did not exist (6 ⇝ 5), so connectivity is not exactly preserved. -/
theorem C06_merge_can_add_paths :
    ∃ g', removeComp crossG ⟨1, ⟨1, 2, 0⟩⟩ = .ok g' ∧ (⟨1, ⟨1, 2, 0⟩⟩ : Iface) ∈ removeLocs crossG ∧
      ¬ crossG.Reach 6 5 ∧ g'.Reach 6 5 := by
  refine ⟨_, rfl, by decide, ?_, ?_⟩
  · rw [← hasPath_iff]; decide +kernel
  · rw [← hasPath_iff]; decide +kernel

/-- **C07.** A swap at an offered location, with any class the operator can draw there, replaces the model at that
location and changes nothing else; the new class differs from the old one and comes from the category of the location:
connector classes for a node; for an edge, source classes if it leaves a source terminal, else sink classes if it enters a
sink terminal, else ordinary ones. -/
theorem C07_swap_effect (nid : NodeId) (nc : Comp) {lib g l c} (hw : g.WF) (hl : l ∈ swapLocs lib g) (hc : c.cls ∈ swapSet lib g l) :
    (∃ n ∈ g.nodes, l = .node n.id ∧ n.comp.prot = false ∧ ¬ g.IsSource n.id ∧ ¬ g.IsSink n.id ∧
      c.cls ≠ n.comp.cls ∧ c.cls ∈ lib.node ∧
      ∃ g', applyOp lib g .swap l ⟨nid, c, nc⟩ = .ok g' ∧ g'.edges = g.edges ∧
        g'.nodes = g.nodes.map (fun m => if m = n then { n with comp := c } else m)) ∨
    (∃ e ∈ g.edges, l = .edge e.ref ∧ e.comp.prot = false ∧ c.cls ≠ e.comp.cls ∧
      (∀ a ∈ g.nodes, a.id = e.src → ∀ b ∈ g.nodes, b.id = e.dst →
        (a.comp.ntype = .sourceNode → c.cls ∈ lib.source) ∧
        (a.comp.ntype ≠ .sourceNode → b.comp.ntype = .sinkNode → c.cls ∈ lib.sink) ∧
        (a.comp.ntype ≠ .sourceNode → b.comp.ntype ≠ .sinkNode → c.cls ∈ lib.edge)) ∧
      ∃ g', applyOp lib g .swap l ⟨nid, c, nc⟩ = .ok g' ∧ g'.nodes = g.nodes ∧
        g'.edges = g.edges.map (fun x => if x = e then { e with comp := c } else x)) := by
  have hne : swapSet lib g l ≠ [] := fun hn => by rw [hn] at hc; simp at hc
  rcases mem_swapLocs hl with ⟨n, hn, rfl, hp, hi, ho, _⟩ | ⟨e, he, rfl, hp, _⟩
  · left
    have hq := (node?_eq_some hw).2 ⟨hn, rfl⟩
    have hc' := hc
    simp only [swapSet, hq, List.mem_filter, decide_eq_true_eq] at hc'
    obtain ⟨a, ha, had⟩ := inDeg_ne_zero.1 hi
    obtain ⟨b, hb, hbs⟩ := outDeg_ne_zero.1 ho
    refine ⟨n, hn, rfl, hp, fun hs => hs.2 a ha had, fun hs => hs.2 b hb hbs, hc'.2, hc'.1,
      g.setNode n.id (fun n => { n with comp := c }), ?_, rfl, ?_⟩
    · unfold applyOp swapComp; simp only [hq]; rw [if_neg hne]
    · unfold setNode
      simp only
      apply List.map_congr_left
      intro m hm
      by_cases hmn : m = n
      · subst hmn; simp
      · have : m.id ≠ n.id := fun h => hmn (List.inj_on_of_nodup_map hw.ids_nodup hm hn h)
        rw [if_neg this, if_neg hmn]
  · right
    have hq := (edge?_eq_some hw).2 ⟨he, rfl⟩
    have hc' := hc
    simp only [swapSet, hq, List.mem_filter, decide_eq_true_eq] at hc'
    refine ⟨e, he, rfl, hp, hc'.2, ?_, g.setEdge e.ref (fun n => { n with comp := c }), ?_, rfl, ?_⟩
    · intro a ha haid b hb hbid
      have qa := (node?_eq_some hw).2 ⟨ha, haid⟩
      have qb := (node?_eq_some hw).2 ⟨hb, hbid⟩
      have hcat := hc'.1
      unfold edgeCategory at hcat
      rw [show e.ref.src = e.src from rfl, show e.ref.dst = e.dst from rfl, qa, qb] at hcat
      simp only [Option.map_some, Option.some.injEq] at hcat
      refine ⟨fun h => by rwa [if_pos h] at hcat, fun h1 h2 => by rwa [if_neg h1, if_pos h2] at hcat,
        fun h1 h2 => by rwa [if_neg h1, if_neg h2] at hcat⟩
    · unfold applyOp swapComp; simp only [hq]; rw [if_neg hne]
    · unfold setEdge
      simp only
      apply List.map_congr_left
      intro m hm
      by_cases hmn : m = e
      · subst hmn; simp
      · have : m.ref ≠ e.ref := fun h => hmn (List.inj_on_of_nodup_map hw.refs_nodup hm he h)
        rw [if_neg this, if_neg hmn]

/-- The swap operator can always draw at a location it offers (library sets have distinct members). -/
theorem C07_swap_draw_exists {lib g l} (hl : l ∈ swapLocs lib g) (hw : g.WF) (hn : lib.node.Nodup)
    (h1 : lib.source.Nodup) (h2 : lib.sink.Nodup) (h3 : lib.edge.Nodup) : swapSet lib g l ≠ [] := by
  have key : ∀ (L : List ClassId) (x : ClassId), L.Nodup → 1 < L.length → L.filter (· ≠ x) ≠ [] := by
    intro L x hnd hlen hnil
    have hall : ∀ y ∈ L, y = x := by
      intro y hy
      have := List.filter_eq_nil_iff.1 hnil y hy
      simpa using this
    match L, hnd, hlen, hall with
    | a :: b :: _, hnd, _, hall =>
      have e1 := hall a (by simp)
      have e2 := hall b (by simp)
      simp [e1, e2] at hnd
  have hcat : ∀ r, (edgeCategory lib g r).Nodup := by
    intro r; unfold edgeCategory; split
    · exact h1
    · split
      · exact h2
      · exact h3
  rcases mem_swapLocs hl with ⟨n, hn', rfl, _, _, _, hlen⟩ | ⟨e, he, rfl, _, hlen⟩
  · have hq := (node?_eq_some hw).2 ⟨hn', rfl⟩
    simp only [swapSet, hq]
    exact key _ _ hn hlen
  · have hq := (edge?_eq_some hw).2 ⟨he, rfl⟩
    simp only [swapSet, hq]
    exact key _ _ (hcat _) hlen

/-- The offered swaps of the fixture: the laser (two source classes) and both middle components; with two connector
classes also the connectors.  The protected detector is never offered. -/
example : swapLocs Fixture.lib Fixture.g = [.edge ⟨0, 1, 0⟩, .edge ⟨1, 2, 0⟩, .edge ⟨1, 2, 1⟩] ∧
    swapLocs Fixture.lib2 Fixture.g = [.node 1, .node 2, .edge ⟨0, 1, 0⟩, .edge ⟨1, 2, 0⟩, .edge ⟨1, 2, 1⟩] ∧
    swapSet Fixture.lib Fixture.g (.edge ⟨0, 1, 0⟩) = [11] := by decide

/-- Numbers of inputs and outputs of every connector are within the limit of its model. -/
def WithinLimits (g : Graph) : Prop :=
  ∀ n ∈ g.nodes, ¬ g.IsSource n.id → ¬ g.IsSink n.id →
    (g.inEdges n.id).length ≤ n.comp.maxIn ∧ (g.outEdges n.id).length ≤ n.comp.maxIn

/-- **C10.** Every legal step other than a merging removal keeps the connectors within their limits, provided new connector models accept at least one edge each way, and a swapped-in
connector has a limit at least that of the one it replaces. -/
theorem C10_limits_nonmerging {lib g r g'} (hw : g.WF) (ha : g.Acyclic) (hs : LegalStep lib g r g')
    (hm : ¬ Merges g r) (hnew : r.op = .addSeries → 1 ≤ r.draw.nc.maxIn)
    (hswap : ∀ n ∈ g.nodes, r.loc = .node n.id → n.comp.maxIn ≤ r.draw.ec.maxIn)
    (hl : WithinLimits g) : WithinLimits g' := by
  obtain ⟨t1, t2⟩ := step_terminals hw ha hs
  intro n hn hns hnk
  rw [t1] at hns
  rw [t2] at hnk
  show g'.inDeg n.id ≤ _ ∧ g'.outDeg n.id ≤ _
  have hl' : ∀ m ∈ g.nodes, ¬ g.IsSource m.id → ¬ g.IsSink m.id → g.inDeg m.id ≤ m.comp.maxIn ∧ g.outDeg m.id ≤ m.comp.maxIn := hl
  cases legal_kind hs with
  | series i hop _ hi hnid _ _ h =>
    obtain ⟨e, he, _, h'', h1, hnodes, hperm⟩ := addSeries_shape hw hi hnid r.draw.ec r.draw.nc
    rw [h] at h1; injection h1 with h1; subst h1
    have hg := removeEdge_perm hw he
    have hfs : ∀ x ∈ g.edges, x.src ≠ r.draw.nid := fun x hx hc => hnid (hc ▸ hw.src_mem x hx)
    have hfd : ∀ x ∈ g.edges, x.dst ≠ r.draw.nid := fun x hx hc => hnid (hc ▸ hw.dst_mem x hx)
    have e1 := hfs e he
    have e2 := hfd e he
    rw [hnodes, List.mem_append] at hn
    rw [inDeg_perm hperm, outDeg_perm hperm]
    rcases hn with hn | hn
    · have := hl' n hn hns hnk
      rw [inDeg_perm hg, outDeg_perm hg, List.countP_cons, List.countP_cons] at this
      have hne : ¬ (r.draw.nid = n.id) := fun hc => hnid (hc ▸ List.mem_map_of_mem hn)
      split <;> simp only [List.cons_append, List.nil_append, List.countP_cons, hne, decide_false] <;>
        simpa using this
    · simp only [List.mem_singleton] at hn
      subst hn
      have z1 : (g.removeEdge e.ref).edges.countP (fun x => decide (x.dst = r.draw.nid)) = 0 :=
        List.countP_eq_zero.2 (fun x hx => by simpa using hfd x (mem_removeEdge.1 hx).1)
      have z2 : (g.removeEdge e.ref).edges.countP (fun x => decide (x.src = r.draw.nid)) = 0 :=
        List.countP_eq_zero.2 (fun x hx => by simpa using hfs x (mem_removeEdge.1 hx).1)
      have := hnew hop
      split <;> simp [z1, z2, e1, e2, this]
  | parallel u v o _ _ ho hi _ h =>
    subst h
    obtain ⟨_, _, h3, h4, _⟩ := parallelLocs_spec ho hi
    obtain ⟨nu, hu, _, _, _, _, lu⟩ := parallelOk_iff.1 h3
    obtain ⟨nv, hv, _, _, _, lv, _⟩ := parallelOk_iff.1 h4
    have hn' : n ∈ g.nodes := hn
    have := hl' n hn' hns hnk
    have p := addEdge_perm g u v r.draw.ec r.draw.ec.cls
    unfold addParallel
    rw [inDeg_perm p, outDeg_perm p, List.countP_cons, List.countP_cons]
    rw [inDeg_perm (List.Perm.refl _), outDeg_perm (List.Perm.refl _)] at this
    rw [outDeg_perm (List.Perm.refl _)] at lu
    rw [inDeg_perm (List.Perm.refl _)] at lv
    have eu : u = n.id → nu = n := fun hc => by
      have := (node?_eq_some hw).2 ⟨hn', hc.symm⟩
      rw [hu] at this; injection this
    have ev : v = n.id → nv = n := fun hc => by
      have := (node?_eq_some hw).2 ⟨hn', hc.symm⟩
      rw [hv] at this; injection this
    constructor
    · by_cases hc : v = n.id
      · rw [hc, ev hc] at lv; simp only [hc, decide_true, if_true]; omega
      · simp only [hc, decide_false, Bool.false_eq_true, if_false]; omega
    · by_cases hc : u = n.id
      · rw [hc, eu hc] at lu; simp only [hc, decide_true, if_true]; omega
      · simp only [hc, decide_false, Bool.false_eq_true, if_false]; omega
  | remove i hop hloc hi h =>
    obtain ⟨e, he, nu, mu, nv, mv, hr, iu, iv, hnode, pe, pu, pv, hin, hout⟩ := removeLocs_spec hw hi
    obtain ⟨keep, _, _, hres⟩ := removeComp_shape hw he hr hnode
    rw [h] at hres; injection hres with hres
    have hp : (g.removeEdge e.ref).hasPath e.src e.dst = true := by
      by_contra hc
      exact hm ⟨hop, i, hloc, e, he, hr, fun hb => hc ((bypassed_iff hw he).1 hb)⟩
    rw [if_pos hp] at hres
    subst hres
    have := hl' n hn hns hnk
    have hg := removeEdge_perm hw he
    rw [inDeg_perm hg, outDeg_perm hg, List.countP_cons, List.countP_cons] at this
    rw [inDeg_perm (List.Perm.refl _), outDeg_perm (List.Perm.refl _)]
    omega
  | swapNode v _ hloc hi _ h =>
    subst h
    obtain ⟨m, hm', hmn⟩ := List.mem_map.1 hn
    show g.inDeg n.id ≤ _ ∧ g.outDeg n.id ≤ _
    split at hmn
    · rename_i hmv
      subst hmn
      have h1 := hl' m hm' hns hnk
      have h2 := hswap m hm' (by rw [hloc, hmv])
      exact ⟨h1.1.trans h2, h1.2.trans h2⟩
    · subst hmn; exact hl' m hm' hns hnk
  | swapEdge v _ _ _ _ h =>
    subst h
    have h1 := hl' n hn hns hnk
    have key : ∀ (p : EdgeRef → Bool), (g.setEdge v (fun e => { e with comp := r.draw.ec })).edges.countP (fun e => p e.ref) =
        g.edges.countP (fun e => p e.ref) := by
      intro p
      have := congrArg (List.countP p) (setEdge_comp_refs g v r.draw.ec)
      rwa [List.countP_map, List.countP_map] at this
    have k1 := key (fun r => decide (r.dst = n.id))
    have k2 := key (fun r => decide (r.src = n.id))
    rw [inDeg_perm (List.Perm.refl _), outDeg_perm (List.Perm.refl _)] at h1 ⊢
    exact ⟨le_of_eq_of_le k1 h1.1, le_of_eq_of_le k2 h1.2⟩

/-- **C10.** Exact degrees after a merging removal: the merged node gets the inputs of both ends minus one and the
outputs of both ends minus one; all other nodes keep theirs. So the limit is broken exactly when these sums exceed it. -/
theorem C10_merge_degrees {g g' : Graph} (hw : g.WF) (ha : g.Acyclic) {i : Iface} (hi : i ∈ removeLocs g)
    (hg : removeComp g i = .ok g') :
    ∃ e ∈ g.edges, i.edge = e.ref ∧ (¬ g.Bypassed e →
      (g'.inEdges e.src).length + 1 = (g.inEdges e.src).length + (g.inEdges e.dst).length ∧
      (g'.outEdges e.src).length + 1 = (g.outEdges e.src).length + (g.outEdges e.dst).length ∧
      ∀ x, x ≠ e.src → x ≠ e.dst → (g'.inEdges x).length = (g.inEdges x).length ∧
        (g'.outEdges x).length = (g.outEdges x).length) := by
  obtain ⟨e, he, nu, mu, nv, mv, hr, iu, iv, hnode, pe, pu, pv, hin, hout⟩ := removeLocs_spec hw hi
  obtain ⟨keep, hk, hkid, hres⟩ := removeComp_shape hw he hr hnode
  rw [hg] at hres; injection hres with hres
  refine ⟨e, he, hr, fun hb => ?_⟩
  have hp := fun hc => hb ((bypassed_iff hw he).2 hc)
  have m := mergeFacts ha he hp
  rw [if_neg hp] at hres
  subst hres
  exact merge_degrees hw ha he m

/-- The two ends of the removed edge together have no more inputs and outputs than the surviving model `k` allows, the removed edge itself not counted. -/
def MergeFits (g : Graph) (r : StepRec) : Prop :=
  ∀ i e, ∀ k ∈ g.nodes, r.loc = .iface i → e ∈ g.edges → i.edge = e.ref → k.id = i.node →
    (g.inEdges e.src).length + (g.inEdges e.dst).length ≤ k.comp.maxIn + 1 ∧
    (g.outEdges e.src).length + (g.outEdges e.dst).length ≤ k.comp.maxIn + 1

/-- **C10.** A legal step from a system within limits leaves the limits exactly if it is a merging removal whose two ends do not fit into one connector. -/
theorem C10_limits_step {lib g r g'} (hw : g.WF) (ha : g.Acyclic) (hs : LegalStep lib g r g')
    (hnew : r.op = .addSeries → 1 ≤ r.draw.nc.maxIn) (hswap : ∀ n ∈ g.nodes, r.loc = .node n.id → n.comp.maxIn ≤ r.draw.ec.maxIn)
    (hl : WithinLimits g) : WithinLimits g' ↔ (Merges g r → MergeFits g r) := by
  by_cases hm : Merges g r
  swap
  · exact ⟨fun _ h => absurd h hm, fun _ => C10_limits_nonmerging hw ha hs hm hnew hswap hl⟩
  obtain ⟨t1, t2⟩ := step_terminals hw ha hs
  obtain ⟨hop, i, hloc, e, he, hr, hb⟩ := hm
  have hp := fun hc => hb ((bypassed_iff hw he).2 hc)
  have m := mergeFacts ha he hp
  -- the location is an offered one
  have hi : i ∈ removeLocs g ∧ removeComp g i = .ok g' := by
    cases legal_kind hs with
    | series _ hop' => rw [hop] at hop'; cases hop'
    | parallel _ _ _ hop' => rw [hop] at hop'; cases hop'
    | remove i' _ hloc' hi' h => rw [hloc] at hloc'; injection hloc' with hh; rw [hh]; exact ⟨hi', h⟩
    | swapNode _ hop' => rw [hop] at hop'; cases hop'
    | swapEdge _ hop' => rw [hop] at hop'; cases hop'
  obtain ⟨e', he', nu, mu, nv, mv, hr', iu, iv, hnode, pe, pu, pv, hin, hout⟩ := removeLocs_spec hw hi.1
  have hee : e' = e := List.inj_on_of_nodup_map hw.refs_nodup he' he (hr'.symm.trans hr)
  subst hee
  obtain ⟨keep, hk, hkid, hres⟩ := removeComp_shape hw he' hr' hnode
  rw [hi.2, if_neg hp] at hres; injection hres with hres
  obtain ⟨d1, d2, d3⟩ := merge_degrees hw ha he' m
  have hdeg : g'.inDeg e'.src + 1 = g.inDeg e'.src + g.inDeg e'.dst ∧ g'.outDeg e'.src + 1 = g.outDeg e'.src + g.outDeg e'.dst := by
    subst hres; exact ⟨d1, d2⟩
  have hoth : ∀ x, x ≠ e'.src → x ≠ e'.dst → g'.inDeg x = g.inDeg x ∧ g'.outDeg x = g.outDeg x := by subst hres; exact d3
  have hfit : MergeFits g r ↔ g'.inDeg e'.src ≤ keep.comp.maxIn ∧ g'.outDeg e'.src ≤ keep.comp.maxIn := by
    have e1 := hdeg.1
    have e2 := hdeg.2
    constructor
    · intro h
      obtain ⟨h1, h2⟩ := h i e' keep hk hloc he' hr' hkid
      unfold inDeg outDeg at *
      omega
    · rintro ⟨h1, h2⟩ j f k hk' hj hf hjr hki
      rw [hloc] at hj; injection hj with hj; subst hj
      have : f = e' := List.inj_on_of_nodup_map hw.refs_nodup hf he' (hjr.symm.trans hr')
      subst this
      have : k = keep := List.inj_on_of_nodup_map hw.ids_nodup hk' hk (hki.trans hkid.symm)
      subst this
      unfold inDeg outDeg at *
      omega
  -- the merged node in the result
  have hmem : ∀ x : Node, x ∈ g'.nodes ↔ (∃ y ∈ g.nodes, y.id ≠ e'.dst ∧ ((y.id ≠ e'.src ∧ x = y) ∨ (y.id = e'.src ∧ x = { y with comp := keep.comp, name := keep.name }))) := by
    intro x
    subst hres
    simp only [setNode, contract_nodes, removeEdge, List.mem_map, List.mem_filter, decide_eq_true_eq]
    constructor
    · rintro ⟨y, ⟨hy, hyd⟩, hx⟩
      refine ⟨y, hy, hyd, ?_⟩
      split at hx
      · rename_i hc; exact .inr ⟨hc, hx.symm⟩
      · rename_i hc; exact .inl ⟨hc, hx.symm⟩
    · rintro ⟨y, hy, hyd, ⟨hc, rfl⟩ | ⟨hc, rfl⟩⟩
      · exact ⟨x, ⟨hy, hyd⟩, if_neg hc⟩
      · exact ⟨y, ⟨hy, hyd⟩, if_pos hc⟩
  have hsrcN : ¬ g.IsSource e'.src := fun hc => hin (by
    unfold inDeg
    rw [List.length_eq_zero_iff]
    exact List.filter_eq_nil_iff.2 (fun x hx => by simpa using hc.2 x hx))
  have hsrcK : ¬ g.IsSink e'.src := fun hc => hc.2 e' he' rfl
  constructor
  · intro h _
    rw [hfit]
    have hx := (hmem { nu with comp := keep.comp, name := keep.name }).2 ⟨nu, mu, fun hc => m.ne (iu.symm.trans hc), .inr ⟨iu, rfl⟩⟩
    have := h _ hx (by rw [t1]; show ¬ g.IsSource nu.id; rw [iu]; exact hsrcN) (by rw [t2]; show ¬ g.IsSink nu.id; rw [iu]; exact hsrcK)
    rw [show ({ nu with comp := keep.comp, name := keep.name } : Node).id = e'.src from iu] at this
    exact this
  · intro h
    have hf := hfit.1 (h ⟨hop, i, hloc, e', he, hr, hb⟩)
    intro x hx hxs hxk
    rw [t1] at hxs
    rw [t2] at hxk
    obtain ⟨y, hy, hyd, ⟨hc, rfl⟩ | ⟨hc, rfl⟩⟩ := (hmem x).1 hx
    · obtain ⟨q1, q2⟩ := hoth x.id hc hyd
      have := hl x hy hxs hxk
      show g'.inDeg x.id ≤ _ ∧ g'.outDeg x.id ≤ _
      rw [q1, q2]; exact this
    · have h1 : ({ y with comp := keep.comp, name := keep.name } : Node).id = e'.src := hc
      rw [h1]; exact hf

/-- **C10.** Over every evolution history: if a connector ever has more inputs or outputs than its model allows, a merging removal that did not fit is among the steps. -/
theorem C10_limits_history {lib g0 rs g} (hw : g0.WF) (ha : g0.Acyclic) (h : History lib g0 rs g)
    (hnew : ∀ p ∈ rs, p.2.op = .addSeries → 1 ≤ p.2.draw.nc.maxIn)
    (hswap : ∀ p ∈ rs, ∀ n ∈ p.1.nodes, p.2.loc = .node n.id → n.comp.maxIn ≤ p.2.draw.ec.maxIn) (hl : WithinLimits g0) (hbad : ¬ WithinLimits g) :
    ∃ p ∈ rs, Merges p.1 p.2 ∧ ¬ MergeFits p.1 p.2 := by
  induction h with
  | nil => exact absurd hl hbad
  | @step rs h r g' hh hs ih =>
    obtain ⟨w, a⟩ := history_dag hw ha hh
    by_cases hlh : WithinLimits h
    · have hst := C10_limits_step w a hs (hnew (h, r) (by simp)) (hswap (h, r) (by simp)) hlh
      rw [hst] at hbad
      push Not at hbad
      exact ⟨(h, r), by simp, hbad⟩
    · obtain ⟨p, hp, hq⟩ := ih (fun p hp => hnew p (by simp [hp])) (fun p hp => hswap p (by simp [hp])) hlh
      exact ⟨p, by simp [hp], hq⟩

/-- A system within limits on which one offered removal yields a connector with three inputs (limit 2). -/
def fullG : Graph :=
  { nodes := [⟨0, Fixture.src, 1⟩, ⟨1, Fixture.split 1, 40⟩, ⟨2, Fixture.split 2, 40⟩, ⟨3, Fixture.snk, 2⟩,
      ⟨4, Fixture.split 4, 40⟩, ⟨5, Fixture.split 5, 40⟩]
    edges := [⟨0, 4, 0, Fixture.laser 10, 10⟩, ⟨1, 2, 0, Fixture.fiber 11, 30⟩, ⟨2, 3, 0, Fixture.fiber 12, 30⟩,
      ⟨4, 1, 0, Fixture.fiber 13, 30⟩, ⟨4, 1, 1, Fixture.fiber 14, 30⟩, ⟨0, 5, 0, Fixture.laser 15, 10⟩,
      ⟨5, 2, 0, Fixture.fiber 16, 30⟩] }

theorem fullG_wf : fullG.WF where
  ids_nodup := by decide
  refs_nodup := by decide
  src_mem := by decide
  dst_mem := by decide

theorem fullG_topo : fullG.IsTopo [0, 4, 5, 1, 2, 3] where
  nodup := by decide
  mem_iff := by
    intro v
    rw [show fullG.ids = [0, 1, 2, 3, 4, 5] by decide]
    simp only [List.mem_cons, List.not_mem_nil, or_false]
    tauto
  forward := by decide

/-- **C10, negative part.** The full claim (limits hold over all histories) is false: from a system within limits, one
legal merging removal produces a connector with more inputs than its model allows. -/
theorem C10_merge_breaks_limit :
    ∃ g r g', g.WF ∧ g.Acyclic ∧ LegalStep Fixture.lib g r g' ∧ WithinLimits g ∧ ¬ WithinLimits g' := by
  refine ⟨fullG, ⟨.remove, .iface ⟨1, ⟨1, 2, 0⟩⟩, ⟨0, Fixture.fiber 0, Fixture.split 0⟩⟩, _, fullG_wf,
    fullG_topo.acyclic, ⟨⟨_, fullG_topo, by decide⟩, trivial, rfl⟩, ?_, ?_⟩
  · intro n hn hs hk
    have hn' : n ∈ fullG.nodes := hn
    simp only [fullG, List.mem_cons, List.not_mem_nil, or_false] at hn'
    rcases hn' with rfl | rfl | rfl | rfl | rfl | rfl
    · exact absurd ⟨by decide, by decide⟩ hs
    · decide
    · decide
    · exact absurd ⟨by decide, by decide⟩ hk
    · decide
    · decide
  · intro hw
    have := hw ⟨1, Fixture.split 1, 40⟩ (by decide +kernel)
      (fun hs => by have := hs.2; revert this; decide +kernel)
      (fun hs => by have := hs.2; revert this; decide +kernel)
    revert this
    decide +kernel

/-- The fixture's history (two removals, one of them merging) stays within limits, and its merging removal fits. -/
example : WithinLimits Fixture.line' := by
  by_contra hbad
  obtain ⟨p, hp, hm, hf⟩ := C10_limits_history Fixture.g_wf Fixture.g_acyclic Fixture.hist
    (by intro p hp; simp only [List.mem_cons, List.not_mem_nil, or_false] at hp; rcases hp with rfl | rfl <;> exact fun h => by cases h)
    (by intro p hp; simp only [List.mem_cons, List.not_mem_nil, or_false] at hp; rcases hp with rfl | rfl <;> exact fun _ _ h => by cases h)
    (by
      intro n hn hs hk
      simp only [Fixture.g, List.mem_cons, List.not_mem_nil, or_false] at hn
      rcases hn with rfl | rfl | rfl | rfl
      · exact absurd ⟨by decide, by decide⟩ hs
      · decide
      · decide
      · exact absurd ⟨by decide, by decide⟩ hk) hbad
  simp only [List.mem_cons, List.not_mem_nil, or_false] at hp
  rcases hp with rfl | rfl
  · apply hf
    intro i e k hk hi he hr hki
    injection hi with hi
    subst hi
    simp only [Fixture.line, List.mem_cons, List.not_mem_nil, or_false] at he hk
    rcases he with rfl | rfl | rfl
    · cases hr
    · rcases hk with rfl | rfl | rfl | rfl <;> first | decide | (exact absurd hki (by decide))
    · cases hr
  · obtain ⟨_, i, hi, e, he, hr, hb⟩ := hm
    injection hi with hi
    subst hi
    exact hb ((bypassed_iff Fixture.g_wf he).2 (by
      simp only [Fixture.g, List.mem_cons, List.not_mem_nil, or_false] at he
      rcases he with rfl | rfl | rfl | rfl <;> first | (exact absurd hr (by decide)) | decide +kernel))

/-- **C19.** On every well-formed DAG the sort succeeds and lists every node exactly once with all edges pointing forward;
on a graph with a cycle it raises `NetworkXUnfeasible`. -/
theorem C19_topological_order {g : Graph} (hw : g.WF) :
    (∀ o, g.topoSort = .ok o → g.IsTopo o) ∧ (g.Acyclic → ∃ o, g.topoSort = .ok o) ∧
    (¬ g.Acyclic → g.topoSort = .error .unfeasible) := by
  refine ⟨fun o ho => topoSort_sound hw ho, topoSort_complete hw, fun hc => ?_⟩
  cases ho : g.topoSort with
  | ok o => exact absurd (topoSort_sound hw ho).acyclic hc
  | error e =>
    unfold topoSort at ho
    simp only at ho
    split at ho
    · cases ho
    · injection ho with ho; rw [ho]

example : Fixture.g.topoSort = .ok [0, 1, 2, 3] ∧ crossG.topoSort = .ok [0, 6, 1, 5, 2, 3] ∧
    (Fixture.g.addEdge 2 1 (Fixture.fiber 9) 30).topoSort = .error .unfeasible := by decide +kernel

/-! Cases of the other theorems, on the systems of `Fixture` and on `crossG`, `fullG`. -/

example := C04_add_series_effect Fixture.lib Fixture.g_wf (i := ⟨2, ⟨1, 2, 1⟩⟩) (by decide) (nid := 9) (by decide) (Fixture.fiber 8) (Fixture.split 9)
example : Fixture.gSer.Reach 1 3 ↔ Fixture.g.Reach 1 3 :=
  C04_add_series_reach Fixture.g_wf (i := ⟨2, ⟨1, 2, 1⟩⟩) (by decide) (nid := 9) (by decide) Fixture.ser_legal.2.2 (by decide) (by decide)
example := C05_offered_pairs_legal Fixture.line_wf Fixture.line_topo (u := 1) (v := 2) (by decide)
example := C05_all_legal_pairs_offered Fixture.line_topo (u := 2) (v := 1) (by decide) (by decide) (by decide) (by
  rintro w (rfl | rfl)
  · exact ⟨⟨2, Fixture.split 3, 40⟩, by decide, by decide, by decide, by decide, by decide, by decide⟩
  · exact ⟨⟨1, Fixture.split 2, 40⟩, by decide, by decide, by decide, by decide, by decide, by decide⟩)
example := C05_add_parallel_effect Fixture.lib Fixture.line 1 2 ⟨0, Fixture.fiber 8, Fixture.split 9⟩
example := C06_remove_effect Fixture.lib ⟨0, Fixture.fiber 0, Fixture.split 0⟩ Fixture.line_wf Fixture.line_acyclic (i := ⟨1, ⟨1, 2, 0⟩⟩) (by decide)
example := C06_remove_reach Fixture.line_wf Fixture.line_acyclic (i := ⟨1, ⟨1, 2, 0⟩⟩) (by decide) Fixture.rm_legal.2.2
example := C07_swap_effect 0 (Fixture.split 0) (lib := Fixture.lib) (l := .edge ⟨1, 2, 0⟩) (c := Fixture.shaper 9) Fixture.g_wf (by decide) (by decide)
example := C07_swap_draw_exists (lib := Fixture.lib2) (l := .node 1) (by decide) Fixture.g_wf (by decide) (by decide) (by decide) (by decide)

theorem fixture_within : WithinLimits Fixture.g := by
  intro n hn hs hk
  simp only [Fixture.g, List.mem_cons, List.not_mem_nil, or_false] at hn
  rcases hn with rfl | rfl | rfl | rfl
  · exact absurd ⟨by decide, by decide⟩ hs
  · decide
  · decide
  · exact absurd ⟨by decide, by decide⟩ hk

example : WithinLimits Fixture.gSer :=
  C10_limits_nonmerging Fixture.g_wf Fixture.g_acyclic Fixture.ser_legal (fun h => by cases h.1) (fun _ => by decide) (fun _ _ h => by cases h) fixture_within
example := C10_limits_step Fixture.g_wf Fixture.g_acyclic Fixture.ser_legal (fun _ => by decide) (fun _ _ h => by cases h) fixture_within
example := C10_merge_degrees Fixture.line_wf Fixture.line_acyclic (i := ⟨1, ⟨1, 2, 0⟩⟩) (by decide) (g' := Fixture.line') (by decide +kernel)
example := (C19_topological_order Fixture.g_wf).2.1 Fixture.g_acyclic

end Verif
