import Verif.Spec.Upstream
import Verif.Lemmas.Symmetry
import Verif.Lemmas.Interferometer
import Verif.Lemmas.Copy
import Verif.Lemmas.OpsMore
/-! # States depend only on what is upstream -/

namespace Verif
open Graph

variable {S : Type}

theorem ref_inj {g : Graph} (hw : g.WF) {e e' : Edge} (h : e ∈ g.edges) (h' : e' ∈ g.edges) (hr : e.ref = e'.ref) : e = e' :=
  List.inj_on_of_nodup_map hw.refs_nodup h h' hr

theorem outEdges_nodup {g : Graph} (hw : g.WF) (u : NodeId) : (g.outEdges u).Nodup :=
  (List.Nodup.of_map _ hw.refs_nodup).filter _

section
variable {g g' : Graph} {B B' : Behav S} {U : NodeId → Prop} {inp : S} {st st' : Store S}

theorem inputs_same (hs : SameUpstream g g' B B' U) {u : NodeId} (hu : U u) (hst : ∀ e ∈ g.inEdges u, st' (.edge e.ref) = st (.edge e.ref)) {a : List S}
    (ha : Inputs g inp st u a) : Inputs g' inp st' u a := by
  have hl : (g'.inEdges u = [] ↔ g.inEdges u = []) := by
    have := congrArg List.length (hs.ins u hu)
    simp only [List.length_map] at this
    rw [← List.length_eq_zero_iff, ← List.length_eq_zero_iff, this]
  have hm : (g'.inEdges u).map (fun e => st' (.edge e.ref)) = (g.inEdges u).map (fun e => st (.edge e.ref)) := by
    have h1 : (g'.inEdges u).map (fun e => st' (.edge e.ref)) = ((g'.inEdges u).map Edge.ref).map (fun r => st' (.edge r)) := by simp
    rw [h1, hs.ins u hu, List.map_map]
    exact List.map_congr_left hst
  rcases ha with ⟨h1, h2⟩ | ⟨h1, h2⟩
  · exact .inl ⟨hl.2 h1, h2⟩
  · exact .inr ⟨fun h => h1 (hl.1 h), hm.trans h2⟩

/-- The states leaving a node of `U` are the same if the states entering it are. -/
theorem outputs_same (hs : SameUpstream g g' B B' U) {v v' : Node} (hv : v ∈ g.nodes) (hv' : v' ∈ g'.nodes) (hid : v'.id = v.id) (hu : U v.id)
    (hst : ∀ e ∈ g.inEdges v.id, st' (.edge e.ref) = st (.edge e.ref)) {a b : List S} (ha : Outputs g B inp st v a) (hb : Outputs g' B' inp st' v' b) : a = b := by
  obtain ⟨ins, h1, h2⟩ := ha
  obtain ⟨ins', h3, h4⟩ := hb
  have h5 := inputs_same hs hu hst h1
  rw [hid] at h3
  have h6 := inputs_unique h5 h3
  subst h6
  have hlen : (g'.inEdges v.id).length = (g.inEdges v.id).length := by
    have := congrArg List.length (hs.ins v.id hu)
    simpa using this
  rw [hs.nodes v hv hu v' hv' hid, hid, hlen, hs.ports v.id hu, h2] at h4
  injection h4

theorem edge_same (hw : g.WF) (hw' : g'.WF) (hs : SameUpstream g g' B B' U) (hF : IsFlow g B inp st) (hF' : IsFlow g' B' inp st') {i : Nat} {e e' : Edge}
    (hi : (g.outEdges e.src)[i]? = some e) (hi' : (g'.outEdges e.src)[i]? = some e') (hu : U e.src) (hse : SameEdge B B' e e')
    (hst : ∀ d ∈ g.inEdges e.src, st' (.edge d.ref) = st (.edge d.ref)) : st' (.edge e'.ref) = st (.edge e.ref) := by
  have he := mem_outEdges.1 (List.mem_of_getElem? hi)
  have he' := mem_outEdges.1 (List.mem_of_getElem? hi')
  obtain ⟨v, hv, hid, outs, j, s, s1, s2, h1, h2, h3, h4, h5, h6⟩ := hF.edges e he.1
  obtain ⟨v', hv', hid', outs', j', t, t1, t2, k1, k2, k3, k4, k5, k6⟩ := hF'.edges e' he'.1
  rw [he'.2] at hid' k2
  have hj : j = i := by
    rw [← hi] at h2
    exact (List.getElem?_inj (List.getElem?_eq_some_iff.1 (h2.trans hi)).1 (outEdges_nodup hw _)).1 h2
  have hj' : j' = i := by
    rw [← hi'] at k2
    exact (List.getElem?_inj (List.getElem?_eq_some_iff.1 (k2.trans hi')).1 (outEdges_nodup hw' _)).1 k2
  subst hj
  subst hj'
  have ho := outputs_same hs hv hv' (hid'.trans hid.symm) (by rw [hid]; exact hu) (by rw [hid]; exact hst) h1 k1
  subst ho
  rw [h3] at k3
  injection k3 with k3
  subst k3
  rw [hse.1, h4] at k4
  injection k4 with k4
  subst k4
  rw [h6, k6]
  rw [hse.2] at k5
  rcases h5 with ⟨a1, a2⟩ | ⟨f, a1, a2⟩ <;> rcases k5 with ⟨b1, b2⟩ | ⟨f', b1, b2⟩
  · rw [a2, b2]
  · rw [a1] at b1; cases b1
  · rw [a1] at b1; cases b1
  · rw [a1] at b1
    injection b1 with b1
    subst b1
    rw [a2] at b2
    injection b2 with b2
    rw [b2]

theorem upstream_edges (hw : g.WF) (hw' : g'.WF) {order : List NodeId} (ho : g.IsTopo order) (hs : SameUpstream g g' B B' U) (hF : IsFlow g B inp st)
    (hF' : IsFlow g' B' inp st') : ∀ (k : Nat) (e : Edge), e ∈ g.edges → order.idxOf e.src = k → U e.dst → st' (.edge e.ref) = st (.edge e.ref) := by
  intro k
  induction k using Nat.strong_induction_on with
  | _ k ih =>
    intro e he hk hd
    obtain ⟨i, hi⟩ := List.mem_iff_getElem?.1 (mem_outEdges.2 ⟨he, rfl⟩ : e ∈ g.outEdges e.src)
    obtain ⟨e', h1, h2, h3⟩ := hs.outs e.src i e (hs.closed e he hd) hi hd
    have key := edge_same hw hw' hs hF hF' hi h1 (hs.closed e he hd) h3 (by
      intro d hdm
      have hdm := mem_inEdges.1 hdm
      exact ih _ (by rw [← hk, ← hdm.2]; exact ho.forward d hdm.1) d hdm.1 rfl (by rw [hdm.2]; exact hs.closed e he hd))
    rwa [h2] at key

end

/-! ### The order of edges after an insertion -/

theorem addEdge_filter (g : Graph) (u v : NodeId) (c : Comp) (nm : ClassId) {q : Edge → Bool} (hq : q ⟨u, v, g.newKey u v, c, nm⟩ = false) :
    (g.addEdge u v c nm).edges.filter q = g.edges.filter q := by
  unfold Graph.addEdge
  dsimp only
  generalize (if (g.edges.any (fun x => decide (x.src = u ∧ x.dst = v))) = true then fun x : Edge => decide (x.src = u ∧ x.dst = v)
    else fun x => decide (g.nodeIdx x.src ≤ g.nodeIdx u)) = p
  obtain ⟨A, B, h1, h2, -, -⟩ := insertAfterLast_split p ⟨u, v, g.newKey u v, c, nm⟩ g.edges
  rw [h2, h1]
  simp [hq]

theorem addEdge_new_out (g : Graph) {u v : NodeId} (c : Comp) (nm : ClassId) (hnew : ∀ e ∈ g.edges, ¬ (e.src = u ∧ e.dst = v)) :
    (g.addEdge u v c nm).outEdges u = g.outEdges u ++ [⟨u, v, 0, c, nm⟩] := by
  have hk := newKey_eq_zero hnew
  unfold Graph.addEdge outEdges
  have hany : ¬ (g.edges.any (fun x => decide (x.src = u ∧ x.dst = v))) = true := by
    rw [List.any_eq_true]
    rintro ⟨e, he, h⟩
    exact hnew e he (by simpa using h)
  dsimp only
  rw [if_neg hany]
  obtain ⟨A, B, h1, h2, h3, -⟩ := insertAfterLast_split (fun x => decide (g.nodeIdx x.src ≤ g.nodeIdx u)) ⟨u, v, g.newKey u v, c, nm⟩ g.edges
  rw [h2, h1, hk]
  have hB : B.filter (fun e => decide (e.src = u)) = [] := by
    rw [List.filter_eq_nil_iff]
    intro b hb hc
    have := h3 b hb
    simp only [decide_eq_true_eq] at hc
    simp [hc] at this
  simp [hB]

/-- Where the edges are after `addSeries`. -/
theorem addSeries_order {g g' : Graph} (hw : g.WF) {i : Iface} (hi : i ∈ g.interfaces) {nid : NodeId} (hn : nid ∉ g.ids) {ec nc : Comp}
    (hs : addSeries g i nid ec nc = .ok g') {e : Edge} (he : e ∈ g.edges) (hie : i.edge = e.ref) (hne : e.src ≠ e.dst) :
    (∃ c nm, g'.outEdges e.src = (g.outEdges e.src).filter (fun x => x.ref ≠ e.ref) ++ [⟨e.src, nid, 0, c, nm⟩]) ∧
    (∀ u, u ≠ e.src → u ≠ nid → g'.outEdges u = g.outEdges u) ∧ (∀ u, u ≠ e.dst → u ≠ nid → g'.inEdges u = g.inEdges u) ∧
    g'.nodes = g.nodes ++ [⟨nid, nc, nc.cls⟩] := by
  have hq : g.edge? i.edge = some e := (edge?_eq_some hw).2 ⟨he, hie.symm⟩
  have hsrc : i.edge.src = e.src := by rw [hie]; rfl
  have hdst : i.edge.dst = e.dst := by rw [hie]; rfl
  have hfs : ∀ x ∈ g.edges, x.src ≠ nid := fun x hx hc => hn (hc ▸ hw.src_mem x hx)
  have hfd : ∀ x ∈ g.edges, x.dst ≠ nid := fun x hx hc => hn (hc ▸ hw.dst_mem x hx)
  have key : ∀ (c1 c2 : Comp) (n1 n2 : ClassId), g' = (((g.addNode nid nc nc.cls).removeEdge e.ref).addEdge e.src nid c1 n1).addEdge nid e.dst c2 n2 →
      (∃ c nm, g'.outEdges e.src = (g.outEdges e.src).filter (fun x => x.ref ≠ e.ref) ++ [⟨e.src, nid, 0, c, nm⟩]) ∧
      (∀ u, u ≠ e.src → u ≠ nid → g'.outEdges u = g.outEdges u) ∧ (∀ u, u ≠ e.dst → u ≠ nid → g'.inEdges u = g.inEdges u) ∧
      g'.nodes = g.nodes ++ [⟨nid, nc, nc.cls⟩] := by
    intro c1 c2 n1 n2 hg
    have hr : ∀ (q : Edge → Bool), q e = false → ((g.addNode nid nc nc.cls).removeEdge e.ref).edges.filter q = g.edges.filter q := by
      intro q hqe
      show (g.edges.filter (fun x => decide (x.ref ≠ e.ref))).filter q = _
      rw [List.filter_filter]
      apply List.filter_congr
      intro x hx
      by_cases hxe : x.ref = e.ref
      · have : x = e := ref_inj hw hx he hxe
        subst this
        simp [hqe]
      · simp [hxe]
    refine ⟨⟨c1, n1, ?_⟩, ?_, ?_, ?_⟩
    · rw [hg]
      unfold outEdges
      rw [addEdge_filter _ _ _ _ _ (by simpa using (hfs e he).symm)]
      have := addEdge_new_out ((g.addNode nid nc nc.cls).removeEdge e.ref) (u := e.src) (v := nid) c1 n1
        (fun x hx hc => hfd x (mem_removeEdge.1 hx).1 hc.2)
      unfold outEdges at this
      rw [this]
      congr 1
      show (g.edges.filter (fun x => decide (x.ref ≠ e.ref))).filter _ = _
      rw [List.filter_filter, List.filter_filter]
      apply List.filter_congr
      intro x _
      rw [Bool.and_comm]
    · intro u hu hun
      rw [hg]
      unfold outEdges
      rw [addEdge_filter _ _ _ _ _ (by simpa using hun.symm), addEdge_filter _ _ _ _ _ (by simpa using hu.symm), hr _ (by simpa using hu.symm)]
    · intro u hu hun
      rw [hg]
      unfold inEdges
      rw [addEdge_filter _ _ _ _ _ (by simpa using hu.symm), addEdge_filter _ _ _ _ _ (by simpa using hun.symm), hr _ (by simpa using hu.symm)]
    · rw [hg]; rfl
  unfold addSeries at hs
  rw [hq] at hs
  simp only at hs
  split at hs
  · rename_i hc
    injection hs with hs
    rw [hc, hie] at hs
    exact key _ _ _ _ hs.symm
  · rename_i hc
    injection hs with hs
    obtain ⟨e2, he2, hr2, hnode⟩ := mem_interfaces.1 hi
    have : e2 = e := ref_inj hw he2 he (hr2.symm.trans hie)
    subst this
    rcases hnode with ⟨hnode, -⟩ | ⟨hnode, -⟩
    · exact absurd (hnode.trans hsrc.symm) hc
    · rw [hnode, hsrc, hie] at hs
      exact key _ _ _ _ hs.symm

end Verif
