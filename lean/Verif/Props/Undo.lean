import Verif.Lemmas.Undo
import Verif.Props.Fixture
import Mathlib.Tactic.FinCases
/-!
# Going back: undoing single changes, taking a design down, building chains (C93)
-/

namespace Verif
open Graph Relation

theorem removeEdge_addEdge {g : Graph} (u v : NodeId) (c : Comp) (n : ClassId) :
    (g.addEdge u v c n).removeEdge ⟨u, v, g.newKey u v⟩ = g := by
  obtain ⟨nodes, edges⟩ := g
  have key : ∀ (p : Edge → Bool) (e : Edge) (l : List Edge), (∀ x ∈ l, x.ref ≠ e.ref) →
      (insertAfterLast p e l).filter (fun x => decide (x.ref ≠ e.ref)) = l := by
    intro p e l
    induction l with
    | nil => intro _; simp [insertAfterLast]
    | cons a l ih =>
      intro h
      have h1 : a.ref ≠ e.ref := h a (by simp)
      have h2 : ∀ x ∈ l, x.ref ≠ e.ref := fun x hx => h x (by simp [hx])
      have h3 : l.filter (fun x => decide (x.ref ≠ e.ref)) = l := by
        rw [List.filter_eq_self]; intro x hx; simpa using h2 x hx
      unfold insertAfterLast
      split
      · rw [List.filter_cons_of_pos (by simpa using h1), ih h2]
      · split
        · rw [List.filter_cons_of_pos (by simpa using h1), List.filter_cons_of_neg (by simp), h3]
        · rw [List.filter_cons_of_neg (by simp), List.filter_cons_of_pos (by simpa using h1), h3]
  unfold removeEdge addEdge
  simp only
  congr 1
  refine key _ ⟨u, v, newKey ⟨nodes, edges⟩ u v, c, n⟩ edges ?_
  intro x hx hc
  simp only [Edge.ref, EdgeRef.mk.injEq] at hc
  exact newKey_fresh ⟨nodes, edges⟩ u v x hx hc.1 hc.2.1 hc.2.2

/-- **C93.** A component added in parallel can be taken out again at either of its ends, if it is not protected.  This
gives back exactly the design before if the two nodes were connected by a path, and only then: otherwise the removal
merges the two nodes, and the second one is gone. -/
theorem C93_parallel_undo (lib : Library) (d : Draw) {g : Graph} (hw : g.WF) {o} (ho : g.IsTopo o) {u v : NodeId}
    (huv : Loc.pair u v ∈ locs lib g o .addParallel) (hp : d.ec.prot = false) :
    ∃ g' e, applyOp lib g .addParallel (.pair u v) d = .ok g' ∧ e ∈ g'.edges ∧ e ∉ g.edges ∧
      ∀ i : Iface, i.edge = e.ref → (i.node = u ∨ i.node = v) →
        (∀ o', Loc.iface i ∈ locs lib g' o' .remove) ∧
        ∃ g'', (∀ d', applyOp lib g' .remove (.iface i) d' = .ok g'') ∧
          (g'' = g ↔ g.Reach u v) ∧ (¬ g.Reach u v → v ∉ g''.ids ∧ g''.nodes.length + 1 = g.nodes.length) := by
  have ha := ho.acyclic
  have huv' : (u, v) ∈ parallelLocs g o := by
    obtain ⟨p, hp, hp2⟩ := List.mem_map.1 huv
    injection hp2 with h1 h2
    have : p = (u, v) := Prod.ext h1 h2
    rwa [this] at hp
  obtain ⟨mu, mv, pu, pv, hlt⟩ := parallelLocs_spec ho huv'
  obtain ⟨nu, nu1, nu2, nu3, nu4, _⟩ := parallelOk_iff.1 pu
  obtain ⟨nv, nv1, nv2, nv3, nv4, _⟩ := parallelOk_iff.1 pv
  have wf' : (g.addEdge u v d.ec d.ec.cls).WF := hw.addEdge mu mv _ _
  have ac' : (g.addEdge u v d.ec d.ec.cls).Acyclic := ha.addEdge (not_reach_of_idx ho hlt)
  have hne : u ≠ v := by rintro rfl; omega
  obtain ⟨e, he⟩ : ∃ e : Edge, e = ⟨u, v, g.newKey u v, d.ec, d.ec.cls⟩ := ⟨_, rfl⟩
  have hmem : e ∈ (g.addEdge u v d.ec d.ec.cls).edges := mem_addEdge.2 (Or.inl he)
  have hnot : e ∉ g.edges := by
    intro hc
    exact newKey_fresh g u v e hc (by rw [he]) (by rw [he]) (by rw [he])
  have hrem : (g.addEdge u v d.ec d.ec.cls).removeEdge e.ref = g := by
    rw [he]; exact removeEdge_addEdge u v d.ec d.ec.cls
  refine ⟨_, e, rfl, hmem, hnot, ?_⟩
  intro i hi hn
  have hoff : i ∈ removeLocs (g.addEdge u v d.ec d.ec.cls) := by
    refine mem_removeLocs wf' hmem hi (by rw [he]; exact hn) ?_ ?_ (by rw [he]; exact hp) ?_
    · obtain ⟨x, hx, hx2⟩ := inDeg_ne_zero.1 nu2
      exact inDeg_ne_zero.2 ⟨x, mem_addEdge.2 (Or.inr hx), by rw [he]; exact hx2⟩
    · obtain ⟨x, hx, hx2⟩ := outDeg_ne_zero.1 nv3
      exact outDeg_ne_zero.2 ⟨x, mem_addEdge.2 (Or.inr hx), by rw [he]; exact hx2⟩
    · intro n hn' hid
      rw [he] at hid
      rcases hid with hid | hid
      · have := (node?_eq_some hw).2 ⟨hn', hid⟩
        rw [nu1] at this; injection this with this; rw [← this]; exact nu4
      · have := (node?_eq_some hw).2 ⟨hn', hid⟩
        rw [nv1] at this; injection this with this; rw [← this]; exact nv4
  refine ⟨fun o' => List.mem_map.2 ⟨i, hoff, rfl⟩, ?_⟩
  obtain ⟨keep, hk, hkid, hres⟩ := removeComp_shape wf' hmem hi (by rw [he]; exact hn)
  rw [hrem] at hres
  have hu : e.src = u := by rw [he]
  have hv : e.dst = v := by rw [he]
  rw [hu, hv] at hres
  refine ⟨_, fun d' => hres, ?_⟩
  by_cases hr : g.Reach u v
  · rw [if_pos (hasPath_iff.2 hr)]
    exact ⟨⟨fun _ => hr, fun _ => rfl⟩, fun hc => absurd hr hc⟩
  · rw [if_neg (fun hc => hr (hasPath_iff.1 hc))]
    have hids : ∀ c n, v ∉ ((g.contract u v).setNode u (fun x => { x with comp := c, name := n })).ids := by
      intro c n
      rw [setNode_ids]
      · rw [contract_ids]; simp
      · intro _; rfl
    refine ⟨⟨fun hc => ?_, fun hc => absurd hc hr⟩, fun _ => ⟨hids _ _, ?_⟩⟩
    · have h1 := hids keep.comp keep.name
      rw [hc] at h1
      exact absurd mv h1
    · simp only [setNode, List.length_map, contract_nodes]
      exact filter_one_length hw mv

/-- **C93.** A swap can be swapped back, if the new component is not protected and the class of the old one belongs to
the library: the location is still offered, a component of the old class can be drawn there, and putting the old
component back gives exactly the design before.  (The code draws a new object of the old class; the design is then
the one before but for the identity of that object.) -/
theorem C93_swap_undo {lib : Library} {g g' : Graph} (hw : g.WF) (ha : g.Acyclic) {l : Loc} {d d' : Draw}
    (h : LegalStep lib g ⟨.swap, l, d⟩ g') (hp : d.ec.prot = false)
    (hold : (∃ n ∈ g.nodes, l = .node n.id ∧ n.comp = d'.ec ∧ n.comp.cls ∈ lib.node) ∨
      (∃ e ∈ g.edges, l = .edge e.ref ∧ e.comp = d'.ec ∧ e.comp.cls ∈ edgeCategory lib g e.ref)) :
    LegalStep lib g' ⟨.swap, l, d'⟩ g := by
  have hw' := step_wf hw ha h
  have ha' := step_acyclic hw ha h
  obtain ⟨o, ho⟩ := some_topo hw' ha'
  cases legal_kind h with
  | series i hop => cases hop
  | parallel u v o hop => cases hop
  | remove i hop => cases hop
  | swapNode v _ hloc hi hc hg =>
    simp only at hloc hi hc hg
    subst hloc
    rcases hold with ⟨n, hn, hl, hcomp, hcls⟩ | ⟨e, _, hl, _⟩
    swap
    · cases hl
    injection hl with hv
    subst hv
    have hold? : g.node? n.id = some n := (node?_eq_some hw).2 ⟨hn, rfl⟩
    have hnew : (⟨n.id, d.ec, n.name⟩ : Node) ∈ g'.nodes := by
      rw [hg]
      exact List.mem_map.2 ⟨n, hn, by simp⟩
    have hnew? : g'.node? n.id = some ⟨n.id, d.ec, n.name⟩ := (node?_eq_some hw').2 ⟨hnew, rfl⟩
    have hcc : d.ec.cls ∈ lib.node ∧ d.ec.cls ≠ n.comp.cls := by
      simpa [swapSet, hold?] using hc
    have hset : d'.ec.cls ∈ swapSet lib g' (.node n.id) := by
      simp only [swapSet, hnew?, List.mem_filter]
      exact ⟨hcomp ▸ hcls, by simpa [← hcomp] using Ne.symm hcc.2⟩
    have hposs : (.node n.id) ∈ swapLocs lib g' := by
      rcases mem_swapLocs hi with ⟨n1, hn1, hl1, hp1, hin, hout, hlen⟩ | ⟨e1, _, hl1, _⟩
      swap
      · cases hl1
      injection hl1 with hid
      refine List.mem_append.2 (Or.inl (List.mem_map.2 ⟨_, List.mem_filter.2 ⟨hnew, ?_⟩, rfl⟩))
      have e1 : g'.inDeg n.id = g.inDeg n.id := by rw [hg]; rfl
      have e2 : g'.outDeg n.id = g.outDeg n.id := by rw [hg]; rfl
      rw [← hid] at hin hout
      simp [e1, e2, hin, hout, hp, swapPossible, hlen]
    refine ⟨⟨o, ho, hposs⟩, hset, ?_⟩
    have hne : swapSet lib g' (.node n.id) ≠ [] := List.ne_nil_of_mem hset
    simp only [applyOp, swapComp, hnew?]
    rw [if_neg hne, hg]
    congr 1
    obtain ⟨nodes, edges⟩ := g
    simp only [setNode, List.map_map]
    congr 1
    refine (List.map_congr_left (g := id) ?_).trans (List.map_id _)
    intro a ha1
    simp only [Function.comp, id]
    by_cases hc1 : a.id = n.id
    · have : a = n := List.inj_on_of_nodup_map hw.ids_nodup ha1 hn hc1
      subst this
      simp [← hcomp]
    · simp [hc1]
  | swapEdge v _ hloc hi hc hg =>
    simp only at hloc hi hc hg
    subst hloc
    rcases hold with ⟨n, _, hl, _⟩ | ⟨e, hn, hl, hcomp, hcls⟩
    · cases hl
    injection hl with hv
    subst hv
    have hcat : edgeCategory lib g' e.ref = edgeCategory lib g e.ref := by rw [hg]; rfl
    have hold? : g.edge? e.ref = some e := (edge?_eq_some hw).2 ⟨hn, rfl⟩
    have hnew : (⟨e.src, e.dst, e.key, d.ec, e.name⟩ : Edge) ∈ g'.edges := by
      rw [hg]
      exact List.mem_map.2 ⟨e, hn, by simp⟩
    have hnew? : g'.edge? e.ref = some ⟨e.src, e.dst, e.key, d.ec, e.name⟩ := (edge?_eq_some hw').2 ⟨hnew, rfl⟩
    have hcc : d.ec.cls ∈ edgeCategory lib g e.ref ∧ d.ec.cls ≠ e.comp.cls := by
      simpa [swapSet, hold?] using hc
    have hset : d'.ec.cls ∈ swapSet lib g' (.edge e.ref) := by
      simp only [swapSet, hnew?, List.mem_filter, hcat]
      exact ⟨hcomp ▸ hcls, by simpa [← hcomp] using Ne.symm hcc.2⟩
    have hposs : (.edge e.ref) ∈ swapLocs lib g' := by
      rcases mem_swapLocs hi with ⟨e1, _, hl1, _⟩ | ⟨n1, hn1, hl1, hp1, hlen⟩
      · cases hl1
      injection hl1 with hid
      refine List.mem_append.2 (Or.inr (List.mem_map.2 ⟨_, List.mem_filter.2 ⟨hnew, ?_⟩, rfl⟩))
      rw [← hid] at hlen
      have hcat' : edgeCategory lib g' (⟨e.src, e.dst, e.key, d.ec, e.name⟩ : Edge).ref = edgeCategory lib g e.ref := hcat
      simp only [hp, swapPossible, hcat']
      simpa using hlen
    refine ⟨⟨o, ho, hposs⟩, hset, ?_⟩
    have hne : swapSet lib g' (.edge e.ref) ≠ [] := List.ne_nil_of_mem hset
    simp only [applyOp, swapComp, hnew?]
    rw [if_neg hne, hg]
    congr 1
    obtain ⟨nodes, edges⟩ := g
    simp only [setEdge, List.map_map]
    congr 1
    refine (List.map_congr_left (g := id) ?_).trans (List.map_id _)
    intro a ha1
    simp only [Function.comp, id]
    by_cases hc1 : a.ref = e.ref
    · have : a = e := List.inj_on_of_nodup_map hw.refs_nodup ha1 hn hc1
      subst this
      simp [Edge.ref, ← hcomp]
    · simp [hc1]

theorem mem_perm_without {g : Graph} (hw : g.WF) {e : Edge} {rest : List Edge} (h : g.edges.Perm (e :: rest)) :
    (g.without e).edges.Perm rest := by
  have he : e ∈ g.edges := h.mem_iff.2 (by simp)
  have h1 := removeEdge_perm hw he
  rw [without_eq hw he]
  exact (h1.symm.trans h).cons_inv

theorem nodes_nodup {g : Graph} (hw : g.WF) : g.nodes.Nodup := List.Nodup.of_map _ hw.ids_nodup

theorem edges_nodup {g : Graph} (hw : g.WF) : g.edges.Nodup := List.Nodup.of_map _ hw.refs_nodup

/-- **C93.** A component inserted in series can be taken out again, at the interface node it was inserted at, if neither
it, the new connector nor that node is protected.  The design before comes back, up to keys and order, with all labels as
they were, except that the node the component was inserted *before* (`i.node` the target of the edge) now carries the
label of the inserted connector. -/
theorem C93_series_undo {lib : Library} {g g' : Graph} (hw : g.WF) (ha : g.Acyclic) {i : Iface} {d : Draw}
    (h : LegalStep lib g ⟨.addSeries, .iface i, d⟩ g') (hec : d.ec.prot = false) (hnc : d.nc.prot = false)
    (hnp : ∀ n ∈ g.nodes, n.id = i.node → n.comp.prot = false) (d' : Draw) :
    ∃ e ∈ g'.edges, e.comp = d.ec ∧
      ((e.src = i.node ∧ e.dst = d.nid) ∨ (e.src = d.nid ∧ e.dst = i.node)) ∧
      ∃ g'', LegalStep lib g' ⟨.remove, .iface ⟨i.node, e.ref⟩, d'⟩ g'' ∧
        ∃ f, Relabelled f g g'' ∧ (∀ x ∈ g.ids, x ≠ i.node → f x = x) ∧
          (i.node = i.edge.src → f i.node = i.node) ∧ (i.node = i.edge.dst → f i.node = d.nid) := by
  have hw' := step_wf hw ha h
  have ha' := step_acyclic hw ha h
  obtain ⟨⟨o, ho, hloc⟩, ⟨hfresh, hcl1, hcl2⟩, happ⟩ := h
  have hi : i ∈ seriesLocs g := by
    obtain ⟨j, hj, hj2⟩ := List.mem_map.1 hloc
    injection hj2 with hj2; rwa [← hj2]
  obtain ⟨e0, rest, g1, hr0, hperm0, happ1, hnodes, hcase⟩ := C04_add_series_effect lib hw hi hfresh d.ec d.nc
  have : g1 = g' := by
    have h1 : addSeries g i d.nid d.ec d.nc = .ok g1 := happ1
    have h2 : addSeries g i d.nid d.ec d.nc = .ok g' := happ
    rw [h2] at h1; injection h1 with h1; exact h1.symm
  subst this
  have he0 : e0 ∈ g.edges := hperm0.mem_iff.2 (by simp)
  have hrest : ∀ x ∈ rest, x ∈ g.edges := fun x hx => hperm0.mem_iff.2 (by simp [hx])
  have hsrc0 := hw.src_mem e0 he0
  have hdst0 := hw.dst_mem e0 he0
  have hloop := ha.no_loop he0
  have hes : i.edge.src = e0.src := by rw [hr0]; rfl
  have hed : i.edge.dst = e0.dst := by rw [hr0]; rfl
  have hint : (i.node = e0.src ∧ g.inDeg e0.src ≠ 0) ∨ (i.node = e0.dst ∧ g.outDeg e0.dst ≠ 0) := by
    obtain ⟨e2, he2, hr2, hn2⟩ := mem_interfaces.1 hi
    have : e2 = e0 := List.inj_on_of_nodup_map hw.refs_nodup he2 he0 (hr2.symm.trans hr0)
    rwa [this] at hn2
  have hnode_ids : i.node ∈ g.ids := by
    rcases hint with h | h <;> rw [h.1] <;> assumption
  have hfi : i.node ≠ d.nid := fun hc => hfresh (hc ▸ hnode_ids)
  have mem_nodes : ∀ n : Node, n ∈ g1.nodes ↔ n ∈ g.nodes ∨ n = ⟨d.nid, d.nc, d.nc.cls⟩ := by
    intro n; rw [hnodes]; simp
  have hprot : ∀ n ∈ g1.nodes, n.id = i.node ∨ n.id = d.nid → n.comp.prot = false := by
    intro n hn hid
    rcases (mem_nodes n).1 hn with h1 | h1
    · rcases hid with hid | hid
      · exact hnp n h1 hid
      · exact absurd (hid ▸ List.mem_map_of_mem (f := Node.id) h1) hfresh
    · rw [h1]; exact hnc
  rcases hcase with ⟨hnode, hperm⟩ | ⟨hnode, hperm⟩
  · -- inserted behind the interface node
    obtain ⟨e, hedef⟩ : ∃ e : Edge, e = ⟨i.node, d.nid, 0, d.ec, d.ec.cls⟩ := ⟨_, rfl⟩
    have hmem : e ∈ g1.edges := hperm.mem_iff.2 (by rw [hedef]; simp)
    have hlegal : (⟨i.node, e.ref⟩ : Iface) ∈ removeLocs g1 := by
      refine mem_removeLocs hw' hmem rfl (Or.inl (by rw [hedef])) ?_ ?_ (by rw [hedef]; exact hec) ?_
      · rcases hint with ⟨_, hin⟩ | ⟨hc, _⟩
        · obtain ⟨x, hx, hx2⟩ := inDeg_ne_zero.1 hin
          have hx3 : x ∈ rest := by
            rcases List.mem_cons.1 (hperm0.mem_iff.1 hx) with rfl | h1
            · exact absurd hx2.symm hloop
            · exact h1
          exact inDeg_ne_zero.2 ⟨x, hperm.mem_iff.2 (by simp [hx3]), by rw [hedef]; exact hx2.trans hnode.symm⟩
        · exact absurd (hnode.symm.trans hc) hloop
      · exact outDeg_ne_zero.2 ⟨⟨d.nid, e0.dst, 0, e0.comp, e0.name⟩, hperm.mem_iff.2 (by simp), by rw [hedef]⟩
      · intro n hn hid
        rw [hedef] at hid
        exact hprot n hn hid
    obtain ⟨e1, he1, hr1, g2, hg2, _, hmerge⟩ := C06_remove_effect lib d' hw' ha' hlegal
    have : e1 = e := List.inj_on_of_nodup_map hw'.refs_nodup he1 hmem hr1.symm
    subst this
    have hL : LegalStep lib g1 ⟨.remove, .iface ⟨i.node, e1.ref⟩, d'⟩ g2 := remove_legal lib d' hw' ha' hlegal hg2
    have hw2 := step_wf hw' ha' hL
    have hsrc : e1.src = i.node := by rw [hedef]
    have hdst : e1.dst = d.nid := by rw [hedef]
    have hnb : ¬ g1.Bypassed e1 := by
      intro hb
      unfold Bypassed Reach at hb
      rw [hsrc, hdst] at hb
      rcases ReflTransGen.cases_tail hb with h1 | ⟨y, _, x, hx, hx1, hx2⟩
      · exact hfi h1.symm
      · obtain ⟨hx3, hx4⟩ := List.mem_filter.1 hx
        rcases List.mem_cons.1 (hperm.mem_iff.1 hx3) with h1 | h1
        · rw [h1, ← hedef] at hx4; simp at hx4
        · rcases List.mem_cons.1 h1 with h1 | h1
          · rw [h1] at hx2; exact hfresh (hx2 ▸ hdst0)
          · exact hfresh (hx2 ▸ hw.dst_mem x (hrest x h1))
    obtain ⟨m1, ⟨keep, hk, hkid, m2⟩, m3, _⟩ := hmerge hnb
    have hkg : keep ∈ g.nodes := by
      rcases (mem_nodes keep).1 hk with h1 | h1
      · exact h1
      · rw [h1] at hkid; exact absurd hkid.symm hfi
    have hkid' : keep.id = i.node := hkid
    refine ⟨e1, hmem, by rw [hedef], Or.inl ⟨hsrc, hdst⟩, g2, hL, id, ⟨fun a _ b _ h => h, ?_, ?_⟩, fun _ _ _ => rfl,
      fun _ => rfl, fun hc => absurd (hnode.symm.trans (hc.trans hed)) hloop⟩
    · simp only [id]
      have hmid : (g.nodes.map fun n => (⟨n.id, n.comp, n.name⟩ : Node)) = g.nodes :=
        (List.map_congr_left (g := id) (fun a _ => rfl)).trans (List.map_id _)
      rw [hmid]
      refine (List.perm_ext_iff_of_nodup (nodes_nodup hw2) (nodes_nodup hw)).2 ?_
      intro n
      by_cases hid : n.id = i.node
      · rw [m2 n (hid.trans hsrc.symm), hsrc]
        constructor
        · intro hc
          have : n = keep := by rw [hc]; obtain ⟨a, b, c⟩ := keep; simp only at hkid'; subst hkid'; rfl
          rw [this]; exact hkg
        · intro hn
          have : n = keep := List.inj_on_of_nodup_map hw.ids_nodup hn hkg (hid.trans hkid'.symm)
          rw [this]
          obtain ⟨a, b, c⟩ := keep; simp only at hkid'; subst hkid'; rfl
      · rw [m1 n (fun hc => hid (hc.trans hsrc)), hdst, mem_nodes]
        constructor
        · rintro ⟨h1 | h1, h2⟩
          · exact h1
          · rw [h1] at h2; exact absurd rfl h2
        · intro hn
          exact ⟨Or.inl hn, fun hc => hfresh (hc ▸ List.mem_map_of_mem (f := Node.id) hn)⟩
    · have hp1 : (g1.without e1).edges.Perm (⟨d.nid, e0.dst, 0, e0.comp, e0.name⟩ :: rest) :=
        mem_perm_without hw' (by rw [hedef]; exact hperm)
      refine (m3.trans (hp1.map _)).trans ?_
      refine List.Perm.trans ?_ (hperm0.map _).symm
      simp only [List.map_cons, hsrc, hdst, id]
      have hd0 : e0.dst ≠ d.nid := fun hc => hfresh (hc ▸ hdst0)
      rw [if_pos trivial, if_neg hd0, hnode]
      refine List.Perm.cons _ (List.Perm.of_eq ?_)
      apply List.map_congr_left
      intro x hx
      have h1 : x.src ≠ d.nid := fun hc => hfresh (hc ▸ hw.src_mem x (hrest x hx))
      have h2 : x.dst ≠ d.nid := fun hc => hfresh (hc ▸ hw.dst_mem x (hrest x hx))
      rw [if_neg h1, if_neg h2]
  · -- inserted before the interface node
    obtain ⟨e, hedef⟩ : ∃ e : Edge, e = ⟨d.nid, i.node, 0, d.ec, d.ec.cls⟩ := ⟨_, rfl⟩
    have hperm' : g1.edges.Perm (e :: ⟨e0.src, d.nid, 0, e0.comp, e0.name⟩ :: rest) := by
      rw [hedef]; exact hperm.trans (List.Perm.swap _ _ _)
    have hmem : e ∈ g1.edges := hperm'.mem_iff.2 (by simp)
    have hlegal : (⟨i.node, e.ref⟩ : Iface) ∈ removeLocs g1 := by
      refine mem_removeLocs hw' hmem rfl (Or.inr (by rw [hedef])) ?_ ?_ (by rw [hedef]; exact hec) ?_
      · exact inDeg_ne_zero.2 ⟨⟨e0.src, d.nid, 0, e0.comp, e0.name⟩, hperm'.mem_iff.2 (by simp), by rw [hedef]⟩
      · rcases hint with ⟨hc, _⟩ | ⟨_, hout⟩
        · exact absurd (hc.symm.trans hnode) hloop
        · obtain ⟨x, hx, hx2⟩ := outDeg_ne_zero.1 hout
          have hx3 : x ∈ rest := by
            rcases List.mem_cons.1 (hperm0.mem_iff.1 hx) with rfl | h1
            · exact absurd hx2 hloop
            · exact h1
          exact outDeg_ne_zero.2 ⟨x, hperm'.mem_iff.2 (by simp [hx3]), by rw [hedef]; exact hx2.trans hnode.symm⟩
      · intro n hn hid
        rw [hedef] at hid
        exact hprot n hn hid.symm
    obtain ⟨e1, he1, hr1, g2, hg2, _, hmerge⟩ := C06_remove_effect lib d' hw' ha' hlegal
    have : e1 = e := List.inj_on_of_nodup_map hw'.refs_nodup he1 hmem hr1.symm
    subst this
    have hL : LegalStep lib g1 ⟨.remove, .iface ⟨i.node, e1.ref⟩, d'⟩ g2 := remove_legal lib d' hw' ha' hlegal hg2
    have hw2 := step_wf hw' ha' hL
    have hsrc : e1.src = d.nid := by rw [hedef]
    have hdst : e1.dst = i.node := by rw [hedef]
    have hp1 : (g1.without e1).edges.Perm (⟨e0.src, d.nid, 0, e0.comp, e0.name⟩ :: rest) :=
      mem_perm_without hw' hperm'
    have hnb : ¬ g1.Bypassed e1 := by
      intro hb
      unfold Bypassed Reach at hb
      rw [hsrc, hdst] at hb
      rcases ReflTransGen.cases_head hb with h1 | ⟨y, ⟨x, hx, hx1, hx2⟩, _⟩
      · exact hfi h1.symm
      · rcases List.mem_cons.1 (hp1.mem_iff.1 hx) with h1 | h1
        · rw [h1] at hx1; exact hfresh (hx1 ▸ hsrc0)
        · exact hfresh (hx1 ▸ hw.src_mem x (hrest x h1))
    obtain ⟨m1, ⟨keep, hk, hkid, m2⟩, m3, _⟩ := hmerge hnb
    have hkid' : keep.id = i.node := hkid
    have hkg : keep ∈ g.nodes := by
      rcases (mem_nodes keep).1 hk with h1 | h1
      · exact h1
      · rw [h1] at hkid'; exact absurd hkid'.symm hfi
    rw [hsrc, hdst] at m3
    rw [hsrc] at m1 m2
    rw [hdst] at m1
    obtain ⟨f, hf⟩ : ∃ f : NodeId → NodeId, f = fun x => if x = i.node then d.nid else x := ⟨_, rfl⟩
    rw [← hf] at m3
    have finj : ∀ a ∈ g.ids, ∀ b ∈ g.ids, f a = f b → a = b := by
      intro a ha1 b hb1 hab
      rw [hf] at hab
      dsimp only at hab
      split at hab <;> split at hab
      · simp_all
      · exact absurd (hab ▸ hb1) hfresh
      · exact absurd (hab ▸ ha1) hfresh
      · exact hab
    have fi : f i.node = d.nid := by rw [hf]; simp
    have fo : ∀ x, x ≠ i.node → f x = x := by intro x hx; rw [hf]; simp [hx]
    refine ⟨e1, hmem, by rw [hedef], Or.inr ⟨hsrc, hdst⟩, g2, hL, f, ⟨finj, ?_, ?_⟩, fun x _ hx => fo x hx,
      fun hc => absurd ((hes.symm.trans hc.symm).trans hnode) hloop, fun _ => fi⟩
    · have hnd : (g.nodes.map fun n => (⟨f n.id, n.comp, n.name⟩ : Node)).Nodup := by
        refine (nodes_nodup hw).map_on ?_
        intro a ha1 b hb1 hab
        have := congrArg Node.id hab
        exact List.inj_on_of_nodup_map hw.ids_nodup ha1 hb1
          (finj _ (List.mem_map_of_mem (f := Node.id) ha1) _ (List.mem_map_of_mem (f := Node.id) hb1) this)
      refine (List.perm_ext_iff_of_nodup (nodes_nodup hw2) hnd).2 ?_
      intro n
      rw [List.mem_map]
      by_cases hid : n.id = d.nid
      · rw [m2 n hid]
        constructor
        · rintro rfl
          exact ⟨keep, hkg, by rw [hkid', fi]⟩
        · rintro ⟨k, hk1, rfl⟩
          have : k.id = i.node := by
            by_contra hc
            rw [fo k.id hc] at hid
            exact hfresh (hid ▸ List.mem_map_of_mem (f := Node.id) hk1)
          have hkk : k = keep := List.inj_on_of_nodup_map hw.ids_nodup hk1 hkg (this.trans hkid'.symm)
          rw [hkk, hkid', fi]
      · rw [m1 n hid, mem_nodes]
        constructor
        · rintro ⟨h1 | h1, h2⟩
          · exact ⟨n, h1, by rw [fo n.id h2]⟩
          · rw [h1] at hid; exact absurd rfl hid
        · rintro ⟨k, hk1, rfl⟩
          have : k.id ≠ i.node := by
            intro hc; apply hid; rw [hc]; exact fi
          rw [fo k.id this]
          exact ⟨Or.inl hk1, this⟩
    · refine (m3.trans (hp1.map _)).trans ?_
      refine List.Perm.trans ?_ (hperm0.map _).symm
      simp only [List.map_cons]
      have h1 : f d.nid = d.nid := fo _ (Ne.symm hfi)
      rw [h1, ← hnode, fi]

theorem history_glue {lib : Library} {g0 g1 g2 : Graph} {rs rs' : List (Graph × StepRec)} (h : History lib g0 rs g1)
    (h' : History lib g1 rs' g2) : History lib g0 (rs' ++ rs) g2 := by
  induction h' with
  | nil => exact h
  | step _ hs ih => exact .step ih hs

theorem not_source_in {g : Graph} {v : NodeId} (hv : v ∈ g.ids) (h : ¬ g.IsSource v) : ∃ e ∈ g.edges, e.dst = v := by
  by_contra hc
  exact h ⟨hv, fun e he hd => hc ⟨e, he, hd⟩⟩

theorem not_sink_out {g : Graph} {v : NodeId} (hv : v ∈ g.ids) (h : ¬ g.IsSink v) : ∃ e ∈ g.edges, e.src = v := by
  by_contra hc
  exact h ⟨hv, fun e he hd => hc ⟨e, he, hd⟩⟩

theorem stuck_bare {g : Graph} (hw : g.WF) (ha : g.Acyclic) {ns nt cl cd} (hE : TwoEnded g ns nt cl cd)
    (hF : InnerFree g ns nt) : removeLocs g = [] ↔ ∃ m, Bare g ns m nt cl cd := by
  obtain ⟨a, ma, b, mb, as, bt, acl, bcd, auniq, buniq⟩ := hE.edges_of
  constructor
  · intro hnil
    have touch : ∀ x ∈ g.edges, x = a ∨ x = b := by
      intro x hx
      by_contra hc
      rw [not_or] at hc
      have hs : x.src ≠ ns.id := fun h => hc.1 (auniq x hx h)
      have ht : x.dst ≠ nt.id := fun h => hc.2 (buniq x hx h)
      have h1 := not_source_in (hw.src_mem x hx) (fun h => hs ((hE.src _).1 h))
      have h2 := not_sink_out (hw.dst_mem x hx) (fun h => ht ((hE.snk _).1 h))
      have : (⟨x.src, x.ref⟩ : Iface) ∈ removeLocs g := by
        refine mem_removeLocs hw hx rfl (Or.inl rfl) (inDeg_ne_zero.2 h1) (outDeg_ne_zero.2 h2) (hF.edge x hx hs ht) ?_
        rintro n hn (hid | hid)
        · exact hF.node n hn (hid ▸ hs) (hid ▸ ((hE.snk nt.id).2 rfl).2 x hx)
        · exact hF.node n hn (hid ▸ ((hE.src ns.id).2 rfl).2 x hx) (hid ▸ ht)
      rw [hnil] at this; cases this
    have hab : a ≠ b := by rintro rfl; exact hE.apart a ma ⟨as, bt⟩
    have bs : b.src ≠ ns.id := fun h => hE.apart b mb ⟨h, bt⟩
    have mid : a.dst = b.src := by
      obtain ⟨x, hx, hx2⟩ := not_source_in (hw.src_mem b mb) (fun h => bs ((hE.src _).1 h))
      rcases touch x hx with rfl | rfl
      · exact hx2
      · exact absurd hx2.symm (ha.no_loop hx)
    obtain ⟨m, hm⟩ := List.mem_map.1 (hw.dst_mem a ma)
    have ms : m.id ≠ ns.id := by rw [hm.2]; exact ((hE.src ns.id).2 rfl).2 a ma
    have mt : m.id ≠ nt.id := by rw [hm.2, mid]; exact ((hE.snk nt.id).2 rfl).2 b mb
    have st : ns.id ≠ nt.id := by rw [← as]; exact ((hE.snk nt.id).2 rfl).2 a ma
    refine ⟨m, ?_, ?_⟩
    · refine (List.perm_ext_iff_of_nodup (nodes_nodup hw) ?_).2 ?_
      · have h1 : ns ≠ m := by rintro rfl; exact ms rfl
        have h2 : ns ≠ nt := by rintro rfl; exact st rfl
        have h3 : m ≠ nt := by rintro rfl; exact mt rfl
        simp [h1, h2, h3]
      · intro n
        simp only [List.mem_cons, List.not_mem_nil, or_false]
        constructor
        · intro hn
          by_cases h1 : n.id = ns.id
          · exact Or.inl (List.inj_on_of_nodup_map hw.ids_nodup hn hE.src_in h1)
          · obtain ⟨x, hx, hx2⟩ := not_source_in (List.mem_map_of_mem (f := Node.id) hn) (fun h => h1 ((hE.src _).1 h))
            rcases touch x hx with rfl | rfl
            · exact Or.inr (Or.inl (List.inj_on_of_nodup_map hw.ids_nodup hn hm.1 (hx2.symm.trans hm.2.symm)))
            · exact Or.inr (Or.inr (List.inj_on_of_nodup_map hw.ids_nodup hn hE.snk_in (hx2.symm.trans bt)))
        · rintro (rfl | rfl | rfl)
          · exact hE.src_in
          · exact hm.1
          · exact hE.snk_in
    · have : g.edges.Perm [a, b] := by
        refine (List.perm_ext_iff_of_nodup (edges_nodup hw) (by simp [hab])).2 ?_
        intro x
        simp only [List.mem_cons, List.not_mem_nil, or_false]
        constructor
        · exact touch x
        · rintro (rfl | rfl) <;> assumption
      have h2 := this.map Edge.shape
      simp only [List.map_cons, List.map_nil, Edge.shape] at h2
      rw [hm.2, ← acl, ← bcd]
      rw [as, bt, ← mid] at h2
      exact h2
  · rintro ⟨m, hn, he⟩
    rw [List.eq_nil_iff_forall_not_mem]
    intro i hi
    obtain ⟨e, me, _, _, _, _, _, _, _, _, _, _, _, hin, hout⟩ := removeLocs_spec hw hi
    have := he.mem_iff.1 (List.mem_map_of_mem me)
    simp only [List.mem_cons, List.not_mem_nil, or_false, Edge.shape, Prod.mk.injEq] at this
    rcases this with h1 | h1
    · obtain ⟨x, hx, hx2⟩ := inDeg_ne_zero.1 hin
      exact ((hE.src ns.id).2 rfl).2 x hx (hx2.trans h1.1)
    · obtain ⟨x, hx, hx2⟩ := outDeg_ne_zero.1 hout
      exact ((hE.snk nt.id).2 rfl).2 x hx (hx2.trans h1.2.1)

/-- **C93.** Take a design with one laser on one source and one detector on one sink and nothing protected in between,
and remove components in any order whatever.  Each removal takes one component away; the ends stay as they are; a removal
is offered until exactly the bare design is left: source, laser, one connector, detector, sink. -/
theorem C93_take_down {lib g0 ns nt cl cd} (hw : g0.WF) (ha : g0.Acyclic) (hE : TwoEnded g0 ns nt cl cd)
    (hF : InnerFree g0 ns nt) {rs g} (h : History lib g0 rs g) (hr : OnlyRemoves rs) :
    rs.length + g.edges.length = g0.edges.length ∧ 2 ≤ g.edges.length ∧ TwoEnded g ns nt cl cd ∧
      ((∀ o, locs lib g o .remove = []) ↔ ∃ m, Bare g ns m nt cl cd) := by
  obtain ⟨w, a, E, F, len⟩ := removes_inv hw ha hE hF h hr
  refine ⟨len, ?_, E, ?_⟩
  · obtain ⟨a, ma, b, mb, as, bt, _, _, _, _⟩ := E.edges_of
    have hab : a ≠ b := by rintro rfl; exact E.apart a ma ⟨as, bt⟩
    have : [a, b] ⊆ g.edges := by simp [ma, mb]
    exact (List.subperm_of_subset (by simp [hab]) this).length_le
  · rw [← stuck_bare w a E F]
    constructor
    · intro h; exact List.map_eq_nil_iff.1 (h [])
    · intro h o
      unfold locs
      rw [h]; rfl

theorem remove_ids {g : Graph} (hw : g.WF) (ha : g.Acyclic) {i : Iface} (hi : i ∈ removeLocs g) {g'}
    (h : removeComp g i = .ok g') : ∀ x ∈ g'.ids, x ∈ g.ids := by
  intro x hx
  obtain ⟨n, hn, rfl⟩ := List.mem_map.1 hx
  obtain ⟨e, he, _, _, _, f, _, _, hn1, _⟩ := remove_shapes hw ha hi h
  rcases hn1 n hn with h1 | ⟨h1, _⟩
  · exact List.mem_map_of_mem (f := Node.id) h1
  · rw [h1]; exact hw.src_mem e he

theorem take_down_aux (lib : Library) {ns nt cl cd} : ∀ (k : Nat) (g : Graph), g.edges.length = k → g.WF → g.Acyclic →
    TwoEnded g ns nt cl cd → InnerFree g ns nt → ∀ n ∈ g.nodes, n.id ≠ ns.id → n.id ≠ nt.id →
    ∃ rs g' m, History lib g rs g' ∧ OnlyRemoves rs ∧ Bare g' ns m nt cl cd ∧ m.comp = n.comp ∧ m.name = n.name ∧
      ∀ x ∈ g'.ids, x ∈ g.ids := by
  intro k
  induction k with
  | zero =>
    intro g hl hw ha hE hF
    obtain ⟨a, ma, _⟩ := hE.edges_of
    rw [List.length_eq_zero_iff.1 hl] at ma; cases ma
  | succ k ih =>
    intro g hl hw ha hE hF n hn hs ht
    by_cases hnil : removeLocs g = []
    · obtain ⟨m, hm⟩ := (stuck_bare hw ha hE hF).1 hnil
      have h1 := hm.1.mem_iff.1 hn
      simp only [List.mem_cons, List.not_mem_nil, or_false] at h1
      rcases h1 with rfl | rfl | rfl
      · exact absurd rfl hs
      · exact ⟨[], g, n, .nil, (fun p hp => absurd hp (by simp)), hm, rfl, rfl, fun _ h => h⟩
      · exact absurd rfl ht
    · obtain ⟨i0, hi0⟩ := List.exists_mem_of_ne_nil _ hnil
      obtain ⟨e, he, nu, mu, nv, mv, hr, iu, iv, _, pe, pu, pv, hin, hout⟩ := removeLocs_spec hw hi0
      obtain ⟨i, hidef⟩ : ∃ i : Iface, i = ⟨if n.id = e.dst then e.dst else e.src, e.ref⟩ := ⟨_, rfl⟩
      have hnode : i.node = e.src ∨ i.node = e.dst := by
        rw [hidef]; dsimp only; split
        · exact Or.inr rfl
        · exact Or.inl rfl
      have hi : i ∈ removeLocs g := by
        refine mem_removeLocs hw he (by rw [hidef]) hnode hin hout pe ?_
        rintro x hx (hid | hid)
        · rw [List.inj_on_of_nodup_map hw.ids_nodup hx mu (hid.trans iu.symm)]; exact pu
        · rw [List.inj_on_of_nodup_map hw.ids_nodup hx mv (hid.trans iv.symm)]; exact pv
      obtain ⟨_, _, _, hres⟩ := removeComp_shape hw he (by rw [hidef]) hnode
      obtain ⟨g1, hg1⟩ : ∃ g1, removeComp g i = .ok g1 := ⟨_, hres⟩
      have d : Draw := ⟨0, ⟨0, 0, false, .multiPath, 0⟩, ⟨0, 0, false, .multiPath, 0⟩⟩
      have hL := remove_legal lib d hw ha hi hg1
      have w1 := step_wf hw ha hL
      have a1 := step_acyclic hw ha hL
      obtain ⟨E1, F1⟩ := remove_ends hw ha hE hF hi hg1
      have len1 := ((step_size hw ha hL).2.2.1 rfl).1
      obtain ⟨n', hn', hc', hnm', hs', ht'⟩ : ∃ n' ∈ g1.nodes, n'.comp = n.comp ∧ n'.name = n.name ∧ n'.id ≠ ns.id ∧
          n'.id ≠ nt.id := by
        obtain ⟨e2, he2, hr2, hin2, _, f, _, _, _, k2, k3⟩ := remove_shapes hw ha hi hg1
        have : e2 = e := List.inj_on_of_nodup_map hw.refs_nodup he2 he (hr2.symm.trans (by rw [hidef]))
        subst this
        by_cases hni : n.id = i.node
        · obtain ⟨n', h1, h2, h3, h4⟩ := k2 n hn hni
          refine ⟨n', h1, h2, h3, ?_⟩
          rcases h4 with h4 | h4
          · rw [h4]; exact ⟨hs, ht⟩
          · rw [h4]
            refine ⟨?_, ((hE.snk nt.id).2 rfl).2 e2 he⟩
            obtain ⟨x, hx, hx2⟩ := inDeg_ne_zero.1 hin2
            rw [← hx2]; exact ((hE.src ns.id).2 rfl).2 x hx
        · have h1 : n.id ≠ e2.dst := by
            intro hc; apply hni; rw [hidef]; simp [hc]
          have h2 : n.id ≠ e2.src := by
            intro hc; apply hni; rw [hidef]; dsimp only; rw [if_neg h1]; exact hc
          exact ⟨n, k3 n hn h2 h1, rfl, rfl, hs, ht⟩
      obtain ⟨rs, g', m, hH, hR, hB, hmc, hmn, hids⟩ := ih g1 (by omega) w1 a1 E1 F1 n' hn' hs' ht'
      refine ⟨rs ++ [(g, ⟨.remove, .iface i, d⟩)], g', m, history_glue (.step .nil hL) hH, ?_, hB, hmc.trans hc',
        hmn.trans hnm', fun x hx => remove_ids hw ha hi hg1 x (hids x hx)⟩
      intro p hp
      rcases List.mem_append.1 hp with hp | hp
      · exact hR p hp
      · rw [List.mem_singleton.1 hp]

/-- **C93.** Such a design can be taken down, by removals alone and with one removal for every component but the laser and
the detector, to a bare design around any one of its connectors. -/
theorem C93_take_down_to (lib : Library) {g ns nt cl cd} (hw : g.WF) (ha : g.Acyclic) (hE : TwoEnded g ns nt cl cd)
    (hF : InnerFree g ns nt) {n : Node} (hn : n ∈ g.nodes) (hs : n.id ≠ ns.id) (ht : n.id ≠ nt.id) :
    ∃ rs g' m, History lib g rs g' ∧ OnlyRemoves rs ∧ rs.length + 2 = g.edges.length ∧ Bare g' ns m nt cl cd ∧
      m.comp = n.comp ∧ m.name = n.name := by
  obtain ⟨rs, g', m, hH, hR, hB, hc, hm, _⟩ := take_down_aux lib _ g rfl hw ha hE hF n hn hs ht
  refine ⟨rs, g', m, hH, hR, ?_, hB, hc, hm⟩
  have := (C93_take_down hw ha hE hF hH hR).1
  have h2 := hB.2.length_eq
  simp at h2
  omega

theorem insert_legal (lib : Library) (d : Draw) {g : Graph} (hw : g.WF) (ha : g.Acyclic) {i : Iface} (hi : i ∈ seriesLocs g) {g'}
    (hd : drawOk lib g .addSeries (.iface i) d)
    (h : addSeries g i d.nid d.ec d.nc = .ok g') : LegalStep lib g ⟨.addSeries, .iface i, d⟩ g' := by
  obtain ⟨o, ho⟩ := some_topo hw ha
  exact ⟨⟨o, ho, List.mem_map.2 ⟨i, hi, rfl⟩⟩, hd, h⟩

/-- **C93.** Any chain of library components fits into any edge that does not leave a source: by insertions in series
alone, one for each connector of the chain, the edge is replaced by the chain followed by its own component, and nothing
else changes. -/
theorem C93_build_chain (lib : Library) : ∀ (l : List (Comp × Node)) {g : Graph}, g.WF → g.Acyclic → ∀ {e : Edge},
    e ∈ g.edges → ¬ g.IsSource e.src → ChainFrom lib g l →
    ∃ rs g', History lib g rs g' ∧ OnlyInserts rs ∧ rs.length = l.length ∧
      g'.nodes = g.nodes ++ l.map (·.2) ∧
      (g'.edges.map Edge.shape).Perm
        (chainShapes e.dst (e.comp, e.name) e.src l ++ (g.without e).edges.map Edge.shape)
  | [], g, hw, ha, e, he, _, _ => by
    refine ⟨[], g, .nil, (fun p hp => absurd hp (by simp)), rfl, by simp, ?_⟩
    have := (removeEdge_perm hw he).map Edge.shape
    rw [without_eq hw he]
    exact this
  | (ec, n) :: l, g, hw, ha, e, he, hin, hC => by
    have hin' : g.inDeg e.src ≠ 0 := inDeg_ne_zero.2 (not_source_in (hw.src_mem e he) hin)
    have hi : (⟨e.src, e.ref⟩ : Iface) ∈ seriesLocs g := mem_interfaces.2 ⟨e, he, rfl, Or.inl ⟨rfl, hin'⟩⟩
    have hfr : n.id ∉ g.ids := hC.fresh (ec, n) (by simp)
    obtain ⟨e0, rest, g1, hr, hp0, happ, hnodes, hcase⟩ := C04_add_series_effect lib hw hi hfr ec n.comp
    have : e = e0 := List.inj_on_of_nodup_map hw.refs_nodup he (hp0.mem_iff.2 (by simp)) hr
    subst this
    have hL : LegalStep lib g ⟨.addSeries, .iface ⟨e.src, e.ref⟩, ⟨n.id, ec, n.comp⟩⟩ g1 :=
      insert_legal lib _ hw ha hi ⟨hfr, hC.edge (ec, n) (by simp), (hC.node (ec, n) (by simp)).1⟩ happ
    have w1 := step_wf hw ha hL
    have a1 := step_acyclic hw ha hL
    have hp1 : g1.edges.Perm (⟨n.id, e.dst, 0, e.comp, e.name⟩ :: ⟨e.src, n.id, 0, ec, ec.cls⟩ :: rest) := by
      rcases hcase with ⟨_, h⟩ | ⟨h, _⟩
      · exact h.trans (List.Perm.swap _ _ _)
      · exact absurd h (ha.no_loop he)
    have hnode : (⟨n.id, n.comp, n.comp.cls⟩ : Node) = n := by
      have := (hC.node (ec, n) (by simp)).2
      obtain ⟨a, b, c⟩ := n
      simp only at this; subst this; rfl
    rw [hnode] at hnodes
    have hids : g1.ids = g.ids ++ [n.id] := by
      unfold ids; rw [hnodes]; simp
    have hd := hC.differ
    simp only [List.map_cons, List.nodup_cons] at hd
    have hC1 : ChainFrom lib g1 l := by
      refine ⟨fun p hp => hC.edge p (by simp [hp]), fun p hp => hC.node p (by simp [hp]), ?_, hd.2⟩
      intro p hp
      rw [hids, List.mem_append, List.mem_singleton]
      rintro (h | h)
      · exact hC.fresh p (by simp [hp]) h
      · exact hd.1 (h ▸ List.mem_map_of_mem (f := fun p : Comp × Node => p.2.id) hp)
    have hnsrc : ¬ g1.IsSource n.id := fun h => h.2 ⟨e.src, n.id, 0, ec, ec.cls⟩ (hp1.mem_iff.2 (by simp)) rfl
    obtain ⟨rs, g', hH, hO, hlen, hn', hsh⟩ := C93_build_chain lib l w1 a1
      (e := ⟨n.id, e.dst, 0, e.comp, e.name⟩) (hp1.mem_iff.2 (by simp)) hnsrc hC1
    refine ⟨rs ++ [(g, _)], g', history_glue (.step .nil hL) hH, ?_, by simp [hlen], by rw [hn', hnodes]; simp, ?_⟩
    · intro p hp
      rcases List.mem_append.1 hp with hp | hp
      · exact hO p hp
      · rw [List.mem_singleton.1 hp]
    · have h1 := (mem_perm_without w1 hp1).map Edge.shape
      have h2 := (mem_perm_without hw hp0).map Edge.shape
      refine hsh.trans ((List.Perm.append_left _ h1).trans ?_)
      simp only [chainShapes, List.map_cons, List.cons_append]
      refine List.perm_middle.trans (List.Perm.cons _ (List.Perm.append_left _ h2.symm))

/-- **C93.** Evolution reaches every chain from every such design: keeping any one of its connectors, there is a finite
history that ends in laser, that connector, any chain of library components under new labels, detector. -/
theorem C93_reach_chain (lib : Library) {g ns nt cl cd} (hw : g.WF) (ha : g.Acyclic) (hE : TwoEnded g ns nt cl cd)
    (hF : InnerFree g ns nt) {n : Node} (hn : n ∈ g.nodes) (hs : n.id ≠ ns.id) (ht : n.id ≠ nt.id)
    {l : List (Comp × Node)} (hC : ChainFrom lib g l) :
    ∃ rs g' m, History lib g rs g' ∧ (∀ p ∈ rs, p.2.op = .remove ∨ p.2.op = .addSeries) ∧
      rs.length + 2 = g.edges.length + l.length ∧ m.comp = n.comp ∧ m.name = n.name ∧
      g'.nodes.Perm (ns :: m :: nt :: l.map (·.2)) ∧
      (g'.edges.map Edge.shape).Perm ((ns.id, m.id, cl.1, cl.2) :: chainShapes nt.id cd m.id l) := by
  obtain ⟨rs, g1, m, hH, hR, hB, hc, hm, hids⟩ := take_down_aux lib _ g rfl hw ha hE hF n hn hs ht
  obtain ⟨w, a, E, _, len⟩ := removes_inv hw ha hE hF hH hR
  have h2 := hB.2.length_eq
  simp at h2
  obtain ⟨b, mb, hb⟩ : ∃ b ∈ g1.edges, b.shape = (m.id, nt.id, cd.1, cd.2) := by
    have := hB.2.mem_iff.2 (List.mem_cons_of_mem _ (List.mem_singleton.2 rfl))
    exact List.mem_map.1 this
  simp only [Edge.shape, Prod.mk.injEq] at hb
  have hbs : ¬ g1.IsSource b.src := by
    intro h
    exact E.apart b mb ⟨(E.src _).1 h, hb.2.1⟩
  obtain ⟨rs2, g2, hH2, hI2, hl2, hn2, hs2⟩ := C93_build_chain lib l w a mb hbs
    ⟨hC.edge, hC.node, fun p hp h => hC.fresh p hp (hids _ h), hC.differ⟩
  refine ⟨rs2 ++ rs, g2, m, history_glue hH hH2, fun p hp => (List.mem_append.1 hp).elim (fun h => Or.inr (hI2 p h)) (fun h => Or.inl (hR p h)), ?_, hc, hm, ?_, ?_⟩
  · simp only [List.length_append]; omega
  · rw [hn2]
    exact hB.1.append_right _
  · rw [hb.2.1, hb.2.2.1, hb.2.2.2, hb.1] at hs2
    refine hs2.trans ?_
    have h3 := (removeEdge_perm w mb).map Edge.shape
    rw [← without_eq w mb] at h3
    have h4 := h3.symm.trans hB.2
    have h5 : b.shape = (m.id, nt.id, cd.1, cd.2) := by simp [Edge.shape, hb]
    simp only [List.map_cons, h5] at h4
    have h6 := (h4.trans (List.Perm.swap _ _ _)).cons_inv
    have h7 : (cd.1, cd.2) = cd := rfl
    rw [h7]
    refine (List.Perm.append_left _ h6).trans ?_
    exact List.perm_append_comm

namespace Back
open Fixture

def ns : Node := ⟨0, src, 1⟩
def nt : Node := ⟨3, snk, 2⟩

theorem g_ends : TwoEnded g ns nt (laser 4, 10) (diode 7, 20) where
  src_in := by decide
  snk_in := by decide
  src := by
    intro v
    constructor
    · rintro ⟨h1, h2⟩
      have h1 : v ∈ [0, 1, 2, 3] := h1
      fin_cases h1
      · rfl
      · exact absurd rfl (h2 ⟨0, 1, 0, laser 4, 10⟩ (by decide))
      · exact absurd rfl (h2 ⟨1, 2, 0, fiber 5, 30⟩ (by decide))
      · exact absurd rfl (h2 ⟨2, 3, 0, diode 7, 20⟩ (by decide))
    · rintro rfl; exact ⟨by decide, by decide⟩
  snk := by
    intro v
    constructor
    · rintro ⟨h1, h2⟩
      have h1 : v ∈ [0, 1, 2, 3] := h1
      fin_cases h1
      · exact absurd rfl (h2 ⟨0, 1, 0, laser 4, 10⟩ (by decide))
      · exact absurd rfl (h2 ⟨1, 2, 0, fiber 5, 30⟩ (by decide))
      · exact absurd rfl (h2 ⟨2, 3, 0, diode 7, 20⟩ (by decide))
      · rfl
    · rintro rfl; exact ⟨by decide, by decide⟩
  laser := by decide
  detector := by decide
  apart := by decide

theorem g_free : InnerFree g ns nt := ⟨by decide, by decide⟩

/-- Two arms between a splitter and a coupler: 0 → 1 → {2, 3} → 4 → 5. -/
def arms : Graph :=
  { nodes := [⟨0, src, 1⟩, ⟨1, split 2, 40⟩, ⟨2, split 3, 40⟩, ⟨3, split 4, 40⟩, ⟨4, split 5, 40⟩, ⟨5, snk, 2⟩]
    edges := [⟨0, 1, 0, laser 4, 10⟩, ⟨1, 2, 0, fiber 5, 30⟩, ⟨1, 3, 0, fiber 6, 30⟩, ⟨2, 4, 0, fiber 7, 30⟩,
      ⟨3, 4, 0, fiber 8, 30⟩, ⟨4, 5, 0, diode 9, 20⟩] }

theorem arms_wf : arms.WF := ⟨by decide, by decide, by decide, by decide⟩

theorem arms_topo : arms.IsTopo [0, 1, 2, 3, 4, 5] where
  nodup := by decide
  mem_iff := by intro v; rw [show arms.ids = [0, 1, 2, 3, 4, 5] by decide]
  forward := by decide

theorem arms_apart : ¬ arms.Reach 2 3 := by
  intro h
  have := hasPath_iff.2 h
  revert this; decide +kernel

def new : Draw := ⟨9, fiber 20, split 21⟩

/-- The swap of the first inner component of `g`. -/
theorem swap_legal : LegalStep lib g ⟨.swap, .edge ⟨1, 2, 0⟩, ⟨0, shaper 20, split 0⟩⟩
    (g.setEdge ⟨1, 2, 0⟩ (fun e => { e with comp := shaper 20 })) :=
  ⟨⟨_, g_topo, by decide⟩, show 31 ∈ swapSet lib g (.edge ⟨1, 2, 0⟩) by decide, by decide +kernel⟩

end Back

example := C93_parallel_undo Fixture.lib Back.new Fixture.line_wf Fixture.line_topo (u := 1) (v := 2) (by decide) rfl
example : Fixture.line.Reach 1 2 := .single ⟨⟨1, 2, 0, Fixture.fiber 5, 30⟩, by decide, rfl, rfl⟩
/-- Between two arms the addition is not undone. -/
example : ∃ g' e, applyOp Fixture.lib Back.arms .addParallel (.pair 2 3) Back.new = .ok g' ∧ e ∈ g'.edges ∧
    e ∉ Back.arms.edges ∧ ∃ g'', applyOp Fixture.lib g' .remove (.iface ⟨2, e.ref⟩) Back.new = .ok g'' ∧
      g'' ≠ Back.arms ∧ 3 ∉ g''.ids := by
  obtain ⟨g', e, h1, h2, h3, h4⟩ := C93_parallel_undo Fixture.lib Back.new Back.arms_wf Back.arms_topo (u := 2) (v := 3)
    (by decide) rfl
  obtain ⟨_, g'', h5, h6, h7⟩ := h4 ⟨2, e.ref⟩ rfl (Or.inl rfl)
  exact ⟨g', e, h1, h2, h3, g'', h5 _, fun hc => Back.arms_apart (h6.1 hc), (h7 Back.arms_apart).1⟩
example := C93_swap_undo Fixture.g_wf Fixture.g_acyclic Back.swap_legal rfl (d' := ⟨0, Fixture.fiber 5, Fixture.split 0⟩)
  (Or.inr ⟨⟨1, 2, 0, Fixture.fiber 5, 30⟩, by decide, rfl, rfl, by decide⟩)
example := C93_series_undo Fixture.g_wf Fixture.g_acyclic Fixture.ser_legal rfl rfl (by decide) Back.new
example := C93_take_down Fixture.g_wf Fixture.g_acyclic Back.g_ends Back.g_free Fixture.hist (by
  intro p hp
  simp only [List.mem_cons, List.not_mem_nil, or_false] at hp
  rcases hp with rfl | rfl <;> rfl)
example := C93_take_down_to Fixture.lib Fixture.g_wf Fixture.g_acyclic Back.g_ends Back.g_free
  (n := ⟨2, Fixture.split 3, 40⟩) (by decide) (by decide) (by decide)

theorem Back.chain : ChainFrom Fixture.lib Fixture.g
    [(Fixture.shaper 20, ⟨10, Fixture.split 21, 40⟩), (Fixture.fiber 22, ⟨11, Fixture.split 23, 40⟩)] where
  edge := by decide
  node := by decide
  fresh := by decide
  differ := by decide

example := C93_build_chain Fixture.lib _ Fixture.g_wf Fixture.g_acyclic (e := ⟨2, 3, 0, Fixture.diode 7, 20⟩) (by decide)
  (fun h => h.2 ⟨1, 2, 0, Fixture.fiber 5, 30⟩ (by decide) rfl) Back.chain
example := C93_reach_chain Fixture.lib Fixture.g_wf Fixture.g_acyclic Back.g_ends Back.g_free
  (n := ⟨2, Fixture.split 3, 40⟩) (by decide) (by decide) (by decide) Back.chain

end Verif
