import Verif.Spec.Undo
import Verif.Lemmas.OpsMore
import Verif.Props.Operators
import Verif.Props.Evolution
/-! # Lemmas on removals -/

namespace Verif
open Graph Relation

theorem some_topo {g : Graph} (hw : g.WF) (ha : g.Acyclic) : ∃ o, g.IsTopo o := by
  obtain ⟨o, ho⟩ := topoSort_complete hw ha
  exact ⟨o, topoSort_sound hw ho⟩

theorem mem_removeLocs {g : Graph} (hw : g.WF) {i : Iface} {e : Edge} (he : e ∈ g.edges) (hr : i.edge = e.ref)
    (hnode : i.node = e.src ∨ i.node = e.dst) (hin : g.inDeg e.src ≠ 0) (hout : g.outDeg e.dst ≠ 0)
    (hp : e.comp.prot = false) (hn : ∀ n ∈ g.nodes, n.id = e.src ∨ n.id = e.dst → n.comp.prot = false) :
    i ∈ removeLocs g := by
  have hs : i.edge.src = e.src := by rw [hr]; rfl
  have hd : i.edge.dst = e.dst := by rw [hr]; rfl
  obtain ⟨nu, hnu⟩ := node?_isSome hw (hw.src_mem e he)
  obtain ⟨nv, hnv⟩ := node?_isSome hw (hw.dst_mem e he)
  have hnu' := (node?_eq_some hw).1 hnu
  have hnv' := (node?_eq_some hw).1 hnv
  have he' : g.edge? i.edge = some e := (edge?_eq_some hw).2 ⟨he, hr.symm⟩
  refine List.mem_filter.2 ⟨mem_interfaces.2 ⟨e, he, hr, ?_⟩, ?_⟩
  · rcases hnode with h | h
    · exact Or.inl ⟨h, hin⟩
    · exact Or.inr ⟨h, hout⟩
  · simp only [edgeProt, nodeProt, he', hs, hd, hnu, hnv, hp, hn nu hnu'.1 (Or.inl hnu'.2), hn nv hnv'.1 (Or.inr hnv'.2)]
    simp [hin, hout]

theorem shape_filter_src (l : List Edge) (s : NodeId) :
    (l.filter (fun e => e.src = s)).map (fun e => (e.comp, e.name)) =
      ((l.map Edge.shape).filter (fun b => b.1 = s)).map (fun b => (b.2.2.1, b.2.2.2)) := by
  rw [List.filter_map, List.map_map]; rfl

theorem shape_filter_dst (l : List Edge) (s : NodeId) :
    (l.filter (fun e => e.dst = s)).map (fun e => (e.comp, e.name)) =
      ((l.map Edge.shape).filter (fun b => b.2.1 = s)).map (fun b => (b.2.2.1, b.2.2.2)) := by
  rw [List.filter_map, List.map_map]; rfl

/-- What a removal does to the edges, merged or not. -/
theorem remove_shapes {g : Graph} (hw : g.WF) (ha : g.Acyclic) {i : Iface} (hi : i ∈ removeLocs g) {g'}
    (h : removeComp g i = .ok g') :
    ∃ e ∈ g.edges, i.edge = e.ref ∧ g.inDeg e.src ≠ 0 ∧ g.outDeg e.dst ≠ 0 ∧ ∃ f : NodeId → NodeId,
      (f = id ∨ f = fun x => if x = e.dst then e.src else x) ∧
      (g'.edges.map Edge.shape).Perm ((g.without e).edges.map (fun x => (f x.src, f x.dst, x.comp, x.name))) ∧
      (∀ n ∈ g'.nodes, n ∈ g.nodes ∨ (n.id = e.src ∧ ∃ k ∈ g.nodes, k.id = i.node ∧ n.comp = k.comp ∧ n.name = k.name)) ∧
      (∀ k ∈ g.nodes, k.id = i.node → ∃ n ∈ g'.nodes, n.comp = k.comp ∧ n.name = k.name ∧
        (n.id = k.id ∨ n.id = e.src)) ∧
      (∀ k ∈ g.nodes, k.id ≠ e.src → k.id ≠ e.dst → k ∈ g'.nodes) := by
  obtain ⟨e, he, hr, g1, hg1, hb, hm⟩ := C06_remove_effect ⟨[], [], [], []⟩ ⟨0, ⟨0, 0, false, .multiPath, 0⟩, ⟨0, 0, false, .multiPath, 0⟩⟩ hw ha hi
  obtain ⟨e1, he1, nu, mu, nv, mv, hr1, iu, iv, hnode, pe, pu, pv, hin, hout⟩ := removeLocs_spec hw hi
  have : e1 = e := List.inj_on_of_nodup_map hw.refs_nodup he1 he (hr1.symm.trans hr)
  subst this
  have hgg : g' = g1 := by
    have : removeComp g i = .ok g1 := hg1
    rw [h] at this; injection this
  subst hgg
  refine ⟨e1, he, hr, hin, hout, ?_⟩
  by_cases hbp : g.Bypassed e1
  · have := hb hbp
    subst this
    refine ⟨id, Or.inl rfl, .refl _, fun n hn => Or.inl hn, fun k hk _ => ⟨k, hk, rfl, rfl, Or.inl rfl⟩, fun k hk _ _ => hk⟩
  · obtain ⟨h1, ⟨keep, hk, hkid, h2⟩, h3, _⟩ := hm hbp
    refine ⟨_, Or.inr rfl, h3, ?_, ?_, ?_⟩
    · intro n hn
      by_cases hc : n.id = e1.src
      · have := (h2 n hc).1 hn
        exact Or.inr ⟨hc, keep, hk, hkid, by rw [this], by rw [this]⟩
      · exact Or.inl ((h1 n hc).1 hn).1
    · intro k hk' hkn
      have : k = keep := List.inj_on_of_nodup_map hw.ids_nodup hk' hk (hkn.trans hkid.symm)
      subst this
      exact ⟨⟨e1.src, k.comp, k.name⟩, (h2 _ rfl).2 rfl, rfl, rfl, Or.inr rfl⟩
    · intro k hk' hs hd
      exact (h1 k hs).2 ⟨hk', hd⟩

theorem remove_legal (lib : Library) (d : Draw) {g : Graph} (hw : g.WF) (ha : g.Acyclic) {i : Iface} (hi : i ∈ removeLocs g) {g'}
    (h : removeComp g i = .ok g') : LegalStep lib g ⟨.remove, .iface i, d⟩ g' := by
  obtain ⟨o, ho⟩ := some_topo hw ha
  exact ⟨⟨o, ho, List.mem_map.2 ⟨i, hi, rfl⟩⟩, trivial, h⟩

theorem remove_ends {g : Graph} (hw : g.WF) (ha : g.Acyclic) {ns nt cl cd} (hE : TwoEnded g ns nt cl cd)
    (hF : InnerFree g ns nt) {i : Iface} (hi : i ∈ removeLocs g) {g'}
    (h : removeComp g i = .ok g') : TwoEnded g' ns nt cl cd ∧ InnerFree g' ns nt := by
  have hs := remove_legal ⟨[], [], [], []⟩ ⟨0, ⟨0, 0, false, .multiPath, 0⟩, ⟨0, 0, false, .multiPath, 0⟩⟩ hw ha hi h
  obtain ⟨t1, t2⟩ := step_terminals hw ha hs
  obtain ⟨e1, he1, nu, mu, nv, mv, hr1, iu, iv, hnode, pe, pu, pv, _, _⟩ := removeLocs_spec hw hi
  obtain ⟨e, he, hr, hin, hout, f, hf, hsh, hn1, hn2, hn3⟩ := remove_shapes hw ha hi h
  have : e1 = e := List.inj_on_of_nodup_map hw.refs_nodup he1 he (hr1.symm.trans hr)
  subst this
  have hS : ∀ x ∈ g.edges, x.dst ≠ ns.id := ((hE.src ns.id).2 rfl).2
  have hT : ∀ x ∈ g.edges, x.src ≠ nt.id := ((hE.snk nt.id).2 rfl).2
  have e_src_s : e1.src ≠ ns.id := by
    obtain ⟨a, ha1, ha2⟩ := inDeg_ne_zero.1 hin
    rw [← ha2]; exact hS a ha1
  have e_dst_s : e1.dst ≠ ns.id := hS e1 he
  have e_src_t : e1.src ≠ nt.id := hT e1 he
  have e_dst_t : e1.dst ≠ nt.id := by
    obtain ⟨a, ha1, ha2⟩ := outDeg_ne_zero.1 hout
    rw [← ha2]; exact hT a ha1
  have fs : ∀ x, f x = ns.id ↔ x = ns.id := by
    intro x
    rcases hf with rfl | rfl
    · exact Iff.rfl
    · dsimp only
      split
      · rename_i hc
        constructor
        · intro hh; exact absurd hh e_src_s
        · intro hh; rw [hc] at hh; exact absurd hh e_dst_s
      · exact Iff.rfl
  have ft : ∀ x, f x = nt.id ↔ x = nt.id := by
    intro x
    rcases hf with rfl | rfl
    · exact Iff.rfl
    · dsimp only
      split
      · rename_i hc
        constructor
        · intro hh; exact absurd hh e_src_t
        · intro hh; rw [hc] at hh; exact absurd hh e_dst_t
      · exact Iff.rfl
  have back : ∀ x ∈ g'.edges, ∃ y ∈ g.edges, x.src = f y.src ∧ x.dst = f y.dst ∧ x.comp = y.comp := by
    intro x hx
    have := hsh.mem_iff.1 (List.mem_map_of_mem hx)
    obtain ⟨y, hy, hy2⟩ := List.mem_map.1 this
    simp only [Edge.shape, Prod.mk.injEq] at hy2
    exact ⟨y, (List.mem_filter.1 hy).1, hy2.1.symm, hy2.2.1.symm, hy2.2.2.1.symm⟩
  refine ⟨⟨?_, ?_, ?_, ?_, ?_, ?_, ?_⟩, ?_, ?_⟩
  · exact hn3 ns hE.src_in (Ne.symm e_src_s) (Ne.symm e_dst_s)
  · exact hn3 nt hE.snk_in (Ne.symm e_src_t) (Ne.symm e_dst_t)
  · intro v; rw [t1 v, hE.src v]
  · intro v; rw [t2 v, hE.snk v]
  · rw [shape_filter_src, ← hE.laser]
    have := (hsh.filter (fun b => b.1 = ns.id)).map (fun b => (b.2.2.1, b.2.2.2))
    have hh : (((g.without e1).edges.map (fun x => (f x.src, f x.dst, x.comp, x.name))).filter
        (fun b => b.1 = ns.id)).map (fun b => (b.2.2.1, b.2.2.2)) =
        (g.edges.filter (fun e => e.src = ns.id)).map (fun e => (e.comp, e.name)) := by
      rw [List.filter_map, List.map_map, without, List.filter_filter]
      congr 1
      apply List.filter_congr
      intro x hx
      simp only [Function.comp, fs]
      by_cases hc : x.src = ns.id
      · have : x ≠ e1 := by rintro rfl; exact e_src_s hc
        simp [hc, this]
      · simp [hc]
    rw [hh, hE.laser] at this
    rw [hE.laser]
    exact List.perm_singleton.1 this
  · rw [shape_filter_dst, ← hE.detector]
    have := (hsh.filter (fun b => b.2.1 = nt.id)).map (fun b => (b.2.2.1, b.2.2.2))
    have hh : (((g.without e1).edges.map (fun x => (f x.src, f x.dst, x.comp, x.name))).filter
        (fun b => b.2.1 = nt.id)).map (fun b => (b.2.2.1, b.2.2.2)) =
        (g.edges.filter (fun e => e.dst = nt.id)).map (fun e => (e.comp, e.name)) := by
      rw [List.filter_map, List.map_map, without, List.filter_filter]
      congr 1
      apply List.filter_congr
      intro x hx
      simp only [Function.comp, ft]
      by_cases hc : x.dst = nt.id
      · have : x ≠ e1 := by rintro rfl; exact e_dst_t hc
        simp [hc, this]
      · simp [hc]
    rw [hh, hE.detector] at this
    rw [hE.detector]
    exact List.perm_singleton.1 this
  · rintro x hx ⟨h1, h2⟩
    obtain ⟨y, hy, hy1, hy2, _⟩ := back x hx
    exact hE.apart y hy ⟨(fs _).1 (hy1.symm.trans h1), (ft _).1 (hy2.symm.trans h2)⟩
  · intro n hn h1 h2
    rcases hn1 n hn with h3 | ⟨_, k, hk, hkid, hkc, _⟩
    · exact hF.node n h3 h1 h2
    · rw [hkc]
      rcases hnode with hnn | hnn
      · have : k = nu := List.inj_on_of_nodup_map hw.ids_nodup hk mu (by rw [hkid, hnn, iu])
        rw [this]; exact pu
      · have : k = nv := List.inj_on_of_nodup_map hw.ids_nodup hk mv (by rw [hkid, hnn, iv])
        rw [this]; exact pv
  · intro x hx h1 h2
    obtain ⟨y, hy, hy1, hy2, hy3⟩ := back x hx
    rw [hy3]
    exact hF.edge y hy (fun hc => h1 (hy1.trans ((fs _).2 hc))) (fun hc => h2 (hy2.trans ((ft _).2 hc)))

theorem removes_inv {lib g0 ns nt cl cd} (hw : g0.WF) (ha : g0.Acyclic) (hE : TwoEnded g0 ns nt cl cd)
    (hF : InnerFree g0 ns nt) {rs g} (h : History lib g0 rs g) (hr : OnlyRemoves rs) :
    g.WF ∧ g.Acyclic ∧ TwoEnded g ns nt cl cd ∧ InnerFree g ns nt ∧ rs.length + g.edges.length = g0.edges.length := by
  induction h with
  | nil => exact ⟨hw, ha, hE, hF, by simp⟩
  | @step rs g r g' hh hs ih =>
    obtain ⟨w, a, E, F, len⟩ := ih (fun p hp => hr p (by simp [hp]))
    have hop : r.op = .remove := hr (g, r) (by simp)
    have hz := (step_size w a hs).2.2.1 hop
    have hw' := step_wf w a hs
    have ha' := step_acyclic w a hs
    cases legal_kind hs with
    | remove i _ _ hi hres =>
      obtain ⟨E', F'⟩ := remove_ends w a E F hi hres
      refine ⟨hw', ha', E', F', ?_⟩
      simp only [List.length_cons]
      omega
    | series i hop' => rw [hop] at hop'; cases hop'
    | parallel u v o hop' => rw [hop] at hop'; cases hop'
    | swapNode v hop' => rw [hop] at hop'; cases hop'
    | swapEdge v hop' => rw [hop] at hop'; cases hop'

/-- The laser edge and the detector edge. -/
theorem TwoEnded.edges_of {g : Graph} {ns nt cl cd} (hE : TwoEnded g ns nt cl cd) :
    ∃ a ∈ g.edges, ∃ b ∈ g.edges, a.src = ns.id ∧ b.dst = nt.id ∧ (a.comp, a.name) = cl ∧ (b.comp, b.name) = cd ∧
      (∀ x ∈ g.edges, x.src = ns.id → x = a) ∧ (∀ x ∈ g.edges, x.dst = nt.id → x = b) := by
  obtain ⟨a, ha, ha2⟩ := List.map_eq_singleton_iff.1 hE.laser
  obtain ⟨b, hb, hb2⟩ := List.map_eq_singleton_iff.1 hE.detector
  have ma : a ∈ g.edges.filter (fun e => e.src = ns.id) := by rw [ha]; simp
  have mb : b ∈ g.edges.filter (fun e => e.dst = nt.id) := by rw [hb]; simp
  have ma' := List.mem_filter.1 ma
  have mb' := List.mem_filter.1 mb
  refine ⟨a, ma'.1, b, mb'.1, by simpa using ma'.2, by simpa using mb'.2, ha2, hb2, ?_, ?_⟩
  · intro x hx hs
    have : x ∈ g.edges.filter (fun e => e.src = ns.id) := List.mem_filter.2 ⟨hx, by simpa using hs⟩
    rw [ha] at this; simpa using this
  · intro x hx hs
    have : x ∈ g.edges.filter (fun e => e.dst = nt.id) := List.mem_filter.2 ⟨hx, by simpa using hs⟩
    rw [hb] at this; simpa using this

end Verif
