import Verif.Lemmas.OpsMore
import Verif.Props.Fixture
/-!
# Properties of evolution histories (C01, C02, C03, C08, C09)
-/

namespace Verif
open Graph Relation

/-- **C01.** Any evolution history from a DAG ends in a DAG. -/
theorem C01_evolution_acyclic {lib g0 rs g} (hw : g0.WF) (ha : g0.Acyclic) (h : History lib g0 rs g) :
    g.Acyclic := (history_dag hw ha h).2

example : Fixture.line'.Acyclic := C01_evolution_acyclic Fixture.g_wf Fixture.g_acyclic Fixture.hist

/-- **C02.** No source or sink appears or disappears, and every node and both ends of every component lie on a
directed path from an original source to an original sink. -/
theorem C02_on_light_path {lib g0 rs g} (hw : g0.WF) (ha : g0.Acyclic) (h : History lib g0 rs g) :
    (∀ v, g.IsSource v ↔ g0.IsSource v) ∧ (∀ v, g.IsSink v ↔ g0.IsSink v) ∧
    (∀ v ∈ g.ids, ∃ s t, g0.IsSource s ∧ g0.IsSink t ∧ g.Reach s v ∧ g.Reach v t) ∧
    (∀ e ∈ g.edges, ∃ s t, g0.IsSource s ∧ g0.IsSink t ∧ g.Reach s e.src ∧ g.Reach e.dst t) := by
  obtain ⟨w, a⟩ := history_dag hw ha h
  obtain ⟨t1, t2⟩ := history_terminals hw ha h
  refine ⟨t1, t2, fun v hv => ?_, fun e he => ?_⟩
  · obtain ⟨s, hs, hsv⟩ := a.from_source w hv
    obtain ⟨t, ht, hvt⟩ := a.to_sink w hv
    exact ⟨s, t, (t1 s).1 hs, (t2 t).1 ht, hsv, hvt⟩
  · obtain ⟨s, hs, hsv⟩ := a.from_source w (w.src_mem e he)
    obtain ⟨t, ht, hvt⟩ := a.to_sink w (w.dst_mem e he)
    exact ⟨s, t, (t1 s).1 hs, (t2 t).1 ht, hsv, hvt⟩

/-- **C02**, for systems with a single source and a single sink: everything stays between these two. -/
theorem C02_single_terminals {lib g0 rs g s t} (hw : g0.WF) (ha : g0.Acyclic)
    (hs : ∀ v, g0.IsSource v ↔ v = s) (ht : ∀ v, g0.IsSink v ↔ v = t) (h : History lib g0 rs g) :
    (∀ v, g.IsSource v ↔ v = s) ∧ (∀ v, g.IsSink v ↔ v = t) ∧
    ∀ v ∈ g.ids, g.Reach s v ∧ g.Reach v t := by
  obtain ⟨t1, t2, t3, _⟩ := C02_on_light_path hw ha h
  refine ⟨fun v => (t1 v).trans (hs v), fun v => (t2 v).trans (ht v), fun v hv => ?_⟩
  obtain ⟨s', t', h1, h2, h3, h4⟩ := t3 v hv
  rw [(hs s').1 h1] at h3
  rw [(ht t').1 h2] at h4
  exact ⟨h3, h4⟩

example : ∀ v ∈ Fixture.line'.ids, Fixture.line'.Reach 0 v ∧ Fixture.line'.Reach v 3 := by
  refine (C02_single_terminals Fixture.g_wf Fixture.g_acyclic ?_ ?_ Fixture.hist).2.2
  · intro v
    constructor
    · rintro ⟨hv, hx⟩
      rw [show Fixture.g.ids = [0, 1, 2, 3] by decide] at hv
      simp only [List.mem_cons, List.not_mem_nil, or_false] at hv
      rcases hv with rfl | rfl | rfl | rfl
      · rfl
      all_goals exact absurd hx (by decide)
    · rintro rfl; exact ⟨by decide, by decide⟩
  · intro v
    constructor
    · rintro ⟨hv, hx⟩
      rw [show Fixture.g.ids = [0, 1, 2, 3] by decide] at hv
      simp only [List.mem_cons, List.not_mem_nil, or_false] at hv
      rcases hv with rfl | rfl | rfl | rfl
      on_goal 4 => rfl
      all_goals exact absurd hx (by decide)
    · rintro rfl; exact ⟨by decide, by decide⟩

/-- What one legal step keeps of the nodes: every node that is protected, or has no input, or has no output. -/
theorem step_keeps_node {lib g r g'} (hw : g.WF) (hs : LegalStep lib g r g') {n : Node}
    (hn : n ∈ g.nodes) (hp : n.comp.prot = true ∨ g.IsSource n.id ∨ g.IsSink n.id) : n ∈ g'.nodes := by
  have notBoth : ∀ v, g.inDeg v ≠ 0 → g.outDeg v ≠ 0 → (∃ m ∈ g.nodes, m.id = v ∧ m.comp.prot = false) → n.id ≠ v := by
    rintro v hi ho ⟨m, hm, hmv, hmp⟩ hc
    rcases hp with hp | hp | hp
    · have : m = n := List.inj_on_of_nodup_map hw.ids_nodup hm hn (hmv.trans hc.symm)
      rw [this, hp] at hmp; cases hmp
    · obtain ⟨e, he, hd⟩ := inDeg_ne_zero.1 hi
      exact hp.2 e he (hd.trans hc.symm)
    · obtain ⟨e, he, hd⟩ := outDeg_ne_zero.1 ho
      exact hp.2 e he (hd.trans hc.symm)
  cases legal_kind hs with
  | series i _ _ hi hnid _ _ h =>
    obtain ⟨_, _, _, h'', h1, hnodes, _⟩ := addSeries_shape hw hi hnid r.draw.ec r.draw.nc
    rw [h] at h1; injection h1 with h1; subst h1
    rw [hnodes]; simp [hn]
  | parallel u v o _ _ ho hi _ h => subst h; exact hn
  | remove i _ _ hi h =>
    obtain ⟨e, he, nu, mu, nv, mv, hr, iu, iv, hnode, _, pu, pv, hin, hout⟩ := removeLocs_spec hw hi
    obtain ⟨keep, _, _, hres⟩ := removeComp_shape hw he hr hnode
    have n1 : n.id ≠ e.src := notBoth _ hin (outDeg_ne_zero.2 ⟨e, he, rfl⟩) ⟨nu, mu, iu, pu⟩
    have n2 : n.id ≠ e.dst := notBoth _ (inDeg_ne_zero.2 ⟨e, he, rfl⟩) hout ⟨nv, mv, iv, pv⟩
    rw [h] at hres; injection hres with hres
    split at hres
    · subst hres; exact hn
    · subst hres
      unfold setNode
      simp only
      rw [contract_nodes]
      refine List.mem_map.2 ⟨n, List.mem_filter.2 ⟨hn, by simpa using n2⟩, by rw [if_neg n1]⟩
  | swapNode v _ hloc hi _ h =>
    rcases mem_swapLocs hi with ⟨m, hm, hl, hmp, h1, h2, _⟩ | ⟨e, _, hl, _⟩
    · rw [hloc] at hl; injection hl with hl
      have := notBoth v (hl ▸ h1) (hl ▸ h2) ⟨m, hm, hl.symm, hmp⟩
      subst h
      exact List.mem_map.2 ⟨n, hn, by rw [if_neg this]⟩
    · rw [hloc] at hl; cases hl
  | swapEdge v _ _ _ _ h => subst h; exact hn

theorem step_keeps_edge {lib g r g'} (hw : g.WF) (ha : g.Acyclic) (hs : LegalStep lib g r g') {c : Comp}
    (hp : c.prot = true) : edgeCount g c ≤ edgeCount g' c := by
  unfold edgeCount
  cases legal_kind hs with
  | series i _ _ hi hnid _ _ h =>
    obtain ⟨e, he, _, h'', h1, hnodes, hperm⟩ := addSeries_shape hw hi hnid r.draw.ec r.draw.nc
    rw [h] at h1; injection h1 with h1; subst h1
    rw [hperm.countP_eq, (removeEdge_perm hw he).countP_eq]
    split <;> simp only [List.cons_append, List.nil_append, List.countP_cons] <;> omega
  | parallel u v o _ _ ho hi _ h =>
    subst h
    unfold addParallel
    rw [(addEdge_perm _ _ _ _ _).countP_eq, List.countP_cons]; omega
  | remove i _ _ hi h =>
    obtain ⟨e, he, nu, mu, nv, mv, hr, iu, iv, hnode, pe, pu, pv, hin, hout⟩ := removeLocs_spec hw hi
    obtain ⟨keep, _, _, hres⟩ := removeComp_shape hw he hr hnode
    rw [h] at hres; injection hres with hres
    have hec : ¬ e.comp = c := fun hc => by rw [hc, hp] at pe; cases pe
    have h1 : g.edges.countP (fun e => decide (e.comp = c)) = (g.removeEdge e.ref).edges.countP (fun e => decide (e.comp = c)) := by
      rw [(removeEdge_perm hw he).countP_eq, List.countP_cons]
      simp [hec]
    rw [h1]
    split at hres
    · subst hres; exact le_refl _
    · rename_i hpth
      obtain ⟨n1, n2, n3⟩ := (mergeFacts ha he hpth).no_edges ha
      obtain ⟨_, _, _, hp⟩ := contract_edges n1 n2 n3
      subst hres
      have h2 : ((((g.removeEdge e.ref).contract e.src e.dst).edges).map (·.comp)).Perm
          ((g.removeEdge e.ref).edges.map (·.comp)) := by
        have := hp.map (fun b => b.2.2.1)
        simpa [List.map_map, Function.comp_def, Edge.body, renEdge] using this
      have h3 := h2.countP_eq (fun x => decide (x = c))
      rw [List.countP_map, List.countP_map] at h3
      exact le_of_eq h3.symm
  | swapNode v _ hloc hi _ h => subst h; exact le_refl _
  | swapEdge v _ hloc hi _ h =>
    rcases mem_swapLocs hi with ⟨m, hm, hl, _⟩ | ⟨e, he, hl, hpe, _⟩
    · rw [hloc] at hl; cases hl
    · rw [hloc] at hl; injection hl with hl
      subst h
      unfold setEdge
      simp only
      rw [List.countP_map]
      apply List.countP_mono_left
      intro x hx hxc
      simp only [decide_eq_true_eq, Function.comp] at hxc ⊢
      split
      · rename_i hxr
        exfalso
        have : x = e := List.inj_on_of_nodup_map hw.refs_nodup hx he (hxr.trans hl)
        rw [← this, hxc, hp] at hpe; cases hpe
      · exact hxc

/-- **C03.** Terminal nodes (no input or no output) and protected nodes of the start graph are present, with the
same id, model and name, after any history; and a protected component sits on at least as many edges as before. -/
theorem C03_terminals_and_protected_survive {lib g0 rs g} (hw : g0.WF) (ha : g0.Acyclic)
    (h : History lib g0 rs g) :
    (∀ n ∈ g0.nodes, (n.comp.prot = true ∨ g0.IsSource n.id ∨ g0.IsSink n.id) → n ∈ g.nodes) ∧
    (∀ c : Comp, c.prot = true → edgeCount g0 c ≤ edgeCount g c) := by
  constructor
  · intro n hn hp
    induction h with
    | nil => exact hn
    | step hh hs ih =>
      obtain ⟨w, _⟩ := history_dag hw ha hh
      obtain ⟨t1, t2⟩ := history_terminals hw ha hh
      exact step_keeps_node w hs ih (hp.imp id (Or.imp (t1 _).2 (t2 _).2))
  · intro c hc
    induction h with
    | nil => exact le_refl _
    | step hh hs ih =>
      obtain ⟨w, a⟩ := history_dag hw ha hh
      exact ih.trans (step_keeps_edge w a hs hc)

example : (⟨3, Fixture.snk, 2⟩ : Node) ∈ Fixture.line'.nodes ∧ 1 ≤ edgeCount Fixture.line' (Fixture.diode 7) :=
  ⟨(C03_terminals_and_protected_survive Fixture.g_wf Fixture.g_acyclic Fixture.hist).1 _ (by decide)
      (Or.inr (Or.inr ⟨by decide, by decide⟩)),
    (C03_terminals_and_protected_survive Fixture.g_wf Fixture.g_acyclic Fixture.hist).2 (Fixture.diode 7) rfl⟩

/-- How one step changes the numbers of nodes and edges. -/
theorem step_size {lib g r g'} (hw : g.WF) (ha : g.Acyclic) (hs : LegalStep lib g r g') :
    (r.op = .addSeries → g'.nodes.length = g.nodes.length + 1 ∧ g'.edges.length = g.edges.length + 1) ∧
    (r.op = .addParallel → g'.nodes.length = g.nodes.length ∧ g'.edges.length = g.edges.length + 1) ∧
    (r.op = .remove → g'.edges.length + 1 = g.edges.length ∧
      (Merges g r → g'.nodes.length + 1 = g.nodes.length) ∧ (¬ Merges g r → g'.nodes.length = g.nodes.length)) ∧
    (r.op = .swap → g'.nodes.length = g.nodes.length ∧ g'.edges.length = g.edges.length) := by
  cases legal_kind hs with
  | series i hop _ hi hnid _ _ h =>
    obtain ⟨e, he, _, h'', h1, hnodes, hperm⟩ := addSeries_shape hw hi hnid r.draw.ec r.draw.nc
    rw [h] at h1; injection h1 with h1; subst h1
    have l1 := hperm.length_eq
    have l2 := (removeEdge_perm hw he).length_eq
    rw [hop]
    refine ⟨fun _ => ⟨by simp [hnodes], ?_⟩, by simp, by simp, by simp⟩
    rw [l1]
    simp only [List.length_cons] at l2
    split <;> simp <;> omega
  | parallel u v o hop _ ho hi _ h =>
    subst h
    rw [hop]
    exact ⟨by simp, fun _ => ⟨rfl, (addEdge_perm _ _ _ _ _).length_eq⟩, by simp, by simp⟩
  | remove i hop hloc hi h =>
    obtain ⟨e, he, nu, mu, nv, mv, hr, iu, iv, hnode, pe, pu, pv, hin, hout⟩ := removeLocs_spec hw hi
    obtain ⟨keep, _, _, hres⟩ := removeComp_shape hw he hr hnode
    rw [h] at hres; injection hres with hres
    have l2 := (removeEdge_perm hw he).length_eq
    simp only [List.length_cons] at l2
    have hm : Merges g r ↔ ¬ (g.removeEdge e.ref).hasPath e.src e.dst = true := by
      rw [← bypassed_iff hw he]
      constructor
      · rintro ⟨_, i', hi', e', he', hr', hb⟩
        rw [hloc] at hi'; injection hi' with hi'; subst hi'
        have : e' = e := List.inj_on_of_nodup_map hw.refs_nodup he' he (hr'.symm.trans hr)
        rwa [this] at hb
      · exact fun hb => ⟨hop, i, hloc, e, he, hr, hb⟩
    rw [hop]
    refine ⟨by simp, by simp, fun _ => ?_, by simp⟩
    split at hres
    · rename_i hp
      subst hres
      exact ⟨l2.symm, fun hc => absurd hp (hm.1 hc), fun _ => rfl⟩
    · rename_i hp
      obtain ⟨n1, n2, n3⟩ := (mergeFacts ha he hp).no_edges ha
      obtain ⟨_, _, _, hpm⟩ := contract_edges n1 n2 n3
      have l3 := hpm.length_eq
      simp only [List.length_map] at l3
      subst hres
      refine ⟨?_, fun _ => ?_, fun hc => absurd (hm.2 hp) hc⟩
      · rw [setNode_edges]; omega
      · have := filter_one_length hw (hw.dst_mem e he)
        simp only [setNode, List.length_map, contract_nodes]
        exact this
  | swapNode v hop hloc hi _ h =>
    subst h; rw [hop]; exact ⟨by simp, by simp, by simp, fun _ => ⟨by simp [setNode], rfl⟩⟩
  | swapEdge v hop hloc hi _ h =>
    subst h; rw [hop]; exact ⟨by simp, by simp, by simp, fun _ => ⟨rfl, by simp [setEdge]⟩⟩

open Classical in
/-- **C08.** Size accounting: nodes = initial + series − merging removals, edges = initial + series + parallel −
removals. -/
theorem C08_size_accounting {lib g0 rs g} (hw : g0.WF) (ha : g0.Acyclic) (h : History lib g0 rs g) :
    g.nodes.length + rs.countP (fun p => Merges p.1 p.2) =
      g0.nodes.length + rs.countP (fun p => p.2.op = .addSeries) ∧
    g.edges.length + rs.countP (fun p => p.2.op = .remove) =
      g0.edges.length + rs.countP (fun p => p.2.op = .addSeries) + rs.countP (fun p => p.2.op = .addParallel) := by
  induction h with
  | nil => simp
  | @step rs g r g' hh hs ih =>
    obtain ⟨w, a⟩ := history_dag hw ha hh
    obtain ⟨s1, s2, s3, s4⟩ := step_size w a hs
    have hmop : Merges g r → r.op = .remove := fun hm => hm.1
    simp only [List.countP_cons]
    cases hop : r.op with
    | addSeries =>
      have := s1 hop
      have hm : ¬ Merges g r := fun hm => by rw [hmop hm] at hop; cases hop
      simp [hm]; omega
    | addParallel =>
      have := s2 hop
      have hm : ¬ Merges g r := fun hm => by rw [hmop hm] at hop; cases hop
      simp [hm]; omega
    | remove =>
      have := s3 hop
      by_cases hm : Merges g r
      · have := this.2.1 hm
        simp [hm]; omega
      · have := this.2.2 hm
        simp [hm]; omega
    | swap =>
      have := s4 hop
      have hm : ¬ Merges g r := fun hm => by rw [hmop hm] at hop; cases hop
      simp [hm]; omega

open Classical in
/-- **C08.** The number of independent loops (edges − nodes) grows only with parallel additions and shrinks only with
non-merging removals. -/
theorem C08_loops {lib g0 rs g} (hw : g0.WF) (ha : g0.Acyclic) (h : History lib g0 rs g) :
    (g.edges.length : Int) - g.nodes.length + rs.countP (fun p => p.2.op = .remove ∧ ¬ Merges p.1 p.2) =
      (g0.edges.length : Int) - g0.nodes.length + rs.countP (fun p => p.2.op = .addParallel) := by
  obtain ⟨h1, h2⟩ := C08_size_accounting hw ha h
  have h3 : rs.countP (fun p => p.2.op = .remove) =
      rs.countP (fun p => p.2.op = .remove ∧ ¬ Merges p.1 p.2) + rs.countP (fun p => Merges p.1 p.2) := by
    rw [← countP_or]
    · apply List.countP_congr
      intro p _
      simp only [decide_eq_true_eq, Bool.or_eq_true]
      constructor
      · intro hp
        by_cases hm : Merges p.1 p.2
        · exact Or.inr hm
        · exact Or.inl ⟨hp, hm⟩
      · rintro (hp | hp)
        · exact hp.1
        · exact hp.1
    · intro p _ hc
      simp only [decide_eq_true_eq] at hc
      exact hc.1.2 hc.2
  omega

example : Fixture.line'.edges.length + 2 = Fixture.g.edges.length :=
  (C08_size_accounting Fixture.g_wf Fixture.g_acyclic Fixture.hist).2

/-- **C09.** Over any history, node ids stay distinct, edge handles stay distinct, no edge dangles and there is no
self-loop. -/
theorem C09_wellformed {lib g0 rs g} (hw : g0.WF) (ha : g0.Acyclic) (h : History lib g0 rs g) :
    g.ids.Nodup ∧ (g.edges.map Edge.ref).Nodup ∧ (∀ e ∈ g.edges, e.src ∈ g.ids ∧ e.dst ∈ g.ids) ∧
    (∀ e ∈ g.edges, e.src ≠ e.dst) := by
  obtain ⟨w, a⟩ := history_dag hw ha h
  exact ⟨w.ids_nodup, w.refs_nodup, fun e he => ⟨w.src_mem e he, w.dst_mem e he⟩, fun e he => a.no_loop he⟩

example : (Fixture.line'.edges.map Edge.ref).Nodup :=
  (C09_wellformed Fixture.g_wf Fixture.g_acyclic Fixture.hist).2.1

/-- **C09.** Adding an edge to any graph adds one entry and keeps all others; its key is unused among the parallel
edges. -/
theorem C09_add_edge_never_overwrites (g : Graph) (u v : NodeId) (c : Comp) (name : ClassId) :
    ∃ k, (∀ e ∈ g.edges, e.src = u → e.dst = v → e.key ≠ k) ∧
      (g.addEdge u v c name).edges.Perm (⟨u, v, k, c, name⟩ :: g.edges) :=
  ⟨g.newKey u v, fun e he h1 h2 => newKey_fresh g u v e he h1 h2, addEdge_perm g u v c name⟩

/-- Remove key 0, then add: the key chosen skips the occupied 1. -/
example : ((Fixture.g.removeEdge ⟨1, 2, 0⟩).addEdge 1 2 (Fixture.fiber 9) 30).edges.map Edge.ref =
    [⟨0, 1, 0⟩, ⟨1, 2, 1⟩, ⟨1, 2, 2⟩, ⟨2, 3, 0⟩] := by decide

/-! Cases of the other theorems: removing one of two parallel components, then the other. -/

example := C02_on_light_path Fixture.g_wf Fixture.g_acyclic Fixture.hist
example := C08_loops Fixture.g_wf Fixture.g_acyclic Fixture.hist
example := C09_add_edge_never_overwrites (Fixture.g.removeEdge ⟨1, 2, 0⟩) 1 2 (Fixture.fiber 9) 30

end Verif
