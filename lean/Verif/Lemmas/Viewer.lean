import Verif.Spec.Viewer
import Verif.Lemmas.Rename
import Verif.Lemmas.Files
import Verif.Props.Save
/-! # Helper lemmas: the viewer -/

namespace Verif
open Graph

section
variable {P : Type}

/-! ### From the graph to its description -/

theorem described_labels (g : Graph) (h : ModelId → P) : (g.described h).nodes.map (·.label) = g.ids := by
  simp [Graph.described, Graph.ids, List.map_map, Function.comp_def]

theorem described_idx (g : Graph) (h : ModelId → P) (v : NodeId) : (g.described h).idx v = g.ids.idxOf v := by
  unfold SGraph.idx
  rw [described_labels]

theorem described_ok {g : Graph} (hw : g.WF) (hl : g.Listed) (h : ModelId → P) : (g.described h).OK where
  labels := by rw [described_labels]; exact hw.ids_nodup
  refs := by
    have : (g.described h).edges.map (fun e => (e.src, e.dst, e.key)) = (g.edges.map Edge.ref).map (fun r => (r.src, r.dst, r.key)) := by
      simp [Graph.described, List.map_map, Function.comp_def, Edge.ref]
    rw [this]
    refine hw.refs_nodup.map ?_
    rintro ⟨a, b, c⟩ ⟨x, y, z⟩ hxy
    simpa using hxy
  src_mem := by
    intro e he
    obtain ⟨x, hx, rfl⟩ := List.mem_map.1 he
    rw [described_labels]
    exact hw.src_mem x hx
  dst_mem := by
    intro e he
    obtain ⟨x, hx, rfl⟩ := List.mem_map.1 he
    rw [described_labels]
    exact hw.dst_mem x hx
  sorted := by
    have := hl.sorted
    unfold Graph.ends at this
    rw [List.pairwise_map] at this
    unfold Graph.described
    rw [List.pairwise_map]
    refine this.imp ?_
    intro a b hab
    have e1 := described_idx g h a.src
    have e2 := described_idx g h b.src
    unfold Graph.described at e1 e2
    dsimp only
    rw [e1, e2]
    exact hab
  grouped := by
    intro A B C x y he hs hd z hz
    have hends : g.ends = (g.described h).edges.map (fun e => (e.src, e.dst)) := by
      simp [Graph.described, Graph.ends, List.map_map, Function.comp_def]
    have hsub : [(x.src, x.dst), (z.src, z.dst), (x.src, x.dst)].Sublist g.ends := by
      rw [hends, he, List.map_append, List.map_cons, List.map_append, List.map_cons, hs, hd]
      refine (List.Sublist.cons_cons _ ?_).trans (List.sublist_append_right _ _)
      have h1 : [(z.src, z.dst)].Sublist (B.map (fun e => (e.src, e.dst))) := List.singleton_sublist.2 (List.mem_map.2 ⟨z, hz, rfl⟩)
      have h2 : [(y.src, y.dst)].Sublist ((y.src, y.dst) :: C.map (fun e => (e.src, e.dst))) := List.singleton_sublist.2 (by simp)
      exact h1.append h2
    have := hl.grouped _ _ hsub
    simp only [Prod.mk.injEq] at this
    exact this

theorem described_adj (g : Graph) (h : ModelId → P) (u v : NodeId) : (g.described h).Adj u v ↔ g.Adj u v := by
  unfold SGraph.Adj Graph.Adj Graph.described
  simp

theorem described_acyclic {g : Graph} (ha : g.Acyclic) (h : ModelId → P) : (g.described h).Acyclic := by
  intro v hv
  refine ha v ?_
  exact Relation.TransGen.mono (fun a b hab => (described_adj g h a b).1 hab) _ _ hv

theorem described_inDeg (g : Graph) (h : ModelId → P) (v : NodeId) : (g.described h).inDeg v = (g.inEdges v).length := by
  unfold SGraph.inDeg Graph.described Graph.inEdges
  dsimp only
  rw [List.filter_map, List.length_map]
  rfl

theorem described_outDeg (g : Graph) (h : ModelId → P) (v : NodeId) : (g.described h).outDeg v = (g.outEdges v).length := by
  unfold SGraph.outDeg Graph.described Graph.outEdges
  dsimp only
  rw [List.filter_map, List.length_map]
  rfl

/-! ### Handles of a design with counted keys -/

theorem counted_refs {L : Type} [DecidableEq L] {g : SGraph L P} (h : g.Counted) : (g.edges.map (fun e => (e.src, e.dst, e.key))).Nodup := by
  rw [List.Nodup, List.pairwise_map, List.pairwise_iff_getElem]
  intro i j hi hj hij heq
  simp only [Prod.mk.injEq] at heq
  have hsplit : ∀ k (hk : k < g.edges.length), g.edges = g.edges.take k ++ g.edges[k] :: g.edges.drop (k + 1) := by
    intro k hk
    rw [List.getElem_cons_drop, List.take_append_drop]
  have h1 := h _ _ _ (hsplit i hi)
  have h2 := h _ _ _ (hsplit j hj)
  have hsub : (g.edges.take i ++ [g.edges[i]]).Sublist (g.edges.take j) := by
    rw [List.take_concat_get' _ _ hi]
    exact List.take_sublist_take_left (by omega)
  have hlen := (hsub.filter (fun e => decide (e.src = g.edges[j].src ∧ e.dst = g.edges[j].dst))).length_le
  rw [List.filter_append, List.length_append, ← h2] at hlen
  have hone : (List.filter (fun e => decide (e.src = g.edges[j].src ∧ e.dst = g.edges[j].dst)) [g.edges[i]]).length = 1 := by
    simp [heq.1, heq.2.1]
  rw [hone] at hlen
  have h1' : g.edges[i].key = (List.filter (fun e => decide (e.src = g.edges[j].src ∧ e.dst = g.edges[j].dst)) (g.edges.take i)).length := by
    rw [h1, heq.1, heq.2.1]
  rw [← h1', heq.2.2] at hlen
  omega

end

section
variable {V S : Type}

theorem relabelled_ids (g : SGraph Str (List V)) : (relabelled g).ids = List.range g.nodes.length := by
  unfold relabelled Graph.ids
  rw [List.map_map]
  have : ((fun n : Node => n.id) ∘ fun x : SNode Str (List V) × Nat => (⟨x.2, ⟨x.2, x.1.cls, false, .multiPath, 0⟩, x.1.cls⟩ : Node)) = Prod.snd := rfl
  rw [this, List.zipIdx_map_snd]
  simp [List.range_eq_range']

theorem relabelled_node (g : SGraph Str (List V)) (i : Nat) : (relabelled g).nodes[i]? =
    (g.nodes[i]?).map (fun n => ⟨i, ⟨i, n.cls, false, .multiPath, 0⟩, n.cls⟩) := by
  unfold relabelled
  simp only [List.getElem?_map, List.getElem?_zipIdx]
  cases g.nodes[i]? <;> simp

theorem relabelled_edge (g : SGraph Str (List V)) (i : Nat) : (relabelled g).edges[i]? =
    (g.edges[i]?).map (fun e => ⟨g.idx e.src, g.idx e.dst, e.key, ⟨g.nodes.length + i, e.cls, false, .singlePath, 0⟩, e.cls⟩) := by
  unfold relabelled
  simp only [List.getElem?_map, List.getElem?_zipIdx]
  cases g.edges[i]? <;> simp

theorem heap_node (g : SGraph Str (List V)) (i : Nat) (n) (h : g.nodes[i]? = some n) : relabelledHeap g i = n.params := by
  unfold relabelledHeap
  have hi : i < g.nodes.length := (List.getElem?_eq_some_iff.1 h).1
  rw [List.getD_eq_getElem?_getD, List.getElem?_append_left (by simpa using hi), List.getElem?_map, h]
  rfl

theorem heap_edge (g : SGraph Str (List V)) (i : Nat) (e) (h : g.edges[i]? = some e) : relabelledHeap g (g.nodes.length + i) = e.params := by
  unfold relabelledHeap
  rw [List.getD_eq_getElem?_getD, List.getElem?_append_right (by simp)]
  simp [h]

/-- The position of the image of a node is that of the node. -/
theorem same_idx {g : SGraph NodeId (List V)} {g' : SGraph Str (List V)} {σ : NodeId → Str} (hnd : (g.nodes.map (·.label)).Nodup)
    (hinj : ∀ a ∈ g.nodes.map (·.label), ∀ b ∈ g.nodes.map (·.label), σ a = σ b → a = b)
    (hn : g'.nodes = g.nodes.map (fun n => ⟨σ n.label, n.cls, n.params⟩)) {l : NodeId} (hl : l ∈ g.nodes.map (·.label)) : g'.idx (σ l) = g.idx l := by
  unfold SGraph.idx
  have hm : g'.nodes.map (·.label) = (g.nodes.map (·.label)).map σ := by rw [hn]; simp [List.map_map, Function.comp_def]
  rw [hm]
  obtain ⟨i, hi, rfl⟩ := List.mem_iff_getElem.1 hl
  have hi2 : i < ((g.nodes.map (·.label)).map σ).length := by simpa using hi
  have e1 : σ (g.nodes.map (·.label))[i] = ((g.nodes.map (·.label)).map σ)[i] := by simp
  have hnd' : ((g.nodes.map (·.label)).map σ).Nodup := (List.nodup_map_iff_inj_on hnd).2 hinj
  rw [e1, hnd.idxOf_getElem i hi]
  exact idxOf_dec hnd' i hi2

theorem ERel.trans_of {α β γ : Type} {R : α → β → Prop} {Q : β → γ → Prop} {a : Except Err α} {b : Except Err β} {c : Except Err γ}
    (h1 : ERel R a b) (h2 : ERel Q b c) : ERel (fun x z => ∃ y, R x y ∧ Q y z) a c := by
  cases a <;> cases b <;> cases c <;> simp_all [ERel]
  exact ⟨_, h1, h2⟩

/-- Simulating a design with the same components, in the same order, under positions as labels. -/
theorem relabelled_sim (K : Kinds S (List V)) {g : Graph} (hw : g.WF) (h : ModelId → List V) {g' : SGraph Str (List V)}
    (hs : SameSystem (g.described h) g') (hc : g'.Counted) (inp : S) (old old' : Store S) :
    ERel (fun st st' => (∀ n : Nat, ∀ m m', g.nodes[n]? = some m → (relabelled g').nodes[n]? = some m' → st' (.node m'.id) = st (.node m.id)) ∧
        ∀ j : Nat, ∀ e e', g.edges[j]? = some e → (relabelled g').edges[j]? = some e' → st' (.edge e'.ref) = st (.edge e.ref))
      (propagate g (K.behav h) inp old) (propagate (relabelled g') (K.behav (relabelledHeap g')) inp old') := by
  obtain ⟨σ, hinj, hn, he⟩ := hs
  have hlab : (g.described h).nodes.map (·.label) = g.ids := described_labels g h
  have hidx : ∀ l ∈ g.ids, g'.idx (σ l) = g.ids.idxOf l := by
    intro l hl
    rw [same_idx (by rw [hlab]; exact hw.ids_nodup) hinj hn (by rw [hlab]; exact hl), described_idx]
  have hlenN : g'.nodes.length = g.nodes.length := by rw [hn]; simp [Graph.described]
  have hlenE : g'.edges.length = g.edges.length := by
    have := congrArg List.length he
    simpa [Graph.described] using this
  -- nodes and edges one by one
  have hnode : ∀ i : Nat, ∀ m, g.nodes[i]? = some m → g'.nodes[i]? = some ⟨σ m.id, m.comp.cls, h m.comp.uid⟩ := by
    intro i m hm
    rw [hn]
    simp [Graph.described, hm]
  have hedge : ∀ i : Nat, ∀ e, g.edges[i]? = some e → ∃ e', g'.edges[i]? = some e' ∧ e'.src = σ e.src ∧ e'.dst = σ e.dst ∧ e'.cls = e.comp.cls ∧
      e'.params = h e.comp.uid := by
    intro i e hei
    have := congrArg (fun l => l[i]?) he
    simp only [List.getElem?_map, Graph.described, hei, Option.map_some] at this
    cases hx : g'.edges[i]? with
    | none => rw [hx] at this; cases this
    | some e' =>
      rw [hx] at this
      simp only [Option.map_some, Option.some.injEq, Prod.mk.injEq] at this
      exact ⟨e', rfl, this.1, this.2.1, this.2.2.1, this.2.2.2⟩
  -- the intermediate graph: renamed
  let ρ := position g.ids
  have hρ : Function.Injective ρ := position_inj g.ids
  let g1 := g.rename ρ
  have hids1 : (relabelled g').ids = g1.ids := by
    rw [relabelled_ids, rename_ids, hlenN]
    apply List.ext_getElem
    · simp [Graph.ids]
    · intro i h1 h2
      have hi : i < g.ids.length := by simpa using h2
      rw [List.getElem_range, List.getElem_map]
      show i = position g.ids g.ids[i]
      rw [position_mem (List.getElem_mem hi), hw.ids_nodup.idxOf_getElem i hi]
  have hg1e : ∀ i : Nat, g1.edges[i]? = (g.edges[i]?).map (Edge.rename ρ) := by
    intro i
    show (g.edges.map (Edge.rename ρ))[i]? = _
    rw [List.getElem?_map]
  have hlen1 : g1.edges.length = (relabelled g').edges.length := by
    show (g.edges.map (Edge.rename ρ)).length = _
    unfold relabelled
    simp [hlenE]
  have hzmem : ∀ z ∈ g1.edges.zip (relabelled g').edges, ∃ i : Nat, ∃ e e', g.edges[i]? = some e ∧ g'.edges[i]? = some e' ∧ z.1 = e.rename ρ ∧
      (relabelled g').edges[i]? = some z.2 ∧ e'.src = σ e.src ∧ e'.dst = σ e.dst ∧ e'.cls = e.comp.cls ∧ e'.params = h e.comp.uid := by
    intro z hz
    obtain ⟨i, hi⟩ := List.mem_iff_getElem?.1 hz
    rw [List.getElem?_zip_eq_some] at hi
    rw [hg1e] at hi
    cases hx : g.edges[i]? with
    | none => rw [hx] at hi; cases hi.1
    | some e =>
      rw [hx] at hi
      obtain ⟨e', h1, h2⟩ := hedge i e hx
      simp only [Option.map_some, Option.some.injEq] at hi
      exact ⟨i, e, e', hx, h1, hi.1.symm, hi.2, h2⟩
  have hz2 : ∀ z ∈ g1.edges.zip (relabelled g').edges, z.2.src = z.1.src ∧ z.2.dst = z.1.dst ∧ z.2.comp.cls = z.1.comp.cls ∧
      relabelledHeap g' z.2.comp.uid = h z.1.comp.uid := by
    intro z hz
    obtain ⟨i, e, e', h1, h2, h3, h4, h5, h6, h7, h8⟩ := hzmem z hz
    rw [relabelled_edge, h2] at h4
    simp only [Option.map_some, Option.some.injEq] at h4
    have hem : e ∈ g.edges := List.mem_of_getElem? h1
    rw [← h4, h3]
    refine ⟨?_, ?_, h7, ?_⟩
    · show g'.idx e'.src = position g.ids e.src
      rw [h5, position_mem (hw.src_mem e hem), hidx _ (hw.src_mem e hem)]
    · show g'.idx e'.dst = position g.ids e.dst
      rw [h6, position_mem (hw.dst_mem e hem), hidx _ (hw.dst_mem e hem)]
    · exact (heap_edge g' i e' h2).trans h8
  have hzip : Zipped (K.behav h) (K.behav (relabelledHeap g')) g1 (relabelled g') (g1.edges.zip (relabelled g').edges) := by
    refine ⟨(List.map_fst_zip (by omega)).symm, (List.map_snd_zip (by omega)).symm, fun z hz => (hz2 z hz).1, fun z hz => (hz2 z hz).2.1, ?_, ?_⟩
    · intro z hz
      simp only [Kinds.behav, (hz2 z hz).2.2.1, (hz2 z hz).2.2.2]
    · intro z hz
      simp only [Kinds.behav, (hz2 z hz).2.2.1, (hz2 z hz).2.2.2]
  have href1 : (g1.edges.map Edge.ref).Nodup := by
    show ((g.edges.map (Edge.rename ρ)).map Edge.ref).Nodup
    have : (g.edges.map (Edge.rename ρ)).map Edge.ref = (g.edges.map Edge.ref).map (EdgeRef.rename ρ) := by
      simp [List.map_map, Function.comp_def, Edge.rename_ref]
    rw [this]
    exact hw.refs_nodup.map (EdgeRef.rename_inj hρ)
  have hsrc : ∀ e ∈ g'.edges, e.src ∈ g'.nodes.map (·.label) ∧ e.dst ∈ g'.nodes.map (·.label) := by
    intro e' he'
    obtain ⟨i, hi⟩ := List.mem_iff_getElem?.1 he'
    have hi2 : i < g.edges.length := by rw [← hlenE]; exact (List.getElem?_eq_some_iff.1 hi).1
    obtain ⟨e2, h1, h2, h3, -⟩ := hedge i _ (List.getElem?_eq_getElem hi2)
    rw [hi] at h1
    cases h1
    have hm : g'.nodes.map (·.label) = g.ids.map σ := by
      rw [hn]
      simp [Graph.described, Graph.ids, List.map_map, Function.comp_def]
    rw [h2, h3, hm]
    exact ⟨List.mem_map_of_mem (hw.src_mem _ (List.getElem_mem hi2)), List.mem_map_of_mem (hw.dst_mem _ (List.getElem_mem hi2))⟩
  have href2 : ((relabelled g').edges.map Edge.ref).Nodup := by
    have h0 := counted_refs hc
    rw [List.Nodup, List.pairwise_map, List.pairwise_iff_getElem] at h0 ⊢
    intro i j hi hj hij heq
    have hi' : i < g'.edges.length := by simpa [relabelled] using hi
    have hj' : j < g'.edges.length := by simpa [relabelled] using hj
    refine h0 i j hi' hj' hij ?_
    have e1 := relabelled_edge g' i
    have e2 := relabelled_edge g' j
    rw [List.getElem?_eq_getElem hi, List.getElem?_eq_getElem hi', Option.map_some, Option.some.injEq] at e1
    rw [List.getElem?_eq_getElem hj, List.getElem?_eq_getElem hj', Option.map_some, Option.some.injEq] at e2
    rw [e1, e2] at heq
    simp only [Edge.ref, EdgeRef.mk.injEq] at heq
    obtain ⟨m1, m2⟩ := hsrc _ (List.getElem_mem hi')
    rw [idx_inj g' m1 heq.1, idx_inj g' m2 heq.2.1, heq.2.2]
  have hwf1 : ∀ k : Graph, k.ids = List.range g.nodes.length → ∀ i : Nat, ∀ n, k.nodes[i]? = some n → k.node? i = some n := by
    intro k hk i n hi
    have hnd : k.ids.Nodup := by rw [hk]; exact List.nodup_range
    have hil : i < k.nodes.length := (List.getElem?_eq_some_iff.1 hi).1
    have hid : n.id = i := by
      have h1 : k.ids[i]? = some n.id := by unfold Graph.ids; rw [List.getElem?_map, hi]; rfl
      rw [hk] at h1
      obtain ⟨h2, h3⟩ := List.getElem?_eq_some_iff.1 h1
      rw [List.getElem_range] at h3
      exact h3.symm
    unfold Graph.node?
    cases hf : k.nodes.find? (fun n => decide (n.id = i)) with
    | none =>
      have := List.find?_eq_none.1 hf n (List.mem_of_getElem? hi)
      simp [hid] at this
    | some m =>
      have h1 := List.mem_of_find?_eq_some hf
      have h2 := List.find?_some hf
      simp only [decide_eq_true_eq] at h2
      rw [List.inj_on_of_nodup_map hnd h1 (List.mem_of_getElem? hi) (h2.trans hid.symm)]
  have hr1 : g1.ids = List.range g.nodes.length := by rw [← hids1, relabelled_ids, hlenN]
  have hr2 : (relabelled g').ids = List.range g.nodes.length := by rw [relabelled_ids, hlenN]
  have halike : NodesAlike (K.behav h) (K.behav (relabelledHeap g')) g1 (relabelled g') := by
    intro v
    by_cases hv : v < g.nodes.length
    · right
      have hgn : g.nodes[v]? = some g.nodes[v] := List.getElem?_eq_getElem hv
      have h1 : g1.nodes[v]? = some { g.nodes[v] with id := ρ g.nodes[v].id } := by
        show (g.nodes.map (fun n => { n with id := ρ n.id }))[v]? = _
        rw [List.getElem?_map, hgn]
        rfl
      have h2 := relabelled_node g' v
      rw [hnode v _ hgn, Option.map_some] at h2
      refine ⟨_, _, hwf1 g1 hr1 v _ h1, hwf1 _ hr2 v _ h2, ?_⟩
      intro ins
      have := heap_node g' v _ (hnode v _ hgn)
      simp only [Kinds.behav, this]
    · left
      have none_of : ∀ k : Graph, k.ids = List.range g.nodes.length → k.node? v = none := by
        intro k hk
        unfold Graph.node?
        rw [List.find?_eq_none]
        intro n hn hc
        simp only [decide_eq_true_eq] at hc
        have : n.id ∈ k.ids := List.mem_map.2 ⟨n, hn, rfl⟩
        rw [hk, List.mem_range, hc] at this
        exact hv this
      exact ⟨none_of g1 hr1, none_of _ hr2⟩
  have r1 := propagate_rename hρ g (K.behav h) inp old old
  have r2 := propagate_rel hzip hids1 href1 href2 halike inp old old'
  have r := ERel.trans_of r1 r2
  revert r
  cases propagate g (K.behav h) inp old <;> cases propagate (relabelled g') (K.behav (relabelledHeap g')) inp old' <;> simp only [ERel, imp_self]
  rename_i st st'
  rintro ⟨st1, q1, q2⟩
  constructor
  · intro i m m' hm hm'
    rw [relabelled_node, hnode i m hm, Option.map_some, Option.some.injEq] at hm'
    rw [← hm']
    show st' (.node i) = _
    rw [q2.nodes, ← q1.nodes]
    congr 2
    show i = position g.ids m.id
    have hmem : m.id ∈ g.ids := List.mem_map.2 ⟨m, List.mem_of_getElem? hm, rfl⟩
    rw [position_mem hmem]
    have hi : i < g.ids.length := by simpa [Graph.ids] using (List.getElem?_eq_some_iff.1 hm).1
    have : m.id = g.ids[i] := by
      have := (List.getElem?_eq_some_iff.1 hm).2
      simp [Graph.ids, ← this]
    rw [this, hw.ids_nodup.idxOf_getElem i hi]
  · intro j e e' hej hej'
    have hz : (e.rename ρ, e') ∈ g1.edges.zip (relabelled g').edges := by
      apply List.mem_iff_getElem?.2
      refine ⟨j, ?_⟩
      rw [List.getElem?_zip_eq_some]
      exact ⟨by rw [hg1e, hej]; rfl, hej'⟩
    rw [q2.edges _ hz, Edge.rename_ref, q1.edges]

end

end Verif
