import Verif.Spec.Evolution
import Verif.Lemmas.Topo
/-! # Helper lemmas: what each operator does to the node and edge lists -/

namespace Verif
open Graph Relation

theorem mem_interfaces {g : Graph} {i : Iface} : i ∈ g.interfaces ↔
    ∃ e ∈ g.edges, i.edge = e.ref ∧ ((i.node = e.src ∧ g.inDeg e.src ≠ 0) ∨ (i.node = e.dst ∧ g.outDeg e.dst ≠ 0)) := by
  unfold interfaces
  simp only [List.mem_append, List.mem_map, List.mem_filter, decide_eq_true_eq]
  constructor
  · rintro (⟨e, ⟨he, h⟩, rfl⟩ | ⟨e, ⟨he, h⟩, rfl⟩)
    · exact ⟨e, he, rfl, Or.inl ⟨rfl, h⟩⟩
    · exact ⟨e, he, rfl, Or.inr ⟨rfl, h⟩⟩
  · rintro ⟨e, he, h1, ⟨h2, h3⟩ | ⟨h2, h3⟩⟩
    · exact Or.inl ⟨e, ⟨he, h3⟩, by cases i; simp_all⟩
    · exact Or.inr ⟨e, ⟨he, h3⟩, by cases i; simp_all⟩

theorem newKey_eq_zero {g : Graph} {u v} (h : ∀ e ∈ g.edges, ¬ (e.src = u ∧ e.dst = v)) : g.newKey u v = 0 := by
  unfold newKey
  rw [List.filter_eq_nil_iff.2]
  · rfl
  · intro e he; simpa using h e he

/-! ### AddSeries -/

/-- Shape of the result of `addSeries` at an interface. -/
theorem addSeries_shape {g : Graph} (h : g.WF) {i : Iface} (hi : i ∈ g.interfaces) {nid} (hn : nid ∉ g.ids) (ec nc) :
    ∃ e ∈ g.edges, i.edge = e.ref ∧ ∃ h', addSeries g i nid ec nc = .ok h' ∧
      h'.nodes = g.nodes ++ [⟨nid, nc, nc.cls⟩] ∧
      h'.edges.Perm ((if i.node = e.src then [⟨e.src, nid, 0, ec, ec.cls⟩, ⟨nid, e.dst, 0, e.comp, e.name⟩]
        else [⟨e.src, nid, 0, e.comp, e.name⟩, ⟨nid, e.dst, 0, ec, ec.cls⟩]) ++ (g.removeEdge e.ref).edges) := by
  obtain ⟨e, he, hr, hnode⟩ := mem_interfaces.1 hi
  refine ⟨e, he, hr, ?_⟩
  have hs : i.edge.src = e.src := by rw [hr]; rfl
  have hd : i.edge.dst = e.dst := by rw [hr]; rfl
  have hq : g.edge? i.edge = some e := (edge?_eq_some h).2 ⟨he, hr.symm⟩
  have hfs : ∀ x ∈ g.edges, x.src ≠ nid := fun x hx hc => hn (hc ▸ h.src_mem x hx)
  have hfd : ∀ x ∈ g.edges, x.dst ≠ nid := fun x hx hc => hn (hc ▸ h.dst_mem x hx)
  have hsn : e.src ≠ nid := hfs e he
  have key : ∀ (c1 c2 : Comp) (n1 n2 : ClassId),
      (((((g.addNode nid nc nc.cls).removeEdge e.ref).addEdge e.src nid c1 n1)).addEdge nid e.dst c2 n2).edges.Perm
        ([⟨e.src, nid, 0, c1, n1⟩, ⟨nid, e.dst, 0, c2, n2⟩] ++ (g.removeEdge e.ref).edges) := by
    intro c1 c2 n1 n2
    have k1 : ((g.addNode nid nc nc.cls).removeEdge e.ref).newKey e.src nid = 0 :=
      newKey_eq_zero (fun x hx hc => hfd x (mem_removeEdge.1 hx).1 hc.2)
    have k2 : ((((g.addNode nid nc nc.cls).removeEdge e.ref).addEdge e.src nid c1 n1)).newKey nid e.dst = 0 := by
      apply newKey_eq_zero
      intro x hx hc
      rcases mem_addEdge.1 hx with rfl | hx
      · exact hsn hc.1
      · exact hfs x (mem_removeEdge.1 hx).1 hc.1
    refine (addEdge_perm _ _ _ _ _).trans ?_
    rw [k2]
    refine (List.Perm.cons _ (addEdge_perm _ _ _ _ _)).trans ?_
    rw [k1]
    exact List.Perm.swap _ _ _
  unfold addSeries
  rw [hq]
  simp only
  rcases hnode with ⟨hnode, _⟩ | ⟨hnode, _⟩
  · rw [if_pos (by rw [hs]; exact hnode), if_pos hnode]
    refine ⟨_, rfl, rfl, ?_⟩
    rw [hnode, hd, hr]
    exact key _ _ _ _
  · by_cases hsd : e.src = e.dst
    · rw [if_pos (by rw [hs, hsd]; exact hnode), if_pos (by rw [hsd]; exact hnode)]
      refine ⟨_, rfl, rfl, ?_⟩
      rw [hnode, hd, hr, ← hsd]
      have := key ec e.comp ec.cls e.name
      rw [← hsd] at this
      exact this
    · have : ¬ (i.node = e.src) := fun hc => hsd (hc.symm.trans hnode)
      rw [if_neg (by rw [hs]; exact this), if_neg this]
      refine ⟨_, rfl, rfl, ?_⟩
      rw [hnode, hs, hr]
      exact key _ _ _ _

theorem addSeries_wf {g h' : Graph} (h : g.WF) {i : Iface} (hi : i ∈ g.interfaces) {nid} (hn : nid ∉ g.ids) {ec nc}
    (hh : addSeries g i nid ec nc = .ok h') : h'.WF := by
  obtain ⟨e, he, hr, hnode⟩ := mem_interfaces.1 hi
  have hq : g.edge? i.edge = some e := (edge?_eq_some h).2 ⟨he, hr.symm⟩
  have hs : i.edge.src = e.src := by rw [hr]; rfl
  have hd : i.edge.dst = e.dst := by rw [hr]; rfl
  unfold addSeries at hh
  rw [hq] at hh
  simp only at hh
  have w1 := (h.addNode hn nc nc.cls).removeEdge i.edge
  have hi1 : ((g.addNode nid nc nc.cls).removeEdge i.edge).ids = g.ids ++ [nid] := by simp
  have ms : e.src ∈ g.ids ++ [nid] := by simp [h.src_mem e he]
  have md : e.dst ∈ g.ids ++ [nid] := by simp [h.dst_mem e he]
  have mn : nid ∈ g.ids ++ [nid] := by simp
  have mi : i.node ∈ g.ids ++ [nid] := by
    rcases hnode with ⟨hnode, _⟩ | ⟨hnode, _⟩ <;> rw [hnode] <;> assumption
  split at hh
  · injection hh with hh
    rw [← hh, hd]
    exact (w1.addEdge (by rw [hi1]; exact mi) (by rw [hi1]; exact mn) _ _).addEdge
      (by rw [addEdge_ids, hi1]; exact mn) (by rw [addEdge_ids, hi1]; exact md) _ _
  · injection hh with hh
    rw [← hh, hs]
    exact (w1.addEdge (by rw [hi1]; exact ms) (by rw [hi1]; exact mn) _ _).addEdge
      (by rw [addEdge_ids, hi1]; exact mn) (by rw [addEdge_ids, hi1]; exact mi) _ _

/-- Adjacency after `addSeries`: the edge `src → dst` is replaced by `src → nid → dst`. -/
theorem addSeries_adj {g h' : Graph} (h : g.WF) {i : Iface} (hi : i ∈ g.interfaces) {nid} (hn : nid ∉ g.ids) {ec nc}
    (hh : addSeries g i nid ec nc = .ok h') :
    ∃ e ∈ g.edges, i.edge = e.ref ∧ ∀ x y, h'.Adj x y ↔
      (x = e.src ∧ y = nid) ∨ (x = nid ∧ y = e.dst) ∨ (g.removeEdge e.ref).Adj x y := by
  obtain ⟨e, he, hr, h'', h1, _, h3⟩ := addSeries_shape h hi hn ec nc
  rw [hh] at h1; injection h1 with h1; subst h1
  refine ⟨e, he, hr, fun x y => ?_⟩
  constructor
  · rintro ⟨a, ha, rfl, rfl⟩
    have := h3.mem_iff.1 ha
    split at this <;> simp only [List.cons_append, List.nil_append, List.mem_cons] at this
    all_goals
      rcases this with rfl | rfl | this
      · exact Or.inl ⟨rfl, rfl⟩
      · exact Or.inr (Or.inl ⟨rfl, rfl⟩)
      · exact Or.inr (Or.inr ⟨a, this, rfl, rfl⟩)
  · rintro (⟨rfl, rfl⟩ | ⟨rfl, rfl⟩ | ⟨a, ha, rfl, rfl⟩)
    · split at h3
      · exact ⟨_, h3.mem_iff.2 (List.mem_cons_self), rfl, rfl⟩
      · exact ⟨_, h3.mem_iff.2 (List.mem_cons_self), rfl, rfl⟩
    · split at h3
      · exact ⟨_, h3.mem_iff.2 (List.mem_cons_of_mem _ List.mem_cons_self), rfl, rfl⟩
      · exact ⟨_, h3.mem_iff.2 (List.mem_cons_of_mem _ List.mem_cons_self), rfl, rfl⟩
    · exact ⟨a, h3.mem_iff.2 (List.mem_append.2 (Or.inr ha)), rfl, rfl⟩

theorem addSeries_acyclic {g h' : Graph} (h : g.WF) (ha : g.Acyclic) {i : Iface} (hi : i ∈ g.interfaces) {nid}
    (hn : nid ∉ g.ids) {ec nc} (hh : addSeries g i nid ec nc = .ok h') : h'.Acyclic := by
  obtain ⟨e, he, _, hadj⟩ := addSeries_adj h hi hn hh
  -- every path maps to a path of `g` when the new node is identified with the source of the split edge
  have hf : ∀ x y, TransGen h'.Adj x y → x ∈ g.ids → y ∈ g.ids → TransGen g.Adj x y := by
    have gen : ∀ x y, TransGen h'.Adj x y → x ∈ g.ids →
        (y ∈ g.ids → TransGen g.Adj x y) ∧ (y = nid → g.Reach x e.src) := by
      intro x y hxy hx
      induction hxy with
      | single hs =>
        rcases (hadj _ _).1 hs with ⟨rfl, rfl⟩ | ⟨rfl, rfl⟩ | hs
        · exact ⟨fun hc => absurd hc hn, fun _ => .refl⟩
        · exact absurd hx hn
        · exact ⟨fun _ => .single (adj_removeEdge_le hs), fun hc => absurd (hc ▸ (adj_removeEdge_le hs).dst_mem h) hn⟩
      | tail _ hs ih =>
        rcases (hadj _ _).1 hs with ⟨rfl, rfl⟩ | ⟨rfl, rfl⟩ | hs
        · exact ⟨fun hc => absurd hc hn, fun _ => (ih.1 (h.src_mem e he)).to_reflTransGen⟩
        · exact ⟨fun _ => TransGen.tail' (ih.2 rfl) ⟨e, he, rfl, rfl⟩, fun hc => absurd (hc ▸ h.dst_mem e he) hn⟩
        · have hs := adj_removeEdge_le hs
          exact ⟨fun _ => (ih.1 (hs.src_mem h)).tail hs, fun hc => absurd (hc ▸ hs.dst_mem h) hn⟩
    exact fun x y hxy hx hy => (gen x y hxy hx).1 hy
  have hcl : ∀ x y, h'.Adj x y → (x ∈ g.ids ∨ x = nid) ∧ (y ∈ g.ids ∨ y = nid) := by
    intro x y hxy
    rcases (hadj _ _).1 hxy with ⟨rfl, rfl⟩ | ⟨rfl, rfl⟩ | hs
    · exact ⟨Or.inl (h.src_mem e he), Or.inr rfl⟩
    · exact ⟨Or.inr rfl, Or.inl (h.dst_mem e he)⟩
    · have hs := adj_removeEdge_le hs
      exact ⟨Or.inl (hs.src_mem h), Or.inl (hs.dst_mem h)⟩
  intro x hx
  by_cases hxg : x ∈ g.ids
  · exact ha x (hf x x hx hxg hxg)
  · -- then `x = nid`; rotate the cycle so that it starts at the target of the split edge
    obtain ⟨y, hxy, hyx⟩ := TransGen.head'_iff.1 hx
    have hxn : x = nid := ((hcl _ _ hxy).1).resolve_left hxg
    subst hxn
    have hyd : y = e.dst := by
      rcases (hadj _ _).1 hxy with ⟨h1, _⟩ | ⟨_, h2⟩ | hs
      · exact absurd (h1 ▸ h.src_mem e he) hxg
      · exact h2
      · exact absurd ((adj_removeEdge_le hs).src_mem h) hxg
    subst hyd
    have : TransGen h'.Adj e.dst e.dst := TransGen.tail' hyx hxy
    exact ha _ (hf _ _ this (h.dst_mem e he) (h.dst_mem e he))

/-! ### AddParallel -/

theorem mem_pairs {α : Type} {l : List α} {a b : α} (h : (a, b) ∈ pairs l) :
    ∃ l1 l2 l3, l = l1 ++ a :: l2 ++ b :: l3 := by
  induction l with
  | nil => simp [pairs] at h
  | cons x xs ih =>
    unfold pairs at h
    rcases List.mem_append.1 h with h | h
    · obtain ⟨y, hy, he⟩ := List.mem_map.1 h
      injection he with h1 h2
      subst h1 h2
      obtain ⟨l2, l3, rfl⟩ := List.append_of_mem hy
      exact ⟨[], l2, l3, by simp⟩
    · obtain ⟨l1, l2, l3, rfl⟩ := ih h
      exact ⟨x :: l1, l2, l3, by simp⟩

theorem mem_pairs_iff {α : Type} {l : List α} {a b : α} : (a, b) ∈ pairs l ↔
    ∃ l1 l2 l3, l = l1 ++ a :: l2 ++ b :: l3 := by
  refine ⟨mem_pairs, ?_⟩
  rintro ⟨l1, l2, l3, rfl⟩
  induction l1 with
  | nil => simp [pairs]
  | cons x l1 ih =>
    simp only [List.cons_append, pairs, List.mem_append]
    exact Or.inr (by simpa using ih)

theorem sublist_idxOf_lt {l o : List NodeId} (hs : l.Sublist o) (hnd : o.Nodup) {l1 l2 l3 a b}
    (hl : l = l1 ++ a :: l2 ++ b :: l3) : o.idxOf a < o.idxOf b := by
  have hsub : [a, b].Sublist o := by
    refine List.Sublist.trans ?_ hs
    rw [hl]
    have : [a, b] = [a] ++ [b] := rfl
    rw [this]
    apply List.Sublist.append
    · exact List.singleton_sublist.2 (by simp)
    · exact List.singleton_sublist.2 (by simp)
  clear hl hs
  induction o with
  | nil => simp at hsub
  | cons x o ih =>
    cases hsub with
    | cons _ hsub =>
      have hx := (List.nodup_cons.1 hnd).1
      have ha : a ∈ o := hsub.subset (by simp)
      have hb : b ∈ o := hsub.subset (by simp)
      rw [List.idxOf_cons_ne _ (fun hc : x = a => hx (hc ▸ ha)), List.idxOf_cons_ne _ (fun hc : x = b => hx (hc ▸ hb))]
      exact Nat.succ_lt_succ (ih (List.nodup_cons.1 hnd).2 hsub)
    | cons_cons _ hsub =>
      have hb : b ∈ o := hsub.subset (by simp)
      have hx := (List.nodup_cons.1 hnd).1
      rw [List.idxOf_cons_self, List.idxOf_cons_ne _ (fun hc : a = b => hx (hc ▸ hb))]
      omega

/-- What is known about an offered pair. -/
theorem parallelLocs_spec {g : Graph} {o} (ho : g.IsTopo o) {u v} (h : (u, v) ∈ parallelLocs g o) :
    u ∈ g.ids ∧ v ∈ g.ids ∧ parallelOk g u = true ∧ parallelOk g v = true ∧ o.idxOf u < o.idxOf v := by
  obtain ⟨l1, l2, l3, hl⟩ := mem_pairs h
  have hu : u ∈ o.filter (parallelOk g) := by rw [hl]; simp
  have hv : v ∈ o.filter (parallelOk g) := by rw [hl]; simp
  exact ⟨(ho.mem_iff u).1 (List.mem_filter.1 hu).1, (ho.mem_iff v).1 (List.mem_filter.1 hv).1,
    (List.mem_filter.1 hu).2, (List.mem_filter.1 hv).2, sublist_idxOf_lt List.filter_sublist ho.nodup hl⟩

theorem parallelOk_iff {g : Graph} {v} : parallelOk g v = true ↔ ∃ n, g.node? v = some n ∧
    g.inDeg v ≠ 0 ∧ g.outDeg v ≠ 0 ∧ n.comp.prot = false ∧ g.inDeg v < n.comp.maxIn ∧ g.outDeg v < n.comp.maxIn := by
  unfold parallelOk
  cases g.node? v with
  | none => simp
  | some n => simp

theorem not_reach_of_idx {g : Graph} {o} (ho : g.IsTopo o) {u v} (h : o.idxOf u < o.idxOf v) : ¬ g.Reach v u := by
  intro hr
  rcases reflTransGen_iff_eq_or_transGen.1 hr with rfl | hr
  · exact lt_irrefl _ h
  · exact lt_asymm h (ho.lt_of_path hr)

/-! ### Remove -/

theorem nodeProt_false {g : Graph} {v} (h : nodeProt g v = false) : ∃ n, g.node? v = some n ∧ n.comp.prot = false := by
  unfold nodeProt at h
  cases hn : g.node? v with
  | none => simp [hn] at h
  | some n => exact ⟨n, rfl, by simpa [hn] using h⟩

theorem edgeProt_false {g : Graph} {r} (h : edgeProt g r = false) : ∃ n, g.edge? r = some n ∧ n.comp.prot = false := by
  unfold edgeProt at h
  cases hn : g.edge? r with
  | none => simp [hn] at h
  | some n => exact ⟨n, rfl, by simpa [hn] using h⟩

/-- What is known about an offered removal. -/
theorem removeLocs_spec {g : Graph} (h : g.WF) {i} (hi : i ∈ removeLocs g) :
    ∃ e ∈ g.edges, ∃ nu ∈ g.nodes, ∃ nv ∈ g.nodes, i.edge = e.ref ∧ nu.id = e.src ∧ nv.id = e.dst ∧
      (i.node = e.src ∨ i.node = e.dst) ∧ e.comp.prot = false ∧ nu.comp.prot = false ∧ nv.comp.prot = false ∧
      g.inDeg e.src ≠ 0 ∧ g.outDeg e.dst ≠ 0 := by
  obtain ⟨h1, h2⟩ := List.mem_filter.1 hi
  obtain ⟨e, he, hr, hnode⟩ := mem_interfaces.1 h1
  have hs : i.edge.src = e.src := by rw [hr]; rfl
  have hd : i.edge.dst = e.dst := by rw [hr]; rfl
  simp only [decide_eq_true_eq] at h2
  obtain ⟨a, b, c, d, f⟩ := h2
  rw [hs] at a d
  rw [hd] at b f
  simp only [Bool.not_eq_true] at c d f
  obtain ⟨e', he', hp⟩ := edgeProt_false c
  obtain ⟨hm, hr'⟩ := (edge?_eq_some h).1 he'
  have : e' = e := List.inj_on_of_nodup_map h.refs_nodup hm he (hr'.trans hr)
  subst this
  obtain ⟨nu, hu, hpu⟩ := nodeProt_false d
  obtain ⟨nv, hv, hpv⟩ := nodeProt_false f
  obtain ⟨mu, iu⟩ := (node?_eq_some h).1 hu
  obtain ⟨mv, iv⟩ := (node?_eq_some h).1 hv
  exact ⟨e', he, nu, mu, nv, mv, hr, iu, iv, hnode.imp And.left And.left, hp, hpu, hpv, a, b⟩

/-- The two outcomes of `removeComp` at an edge of a DAG. -/
theorem removeComp_shape {g : Graph} (h : g.WF) {i : Iface} {e} (he : e ∈ g.edges) (hr : i.edge = e.ref)
    (hnode : i.node = e.src ∨ i.node = e.dst) :
    ∃ keep ∈ g.nodes, keep.id = i.node ∧ removeComp g i = .ok
      (if (g.removeEdge e.ref).hasPath e.src e.dst then g.removeEdge e.ref
        else ((g.removeEdge e.ref).contract e.src e.dst).setNode e.src
          (fun n => { n with comp := keep.comp, name := keep.name })) := by
  have hs : i.edge.src = e.src := by rw [hr]; rfl
  have hd : i.edge.dst = e.dst := by rw [hr]; rfl
  have hq : g.edge? i.edge = some e := (edge?_eq_some h).2 ⟨he, hr.symm⟩
  have hm : i.node ∈ g.ids := by
    rcases hnode with hc | hc <;> rw [hc]
    · exact h.src_mem e he
    · exact h.dst_mem e he
  obtain ⟨keep, hk⟩ := node?_isSome h hm
  obtain ⟨k1, k2⟩ := (node?_eq_some h).1 hk
  refine ⟨keep, k1, k2, ?_⟩
  unfold removeComp
  rw [hq]
  simp only
  rw [hs, hd, hr]
  split
  · rfl
  · have : (g.removeEdge e.ref).node? i.node = some keep := hk
    rw [this]

/-- Facts that hold when the end nodes have to be merged. -/
structure MergeFacts (g : Graph) (e : Edge) : Prop where
  no_uv : ¬ (g.removeEdge e.ref).Reach e.src e.dst
  no_vu : ¬ (g.removeEdge e.ref).Reach e.dst e.src
  ne : e.src ≠ e.dst

theorem mergeFacts {g : Graph} (ha : g.Acyclic) {e} (he : e ∈ g.edges)
    (hp : ¬ (g.removeEdge e.ref).hasPath e.src e.dst = true) : MergeFacts g e where
  no_uv := fun hc => hp (hasPath_iff.2 hc)
  no_vu := fun hc => by
    have : g.Reach e.dst e.src := ReflTransGen.mono (fun _ _ => adj_removeEdge_le) _ _ hc
    exact ha e.src (TransGen.head' ⟨e, he, rfl, rfl⟩ this)
  ne := ha.no_loop he

theorem MergeFacts.no_edges {g : Graph} (ha : g.Acyclic) {e} (m : MergeFacts g e) :
    (∀ x ∈ (g.removeEdge e.ref).edges, ¬ (x.src = e.src ∧ x.dst = e.dst)) ∧
    (∀ x ∈ (g.removeEdge e.ref).edges, ¬ (x.src = e.dst ∧ x.dst = e.src)) ∧
    (∀ x ∈ (g.removeEdge e.ref).edges, ¬ (x.src = e.dst ∧ x.dst = e.dst)) := by
  refine ⟨fun x hx hc => m.no_uv (.single ⟨x, hx, hc.1, hc.2⟩), fun x hx hc => m.no_vu (.single ⟨x, hx, hc.1, hc.2⟩), ?_⟩
  intro x hx hc
  exact ha.no_loop (mem_removeEdge.1 hx).1 (hc.1.trans hc.2.symm)

theorem setNode_congr_adj (g : Graph) (i f) : (g.setNode i f).Adj = g.Adj := rfl

/-! ### Swap -/

theorem setEdge_comp_refs (g : Graph) (r c) :
    (g.setEdge r (fun e => { e with comp := c })).edges.map Edge.ref = g.edges.map Edge.ref :=
  setEdge_refs g r _ (fun _ => rfl)

theorem setNode_comp_ids (g : Graph) (r c) : (g.setNode r (fun e => { e with comp := c })).ids = g.ids :=
  setNode_ids g r _ (fun _ => rfl)

theorem mem_swapLocs {lib g l} (h : l ∈ swapLocs lib g) :
    (∃ n ∈ g.nodes, l = .node n.id ∧ n.comp.prot = false ∧ g.inDeg n.id ≠ 0 ∧ g.outDeg n.id ≠ 0 ∧
      1 < lib.node.length) ∨
    (∃ e ∈ g.edges, l = .edge e.ref ∧ e.comp.prot = false ∧ 1 < (edgeCategory lib g e.ref).length) := by
  unfold swapLocs at h
  rcases List.mem_append.1 h with h | h
  · obtain ⟨n, hn, rfl⟩ := List.mem_map.1 h
    obtain ⟨h1, h2⟩ := List.mem_filter.1 hn
    simp only [decide_eq_true_eq, Bool.not_eq_true, swapPossible] at h2
    exact Or.inl ⟨n, h1, rfl, h2.1, h2.2.1, h2.2.2.1, h2.2.2.2⟩
  · obtain ⟨n, hn, rfl⟩ := List.mem_map.1 h
    obtain ⟨h1, h2⟩ := List.mem_filter.1 hn
    simp only [decide_eq_true_eq, Bool.not_eq_true, swapPossible] at h2
    exact Or.inr ⟨n, h1, rfl, h2.1, h2.2⟩

/-- The result of a swap with a non-empty draw. -/
theorem swapComp_shape {lib g l c g'} (h : swapComp lib false g l c = .ok g') (hc : c.cls ∈ swapSet lib g l) :
    (∃ v, l = .node v ∧ g' = g.setNode v (fun n => { n with comp := c })) ∨
    (∃ r, l = .edge r ∧ g' = g.setEdge r (fun e => { e with comp := c })) := by
  have hne : swapSet lib g l ≠ [] := fun hn => by rw [hn] at hc; simp at hc
  unfold swapComp at h
  cases l with
  | node v =>
    simp only at h
    split at h
    · cases h
    · rw [if_neg hne] at h; injection h with h; exact Or.inl ⟨v, rfl, h.symm⟩
  | edge v =>
    simp only at h
    split at h
    · cases h
    · rw [if_neg hne] at h; injection h with h; exact Or.inr ⟨v, rfl, h.symm⟩
  | iface => cases h
  | pair => cases h

/-! ### All steps -/

/-- The shapes a legal step can have. -/
inductive StepKind (lib : Library) (g : Graph) (r : StepRec) (g' : Graph) : Prop
  | series (i : Iface) (hop : r.op = .addSeries) (hloc : r.loc = .iface i) (hi : i ∈ g.interfaces)
      (hn : r.draw.nid ∉ g.ids) (hec : r.draw.ec.cls ∈ lib.edge) (hnc : r.draw.nc.cls ∈ lib.node)
      (h : addSeries g i r.draw.nid r.draw.ec r.draw.nc = .ok g')
  | parallel (u v : NodeId) (order : List NodeId) (hop : r.op = .addParallel) (hloc : r.loc = .pair u v)
      (ho : g.IsTopo order) (hi : (u, v) ∈ parallelLocs g order) (hec : r.draw.ec.cls ∈ lib.edge)
      (h : g' = addParallel g u v r.draw.ec)
  | remove (i : Iface) (hop : r.op = .remove) (hloc : r.loc = .iface i) (hi : i ∈ removeLocs g)
      (h : removeComp g i = .ok g')
  | swapNode (v : NodeId) (hop : r.op = .swap) (hloc : r.loc = .node v) (hi : r.loc ∈ swapLocs lib g)
      (hc : r.draw.ec.cls ∈ swapSet lib g r.loc)
      (h : g' = g.setNode v (fun n => { n with comp := r.draw.ec }))
  | swapEdge (v : EdgeRef) (hop : r.op = .swap) (hloc : r.loc = .edge v) (hi : r.loc ∈ swapLocs lib g)
      (hc : r.draw.ec.cls ∈ swapSet lib g r.loc)
      (h : g' = g.setEdge v (fun n => { n with comp := r.draw.ec }))

theorem legal_kind {lib g r g'} (h : LegalStep lib g r g') : StepKind lib g r g' := by
  obtain ⟨⟨o, ho, hl⟩, hd, ha⟩ := h
  cases hop : r.op with
  | addSeries =>
    rw [hop] at hl hd ha
    obtain ⟨i, hi, hloc⟩ := List.mem_map.1 hl
    rw [← hloc] at ha
    exact .series i hop hloc.symm hi hd.1 hd.2.1 hd.2.2 ha
  | addParallel =>
    rw [hop] at hl hd ha
    obtain ⟨⟨u, v⟩, hi, hloc⟩ := List.mem_map.1 hl
    rw [← hloc] at ha
    injection ha with ha
    exact .parallel u v o hop hloc.symm ho hi hd ha.symm
  | remove =>
    rw [hop] at hl hd ha
    obtain ⟨i, hi, hloc⟩ := List.mem_map.1 hl
    rw [← hloc] at ha
    exact .remove i hop hloc.symm hi ha
  | swap =>
    rw [hop] at hl hd ha
    have hl' : r.loc ∈ swapLocs lib g := hl
    have ha' : swapComp lib false g r.loc r.draw.ec = .ok g' := ha
    rcases swapComp_shape ha' hd with ⟨v, hv, hg⟩ | ⟨v, hv, hg⟩
    · exact .swapNode v hop hv hl' hd hg
    · exact .swapEdge v hop hv hl' hd hg

theorem step_wf {lib g r g'} (hw : g.WF) (ha : g.Acyclic) (hs : LegalStep lib g r g') : g'.WF := by
  cases legal_kind hs with
  | series i _ _ hi hn _ _ h => exact addSeries_wf hw hi hn h
  | parallel u v o _ _ ho hi _ h =>
    obtain ⟨h1, h2, _⟩ := parallelLocs_spec ho hi
    subst h; exact hw.addEdge h1 h2 _ _
  | remove i _ _ hi h =>
    obtain ⟨e, he, nu, _, nv, _, hr, _, _, hnode, _⟩ := removeLocs_spec hw hi
    obtain ⟨keep, _, _, hres⟩ := removeComp_shape hw he hr hnode
    rw [h] at hres; injection hres with hres
    split at hres
    · subst hres; exact hw.removeEdge _
    · rename_i hp
      have m := mergeFacts ha he hp
      subst hres
      refine WF.of_eq (contract_wf (hw.removeEdge e.ref) (hw.src_mem e he) m.ne) ?_ rfl
      exact setNode_ids _ _ _ (fun _ => rfl)
  | swapNode v _ _ _ _ h => subst h; exact hw.of_eq (setNode_comp_ids _ _ _) rfl
  | swapEdge v _ _ _ _ h => subst h; exact hw.of_eq rfl (setEdge_comp_refs _ _ _)

theorem step_acyclic {lib g r g'} (hw : g.WF) (ha : g.Acyclic) (hs : LegalStep lib g r g') : g'.Acyclic := by
  cases legal_kind hs with
  | series i _ _ hi hn _ _ h => exact addSeries_acyclic hw ha hi hn h
  | parallel u v o _ _ ho hi _ h =>
    obtain ⟨_, _, _, _, h5⟩ := parallelLocs_spec ho hi
    subst h; exact ha.addEdge (not_reach_of_idx ho h5)
  | remove i _ _ hi h =>
    obtain ⟨e, he, nu, _, nv, _, hr, _, _, hnode, _⟩ := removeLocs_spec hw hi
    obtain ⟨keep, _, _, hres⟩ := removeComp_shape hw he hr hnode
    rw [h] at hres; injection hres with hres
    have ha1 : (g.removeEdge e.ref).Acyclic := ha.mono (fun _ _ => adj_removeEdge_le)
    split at hres
    · subst hres; exact ha1
    · rename_i hp
      have m := mergeFacts ha he hp
      obtain ⟨n1, n2, n3⟩ := m.no_edges ha
      subst hres
      have : ((g.removeEdge e.ref).contract e.src e.dst).Acyclic :=
        merge_acyclic ha1 (fun hc => m.no_uv hc.to_reflTransGen) (fun hc => m.no_vu hc.to_reflTransGen)
          (fun x y hxy => (contract_adj n1 n2 n3).1 hxy)
      exact this
  | swapNode v _ _ _ _ h => subst h; exact ha
  | swapEdge v _ _ _ _ h =>
    subst h
    exact ha.mono (fun x y hxy => by rw [adj_congr (setEdge_comp_refs _ _ _)] at hxy; exact hxy)

/-- Presence of an in-edge / out-edge in terms of adjacency. -/
theorem isSource_iff {g : Graph} {v} : g.IsSource v ↔ v ∈ g.ids ∧ ∀ x, ¬ g.Adj x v :=
  ⟨fun h => ⟨h.1, fun _ ⟨e, he, _, h2⟩ => h.2 e he h2⟩, fun h => ⟨h.1, fun e he hd => h.2 e.src ⟨e, he, rfl, hd⟩⟩⟩

theorem isSink_iff {g : Graph} {v} : g.IsSink v ↔ v ∈ g.ids ∧ ∀ x, ¬ g.Adj v x :=
  ⟨fun h => ⟨h.1, fun _ ⟨e, he, h1, _⟩ => h.2 e he h1⟩, fun h => ⟨h.1, fun e he hd => h.2 e.dst ⟨e, he, hd, rfl⟩⟩⟩

/-- Every legal step keeps the sets of sources and sinks. -/
theorem step_terminals {lib g r g'} (hw : g.WF) (ha : g.Acyclic) (hs : LegalStep lib g r g') :
    (∀ v, g'.IsSource v ↔ g.IsSource v) ∧ (∀ v, g'.IsSink v ↔ g.IsSink v) := by
  simp only [isSource_iff, isSink_iff]
  cases legal_kind hs with
  | series i _ _ hi hn _ _ h =>
    obtain ⟨e, he, _, hadj⟩ := addSeries_adj hw hi hn h
    obtain ⟨_, _, _, h'', h1, hnodes, _⟩ := addSeries_shape hw hi hn r.draw.ec r.draw.nc
    rw [h] at h1; injection h1 with h1; subst h1
    have hids : g'.ids = g.ids ++ [r.draw.nid] := by simp [Graph.ids, hnodes]
    have hne : ∀ v ∈ g.ids, v ≠ r.draw.nid := fun v hv hc => hn (hc ▸ hv)
    rw [hids]
    constructor
    · intro v
      constructor
      · rintro ⟨hv, hx⟩
        have hvn : v ≠ r.draw.nid := fun hc => hx e.src ((hadj _ _).2 (Or.inl ⟨rfl, hc⟩))
        refine ⟨by simpa [hvn] using hv, fun x hxv => ?_⟩
        rcases adj_removeEdge_or (r := e.ref) hxv with h1 | ⟨_, h2⟩
        · exact hx x ((hadj _ _).2 (Or.inr (Or.inr h1)))
        · exact hx _ ((hadj _ _).2 (Or.inr (Or.inl ⟨rfl, h2⟩)))
      · rintro ⟨hv, hx⟩
        refine ⟨by simp [hv], fun x hxv => ?_⟩
        rcases (hadj _ _).1 hxv with ⟨_, h2⟩ | ⟨_, h2⟩ | h2
        · exact hne v hv h2
        · exact hx e.src ⟨e, he, rfl, h2.symm⟩
        · exact hx x (adj_removeEdge_le h2)
    · intro v
      constructor
      · rintro ⟨hv, hx⟩
        have hvn : v ≠ r.draw.nid := fun hc => hx e.dst ((hadj _ _).2 (Or.inr (Or.inl ⟨hc, rfl⟩)))
        refine ⟨by simpa [hvn] using hv, fun x hxv => ?_⟩
        rcases adj_removeEdge_or (r := e.ref) hxv with h1 | ⟨h1, _⟩
        · exact hx x ((hadj _ _).2 (Or.inr (Or.inr h1)))
        · exact hx _ ((hadj _ _).2 (Or.inl ⟨h1, rfl⟩))
      · rintro ⟨hv, hx⟩
        refine ⟨by simp [hv], fun x hxv => ?_⟩
        rcases (hadj _ _).1 hxv with ⟨h2, _⟩ | ⟨h2, _⟩ | h2
        · exact hx e.dst ⟨e, he, h2.symm, rfl⟩
        · exact hne v hv h2
        · exact hx x (adj_removeEdge_le h2)
  | parallel u v o _ _ ho hi _ h =>
    obtain ⟨_, _, h3, h4, _⟩ := parallelLocs_spec ho hi
    obtain ⟨_, _, _, hu, _⟩ := parallelOk_iff.1 h3
    obtain ⟨_, _, hv, _⟩ := parallelOk_iff.1 h4
    obtain ⟨a, ha1, ha2⟩ := outDeg_ne_zero.1 hu
    obtain ⟨b, hb1, hb2⟩ := inDeg_ne_zero.1 hv
    subst h
    constructor <;> intro w
    · refine and_congr Iff.rfl ⟨fun hx x hxv => hx x (adj_addEdge.2 (Or.inr hxv)), fun hx x hxv => ?_⟩
      rcases adj_addEdge.1 hxv with ⟨_, rfl⟩ | h1
      · exact hx b.src ⟨b, hb1, rfl, hb2⟩
      · exact hx x h1
    · refine and_congr Iff.rfl ⟨fun hx x hxv => hx x (adj_addEdge.2 (Or.inr hxv)), fun hx x hxv => ?_⟩
      rcases adj_addEdge.1 hxv with ⟨rfl, _⟩ | h1
      · exact hx a.dst ⟨a, ha1, ha2, rfl⟩
      · exact hx x h1
  | remove i _ _ hi h =>
    obtain ⟨e, he, nu, _, nv, _, hr, _, _, hnode, _, _, _, hin, hout⟩ := removeLocs_spec hw hi
    obtain ⟨keep, _, _, hres⟩ := removeComp_shape hw he hr hnode
    obtain ⟨a, ha1, ha2⟩ := inDeg_ne_zero.1 hin
    obtain ⟨b, hb1, hb2⟩ := outDeg_ne_zero.1 hout
    have hne := ha.no_loop he
    rw [h] at hres; injection hres with hres
    split at hres
    · rename_i hp
      have hp := hasPath_iff.1 hp
      have hp : TransGen (g.removeEdge e.ref).Adj e.src e.dst := by
        rcases reflTransGen_iff_eq_or_transGen.1 hp with hc | hc
        · exact absurd hc.symm hne
        · exact hc
      obtain ⟨c, hc, _⟩ := TransGen.head'_iff.1 hp
      obtain ⟨d, _, hd⟩ := TransGen.tail'_iff.1 hp
      subst hres
      constructor <;> intro w
      · refine and_congr Iff.rfl ⟨fun hx x hxv => ?_, fun hx x hxv => hx x (adj_removeEdge_le hxv)⟩
        rcases adj_removeEdge_or (r := e.ref) hxv with h1 | ⟨_, rfl⟩
        · exact hx x h1
        · exact hx d hd
      · refine and_congr Iff.rfl ⟨fun hx x hxv => ?_, fun hx x hxv => hx x (adj_removeEdge_le hxv)⟩
        rcases adj_removeEdge_or (r := e.ref) hxv with h1 | ⟨rfl, _⟩
        · exact hx x h1
        · exact hx c hc
    · rename_i hp
      have m := mergeFacts ha he hp
      obtain ⟨n1, n2, n3⟩ := m.no_edges ha
      have hadj : ∀ x y, g'.Adj x y ↔ ∃ a b, (g.removeEdge e.ref).Adj a b ∧ ren e.src e.dst a = x ∧ ren e.src e.dst b = y := by
        intro x y; subst hres; exact contract_adj n1 n2 n3
      have hids : ∀ x, x ∈ g'.ids ↔ x ∈ g.ids ∧ x ≠ e.dst := by
        intro x
        subst hres
        rw [setNode_ids _ _ (fun n : Node => { n with comp := keep.comp, name := keep.name }) (fun _ => rfl), contract_ids]
        simp
      have ha' : (g.removeEdge e.ref).Adj a.src e.src :=
        ⟨a, mem_removeEdge.2 ⟨ha1, fun hc => hne (ha2.symm.trans (congrArg EdgeRef.dst hc))⟩, rfl, ha2⟩
      have hb' : (g.removeEdge e.ref).Adj e.dst b.dst :=
        ⟨b, mem_removeEdge.2 ⟨hb1, fun hc => hne ((congrArg EdgeRef.src hc).symm.trans hb2)⟩, hb2, rfl⟩
      constructor <;> intro w
      · rw [hids]
        constructor
        · rintro ⟨⟨hw1, hw2⟩, hx⟩
          refine ⟨hw1, fun x hxv => ?_⟩
          rcases adj_removeEdge_or (r := e.ref) hxv with h1 | ⟨_, h2⟩
          · exact hx _ ((hadj _ _).2 ⟨x, w, h1, rfl, by simp [ren, hw2]⟩)
          · exact hw2 h2
        · rintro ⟨hw1, hx⟩
          have hwd : w ≠ e.dst := fun hc => hx e.src ⟨e, he, rfl, hc.symm⟩
          refine ⟨⟨hw1, hwd⟩, fun x hxv => ?_⟩
          obtain ⟨p, q, hpq, _, hq⟩ := (hadj _ _).1 hxv
          unfold ren at hq
          split at hq
          · subst hq; exact hx a.src (adj_removeEdge_le ha')
          · subst hq; exact hx p (adj_removeEdge_le hpq)
      · rw [hids]
        constructor
        · rintro ⟨⟨hw1, hw2⟩, hx⟩
          refine ⟨hw1, fun x hxv => ?_⟩
          rcases adj_removeEdge_or (r := e.ref) hxv with h1 | ⟨rfl, _⟩
          · exact hx _ ((hadj _ _).2 ⟨w, x, h1, by simp [ren, hw2], rfl⟩)
          · exact hx _ ((hadj _ _).2 ⟨e.dst, b.dst, hb', by simp [ren, Edge.ref], rfl⟩)
        · rintro ⟨hw1, hx⟩
          have hwd : w ≠ e.dst := fun hc => hx b.dst (hc ▸ adj_removeEdge_le hb')
          refine ⟨⟨hw1, hwd⟩, fun x hxv => ?_⟩
          obtain ⟨p, q, hpq, hp', _⟩ := (hadj _ _).1 hxv
          unfold ren at hp'
          split at hp'
          · subst hp'; exact hx e.dst ⟨e, he, rfl, rfl⟩
          · subst hp'; exact hx q (adj_removeEdge_le hpq)
  | swapNode v _ _ _ _ h =>
    subst h
    have h1 := setNode_comp_ids g v r.draw.ec
    rw [h1]
    exact ⟨fun _ => Iff.rfl, fun _ => Iff.rfl⟩
  | swapEdge v _ _ _ _ h =>
    subst h
    rw [adj_congr (setEdge_comp_refs _ _ _)]
    exact ⟨fun _ => Iff.rfl, fun _ => Iff.rfl⟩

/-- Lifting a step-wise invariant to histories. -/
theorem history_inv {lib g0} (P : Graph → Prop) (h0 : P g0)
    (hstep : ∀ g r g', P g → LegalStep lib g r g' → P g') {rs g} (h : History lib g0 rs g) : P g := by
  induction h with
  | nil => exact h0
  | step _ hs ih => exact hstep _ _ _ ih hs

theorem history_dag {lib g0 rs g} (hw : g0.WF) (ha : g0.Acyclic) (h : History lib g0 rs g) : g.WF ∧ g.Acyclic :=
  history_inv (fun g => g.WF ∧ g.Acyclic) ⟨hw, ha⟩
    (fun _ _ _ hg hs => ⟨step_wf hg.1 hg.2 hs, step_acyclic hg.1 hg.2 hs⟩) h

theorem history_terminals {lib g0 rs g} (hw : g0.WF) (ha : g0.Acyclic) (h : History lib g0 rs g) :
    (∀ v, g.IsSource v ↔ g0.IsSource v) ∧ (∀ v, g.IsSink v ↔ g0.IsSink v) := by
  induction h with
  | nil => exact ⟨fun _ => Iff.rfl, fun _ => Iff.rfl⟩
  | step hh hs ih =>
    obtain ⟨w, a⟩ := history_dag hw ha hh
    obtain ⟨t1, t2⟩ := step_terminals w a hs
    exact ⟨fun v => (t1 v).trans (ih.1 v), fun v => (t2 v).trans (ih.2 v)⟩

end Verif
