import Verif.Spec.Graph
import Mathlib.Data.List.Nodup
import Mathlib.Data.List.Perm.Basic
import Mathlib.Data.List.Dedup
import Mathlib.Tactic.Linarith
/-! # Helper lemmas about the graph primitives -/

namespace Verif.Graph
open Relation

theorem insertAfterLast_perm (p : Edge → Bool) (e : Edge) (l : List Edge) :
    (insertAfterLast p e l).Perm (e :: l) := by
  induction l with
  | nil => simp [insertAfterLast]
  | cons x xs ih =>
    unfold insertAfterLast
    split
    · exact (List.Perm.cons x ih).trans (List.Perm.swap e x xs)
    · split
      · exact List.Perm.swap e x xs
      · exact List.Perm.refl _

theorem firstFree_mem_run (ks : List Nat) : ∀ fuel k, firstFree ks fuel k ∈ ks →
    ∀ j, j ≤ fuel → k + j ∈ ks
  | 0, k, h, j, hj => by
    have : j = 0 := by omega
    subst this; simpa [firstFree] using h
  | fuel + 1, k, h, j, hj => by
    unfold firstFree at h
    by_cases hk : k ∈ ks
    · rw [if_pos hk] at h
      have ih := firstFree_mem_run ks fuel (k + 1) h
      rcases Nat.eq_zero_or_pos j with rfl | hpos
      · simpa using hk
      · have := ih (j - 1) (by omega)
        have e : k + 1 + (j - 1) = k + j := by omega
        rwa [e] at this
    · rw [if_neg hk] at h
      exact absurd h hk

theorem firstFree_not_mem (ks : List Nat) (k : Nat) : firstFree ks ks.length k ∉ ks := by
  intro h
  have hrun := firstFree_mem_run ks ks.length k h
  have hnd : ((List.range (ks.length + 1)).map (fun j => k + j)).Nodup :=
    List.Nodup.map (fun a b hab => by simpa using hab) List.nodup_range
  have hsub : (List.range (ks.length + 1)).map (fun j => k + j) ⊆ ks := by
    intro x hx
    simp only [List.mem_map, List.mem_range] at hx
    obtain ⟨j, hj, rfl⟩ := hx
    exact hrun j (by omega)
  have := (List.subperm_of_subset hnd hsub).length_le
  simp at this

theorem newKey_fresh (g : Graph) (u v : NodeId) (e : Edge) (he : e ∈ g.edges)
    (hs : e.src = u) (hd : e.dst = v) : e.key ≠ g.newKey u v := by
  intro hk
  have := firstFree_not_mem ((g.edges.filter (fun e => e.src = u ∧ e.dst = v)).map (·.key))
    ((g.edges.filter (fun e => e.src = u ∧ e.dst = v)).map (·.key)).length
  apply this
  unfold newKey at hk
  simp only at hk
  rw [← hk]
  exact List.mem_map_of_mem (List.mem_filter.2 ⟨he, by simp [hs, hd]⟩)

@[simp] theorem addEdge_nodes (g : Graph) (u v c n) : (g.addEdge u v c n).nodes = g.nodes := rfl
@[simp] theorem addEdge_ids (g : Graph) (u v c n) : (g.addEdge u v c n).ids = g.ids := rfl
@[simp] theorem addNode_edges (g : Graph) (i c n) : (g.addNode i c n).edges = g.edges := rfl
@[simp] theorem addNode_nodes (g : Graph) (i c n) : (g.addNode i c n).nodes = g.nodes ++ [⟨i, c, n⟩] := rfl
@[simp] theorem addNode_ids (g : Graph) (i c n) : (g.addNode i c n).ids = g.ids ++ [i] := by
  simp [ids]
@[simp] theorem removeEdge_nodes (g : Graph) (r) : (g.removeEdge r).nodes = g.nodes := rfl
@[simp] theorem removeEdge_ids (g : Graph) (r) : (g.removeEdge r).ids = g.ids := rfl
@[simp] theorem setEdge_nodes (g : Graph) (r f) : (g.setEdge r f).nodes = g.nodes := rfl
@[simp] theorem setNode_edges (g : Graph) (r f) : (g.setNode r f).edges = g.edges := rfl

theorem addEdge_perm (g : Graph) (u v c n) :
    (g.addEdge u v c n).edges.Perm (⟨u, v, g.newKey u v, c, n⟩ :: g.edges) :=
  insertAfterLast_perm _ _ _

theorem mem_addEdge {g : Graph} {u v c n e} :
    e ∈ (g.addEdge u v c n).edges ↔ e = ⟨u, v, g.newKey u v, c, n⟩ ∨ e ∈ g.edges := by
  rw [(addEdge_perm g u v c n).mem_iff]; simp

theorem mem_removeEdge {g : Graph} {r e} :
    e ∈ (g.removeEdge r).edges ↔ e ∈ g.edges ∧ e.ref ≠ r := by
  simp [removeEdge]

theorem WF.addEdge {g : Graph} (h : g.WF) {u v} (hu : u ∈ g.ids) (hv : v ∈ g.ids) (c n) :
    (g.addEdge u v c n).WF where
  ids_nodup := h.ids_nodup
  refs_nodup := by
    rw [((addEdge_perm g u v c n).map Edge.ref).nodup_iff]
    simp only [List.map_cons, List.nodup_cons]
    refine ⟨?_, h.refs_nodup⟩
    intro hm
    obtain ⟨e, he, hr⟩ := List.mem_map.1 hm
    simp only [Edge.ref, EdgeRef.mk.injEq] at hr
    exact newKey_fresh g u v e he hr.1 hr.2.1 hr.2.2
  src_mem := by
    intro e he
    rcases mem_addEdge.1 he with rfl | he
    · exact hu
    · exact h.src_mem e he
  dst_mem := by
    intro e he
    rcases mem_addEdge.1 he with rfl | he
    · exact hv
    · exact h.dst_mem e he

theorem WF.removeEdge {g : Graph} (h : g.WF) (r) : (g.removeEdge r).WF where
  ids_nodup := h.ids_nodup
  refs_nodup := h.refs_nodup.sublist (List.filter_sublist.map _)
  src_mem := fun e he => h.src_mem e (mem_removeEdge.1 he).1
  dst_mem := fun e he => h.dst_mem e (mem_removeEdge.1 he).1

theorem WF.addNode {g : Graph} (h : g.WF) {i} (hi : i ∉ g.ids) (c n) : (g.addNode i c n).WF where
  ids_nodup := by
    rw [addNode_ids]
    exact List.nodup_append.2 ⟨h.ids_nodup, by simp, by
      intro a ha b hb; simp at hb; subst hb; exact fun hab => hi (hab ▸ ha)⟩
  refs_nodup := h.refs_nodup
  src_mem := fun e he => by simp [h.src_mem e he]
  dst_mem := fun e he => by simp [h.dst_mem e he]

theorem removeNode_ids (g : Graph) (v) : (g.removeNode v).ids = g.ids.filter (· ≠ v) := by
  simp [removeNode, ids, List.filter_map, Function.comp_def]

theorem mem_removeNode {g : Graph} {v e} :
    e ∈ (g.removeNode v).edges ↔ e ∈ g.edges ∧ e.src ≠ v ∧ e.dst ≠ v := by
  simp [removeNode]

theorem WF.removeNode {g : Graph} (h : g.WF) (v) : (g.removeNode v).WF where
  ids_nodup := by rw [removeNode_ids]; exact h.ids_nodup.filter _
  refs_nodup := h.refs_nodup.sublist (List.filter_sublist.map _)
  src_mem := fun e he => by
    obtain ⟨a, b, c⟩ := mem_removeNode.1 he
    rw [removeNode_ids]; simp [h.src_mem e a, b]
  dst_mem := fun e he => by
    obtain ⟨a, b, c⟩ := mem_removeNode.1 he
    rw [removeNode_ids]; simp [h.dst_mem e a, c]

theorem setNode_ids (g : Graph) (i f) (hf : ∀ n : Node, (f n).id = n.id) :
    (g.setNode i f).ids = g.ids := by
  simp only [setNode, ids, List.map_map]
  apply List.map_congr_left
  intro n _
  simp only [Function.comp]
  split <;> simp [hf]

theorem setEdge_refs (g : Graph) (r f) (hf : ∀ e : Edge, (f e).ref = e.ref) :
    (g.setEdge r f).edges.map Edge.ref = g.edges.map Edge.ref := by
  simp only [setEdge, List.map_map]
  apply List.map_congr_left
  intro n _
  simp only [Function.comp]
  split <;> simp [hf]

theorem WF.of_eq {g h : Graph} (hg : g.WF) (hi : h.ids = g.ids)
    (he : h.edges.map Edge.ref = g.edges.map Edge.ref) : h.WF where
  ids_nodup := hi ▸ hg.ids_nodup
  refs_nodup := he ▸ hg.refs_nodup
  src_mem := fun e hm => by
    have : e.ref ∈ g.edges.map Edge.ref := he ▸ List.mem_map_of_mem hm
    obtain ⟨e', h1, h2⟩ := List.mem_map.1 this
    have : e'.src = e.src := congrArg EdgeRef.src h2
    rw [hi, ← this]; exact hg.src_mem e' h1
  dst_mem := fun e hm => by
    have : e.ref ∈ g.edges.map Edge.ref := he ▸ List.mem_map_of_mem hm
    obtain ⟨e', h1, h2⟩ := List.mem_map.1 this
    have : e'.dst = e.dst := congrArg EdgeRef.dst h2
    rw [hi, ← this]; exact hg.dst_mem e' h1

/-- Adjacency depends on the edge handles only. -/
theorem adj_iff_ref {g : Graph} {u v} : g.Adj u v ↔ ∃ r ∈ g.edges.map Edge.ref, r.src = u ∧ r.dst = v := by
  constructor
  · rintro ⟨e, he, h1, h2⟩
    exact ⟨e.ref, List.mem_map_of_mem he, h1, h2⟩
  · rintro ⟨r, hr, h1, h2⟩
    obtain ⟨e, he, rfl⟩ := List.mem_map.1 hr
    exact ⟨e, he, h1, h2⟩

theorem adj_congr {g h : Graph} (he : h.edges.map Edge.ref = g.edges.map Edge.ref) : h.Adj = g.Adj := by
  funext u v; rw [eq_iff_iff, adj_iff_ref, adj_iff_ref, he]

theorem node?_eq_some {g : Graph} (h : g.WF) {v n} : g.node? v = some n ↔ n ∈ g.nodes ∧ n.id = v := by
  constructor
  · intro hs
    have h1 := List.mem_of_find?_eq_some hs
    have h2 := List.find?_some hs
    exact ⟨h1, by simpa using h2⟩
  · rintro ⟨hn, rfl⟩
    unfold node?
    cases hf : g.nodes.find? (fun m => decide (m.id = n.id)) with
    | none =>
      have := List.find?_eq_none.1 hf n hn
      simp at this
    | some m =>
      have h1 := List.mem_of_find?_eq_some hf
      have h2 : m.id = n.id := by simpa using List.find?_some hf
      rw [List.inj_on_of_nodup_map h.ids_nodup h1 hn h2]

theorem edge?_eq_some {g : Graph} (h : g.WF) {r e} : g.edge? r = some e ↔ e ∈ g.edges ∧ e.ref = r := by
  constructor
  · intro hs
    have h1 := List.mem_of_find?_eq_some hs
    have h2 := List.find?_some hs
    exact ⟨h1, by simpa using h2⟩
  · rintro ⟨hn, rfl⟩
    unfold edge?
    cases hf : g.edges.find? (fun m => decide (m.ref = e.ref)) with
    | none =>
      have := List.find?_eq_none.1 hf e hn
      simp at this
    | some m =>
      have h1 := List.mem_of_find?_eq_some hf
      have h2 : m.ref = e.ref := by simpa using List.find?_some hf
      rw [List.inj_on_of_nodup_map h.refs_nodup h1 hn h2]

theorem node?_isSome {g : Graph} (h : g.WF) {v} (hv : v ∈ g.ids) : ∃ n, g.node? v = some n := by
  obtain ⟨n, hn, rfl⟩ := List.mem_map.1 hv
  exact ⟨n, (node?_eq_some h).2 ⟨hn, rfl⟩⟩

theorem inDeg_ne_zero {g : Graph} {v} : g.inDeg v ≠ 0 ↔ ∃ e ∈ g.edges, e.dst = v := by
  unfold inDeg inEdges
  rw [ne_eq, List.length_eq_zero_iff, List.filter_eq_nil_iff]
  simp

theorem outDeg_ne_zero {g : Graph} {v} : g.outDeg v ≠ 0 ↔ ∃ e ∈ g.edges, e.src = v := by
  unfold outDeg outEdges
  rw [ne_eq, List.length_eq_zero_iff, List.filter_eq_nil_iff]
  simp

/-- The edge to be removed, put in front. -/
theorem removeEdge_perm {g : Graph} (h : g.WF) {e} (he : e ∈ g.edges) :
    g.edges.Perm (e :: (g.removeEdge e.ref).edges) := by
  have hnd : g.edges.Nodup := List.Nodup.of_map _ h.refs_nodup
  have h1 : (g.removeEdge e.ref).edges = g.edges.erase e := by
    rw [List.Nodup.erase_eq_filter hnd]
    apply List.filter_congr
    intro x hx
    by_cases hxe : x = e
    · simp [hxe]
    · have : x.ref ≠ e.ref := fun hr => hxe (List.inj_on_of_nodup_map h.refs_nodup hx he hr)
      simp [hxe, this]
  rw [h1]
  exact List.perm_cons_erase he

/-! ### Adjacency under the primitives -/

theorem adj_addEdge {g : Graph} {u v c n x y} :
    (g.addEdge u v c n).Adj x y ↔ (x = u ∧ y = v) ∨ g.Adj x y := by
  constructor
  · rintro ⟨e, he, rfl, rfl⟩
    rcases mem_addEdge.1 he with rfl | he
    · exact Or.inl ⟨rfl, rfl⟩
    · exact Or.inr ⟨e, he, rfl, rfl⟩
  · rintro (⟨rfl, rfl⟩ | ⟨e, he, h1, h2⟩)
    · exact ⟨_, mem_addEdge.2 (Or.inl rfl), rfl, rfl⟩
    · exact ⟨e, mem_addEdge.2 (Or.inr he), h1, h2⟩

theorem adj_removeEdge_le {g : Graph} {r x y} (h : (g.removeEdge r).Adj x y) : g.Adj x y := by
  obtain ⟨e, he, h1, h2⟩ := h
  exact ⟨e, (mem_removeEdge.1 he).1, h1, h2⟩

theorem adj_removeEdge_or {g : Graph} {r x y} (h : g.Adj x y) :
    (g.removeEdge r).Adj x y ∨ (x = r.src ∧ y = r.dst) := by
  obtain ⟨e, he, h1, h2⟩ := h
  by_cases hr : e.ref = r
  · right; subst hr; exact ⟨h1.symm, h2.symm⟩
  · exact Or.inl ⟨e, mem_removeEdge.2 ⟨he, hr⟩, h1, h2⟩

theorem Adj.src_mem {g : Graph} (h : g.WF) {x y} (ha : g.Adj x y) : x ∈ g.ids := by
  obtain ⟨e, he, rfl, _⟩ := ha; exact h.src_mem e he
theorem Adj.dst_mem {g : Graph} (h : g.WF) {x y} (ha : g.Adj x y) : y ∈ g.ids := by
  obtain ⟨e, he, _, rfl⟩ := ha; exact h.dst_mem e he

theorem Acyclic.mono {g h : Graph} (hg : g.Acyclic) (hle : ∀ x y, h.Adj x y → g.Adj x y) : h.Acyclic :=
  fun v hv => hg v (TransGen.mono hle _ _ hv)

theorem Acyclic.no_loop {g : Graph} (hg : g.Acyclic) {e} (he : e ∈ g.edges) : e.src ≠ e.dst := by
  intro h
  exact hg e.src (TransGen.single ⟨e, he, rfl, h.symm⟩)

/-- Adding an edge against which there is no path keeps the graph acyclic. -/
theorem Acyclic.addEdge {g : Graph} (hg : g.Acyclic) {u v c n} (hnp : ¬ g.Reach v u) :
    (g.addEdge u v c n).Acyclic := by
  -- a path in the new graph is an old path, or reaches `u` and starts again from `v`
  have key : ∀ x y, TransGen (g.addEdge u v c n).Adj x y →
      TransGen g.Adj x y ∨ (g.Reach x u ∧ g.Reach v y) := by
    intro x y h
    induction h with
    | single h =>
      rcases adj_addEdge.1 h with ⟨rfl, rfl⟩ | h
      · exact Or.inr ⟨.refl, .refl⟩
      · exact Or.inl (.single h)
    | tail _ h ih =>
      rcases adj_addEdge.1 h with ⟨rfl, rfl⟩ | h
      · rcases ih with ih | ⟨h1, h2⟩
        · exact Or.inr ⟨ih.to_reflTransGen, .refl⟩
        · exact Or.inr ⟨h1, .refl⟩
      · rcases ih with ih | ⟨h1, h2⟩
        · exact Or.inl (ih.tail h)
        · exact Or.inr ⟨h1, h2.tail h⟩
  intro x hx
  rcases key x x hx with h | ⟨h1, h2⟩
  · exact hg x h
  · exact hnp (h2.trans h1)

/-! ### Reachability test -/

theorem mem_expand {g : Graph} {S : List NodeId} {x} :
    x ∈ g.expand S ↔ x ∈ S ∨ ∃ e ∈ g.edges, e.src ∈ S ∧ e.dst = x := by
  unfold expand
  simp only [List.mem_append, List.mem_map, List.mem_filter, decide_eq_true_eq]
  constructor
  · rintro (⟨e, ⟨he, h1, _⟩, h3⟩ | h)
    · exact Or.inr ⟨e, he, h1, h3⟩
    · exact Or.inl h
  · rintro (h | ⟨e, he, h1, rfl⟩)
    · exact Or.inr h
    · by_cases hd : e.dst ∈ S
      · exact Or.inr hd
      · exact Or.inl ⟨e, ⟨he, h1, hd⟩, rfl⟩

theorem closure_sound {g : Graph} {u : NodeId} : ∀ n S, (∀ x ∈ S, g.Reach u x) →
    ∀ x ∈ g.closure n S, g.Reach u x
  | 0, S, h, x, hx => h x hx
  | n + 1, S, h, x, hx => by
    refine closure_sound n (g.expand S) ?_ x hx
    intro y hy
    rcases mem_expand.1 hy with hy | ⟨e, he, h1, rfl⟩
    · exact h y hy
    · exact (h _ h1).tail ⟨e, he, rfl, rfl⟩

theorem subset_closure {g : Graph} : ∀ n S, S ⊆ g.closure n S
  | 0, _ => fun _ h => h
  | n + 1, _ => fun _ hx => subset_closure n _ (mem_expand.2 (Or.inl hx))

/-- The edges whose source is reached but whose target is not. -/
def frontier (g : Graph) (S : List NodeId) : Nat := g.edges.countP (fun e => e.dst ∉ S)

theorem closure_closed {g : Graph} : ∀ n S, g.frontier S ≤ n →
    ∀ e ∈ g.edges, e.src ∈ g.closure n S → e.dst ∈ g.closure n S
  | 0, S, hf, e, he, _ => by
    unfold frontier at hf
    have h0 := List.countP_eq_zero.1 (Nat.le_zero.1 hf) e he
    simpa [closure] using h0
  | n + 1, S, hf, e, he, hs => by
    by_cases hgrow : ∃ e ∈ g.edges, e.src ∈ S ∧ e.dst ∉ S
    · apply closure_closed n (g.expand S) _ e he hs
      obtain ⟨e0, he0, hs0, hd0⟩ := hgrow
      have hlt : g.frontier (g.expand S) < g.frontier S := by
        unfold frontier
        obtain ⟨l1, l2, hl⟩ := List.append_of_mem he0
        rw [hl]
        simp only [List.countP_append, List.countP_cons]
        have hmono : ∀ l : List Edge, l.countP (fun e => decide (e.dst ∉ g.expand S)) ≤
            l.countP (fun e => decide (e.dst ∉ S)) := by
          intro l
          apply List.countP_mono_left
          intro x _ hx
          simp only [decide_eq_true_eq] at hx ⊢
          exact fun h => hx (mem_expand.2 (Or.inl h))
        have h1 := hmono l1
        have h2 := hmono l2
        have h3 : e0.dst ∈ g.expand S := mem_expand.2 (Or.inr ⟨e0, he0, hs0, rfl⟩)
        have a1 : decide (e0.dst ∉ g.expand S) = false := by simp [h3]
        have a2 : decide (e0.dst ∉ S) = true := by simp [hd0]
        rw [a1, a2]
        simp only [Bool.false_eq_true, if_false, if_true]
        omega
      omega
    · -- fixpoint: nothing is added any more
      have hfix : g.expand S = S := by
        unfold expand
        rw [List.filter_eq_nil_iff.2]
        · rfl
        · intro x hx
          simp only [decide_eq_true_eq]
          exact fun h => hgrow ⟨x, hx, h⟩
      have hst : ∀ m, g.closure m S = S := by
        intro m
        induction m with
        | zero => rfl
        | succ m ih => unfold closure; rw [hfix]; exact ih
      rw [hst] at hs ⊢
      by_contra hc
      exact hgrow ⟨e, he, hs, hc⟩

/-- `has_path` decides reachability. -/
theorem hasPath_iff {g : Graph} {u v} : g.hasPath u v = true ↔ g.Reach u v := by
  unfold hasPath
  rw [decide_eq_true_eq]
  constructor
  · exact closure_sound _ _ (by simp [Reach, ReflTransGen.refl]) v
  · intro h
    induction h with
    | refl => exact subset_closure _ _ (by simp)
    | tail _ h ih =>
      obtain ⟨e, he, rfl, rfl⟩ := h
      exact closure_closed _ _ (List.countP_le_length) e he ih

/-! ### Contraction -/

/-- The part of an edge that survives re-attachment: everything but the key. -/
def _root_.Verif.Edge.body (e : Edge) : NodeId × NodeId × Comp × ClassId := (e.src, e.dst, e.comp, e.name)

theorem fold_addEdge (L : List Edge) : ∀ g : Graph, ∃ new : List Edge,
    (L.foldl (fun h e => h.addEdge e.src e.dst e.comp e.name) g).edges.Perm (new ++ g.edges) ∧
    (new.map Edge.body).Perm (L.map Edge.body) := by
  induction L with
  | nil => intro g; exact ⟨[], by simp, by simp⟩
  | cons a L ih =>
    intro g
    obtain ⟨new, h1, h2⟩ := ih (g.addEdge a.src a.dst a.comp a.name)
    refine ⟨new ++ [⟨a.src, a.dst, g.newKey a.src a.dst, a.comp, a.name⟩], ?_, ?_⟩
    · simp only [List.foldl_cons]
      refine h1.trans ?_
      rw [List.append_assoc]
      exact List.Perm.append_left _ (addEdge_perm g _ _ _ _)
    · rw [List.map_append]
      refine (List.perm_append_comm).trans ?_
      simp only [List.map_cons, List.map_nil, List.singleton_append]
      exact List.Perm.cons _ h2

theorem fold_addEdge_nodes (L : List Edge) : ∀ g : Graph,
    (L.foldl (fun h e => h.addEdge e.src e.dst e.comp e.name) g).nodes = g.nodes := by
  induction L with
  | nil => intro g; rfl
  | cons a L ih => intro g; exact ih _

theorem fold_addEdge_wf (L : List Edge) : ∀ g : Graph, g.WF →
    (∀ e ∈ L, e.src ∈ g.ids ∧ e.dst ∈ g.ids) →
    (L.foldl (fun h e => h.addEdge e.src e.dst e.comp e.name) g).WF := by
  induction L with
  | nil => intro g h _; exact h
  | cons a L ih =>
    intro g h hL
    have ha := hL a (by simp)
    exact ih _ (h.addEdge ha.1 ha.2 _ _) (fun e he => hL e (by simp [he]))

/-- Renaming `v` into `u`. -/
def ren (u v x : NodeId) : NodeId := if x = v then u else x

/-- Edge with both ends renamed. -/
def renEdge (u v : NodeId) (e : Edge) : Edge := { e with src := ren u v e.src, dst := ren u v e.dst }

theorem contract_nodes (g : Graph) (u v) : (g.contract u v).nodes = g.nodes.filter (fun n => n.id ≠ v) := by
  unfold contract
  exact fold_addEdge_nodes _ _

theorem contract_ids (g : Graph) (u v) : (g.contract u v).ids = g.ids.filter (· ≠ v) := by
  rw [ids, contract_nodes]
  exact removeNode_ids g v

theorem filter_three {α : Type} (p q : α → Bool) (l : List α) (h : ∀ x ∈ l, ¬ (p x = true ∧ q x = true)) :
    (l.filter p ++ l.filter q ++ l.filter (fun x => !p x && !q x)).Perm l := by
  induction l with
  | nil => simp
  | cons a l ih =>
    have ih := ih (fun x hx => h x (by simp [hx]))
    have ha := h a (by simp)
    cases hp : p a <;> cases hq : q a <;> simp [hp, hq] at ha ⊢
    · exact (List.Perm.append_left _ List.perm_middle).trans (List.perm_middle.trans
        (List.Perm.cons a (by simpa [List.append_assoc] using ih)))
    · exact List.perm_middle.trans (List.Perm.cons a (by simpa [List.append_assoc] using ih))
    · simpa [List.append_assoc] using ih

/-- If no edge joins `u` and `v` in either direction and `v` has no loop, contraction renames every edge
(with possibly new keys for those that touched `v`). -/
theorem contract_edges {g : Graph} {u v} (huv : ∀ e ∈ g.edges, ¬ (e.src = u ∧ e.dst = v))
    (hvu : ∀ e ∈ g.edges, ¬ (e.src = v ∧ e.dst = u)) (hvv : ∀ e ∈ g.edges, ¬ (e.src = v ∧ e.dst = v)) :
    ∃ new : List Edge,
      (g.contract u v).edges.Perm (new ++ g.edges.filter (fun e => e.src ≠ v ∧ e.dst ≠ v)) ∧
      (new.map Edge.body).Perm
        ((g.edges.filter (fun e => e.src = v ∨ e.dst = v)).map (fun e => (renEdge u v e).body)) ∧
      ((g.contract u v).edges.map Edge.body).Perm (g.edges.map (fun e => (renEdge u v e).body)) := by
  unfold contract
  simp only
  set ins := (g.edges.filter (fun e => e.dst = v ∧ e.src ≠ u)).map
    (fun e => ({ e with src := if e.src = v then u else e.src, dst := u } : Edge)) with hins
  set outs := (g.edges.filter (fun e => e.src = v ∧ e.dst ≠ u)).map
    (fun e => ({ e with src := u, dst := if e.dst = v then u else e.dst } : Edge)) with houts
  obtain ⟨new, h1, h2⟩ := fold_addEdge (ins ++ outs) (g.removeNode v)
  have hi : ins = (g.edges.filter (fun e => e.dst = v)).map (renEdge u v) := by
    rw [hins]
    have : g.edges.filter (fun e => decide (e.dst = v ∧ e.src ≠ u)) =
        g.edges.filter (fun e => decide (e.dst = v)) := by
      apply List.filter_congr
      intro e he
      have := huv e he
      rw [decide_eq_decide]
      tauto
    rw [this]
    apply List.map_congr_left
    intro e he
    have : e.dst = v := by simpa using (List.mem_filter.1 he).2
    simp [renEdge, ren, this]
  have ho : outs = (g.edges.filter (fun e => e.src = v)).map (renEdge u v) := by
    rw [houts]
    have : g.edges.filter (fun e => decide (e.src = v ∧ e.dst ≠ u)) =
        g.edges.filter (fun e => decide (e.src = v)) := by
      apply List.filter_congr
      intro e he
      have := hvu e he
      rw [decide_eq_decide]
      tauto
    rw [this]
    apply List.map_congr_left
    intro e he
    have : e.src = v := by simpa using (List.mem_filter.1 he).2
    simp [renEdge, ren, this]
  have hdisj : ∀ x ∈ g.edges, ¬ (decide (x.dst = v) = true ∧ decide (x.src = v) = true) := by
    intro e he h
    simp only [decide_eq_true_eq] at h
    exact hvv e he ⟨h.2, h.1⟩
  have hpart := filter_three (fun e : Edge => decide (e.dst = v)) (fun e => decide (e.src = v)) g.edges hdisj
  have hrest : g.edges.filter (fun x => !decide (x.dst = v) && !decide (x.src = v)) =
      g.edges.filter (fun e => decide (e.src ≠ v ∧ e.dst ≠ v)) := by
    apply List.filter_congr
    intro e _
    by_cases a : e.dst = v <;> by_cases b : e.src = v <;> simp [a, b]
  have htouch : (g.edges.filter (fun e => decide (e.dst = v)) ++ g.edges.filter (fun e => decide (e.src = v))).Perm
      (g.edges.filter (fun e => decide (e.src = v ∨ e.dst = v))) := by
    have := (hpart.filter (fun e => decide (e.src = v ∨ e.dst = v)))
    refine List.Perm.trans (List.Perm.of_eq ?_) this
    rw [List.filter_append, List.filter_append, List.filter_filter, List.filter_filter, List.filter_filter]
    have e1 : g.edges.filter (fun a => decide (a.src = v ∨ a.dst = v) && decide (a.dst = v)) =
        g.edges.filter (fun a => decide (a.dst = v)) := by
      apply List.filter_congr; intro e _
      by_cases a : e.dst = v <;> by_cases b : e.src = v <;> simp [a, b]
    have e2 : g.edges.filter (fun a => decide (a.src = v ∨ a.dst = v) && decide (a.src = v)) =
        g.edges.filter (fun a => decide (a.src = v)) := by
      apply List.filter_congr; intro e _
      by_cases a : e.dst = v <;> by_cases b : e.src = v <;> simp [a, b]
    have e3 : g.edges.filter (fun a => decide (a.src = v ∨ a.dst = v) &&
        (!decide (a.dst = v) && !decide (a.src = v))) = [] := by
      rw [List.filter_eq_nil_iff]; intro e _
      by_cases a : e.dst = v <;> by_cases b : e.src = v <;> simp [a, b]
    rw [e1, e2, e3, List.append_nil]
  have hnew : (new.map Edge.body).Perm
        ((g.edges.filter (fun e => e.src = v ∨ e.dst = v)).map (fun e => (renEdge u v e).body)) := by
    refine h2.trans ?_
    rw [hi, ho, ← List.map_append, List.map_map]
    exact htouch.map _
  refine ⟨new, ?_, hnew, ?_⟩
  · exact h1
  · refine (h1.map Edge.body).trans ?_
    rw [List.map_append]
    refine (hnew.append_right _).trans ?_
    have hfix : (g.removeNode v).edges.map Edge.body =
        (g.edges.filter (fun e => decide (e.src ≠ v ∧ e.dst ≠ v))).map (fun e => (renEdge u v e).body) := by
      unfold removeNode
      apply List.map_congr_left
      intro e he
      have := (List.mem_filter.1 he).2
      simp only [decide_eq_true_eq] at this
      simp [renEdge, ren, this.1, this.2]
    rw [hfix, ← List.map_append]
    apply List.Perm.map
    refine (htouch.symm.append_right _).trans ?_
    rw [← hrest]
    exact hpart

theorem contract_wf {g : Graph} (h : g.WF) {u v} (hu : u ∈ g.ids) (hne : u ≠ v) : (g.contract u v).WF := by
  unfold contract
  apply fold_addEdge_wf _ _ (h.removeNode v)
  intro e he
  rw [removeNode_ids]
  have hu' : u ∈ g.ids.filter (· ≠ v) := by simp [hu, hne]
  have hr : ∀ x ∈ g.ids, (if x = v then u else x) ∈ g.ids.filter (· ≠ v) := by
    intro x hx
    split
    · exact hu'
    · simp [*]
  rcases List.mem_append.1 he with he | he
  · obtain ⟨a, ha, rfl⟩ := List.mem_map.1 he
    exact ⟨hr _ (h.src_mem a (List.mem_filter.1 ha).1), hu'⟩
  · obtain ⟨a, ha, rfl⟩ := List.mem_map.1 he
    exact ⟨hu', hr _ (h.dst_mem a (List.mem_filter.1 ha).1)⟩

/-- Paths in the contracted graph. -/
theorem contract_adj {g : Graph} {u v} (huv : ∀ e ∈ g.edges, ¬ (e.src = u ∧ e.dst = v))
    (hvu : ∀ e ∈ g.edges, ¬ (e.src = v ∧ e.dst = u)) (hvv : ∀ e ∈ g.edges, ¬ (e.src = v ∧ e.dst = v))
    {x y} : (g.contract u v).Adj x y ↔ ∃ a b, g.Adj a b ∧ ren u v a = x ∧ ren u v b = y := by
  obtain ⟨_, _, _, hp⟩ := contract_edges huv hvu hvv
  constructor
  · rintro ⟨e, he, rfl, rfl⟩
    have := hp.mem_iff.1 (List.mem_map_of_mem he)
    obtain ⟨a, ha, hb⟩ := List.mem_map.1 this
    simp only [Edge.body, renEdge, Prod.mk.injEq] at hb
    exact ⟨a.src, a.dst, ⟨a, ha, rfl, rfl⟩, hb.1, hb.2.1⟩
  · rintro ⟨a, b, ⟨e, he, rfl, rfl⟩, rfl, rfl⟩
    have := hp.mem_iff.2 (List.mem_map_of_mem (f := fun e => (renEdge u v e).body) he)
    obtain ⟨c, hc, hb⟩ := List.mem_map.1 this
    simp only [Edge.body, renEdge, Prod.mk.injEq] at hb
    exact ⟨c, hc, hb.1, hb.2.1⟩

theorem ren_eq {u v a b : NodeId} (h : ren u v a = ren u v b) :
    a = b ∨ (a = u ∧ b = v) ∨ (a = v ∧ b = u) := by
  unfold ren at h
  split at h <;> split at h <;> simp_all

/-- Every path of the contracted graph is a path of the original one, or goes into and out of the merged pair. -/
theorem contract_path {g : Graph} {u v} {h : Graph}
    (hadj : ∀ x y, h.Adj x y → ∃ a b, g.Adj a b ∧ ren u v a = x ∧ ren u v b = y)
    {x y} (hxy : TransGen h.Adj x y) :
    ∃ a b, ren u v a = x ∧ ren u v b = y ∧
      (TransGen g.Adj a b ∨ ∃ s t, (s = u ∨ s = v) ∧ (t = u ∨ t = v) ∧
        TransGen g.Adj a s ∧ TransGen g.Adj t b) := by
  induction hxy with
  | single hs =>
    obtain ⟨a, b, hab, rfl, rfl⟩ := hadj _ _ hs
    exact ⟨a, b, rfl, rfl, Or.inl (.single hab)⟩
  | tail _ hs ih =>
    obtain ⟨a, b, rfl, hb, hp⟩ := ih
    obtain ⟨c, d, hcd, hc, rfl⟩ := hadj _ _ hs
    refine ⟨a, d, rfl, rfl, ?_⟩
    rcases ren_eq (hb.trans hc.symm) with rfl | hbc | hbc
    · rcases hp with hp | ⟨s, t, h1, h2, h3, h4⟩
      · exact Or.inl (hp.tail hcd)
      · exact Or.inr ⟨s, t, h1, h2, h3, h4.tail hcd⟩
    all_goals
      obtain ⟨rfl, rfl⟩ := hbc
      rcases hp with hp | ⟨s, t, h1, h2, h3, h4⟩
      · exact Or.inr ⟨_, _, by simp, by simp, hp, .single hcd⟩
      · exact Or.inr ⟨_, _, h1, by simp, h3, .single hcd⟩

/-- Merging two nodes not connected by any path keeps the graph acyclic. -/
theorem merge_acyclic {g h : Graph} {u v} (hg : g.Acyclic)
    (huv : ¬ TransGen g.Adj u v) (hvu : ¬ TransGen g.Adj v u)
    (hadj : ∀ x y, h.Adj x y → ∃ a b, g.Adj a b ∧ ren u v a = x ∧ ren u v b = y) : h.Acyclic := by
  intro x hx
  have hno : ∀ s t, (s = u ∨ s = v) → (t = u ∨ t = v) → ¬ TransGen g.Adj s t := by
    rintro s t (rfl | rfl) (rfl | rfl)
    · exact hg _
    · exact huv
    · exact hvu
    · exact hg _
  obtain ⟨a, b, ha, hb, hp⟩ := contract_path hadj hx
  rcases ren_eq (ha.trans hb.symm) with rfl | hab | hab
  · rcases hp with hp | ⟨s, t, h1, h2, h3, h4⟩
    · exact hg _ hp
    · exact hno t s h2 h1 (h4.trans h3)
  all_goals
    obtain ⟨rfl, rfl⟩ := hab
    rcases hp with hp | ⟨s, t, h1, h2, h3, h4⟩
    · exact hno _ _ (by simp) (by simp) hp
    · exact hno _ _ (by simp) h1 h3

end Verif.Graph
