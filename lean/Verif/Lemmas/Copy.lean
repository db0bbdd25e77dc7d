import Verif.Spec.Copy
import Verif.Spec.Evolution
import Verif.Lemmas.Propagate
import Verif.Lemmas.Topo
import Verif.Lemmas.Graph
/-! # Helper lemmas: iteration order of edges, rebuilding a graph, propagation of an aligned graph -/

namespace Verif
open Graph

/-! ### Iteration order -/

theorem insertAfterLast_split (p : Edge → Bool) (e : Edge) (l : List Edge) : ∃ A B, l = A ++ B ∧ insertAfterLast p e l = A ++ e :: B ∧
    (∀ b ∈ B, p b = false) ∧ (A = [] ∨ ∃ A' a, A = A' ++ [a] ∧ p a = true) := by
  induction l with
  | nil => exact ⟨[], [], rfl, rfl, by simp, .inl rfl⟩
  | cons x xs ih =>
    unfold insertAfterLast
    by_cases h : xs.any p = true
    · rw [if_pos h]
      obtain ⟨A, B, h1, h2, h3, h4⟩ := ih
      refine ⟨x :: A, B, by rw [h1]; rfl, by rw [h2]; rfl, h3, .inr ?_⟩
      rcases h4 with rfl | ⟨A', a, rfl, ha⟩
      · rw [List.any_eq_true] at h
        obtain ⟨y, hy, hp⟩ := h
        rw [h1, List.nil_append] at hy
        rw [h3 y hy] at hp
        cases hp
      · exact ⟨x :: A', a, rfl, ha⟩
    · rw [if_neg h]
      have hn : ∀ b ∈ xs, p b = false := by
        intro b hb
        by_contra hc
        exact h (List.any_eq_true.2 ⟨b, hb, by simpa using hc⟩)
      by_cases hx : p x = true
      · rw [if_pos hx]
        exact ⟨[x], xs, rfl, rfl, hn, .inr ⟨[], x, rfl, hx⟩⟩
      · rw [if_neg hx]
        refine ⟨[], x :: xs, rfl, rfl, ?_, .inl rfl⟩
        intro b hb
        rcases List.mem_cons.1 hb with rfl | hb
        · simpa using hx
        · exact hn b hb

theorem nodeIdx_eq (g : Graph) (v : NodeId) : g.nodeIdx v = g.ids.idxOf v := by
  unfold nodeIdx Graph.ids List.idxOf
  rw [List.findIdx_map]
  congr 1

/-- The ends after adding an edge. -/
theorem addEdge_ends (g : Graph) (u v : NodeId) (c nm) : ∃ A B, g.ends = A ++ B ∧ (g.addEdge u v c nm).ends = A ++ (u, v) :: B ∧
    (((u, v) ∈ g.ends ∧ (u, v) ∉ B ∧ ∃ A', A = A' ++ [(u, v)]) ∨
     ((u, v) ∉ g.ends ∧ (∀ b ∈ B, g.ids.idxOf u < g.ids.idxOf b.1) ∧ (A = [] ∨ ∃ A' a, A = A' ++ [a] ∧ g.ids.idxOf a.1 ≤ g.ids.idxOf u))) := by
  unfold Graph.addEdge
  by_cases h : (g.edges.any (fun x => x.src = u ∧ x.dst = v)) = true
  · simp only [h, if_true]
    obtain ⟨A, B, h1, h2, h3, h4⟩ := insertAfterLast_split (fun x => decide (x.src = u ∧ x.dst = v)) ⟨u, v, g.newKey u v, c, nm⟩ g.edges
    have hm : (u, v) ∈ g.ends := by
      rw [List.any_eq_true] at h
      obtain ⟨e, he, hp⟩ := h
      simp only [decide_eq_true_eq] at hp
      exact List.mem_map.2 ⟨e, he, by rw [hp.1, hp.2]⟩
    refine ⟨A.map (fun e => (e.src, e.dst)), B.map (fun e => (e.src, e.dst)), by simp [ends, h1], by rw [ends, h2]; simp, .inl ⟨hm, ?_, ?_⟩⟩
    · intro hb
      obtain ⟨e, he, hp⟩ := List.mem_map.1 hb
      have := h3 e he
      simp only [Prod.mk.injEq] at hp
      simp [hp.1, hp.2] at this
    · rcases h4 with rfl | ⟨A', a, rfl, ha⟩
      · exfalso
        rw [List.nil_append] at h1
        obtain ⟨e, he, hp⟩ := List.mem_map.1 hm
        have := h3 e (h1 ▸ he)
        simp only [Prod.mk.injEq] at hp
        simp [hp.1, hp.2] at this
      · simp only [decide_eq_true_eq] at ha
        exact ⟨A'.map (fun e => (e.src, e.dst)), by simp [ha.1, ha.2]⟩
  · simp only [h]
    obtain ⟨A, B, h1, h2, h3, h4⟩ := insertAfterLast_split (fun x => decide (g.nodeIdx x.src ≤ g.nodeIdx u)) ⟨u, v, g.newKey u v, c, nm⟩ g.edges
    refine ⟨A.map (fun e => (e.src, e.dst)), B.map (fun e => (e.src, e.dst)), by simp [ends, h1], by simp [ends, h2], .inr ⟨?_, ?_, ?_⟩⟩
    · intro hm
      apply h
      obtain ⟨e, he, hp⟩ := List.mem_map.1 hm
      simp only [Prod.mk.injEq] at hp
      rw [List.any_eq_true]
      exact ⟨e, he, by simp [hp.1, hp.2]⟩
    · intro b hb
      obtain ⟨e, he, rfl⟩ := List.mem_map.1 hb
      have := h3 e he
      simp only [decide_eq_false_iff_not, nodeIdx_eq, not_le] at this
      exact this
    · rcases h4 with rfl | ⟨A', a, rfl, ha⟩
      · exact .inl rfl
      · simp only [decide_eq_true_eq, nodeIdx_eq] at ha
        exact .inr ⟨A'.map (fun e => (e.src, e.dst)), _, by simp; rfl, ha⟩

section
variable {α : Type}

theorem pair_sublist {a m : α} {A : List α} (h : [a, m].Sublist A) : a ∈ A ∧ m ∈ A :=
  ⟨h.subset (by simp), h.subset (by simp)⟩

/-- Where `e` can take part in a sublist of three. -/
theorem triple_insert {a m e : α} {A B : List α} (h : [a, m, a].Sublist (A ++ e :: B)) :
    [a, m, a].Sublist (A ++ B) ∨ (a = e ∧ a ∈ B) ∨ (a = e ∧ [a, m].Sublist A) ∨ (m = e ∧ a ∈ A ∧ a ∈ B) := by
  obtain ⟨l1, l2, hl, h1, h2⟩ := List.sublist_append_iff.1 h
  rcases List.sublist_cons_iff.1 h2 with h2 | ⟨r, rfl, h5⟩
  · left
    rw [hl]
    exact h1.append h2
  · right
    match l1, hl, h1 with
    | [], hl, _ =>
      simp only [List.nil_append, List.cons.injEq] at hl
      obtain ⟨rfl, rfl⟩ := hl
      exact .inl ⟨rfl, h5.subset (by simp)⟩
    | [x], hl, h1 =>
      simp only [List.singleton_append, List.cons.injEq] at hl
      obtain ⟨rfl, rfl, rfl⟩ := hl
      exact .inr (.inr ⟨rfl, h1.subset (by simp), h5.subset (by simp)⟩)
    | [x, y], hl, h1 =>
      simp only [List.cons_append, List.nil_append, List.cons.injEq] at hl
      obtain ⟨rfl, rfl, hx, rfl⟩ := hl
      exact .inr (.inl ⟨hx, h1⟩)
    | [x, y, z], hl, _ => simp at hl
    | x :: y :: z :: w :: l, hl, _ => simp at hl

end

theorem Graph.Listed.addEdge {g : Graph} (h : g.Listed) (u v : NodeId) (c nm) : (g.addEdge u v c nm).Listed := by
  obtain ⟨A, B, h1, h2, h3⟩ := addEdge_ends g u v c nm
  have hs := h.sorted
  have hg := h.grouped
  rw [h1] at hs hg
  rw [List.pairwise_append] at hs
  constructor
  · rw [h2, addEdge_ids, List.pairwise_append]
    refine ⟨hs.1, List.pairwise_cons.2 ⟨?_, hs.2.1⟩, ?_⟩
    · intro b hb
      rcases h3 with ⟨_, _, A', rfl⟩ | ⟨_, h4, _⟩
      · exact hs.2.2 (u, v) (by simp) b hb
      · exact le_of_lt (h4 b hb)
    · intro a ha b hb
      rcases List.mem_cons.1 hb with rfl | hb
      · rcases h3 with ⟨_, _, A', rfl⟩ | ⟨_, _, rfl | ⟨A', x, rfl, hx⟩⟩
        · rcases List.mem_append.1 ha with ha | ha
          · exact (List.pairwise_append.1 hs.1).2.2 a ha (u, v) (by simp)
          · simp only [List.mem_singleton] at ha; rw [ha]
        · simp at ha
        · rcases List.mem_append.1 ha with ha | ha
          · exact le_trans ((List.pairwise_append.1 hs.1).2.2 a ha x (by simp)) hx
          · simp only [List.mem_singleton] at ha; rw [ha]; exact hx
      · exact hs.2.2 a ha b hb
  · intro a m hsub
    rw [h2] at hsub
    rcases triple_insert hsub with hsub | ⟨rfl, hb⟩ | ⟨rfl, hA⟩ | ⟨rfl, ha, hb⟩
    · exact hg a m hsub
    · rcases h3 with ⟨_, h4, _⟩ | ⟨h4, _, _⟩
      · exact absurd hb h4
      · exact absurd (h1 ▸ List.mem_append_right _ hb) h4
    · rcases h3 with ⟨_, _, A', rfl⟩ | ⟨h4, _, _⟩
      · obtain ⟨l1, l2, hl, hl1, hl2⟩ := List.sublist_append_iff.1 hA
        match l1, hl, hl1 with
        | [], hl, _ =>
          simp only [List.nil_append] at hl
          subst hl
          have := hl2.length_le
          simp at this
        | [x], hl, _ =>
          simp only [List.singleton_append, List.cons.injEq] at hl
          obtain ⟨rfl, rfl⟩ := hl
          have := hl2.subset (List.mem_singleton_self m)
          simpa using this
        | [x, y], hl, hl1 =>
          simp only [List.cons_append, List.nil_append, List.cons.injEq] at hl
          obtain ⟨rfl, rfl, -⟩ := hl
          refine hg _ _ (List.Sublist.trans ?_ (List.sublist_append_left _ B))
          exact hl1.append (List.Sublist.refl [(u, v)])
        | x :: y :: z :: l, hl, _ => simp at hl
      · exact absurd (h1 ▸ List.mem_append_left _ (pair_sublist hA).1) h4
    · rcases h3 with ⟨_, h4, A', rfl⟩ | ⟨_, h4, h5⟩
      · rcases List.mem_append.1 ha with ha | ha
        · refine hg a (u, v) ?_
          have e : [a, (u, v), a] = [a] ++ [(u, v)] ++ [a] := rfl
          rw [e]
          exact ((List.singleton_sublist.2 ha).append (List.Sublist.refl _)).append (List.singleton_sublist.2 hb)
        · simp only [List.mem_singleton] at ha
          exact absurd (ha ▸ hb) h4
      · exfalso
        have hlt := h4 a hb
        rcases h5 with rfl | ⟨A', x, rfl, hx⟩
        · simp at ha
        · rcases List.mem_append.1 ha with ha | ha
          · exact absurd (le_trans ((List.pairwise_append.1 hs.1).2.2 a ha x (by simp)) hx) (not_le.2 hlt)
          · simp only [List.mem_singleton] at ha
            exact absurd (ha ▸ hx) (not_le.2 hlt)

theorem Graph.Listed.of_eq {g h : Graph} (hg : g.Listed) (hi : h.ids = g.ids) (he : h.ends = g.ends) : h.Listed where
  sorted := by rw [hi, he]; exact hg.sorted
  grouped := by rw [he]; exact hg.grouped

theorem Graph.Listed.removeEdge {g : Graph} (h : g.Listed) (r) : (g.removeEdge r).Listed := by
  have hs : (g.removeEdge r).ends.Sublist g.ends := (List.filter_sublist).map _
  exact ⟨h.sorted.sublist hs, fun a m hm => h.grouped a m (hm.trans hs)⟩

theorem mem_ends {g : Graph} {a : NodeId × NodeId} : a ∈ g.ends ↔ ∃ e ∈ g.edges, (e.src, e.dst) = a := List.mem_map

theorem Graph.Listed.addNode {g : Graph} (h : g.Listed) (hw : g.WF) (i c nm) : (g.addNode i c nm).Listed := by
  refine ⟨?_, h.grouped⟩
  refine h.sorted.imp_of_mem ?_
  intro a b ha hb hab
  obtain ⟨e, he, rfl⟩ := mem_ends.1 ha
  obtain ⟨f, hf, rfl⟩ := mem_ends.1 hb
  rw [addNode_ids, List.idxOf_append_of_mem (hw.src_mem e he), List.idxOf_append_of_mem (hw.src_mem f hf)]
  exact hab

theorem idxOf_filter_mono (p : NodeId → Bool) : ∀ (l : List NodeId) {a b : NodeId}, p a = true → p b = true → l.idxOf a ≤ l.idxOf b →
    (l.filter p).idxOf a ≤ (l.filter p).idxOf b := by
  intro l
  induction l with
  | nil => intro a b _ _ _; simp
  | cons x l ih =>
    intro a b ha hb hab
    rw [List.filter_cons]
    by_cases hxa : x = a
    · subst hxa
      simp [ha]
    · by_cases hxb : x = b
      · subst hxb
        rw [List.idxOf_cons_ne l hxa] at hab
        simp at hab
      · rw [List.idxOf_cons_ne l hxa, List.idxOf_cons_ne l hxb] at hab
        have := ih ha hb (by omega)
        split
        · rw [List.idxOf_cons_ne _ hxa, List.idxOf_cons_ne _ hxb]
          omega
        · exact this

theorem Graph.Listed.removeNode {g : Graph} (h : g.Listed) (v) : (g.removeNode v).Listed := by
  have hs : (g.removeNode v).ends.Sublist g.ends := (List.filter_sublist).map _
  refine ⟨?_, fun a m hm => h.grouped a m (hm.trans hs)⟩
  refine (h.sorted.sublist hs).imp_of_mem ?_
  intro a b ha hb hab
  obtain ⟨e, he, rfl⟩ := mem_ends.1 ha
  obtain ⟨f, hf, rfl⟩ := mem_ends.1 hb
  rw [removeNode_ids]
  have he' := (mem_removeNode.1 he).2
  have hf' := (mem_removeNode.1 hf).2
  exact idxOf_filter_mono _ _ (by simpa using he'.1) (by simpa using hf'.1) hab

theorem Graph.Listed.fold {g : Graph} (h : g.Listed) (L : List Edge) :
    (L.foldl (fun h e => h.addEdge e.src e.dst e.comp e.name) g).Listed := by
  induction L generalizing g with
  | nil => exact h
  | cons e L ih => exact ih (h.addEdge _ _ _ _)

theorem Graph.Listed.setNode {g : Graph} (h : g.Listed) (i f) (hf : ∀ n : Node, (f n).id = n.id) : (g.setNode i f).Listed :=
  h.of_eq (setNode_ids g i f hf) rfl

theorem Graph.Listed.setEdge {g : Graph} (h : g.Listed) (r f) (hf : ∀ e : Edge, (f e).ref = e.ref) : (g.setEdge r f).Listed := by
  refine h.of_eq rfl ?_
  have := congrArg (List.map (fun r : EdgeRef => (r.src, r.dst))) (setEdge_refs g r f hf)
  simpa [ends, List.map_map, Function.comp_def, Edge.ref] using this

theorem Graph.Listed.contract {g : Graph} (h : g.Listed) (u v) : (g.contract u v).Listed := (h.removeNode v).fold _

/-- Every operator keeps the iteration order. -/
theorem applyOp_listed {lib g op l d g'} (hw : g.WF) (h : g.Listed) (ha : applyOp lib g op l d = .ok g') : g'.Listed := by
  unfold applyOp at ha
  split at ha
  · unfold addSeries at ha
    split at ha
    · cases ha
    · dsimp only at ha
      split at ha <;> injection ha with ha <;> subst ha <;>
        exact (((h.addNode hw _ _ _).removeEdge _).addEdge _ _ _ _).addEdge _ _ _ _
  · injection ha with ha; subst ha; exact h.addEdge _ _ _ _
  · unfold removeComp at ha
    split at ha
    · cases ha
    · dsimp only at ha
      split at ha
      · injection ha with ha; subst ha; exact h.removeEdge _
      · split at ha
        · cases ha
        · injection ha with ha; subst ha
          exact ((h.removeEdge _).contract _ _).setNode _ _ (fun _ => rfl)
  · unfold swapComp at ha
    split at ha
    · split at ha
      · cases ha
      · split at ha
        · simp at ha; subst ha; exact h
        · injection ha with ha; subst ha; exact h.setNode _ _ (fun _ => rfl)
    · split at ha
      · cases ha
      · split at ha
        · simp at ha; subst ha; exact h
        · injection ha with ha; subst ha; exact h.setEdge _ _ (fun _ => rfl)
    · cases ha
  · cases ha

/-! ### Rebuilding -/

theorem insertAfterLast_last (p : Edge → Bool) (e : Edge) (l : List Edge) (h : ∀ x, l.getLast? = some x → p x = true) :
    insertAfterLast p e l = l ++ [e] := by
  obtain ⟨A, B, h1, h2, h3, _⟩ := insertAfterLast_split p e l
  rcases List.eq_nil_or_concat B with rfl | ⟨B', b, rfl⟩
  · rw [h2, h1]; simp
  · have := h b (by rw [h1]; simp)
    rw [h3 b (by simp)] at this
    cases this

/-- A listed graph is rebuilt by appending. -/
theorem addEdge_last {g h : Graph} (hl : g.Listed) (hi : h.ids = g.ids) {A C : List (NodeId × NodeId)} {u v : NodeId}
    (he : g.ends = A ++ (u, v) :: C) (hA : h.ends = A) (c nm) :
    (h.addEdge u v c nm).edges = h.edges ++ [⟨u, v, h.newKey u v, c, nm⟩] := by
  unfold Graph.addEdge
  apply insertAfterLast_last
  intro x hx
  obtain ⟨E, hE⟩ := List.getLast?_eq_some_iff.1 hx
  have hA' : A = E.map (fun e => (e.src, e.dst)) ++ [(x.src, x.dst)] := by rw [← hA, ends, hE]; simp
  split
  · rename_i hany
    have hm : (u, v) ∈ A := by
      rw [List.any_eq_true] at hany
      obtain ⟨e, h1, h2⟩ := hany
      simp only [decide_eq_true_eq] at h2
      rw [← hA]
      exact List.mem_map.2 ⟨e, h1, by rw [h2.1, h2.2]⟩
    have : (x.src, x.dst) = (u, v) := by
      rw [hA'] at hm
      rcases List.mem_append.1 hm with hm | hm
      · refine hl.grouped (u, v) (x.src, x.dst) ?_
        rw [he, hA']
        have e : [(u, v), (x.src, x.dst), (u, v)] = ([(u, v)] ++ [(x.src, x.dst)]) ++ [(u, v)] := rfl
        rw [e]
        exact ((List.singleton_sublist.2 hm).append (List.Sublist.refl _)).append (List.singleton_sublist.2 (by simp))
      · exact (List.mem_singleton.1 hm).symm
    simp only [Prod.mk.injEq] at this
    simp [this.1, this.2]
  · have hs := hl.sorted
    rw [he, hA', List.append_assoc, List.pairwise_append] at hs
    have := (List.pairwise_cons.1 hs.2.1).1 (u, v) (by simp)
    simp only [nodeIdx_eq, hi, decide_eq_true_eq]
    exact this

theorem counted_keys {l : List Edge} (h : ∀ A e C, l = A ++ e :: C → e.key = A.countP (fun x => x.src = e.src ∧ x.dst = e.dst)) (u v : NodeId) :
    (l.filter (fun e => e.src = u ∧ e.dst = v)).map (·.key) = List.range (l.countP (fun x => x.src = u ∧ x.dst = v)) := by
  induction l using List.reverseRecOn with
  | nil => rfl
  | append_singleton l e ih =>
    have ih' := ih (fun A x C hA => h A x (C ++ [e]) (by rw [hA]; simp))
    rw [List.filter_append, List.map_append, ih', List.countP_append]
    by_cases hx : e.src = u ∧ e.dst = v
    · have hk := h l e [] rfl
      rw [hx.1, hx.2] at hk
      simp [hx.1, hx.2, List.range_succ, hk]
    · simp [hx]

theorem firstFree_self (n : Nat) : firstFree (List.range n) n n = n := by
  cases n with
  | zero => rfl
  | succ n => simp [firstFree]

theorem newKey_counted {h : Graph} (hk : h.KeysCounted) (u v : NodeId) : h.newKey u v = h.edges.countP (fun x => x.src = u ∧ x.dst = v) := by
  unfold newKey
  rw [counted_keys hk]
  simp [firstFree_self]

theorem Graph.KeysCounted.append {h h' : Graph} (hk : h.KeysCounted) {u v c nm} (he : h'.edges = h.edges ++ [⟨u, v, h.newKey u v, c, nm⟩]) :
    h'.KeysCounted := by
  intro A e C hA
  rw [he] at hA
  rcases List.eq_nil_or_concat C with rfl | ⟨C', y, rfl⟩
  · obtain ⟨h1, h2⟩ := List.append_inj' hA rfl
    simp only [List.cons.injEq, and_true] at h2
    subst h1; subst h2
    exact newKey_counted hk u v
  · have hA2 : h.edges ++ [⟨u, v, h.newKey u v, c, nm⟩] = (A ++ e :: C') ++ [y] := by rw [hA]; simp
    obtain ⟨h1, _⟩ := List.append_inj' hA2 rfl
    exact hk A e C' h1

theorem rebuild_listed {g : Graph} (hl : g.Listed) : ∀ (L : List (EdgeRef × Comp)) (h : Graph) (A : List (NodeId × NodeId)), h.ids = g.ids →
    g.ends = A ++ L.map (fun e => (e.1.src, e.1.dst)) → h.ends = A → h.KeysCounted →
    (L.foldl (fun g e => g.addEdge e.1.src e.1.dst e.2 e.2.cls) h).nodes = h.nodes ∧
    (L.foldl (fun g e => g.addEdge e.1.src e.1.dst e.2 e.2.cls) h).KeysCounted ∧
    (L.foldl (fun g e => g.addEdge e.1.src e.1.dst e.2 e.2.cls) h).edges.map (fun e => (e.src, e.dst, e.comp, e.name)) =
      h.edges.map (fun e => (e.src, e.dst, e.comp, e.name)) ++ L.map (fun e => (e.1.src, e.1.dst, e.2, e.2.cls)) := by
  intro L
  induction L with
  | nil => intro h A _ _ _ hk; exact ⟨rfl, hk, by simp⟩
  | cons x L ih =>
    intro h A hi he hA hk
    have hadd := addEdge_last hl hi (by rw [he]; rfl) hA x.2 x.2.cls
    have := ih (h.addEdge x.1.src x.1.dst x.2 x.2.cls) (A ++ [(x.1.src, x.1.dst)]) hi (by rw [he]; simp)
      (by rw [ends, hadd, List.map_append, ← hA]; rfl) (hk.append hadd)
    rw [List.foldl_cons]
    refine ⟨this.1, this.2.1, this.2.2.trans ?_⟩
    rw [hadd]
    simp

/-! ### Propagation of an aligned graph -/

section
variable {α β : Type}

/-- Both end in the same exception, or both succeed with related results. -/
def ERel (R : α → β → Prop) : Except Err α → Except Err β → Prop
  | .ok a, .ok b => R a b
  | .error x, .error y => x = y
  | _, _ => False

end

theorem kahnLoop_congr {g h : Graph} (hs : ∀ v, g.succs v = h.succs v) : ∀ n deg st, kahnLoop g n deg st = kahnLoop h n deg st := by
  intro n
  induction n with
  | zero => intro deg st; rfl
  | succ n ih =>
    intro deg st
    cases st with
    | nil => rfl
    | cons v st => simp only [kahnLoop, hs v, ih]

theorem succs_ends (g : Graph) (v) : g.succs v = (g.ends.filter (fun a => a.1 = v)).map (·.2) := by
  simp [succs, outEdges, ends, List.filter_map, List.map_map, Function.comp_def]

theorem inDeg_ends (g : Graph) (v) : g.inDeg v = (g.ends.filter (fun a => a.2 = v)).length := by
  simp [inDeg, inEdges, ends, List.filter_map, Function.comp_def]

theorem outDeg_ends (g : Graph) (v) : g.outDeg v = (g.ends.filter (fun a => a.1 = v)).length := by
  simp [outDeg, outEdges, ends, List.filter_map, Function.comp_def]

theorem topoSort_congr {g h : Graph} (hi : h.ids = g.ids) (he : h.ends = g.ends) : h.topoSort = g.topoSort := by
  have hd : h.inDeg = g.inDeg := by funext v; rw [inDeg_ends, inDeg_ends, he]
  have hl : h.nodes.length = g.nodes.length := by
    have := congrArg List.length hi
    simpa [Graph.ids] using this
  unfold topoSort
  rw [kahnLoop_congr (g := h) (h := g) (fun v => by rw [succs_ends, succs_ends, he]), hd, hi, hl]

section
variable {S : Type}

/-- Edges in corresponding positions, doing the same. -/
structure Zipped (B B' : Behav S) (g h : Graph) (Z : List (Edge × Edge)) : Prop where
  fst : g.edges = Z.map (·.1)
  snd : h.edges = Z.map (·.2)
  src : ∀ z ∈ Z, z.2.src = z.1.src
  dst : ∀ z ∈ Z, z.2.dst = z.1.dst
  edge : ∀ z ∈ Z, B'.edge z.2.comp = B.edge z.1.comp
  noise : ∀ z ∈ Z, B'.noise z.2.comp = B.noise z.1.comp

/-- The same states, position by position. -/
structure ZRel (Z : List (Edge × Edge)) (st st' : Store S) : Prop where
  nodes : ∀ v, st' (.node v) = st (.node v)
  edges : ∀ z ∈ Z, st' (.edge z.2.ref) = st (.edge z.1.ref)

variable {B B' : Behav S} {g h : Graph} {Z : List (Edge × Edge)}

theorem Zipped.ends (hz : Zipped B B' g h Z) : h.ends = g.ends := by
  unfold Graph.ends
  rw [hz.fst, hz.snd, List.map_map, List.map_map]
  apply List.map_congr_left
  intro z hm
  simp [hz.src z hm, hz.dst z hm]

theorem Zipped.inEdges (hz : Zipped B B' g h Z) (v : NodeId) :
    g.inEdges v = (Z.filter (fun z => z.1.dst = v)).map (·.1) ∧ h.inEdges v = (Z.filter (fun z => z.1.dst = v)).map (·.2) := by
  unfold Graph.inEdges
  rw [hz.fst, hz.snd, List.filter_map, List.filter_map]
  refine ⟨rfl, ?_⟩
  congr 1
  apply List.filter_congr
  intro z hm
  simp [hz.dst z hm]

theorem Zipped.outEdges (hz : Zipped B B' g h Z) (v : NodeId) :
    g.outEdges v = (Z.filter (fun z => z.1.src = v)).map (·.1) ∧ h.outEdges v = (Z.filter (fun z => z.1.src = v)).map (·.2) := by
  unfold Graph.outEdges
  rw [hz.fst, hz.snd, List.filter_map, List.filter_map]
  refine ⟨rfl, ?_⟩
  congr 1
  apply List.filter_congr
  intro z hm
  simp [hz.src z hm]

/-- Handles of corresponding edges determine each other. -/
theorem Zipped.ref_iff (hz : Zipped B B' g h Z) (hg : (g.edges.map Edge.ref).Nodup) (hh : (h.edges.map Edge.ref).Nodup) {z w : Edge × Edge}
    (hzm : z ∈ Z) (hwm : w ∈ Z) : z.2.ref = w.2.ref ↔ z.1.ref = w.1.ref := by
  rw [hz.fst, List.map_map] at hg
  rw [hz.snd, List.map_map] at hh
  exact ⟨fun h' => by rw [List.inj_on_of_nodup_map hh hzm hwm h'], fun h' => by rw [List.inj_on_of_nodup_map hg hzm hwm h']⟩

theorem collect_rel {st st' : Store S} (hr : ZRel Z st st') : ∀ {W : List (Edge × Edge)}, (∀ z ∈ W, z ∈ Z) →
    collect st' (W.map (·.2)) = collect st (W.map (·.1)) := by
  intro W hW
  induction W with
  | nil => rfl
  | cons z W ih =>
    simp only [List.map_cons, collect, hr.edges z (hW z (by simp)), ih (fun w hw => hW w (by simp [hw]))]

theorem Zipped.through (hz : Zipped B B' g h Z) {z : Edge × Edge} (hm : z ∈ Z) (s : S) : throughEdge B' z.2 s = throughEdge B z.1 s := by
  unfold throughEdge
  rw [hz.edge z hm, hz.noise z hm]

theorem ZRel.put (hz : Zipped B B' g h Z) (hg : (g.edges.map Edge.ref).Nodup) (hh : (h.edges.map Edge.ref).Nodup) {st st' : Store S}
    (hr : ZRel Z st st') {z : Edge × Edge} (hm : z ∈ Z) (s : S) : ZRel Z (st.put (.edge z.1.ref) s) (st'.put (.edge z.2.ref) s) where
  nodes := by intro v; simp [Store.put, hr.nodes v]
  edges := by
    intro w hw
    simp only [Store.put, Key.edge.injEq, hz.ref_iff hg hh hw hm, hr.edges w hw]

theorem ZRel.putNode {st st' : Store S} (hr : ZRel Z st st') (v : NodeId) (s : S) : ZRel Z (st.put (.node v) s) (st'.put (.node v) s) where
  nodes := by intro w; simp [Store.put, hr.nodes w]
  edges := by intro w hw; simp [Store.put, hr.edges w hw]

theorem outLoop_rel (hz : Zipped B B' g h Z) (hg : (g.edges.map Edge.ref).Nodup) (hh : (h.edges.map Edge.ref).Nodup) (states : List S) :
    ∀ {W : List (Edge × Edge)}, (∀ z ∈ W, z ∈ Z) → ∀ (i : Nat) {st st' : Store S}, ZRel Z st st' →
    ERel (ZRel Z) (outLoop B states i (W.map (·.1)) st) (outLoop B' states i (W.map (·.2)) st') := by
  intro W
  induction W with
  | nil => intro _ i st st' hr; exact hr
  | cons z W ih =>
    intro hW i st st' hr
    have hm := hW z (by simp)
    simp only [List.map_cons, outLoop]
    cases hs : states[i]? with
    | none => exact rfl
    | some s =>
      simp only [hz.through hm]
      cases ht : throughEdge B z.1 s with
      | error x => exact rfl
      | ok s2 => exact ih (fun w hw => hW w (by simp [hw])) (i + 1) (hr.put hz hg hh hm s2)

/-- The nodes do the same as well. -/
def NodesAlike (B B' : Behav S) (g h : Graph) : Prop :=
  ∀ v, (g.node? v = none ∧ h.node? v = none) ∨ ∃ n n', g.node? v = some n ∧ h.node? v = some n' ∧
    ∀ ins, B'.node n'.comp ins (g.inDeg v) (g.outDeg v) = B.node n.comp ins (g.inDeg v) (g.outDeg v)

theorem propNode_rel (hz : Zipped B B' g h Z) (hg : (g.edges.map Edge.ref).Nodup) (hh : (h.edges.map Edge.ref).Nodup) (hn : NodesAlike B B' g h)
    (inp : S) (v : NodeId) {st st' : Store S} (hr : ZRel Z st st') : ERel (ZRel Z) (propNode g B inp v st) (propNode h B' inp v st') := by
  obtain ⟨i1, i2⟩ := hz.inEdges v
  obtain ⟨o1, o2⟩ := hz.outEdges v
  have hmem : ∀ z ∈ Z.filter (fun z => decide (z.1.dst = v)), z ∈ Z := fun z hz => (List.mem_filter.1 hz).1
  have hmem' : ∀ z ∈ Z.filter (fun z => decide (z.1.src = v)), z ∈ Z := fun z hz => (List.mem_filter.1 hz).1
  have hcol : (if h.inEdges v = [] then Except.ok [inp] else collect st' (h.inEdges v)) =
      (if g.inEdges v = [] then Except.ok [inp] else collect st (g.inEdges v)) := by
    rw [i1, i2, collect_rel hr hmem]
    simp only [List.map_eq_nil_iff]
  have hid : h.inDeg v = g.inDeg v := by rw [inDeg_ends, inDeg_ends, hz.ends]
  have hod : h.outDeg v = g.outDeg v := by rw [outDeg_ends, outDeg_ends, hz.ends]
  unfold propNode
  rw [hcol, hid, hod]
  cases (if g.inEdges v = [] then Except.ok [inp] else collect st (g.inEdges v)) with
  | error x => exact rfl
  | ok ins =>
    rcases hn v with ⟨h1, h2⟩ | ⟨n, n', h1, h2, h3⟩
    · simp only [h1, h2]; exact rfl
    · simp only [h1, h2, h3 ins]
      cases B.node n.comp ins (g.inDeg v) (g.outDeg v) with
      | error x => exact rfl
      | ok outs =>
        dsimp only
        by_cases h0 : g.outDeg v = 0
        · simp only [h0, if_true]
          cases outs[0]? with
          | none => exact rfl
          | some s =>
            dsimp only
            rw [o1, o2]
            exact outLoop_rel hz hg hh outs hmem' 0 (hr.putNode v s)
        · simp only [h0, if_false]
          rw [o1, o2]
          exact outLoop_rel hz hg hh outs hmem' 0 hr

theorem propLoop_rel (hz : Zipped B B' g h Z) (hg : (g.edges.map Edge.ref).Nodup) (hh : (h.edges.map Edge.ref).Nodup) (hn : NodesAlike B B' g h)
    (inp : S) : ∀ (vs : List NodeId) {st st' : Store S}, ZRel Z st st' → ERel (ZRel Z) (propLoop g B inp vs st) (propLoop h B' inp vs st') := by
  intro vs
  induction vs with
  | nil => intro st st' hr; exact hr
  | cons v vs ih =>
    intro st st' hr
    have := propNode_rel hz hg hh hn inp v hr
    unfold propLoop
    cases h1 : propNode g B inp v st <;> cases h2 : propNode h B' inp v st' <;> rw [h1, h2] at this
    · exact this
    · exact this.elim
    · exact this.elim
    · exact ih this

theorem propagate_rel (hz : Zipped B B' g h Z) (hi : h.ids = g.ids) (hg : (g.edges.map Edge.ref).Nodup) (hh : (h.edges.map Edge.ref).Nodup)
    (hn : NodesAlike B B' g h) (inp : S) (old old' : Store S) : ERel (ZRel Z) (propagate g B inp old) (propagate h B' inp old') := by
  unfold propagate
  rw [topoSort_congr hi hz.ends]
  cases g.topoSort with
  | error x => exact rfl
  | ok order => exact propLoop_rel hz hg hh hn inp order ⟨fun _ => rfl, fun _ _ => rfl⟩

end

end Verif
