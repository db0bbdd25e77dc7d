import Verif.Lemmas.Ops
/-! # Helper lemmas: reachability, degrees and sizes after each operator -/

namespace Verif
open Graph Relation

theorem without_eq {g : Graph} (h : g.WF) {e} (he : e ∈ g.edges) : g.without e = g.removeEdge e.ref := by
  unfold Graph.without removeEdge
  congr 1
  apply List.filter_congr
  intro x hx
  rw [decide_eq_decide]
  exact not_congr ⟨fun hc => hc ▸ rfl, fun hc => List.inj_on_of_nodup_map h.refs_nodup hx he hc⟩

theorem bypassed_iff {g : Graph} (h : g.WF) {e} (he : e ∈ g.edges) :
    g.Bypassed e ↔ (g.removeEdge e.ref).hasPath e.src e.dst = true := by
  unfold Graph.Bypassed
  rw [without_eq h he, hasPath_iff]

/-- Reachability is unchanged by dropping a bypassed edge. -/
theorem reach_remove_bypassed {g : Graph} {e : Edge}
    (hp : (g.removeEdge e.ref).Reach e.src e.dst) {x y} : (g.removeEdge e.ref).Reach x y ↔ g.Reach x y := by
  constructor
  · exact fun h => ReflTransGen.mono (fun _ _ => adj_removeEdge_le) _ _ h
  · intro h
    induction h with
    | refl => exact .refl
    | tail _ hs ih =>
      rcases adj_removeEdge_or (r := e.ref) hs with h1 | ⟨h1, h2⟩
      · exact ih.tail h1
      · subst h1 h2; exact ih.trans hp

/-- Reachability after merging the ends of an edge. -/
theorem reach_merge {g : Graph} {e : Edge} (he : e ∈ g.edges) {h : Graph}
    (hadj : ∀ x y, h.Adj x y ↔ ∃ a b, (g.removeEdge e.ref).Adj a b ∧ ren e.src e.dst a = x ∧ ren e.src e.dst b = y)
    {x y} (hx : x ≠ e.dst) (hy : y ≠ e.dst) :
    h.Reach x y ↔ g.Reach x y ∨ (g.Reach x e.dst ∧ g.Reach e.src y) := by
  have huv : g.Reach e.src e.dst := .single ⟨e, he, rfl, rfl⟩
  have hle : ∀ a b, TransGen (g.removeEdge e.ref).Adj a b → g.Reach a b := fun a b hab =>
    ReflTransGen.mono (fun _ _ => adj_removeEdge_le) _ _ hab.to_reflTransGen
  have fwd : ∀ a b, g.Reach a b → h.Reach (ren e.src e.dst a) (ren e.src e.dst b) := by
    intro a b hab
    induction hab with
    | refl => exact .refl
    | tail _ hs ih =>
      rcases adj_removeEdge_or (r := e.ref) hs with h1 | ⟨h1, h2⟩
      · exact ih.tail ((hadj _ _).2 ⟨_, _, h1, rfl, rfl⟩)
      · have : ren e.src e.dst e.dst = ren e.src e.dst e.src := by simp [ren]
        subst h1 h2
        show h.Reach _ (ren e.src e.dst e.dst)
        rw [this]; exact ih
  have rx : ren e.src e.dst x = x := by simp [ren, hx]
  have ry : ren e.src e.dst y = y := by simp [ren, hy]
  have rv : ren e.src e.dst e.dst = e.src := by simp [ren]
  have ru : ren e.src e.dst e.src = e.src := by simp [ren]
  constructor
  · intro hxy
    rcases reflTransGen_iff_eq_or_transGen.1 hxy with rfl | hxy
    · exact Or.inl .refl
    · obtain ⟨a, b, ha, hb, hp⟩ := contract_path (fun x y h1 => (hadj x y).1 h1) hxy
      have ca : g.Reach x a := by
        rcases ren_eq (ha.trans rx.symm) with rfl | ⟨rfl, h2⟩ | ⟨rfl, rfl⟩
        · exact .refl
        · exact absurd h2 hx
        · exact huv
      have cb : b = y ∨ (b = e.dst ∧ y = e.src) := by
        rcases ren_eq (hb.trans ry.symm) with rfl | ⟨rfl, h2⟩ | h2
        · exact Or.inl rfl
        · exact absurd h2 hy
        · exact Or.inr h2
      rcases hp with hp | ⟨s, t, h1, h2, h3, h4⟩
      · rcases cb with rfl | ⟨rfl, rfl⟩
        · exact Or.inl (ca.trans (hle _ _ hp))
        · exact Or.inr ⟨ca.trans (hle _ _ hp), .refl⟩
      · right
        constructor
        · rcases h1 with rfl | rfl
          · exact (ca.trans (hle _ _ h3)).trans huv
          · exact ca.trans (hle _ _ h3)
        · rcases cb with rfl | ⟨rfl, rfl⟩
          · rcases h2 with rfl | rfl
            · exact hle _ _ h4
            · exact huv.trans (hle _ _ h4)
          · exact .refl
  · rintro (hxy | ⟨h1, h2⟩)
    · have := fwd _ _ hxy; rwa [rx, ry] at this
    · have a1 := fwd _ _ h1
      have a2 := fwd _ _ h2
      rw [rx, rv] at a1
      rw [ry, ru] at a2
      exact a1.trans a2

/-- Reachability between old nodes after a series insertion. -/
theorem addSeries_reach {g h' : Graph} (h : g.WF) {i : Iface} (hi : i ∈ g.interfaces) {nid}
    (hn : nid ∉ g.ids) {ec nc} (hh : addSeries g i nid ec nc = .ok h') {x y} (hx : x ∈ g.ids) (hy : y ∈ g.ids) :
    h'.Reach x y ↔ g.Reach x y := by
  obtain ⟨e, he, _, hadj⟩ := addSeries_adj h hi hn hh
  have mem_of : ∀ a b, g.Reach a b → a ∈ g.ids → b ∈ g.ids := fun a b hab ha => reach_mem h hab ha
  constructor
  · intro hxy
    have gen : (y ∈ g.ids → g.Reach x y) ∧ (y = nid → g.Reach x e.src) := by
      clear hy
      induction hxy with
      | refl => exact ⟨fun _ => .refl, fun hc => absurd (hc ▸ hx) hn⟩
      | tail _ hs ih =>
        rcases (hadj _ _).1 hs with ⟨rfl, rfl⟩ | ⟨rfl, rfl⟩ | hs
        · exact ⟨fun hc => absurd hc hn, fun _ => ih.1 (h.src_mem e he)⟩
        · exact ⟨fun _ => (ih.2 rfl).tail ⟨e, he, rfl, rfl⟩, fun hc => absurd (hc ▸ h.dst_mem e he) hn⟩
        · have hs := adj_removeEdge_le hs
          exact ⟨fun _ => (ih.1 (hs.src_mem h)).tail hs, fun hc => absurd (hc ▸ hs.dst_mem h) hn⟩
    exact gen.1 hy
  · intro hxy
    clear hy
    induction hxy with
    | refl => exact .refl
    | tail _ hs ih =>
      rcases adj_removeEdge_or (r := e.ref) hs with h1 | ⟨rfl, rfl⟩
      · exact ih.tail ((hadj _ _).2 (Or.inr (Or.inr h1)))
      · exact (ih.tail ((hadj _ _).2 (Or.inl ⟨rfl, rfl⟩))).tail ((hadj _ _).2 (Or.inr (Or.inl ⟨rfl, rfl⟩)))

/-! ### Degrees -/

theorem inDeg_of_body {g : Graph} {f : Edge → Edge} {l : List Edge}
    (h : (g.edges.map Edge.body).Perm (l.map (fun e => (f e).body))) (v) :
    g.inDeg v = l.countP (fun e => (f e).dst = v) := by
  have h2 : (g.edges.map (·.dst)).Perm (l.map (fun e => (f e).dst)) := by
    have := h.map (fun b => b.2.1)
    simpa [List.map_map, Function.comp_def, Edge.body] using this
  have h3 := h2.countP_eq (fun x => decide (x = v))
  rw [List.countP_map, List.countP_map] at h3
  unfold inDeg inEdges
  rw [← List.countP_eq_length_filter]
  exact h3

theorem outDeg_of_body {g : Graph} {f : Edge → Edge} {l : List Edge}
    (h : (g.edges.map Edge.body).Perm (l.map (fun e => (f e).body))) (v) :
    g.outDeg v = l.countP (fun e => (f e).src = v) := by
  have h2 : (g.edges.map (·.src)).Perm (l.map (fun e => (f e).src)) := by
    have := h.map (fun b => b.1)
    simpa [List.map_map, Function.comp_def, Edge.body] using this
  have h3 := h2.countP_eq (fun x => decide (x = v))
  rw [List.countP_map, List.countP_map] at h3
  unfold outDeg outEdges
  rw [← List.countP_eq_length_filter]
  exact h3

theorem inDeg_perm {g : Graph} {l : List Edge} (h : g.edges.Perm l) (v) : g.inDeg v = l.countP (fun e => e.dst = v) := by
  unfold inDeg inEdges
  rw [← List.countP_eq_length_filter, h.countP_eq]

theorem outDeg_perm {g : Graph} {l : List Edge} (h : g.edges.Perm l) (v) : g.outDeg v = l.countP (fun e => e.src = v) := by
  unfold outDeg outEdges
  rw [← List.countP_eq_length_filter, h.countP_eq]

theorem countP_or {α : Type} (p q : α → Bool) (l : List α) (h : ∀ x ∈ l, ¬ (p x = true ∧ q x = true)) :
    l.countP (fun x => p x || q x) = l.countP p + l.countP q := by
  induction l with
  | nil => simp
  | cons a l ih =>
    have ih := ih (fun x hx => h x (by simp [hx]))
    have ha := h a (by simp)
    simp only [List.countP_cons]
    cases hp : p a <;> cases hq : q a <;> simp [hp, hq] at ha ⊢ <;> omega

theorem merge_degrees {g : Graph} (hw : g.WF) (ha : g.Acyclic) {e} (he : e ∈ g.edges) (m : MergeFacts g e) :
    let h := (g.removeEdge e.ref).contract e.src e.dst
    (h.inDeg e.src + 1 = g.inDeg e.src + g.inDeg e.dst) ∧ (h.outDeg e.src + 1 = g.outDeg e.src + g.outDeg e.dst) ∧
    (∀ x, x ≠ e.src → x ≠ e.dst → h.inDeg x = g.inDeg x ∧ h.outDeg x = g.outDeg x) := by
  obtain ⟨n1, n2, n3⟩ := m.no_edges ha
  obtain ⟨_, _, _, hp⟩ := contract_edges n1 n2 n3
  have hpg := removeEdge_perm hw he
  have hne := m.ne
  simp only [inDeg_of_body hp, outDeg_of_body hp, inDeg_perm hpg, outDeg_perm hpg, List.countP_cons]
  have r1 : (g.removeEdge e.ref).edges.countP (fun x => decide ((renEdge e.src e.dst x).dst = e.src)) =
      (g.removeEdge e.ref).edges.countP (fun x => decide (x.dst = e.src)) +
      (g.removeEdge e.ref).edges.countP (fun x => decide (x.dst = e.dst)) := by
    rw [← countP_or]
    · apply List.countP_congr
      intro x _
      by_cases c : x.dst = e.dst <;> simp [renEdge, ren, c]
    · intro x _ hc; simp only [decide_eq_true_eq] at hc; exact hne (hc.1.symm.trans hc.2)
  have r2 : (g.removeEdge e.ref).edges.countP (fun x => decide ((renEdge e.src e.dst x).src = e.src)) =
      (g.removeEdge e.ref).edges.countP (fun x => decide (x.src = e.src)) +
      (g.removeEdge e.ref).edges.countP (fun x => decide (x.src = e.dst)) := by
    rw [← countP_or]
    · apply List.countP_congr
      intro x _
      by_cases c : x.src = e.dst <;> simp [renEdge, ren, c]
    · intro x _ hc; simp only [decide_eq_true_eq] at hc; exact hne (hc.1.symm.trans hc.2)
  rw [r1, r2]
  refine ⟨?_, ?_, ?_⟩
  · have : ¬ (e.dst = e.src) := fun h => hne h.symm
    simp [this]; omega
  · have : ¬ (e.src = e.dst) := hne
    simp [this]; omega
  · intro x hx1 hx2
    have e1 : ¬ (e.dst = x) := fun h => hx2 h.symm
    have e2 : ¬ (e.src = x) := fun h => hx1 h.symm
    constructor
    · simp only [e1, decide_false, Bool.false_eq_true, if_false, Nat.add_zero]
      apply List.countP_congr
      intro y _
      by_cases c : y.dst = e.dst <;> simp [renEdge, ren, c, e1, e2]
    · simp only [e2, decide_false, Bool.false_eq_true, if_false, Nat.add_zero]
      apply List.countP_congr
      intro y _
      by_cases c : y.src = e.dst <;> simp [renEdge, ren, c, e1, e2]

theorem filter_one_length {g : Graph} (hw : g.WF) {v} (hv : v ∈ g.ids) :
    (g.nodes.filter (fun n => n.id ≠ v)).length + 1 = g.nodes.length := by
  obtain ⟨n, hn, rfl⟩ := List.mem_map.1 hv
  have hnd : g.nodes.Nodup := List.Nodup.of_map _ hw.ids_nodup
  have : g.nodes.filter (fun m => decide (m.id ≠ n.id)) = g.nodes.erase n := by
    rw [List.Nodup.erase_eq_filter hnd]
    apply List.filter_congr
    intro x hx
    by_cases hxe : x = n
    · simp [hxe]
    · have : x.id ≠ n.id := fun hr => hxe (List.inj_on_of_nodup_map hw.ids_nodup hx hn hr)
      simp [hxe, this]
  rw [this, List.length_erase_of_mem hn]
  have := List.length_pos_of_mem hn
  omega

end Verif
