import Verif.Lemmas.Layout
import Verif.Props.Fixture
/-!
# Properties of the plot layout (C21)
-/

namespace Verif
open Graph

theorem reach_from_head {g : Graph} (hw : g.WF) {s order} (ho : g.IsTopo (s :: order))
    (h1 : ∀ u v, g.IsSource u → g.IsSource v → u = v) {v} (hv : v ∈ g.ids) : g.Reach s v := by
  obtain ⟨u, hu, hr⟩ := ho.acyclic.from_source hw hv
  have hs : g.IsSource s := by
    refine ⟨(ho.mem_iff s).1 (by simp), fun e he hd => ?_⟩
    have := ho.forward e he
    rw [hd, List.idxOf_cons_self] at this
    omega
  rw [h1 s u hs hu]
  exact hr

/-- **C21.** For a graph with one source, the layout terminates within as many rounds as there are nodes, whatever
topological order is used, and the row of each node is the number of edges of the longest path leading to it;
nothing else gets a position. -/
theorem C21_layout_longest_path {g : Graph} (hw : g.WF) {s rest} (ho : g.IsTopo (s :: rest))
    (h1 : ∀ u v, g.IsSource u → g.IsSource v → u = v) {fuel} (hf : g.nodes.length ≤ fuel) :
    ∃ pos, layout g (s :: rest) fuel = .ok (some pos) ∧
      (∀ v ∈ g.ids, ∃ r, pos v = some r ∧ g.IsLongest s v r) ∧ (∀ v, v ∉ g.ids → pos v = none) := by
  have hs : s ∈ g.ids := (ho.mem_iff s).1 (by simp)
  have hlen : (s :: rest).length = g.nodes.length := by
    have : (s :: rest).Perm g.ids := (List.perm_ext_iff_of_nodup ho.nodup hw.ids_nodup).2 ho.mem_iff
    rw [this.length_eq]; unfold ids; simp
  have hbound : ∀ v n, g.IsLongest s v n → n < g.nodes.length := by
    intro v n h
    have h2 := h.1.idx ho
    have h3 : v ∈ s :: rest := (ho.mem_iff v).2 (h.1.mem hw hs)
    have := List.idxOf_lt_length_of_mem h3
    omega
  have hzero : ∀ v, g.IsLongest s v 0 ↔ v = s := by
    intro v
    constructor
    · intro h; have := h.1; cases this; rfl
    · rintro rfl
      exact ⟨.nil, fun m hm => by have := hm.idx ho; omega⟩
  have hinit : LInv g s { cur := {s}, rem := (s :: rest).toFinset, row := 0, pos := fun _ => none } := by
    refine ⟨fun v => ?_, fun v => ?_, fun v n => by simp⟩
    · rw [Finset.mem_singleton]; exact (hzero v).symm
    · rw [List.mem_toFinset, ho.mem_iff]
      constructor
      · intro hv
        obtain ⟨n, hn⟩ := longest_exists ho (reach_from_head hw ho h1 hv)
        exact ⟨n, hn, by simp⟩
      · rintro ⟨n, hn, _⟩
        exact hn.1.mem hw hs
  obtain ⟨pos, h2, h3⟩ := layoutLoop_spec ho hbound hinit (fuel := fuel) (by simpa using hf)
  refine ⟨pos, by unfold layout; simp only; rw [h2], fun v hv => ?_, fun v hv => ?_⟩
  · obtain ⟨n, hn⟩ := longest_exists ho (reach_from_head hw ho h1 hv)
    exact ⟨n, (h3 v n).2 hn, hn⟩
  · cases hp : pos v with
    | none => rfl
    | some n => exact absurd (((h3 v n).1 hp).1.mem hw hs) hv

/-- **C21.** Hence every edge points to a strictly larger row. -/
theorem C21_edges_point_forward {g : Graph} (hw : g.WF) {s rest} (ho : g.IsTopo (s :: rest))
    (h1 : ∀ u v, g.IsSource u → g.IsSource v → u = v) {fuel} (hf : g.nodes.length ≤ fuel) {pos}
    (hp : layout g (s :: rest) fuel = .ok (some pos)) :
    ∀ e ∈ g.edges, ∃ a b, pos e.src = some a ∧ pos e.dst = some b ∧ a < b := by
  obtain ⟨pos', h2, h3, _⟩ := C21_layout_longest_path hw ho h1 hf
  rw [hp] at h2
  injection h2 with h2
  injection h2 with h2
  subst h2
  intro e he
  obtain ⟨a, ha, ha'⟩ := h3 _ (hw.src_mem e he)
  obtain ⟨b, hb, hb'⟩ := h3 _ (hw.dst_mem e he)
  exact ⟨a, b, ha, hb, hb'.2 _ (ha'.1.snoc ⟨e, he, rfl, rfl⟩)⟩

/-- **C21.** A graph with several sources is never laid out: the loop does not end (and the empty graph raises). -/
theorem C21_layout_diverges {g : Graph} {order} (ho : g.IsTopo order) {u v} (hu : g.IsSource u)
    (hv : g.IsSource v) (hne : u ≠ v) : ∀ fuel, layout g order fuel = .ok none := by
  intro fuel
  have hsrc : ∀ s w, g.IsSource w → s ≠ w → ¬ g.Reach s w := by
    intro s w hw hne hr
    rcases Relation.ReflTransGen.cases_tail hr with h | ⟨x, _, e, he, _, hd⟩
    · exact hne h.symm
    · exact hw.2 e he hd
  cases order with
  | nil => have := (ho.mem_iff u).2 hu.1; simp at this
  | cons s rest =>
    have key : ∀ w, g.IsSource w → s ≠ w → layout g (s :: rest) fuel = .ok none := by
      intro w hw hsw
      unfold layout
      simp only
      exact congrArg Except.ok (layoutLoop_stuck (hsrc s w hw hsw)
        (fun u hu => by rw [Finset.mem_singleton.1 hu]; exact .refl)
        (List.mem_toFinset.2 ((ho.mem_iff w).2 hw.1)))
    by_cases h : s = u
    · exact key v hv (fun h' => hne (h.symm.trans h'))
    · exact key u hu h

/-- Example: two paths of different length from 0 to 3; node 3 is placed after the longer one. -/
def layoutDemo : Graph :=
  ⟨[⟨0, Fixture.src, 1⟩, ⟨1, Fixture.split 2, 1⟩, ⟨2, Fixture.split 2, 1⟩, ⟨3, Fixture.snk, 1⟩],
   [⟨0, 3, 0, Fixture.fiber 5, 1⟩, ⟨0, 1, 0, Fixture.fiber 5, 1⟩, ⟨1, 2, 0, Fixture.fiber 5, 1⟩, ⟨1, 3, 0, Fixture.fiber 5, 1⟩, ⟨2, 3, 0, Fixture.fiber 5, 1⟩]⟩

example : (match layout layoutDemo [0, 1, 2, 3] 4 with
    | .ok (some pos) => [pos 0, pos 1, pos 2, pos 3, pos 4]
    | _ => []) = [some 0, some 1, some 2, some 3, none] := by decide +kernel

example : layoutDemo.WF ∧ layoutDemo.IsTopo [0, 1, 2, 3] ∧
    ∀ u v, layoutDemo.IsSource u → layoutDemo.IsSource v → u = v := by
  refine ⟨⟨by decide, by decide, by decide, by decide⟩, ⟨by decide, ?_, by decide⟩, ?_⟩
  · intro v; simp [layoutDemo, ids]
  · have : ∀ u, layoutDemo.IsSource u → u = 0 := by
      rintro u ⟨h1, h2⟩
      simp [layoutDemo, ids] at h1 h2
      tauto
    intro u v hu hv
    rw [this u hu, this v hv]

/-- Two nodes without edges: two sources. -/
example : (⟨[⟨0, Fixture.src, 1⟩, ⟨1, Fixture.src, 1⟩], []⟩ : Graph).IsSource 1 := ⟨by decide, by simp⟩

/-! Cases of the theorems above. -/

theorem layoutDemo_ok : layoutDemo.WF ∧ layoutDemo.IsTopo [0, 1, 2, 3] ∧ ∀ u v, layoutDemo.IsSource u → layoutDemo.IsSource v → u = v := by
  refine ⟨⟨by decide, by decide, by decide, by decide⟩, ⟨by decide, ?_, by decide⟩, ?_⟩
  · intro v; simp [layoutDemo, ids]
  · have : ∀ u, layoutDemo.IsSource u → u = 0 := by
      rintro u ⟨h1, h2⟩
      simp [layoutDemo, ids] at h1 h2
      tauto
    intro u v hu hv
    rw [this u hu, this v hv]

example := C21_layout_longest_path layoutDemo_ok.1 layoutDemo_ok.2.1 layoutDemo_ok.2.2 (fuel := 4) (by decide)
example (pos : NodeId → Option Nat) (hp : layout layoutDemo [0, 1, 2, 3] 4 = .ok (some pos)) :=
  C21_edges_point_forward layoutDemo_ok.1 layoutDemo_ok.2.1 layoutDemo_ok.2.2 (fuel := 4) (by decide) hp
example := C21_layout_diverges (g := ⟨[⟨0, Fixture.src, 1⟩, ⟨1, Fixture.src, 1⟩], []⟩) (order := [0, 1]) ⟨by decide, by simp [ids], by simp⟩ (u := 0) (v := 1)
  ⟨by decide, by simp⟩ ⟨by decide, by simp⟩ (by decide)

end Verif
