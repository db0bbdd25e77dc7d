import Verif.Model.Topo
import Verif.Lemmas.Graph
import Mathlib.Order.WellFounded
import Mathlib.Data.Fintype.Order
import Mathlib.Data.Finite.Defs
import Mathlib.Data.List.Count
/-! # Helper lemmas: finite DAGs and Kahn's algorithm -/

namespace Verif.Graph
open Relation

/-- In a finite DAG every non-empty set of nodes has an element without predecessor in the set. -/
theorem Acyclic.min_elt {g : Graph} (ha : g.Acyclic) (S : NodeId → Prop)
    (hS : ∀ x, S x → x ∈ g.ids) (hne : ∃ x, S x) : ∃ x, S x ∧ ∀ y, g.Adj y x → ¬ S y := by
  let T := {x : NodeId // x ∈ g.ids}
  have : Finite T := List.finite_toSet g.ids
  let r : T → T → Prop := fun a b => TransGen g.Adj a.1 b.1
  have : IsTrans T r := ⟨fun a b c h1 h2 => h1.trans h2⟩
  have : Std.Irrefl r := ⟨fun a h => ha a.1 h⟩
  have wf : WellFounded r := Finite.wellFounded_of_trans_of_irrefl r
  obtain ⟨x0, hx0⟩ := hne
  obtain ⟨m, hm, hmin⟩ := wf.has_min {t : T | S t.1} ⟨⟨x0, hS x0 hx0⟩, hx0⟩
  exact ⟨m.1, hm, fun y hy hSy => hmin ⟨y, hS y hSy⟩ hSy (.single hy)⟩

/-- Dually, an element without successor in the set. -/
theorem Acyclic.max_elt {g : Graph} (ha : g.Acyclic) (S : NodeId → Prop)
    (hS : ∀ x, S x → x ∈ g.ids) (hne : ∃ x, S x) : ∃ x, S x ∧ ∀ y, g.Adj x y → ¬ S y := by
  let T := {x : NodeId // x ∈ g.ids}
  have : Finite T := List.finite_toSet g.ids
  let r : T → T → Prop := fun a b => TransGen g.Adj b.1 a.1
  have : IsTrans T r := ⟨fun a b c h1 h2 => h2.trans h1⟩
  have : Std.Irrefl r := ⟨fun a h => ha a.1 h⟩
  have wf : WellFounded r := Finite.wellFounded_of_trans_of_irrefl r
  obtain ⟨x0, hx0⟩ := hne
  obtain ⟨m, hm, hmin⟩ := wf.has_min {t : T | S t.1} ⟨⟨x0, hS x0 hx0⟩, hx0⟩
  exact ⟨m.1, hm, fun y hy hSy => hmin ⟨y, hS y hSy⟩ hSy (.single hy)⟩

theorem reach_mem {g : Graph} (h : g.WF) {x y} (hr : g.Reach x y) (hx : x ∈ g.ids) : y ∈ g.ids := by
  induction hr with
  | refl => exact hx
  | tail _ h1 _ => exact h1.dst_mem h

/-- In a finite DAG every node is reachable from a source. -/
theorem Acyclic.from_source {g : Graph} (h : g.WF) (ha : g.Acyclic) {v} (hv : v ∈ g.ids) :
    ∃ s, g.IsSource s ∧ g.Reach s v := by
  obtain ⟨s, ⟨hs, hsv⟩, hmin⟩ := ha.min_elt (fun x => x ∈ g.ids ∧ g.Reach x v) (fun _ h => h.1)
    ⟨v, hv, .refl⟩
  refine ⟨s, ⟨hs, fun e he hd => ?_⟩, hsv⟩
  have hadj : g.Adj e.src s := ⟨e, he, rfl, hd⟩
  exact hmin e.src hadj ⟨h.src_mem e he, ReflTransGen.head hadj hsv⟩

theorem Acyclic.to_sink {g : Graph} (h : g.WF) (ha : g.Acyclic) {v} (hv : v ∈ g.ids) :
    ∃ t, g.IsSink t ∧ g.Reach v t := by
  obtain ⟨s, ⟨hs, hsv⟩, hmin⟩ := ha.max_elt (fun x => x ∈ g.ids ∧ g.Reach v x) (fun _ h => h.1)
    ⟨v, hv, .refl⟩
  refine ⟨s, ⟨hs, fun e he hd => ?_⟩, hsv⟩
  have hadj : g.Adj s e.dst := ⟨e, he, hd, rfl⟩
  exact hmin e.dst hadj ⟨h.dst_mem e he, hsv.tail hadj⟩

/-! ### Orders -/

theorem IsTopo.lt_of_path {g : Graph} {o} (h : g.IsTopo o) {x y} (hp : TransGen g.Adj x y) :
    o.idxOf x < o.idxOf y := by
  induction hp with
  | single h1 => obtain ⟨e, he, rfl, rfl⟩ := h1; exact h.forward e he
  | tail _ h1 ih => obtain ⟨e, he, rfl, rfl⟩ := h1; exact ih.trans (h.forward e he)

theorem IsTopo.acyclic {g : Graph} {o} (h : g.IsTopo o) : g.Acyclic :=
  fun _ hv => lt_irrefl _ (h.lt_of_path hv)

/-! ### Kahn -/

theorem kahnRelax_spec (cs : List NodeId) : ∀ (deg : NodeId → Nat) (st : List NodeId),
    (∀ x, cs.count x ≤ deg x) → (∀ x ∈ st, deg x = 0) → st.Nodup →
    (∀ x, (kahnRelax cs deg st).1 x = deg x - cs.count x) ∧
    (∀ x, x ∈ (kahnRelax cs deg st).2 ↔ x ∈ st ∨ (x ∈ cs ∧ deg x = cs.count x)) ∧
    (kahnRelax cs deg st).2.Nodup := by
  induction cs with
  | nil => intro deg st _ _ hn; simp [kahnRelax, hn]
  | cons c cs ih =>
    intro deg st hle hz hn
    have hc1 : 1 ≤ deg c := by
      have := hle c; rw [List.count_cons_self] at this; omega
    have hcst : c ∉ st := fun h => by have := hz c h; omega
    have key := ih (fun x => if x = c then deg c - 1 else deg x)
      (if (if c = c then deg c - 1 else deg c) = 0 then c :: st else st)
    rw [show kahnRelax (c :: cs) deg st = kahnRelax cs (fun x => if x = c then deg c - 1 else deg x)
      (if (if c = c then deg c - 1 else deg c) = 0 then c :: st else st) from rfl]
    have hle' : ∀ x, cs.count x ≤ (if x = c then deg c - 1 else deg x) := by
      intro x
      have := hle x
      by_cases hx : x = c
      · subst hx; rw [List.count_cons_self] at this; simp only [if_true]; omega
      · rw [List.count_cons_of_ne (Ne.symm hx)] at this; simpa [hx] using this
    have hz' : ∀ x ∈ (if (if c = c then deg c - 1 else deg c) = 0 then c :: st else st),
        (if x = c then deg c - 1 else deg x) = 0 := by
      intro x hx
      simp only [if_true] at hx
      split at hx
      · rcases List.mem_cons.1 hx with rfl | hx
        · simpa
        · have : x ≠ c := fun h => hcst (h ▸ hx)
          simp [this, hz x hx]
      · have : x ≠ c := fun h => hcst (h ▸ hx)
        simp [this, hz x hx]
    have hn' : (if (if c = c then deg c - 1 else deg c) = 0 then c :: st else st).Nodup := by
      simp only [if_true]
      split
      · exact List.nodup_cons.2 ⟨hcst, hn⟩
      · exact hn
    obtain ⟨k1, k2, k3⟩ := key hle' hz' hn'
    refine ⟨?_, ?_, k3⟩
    · intro x
      rw [k1]
      by_cases hx : x = c
      · subst hx; rw [List.count_cons_self]; simp only [if_true]; omega
      · rw [List.count_cons_of_ne (Ne.symm hx)]; simp [hx]
    · intro x
      rw [k2]
      by_cases hx : x = c
      · subst hx
        simp only [if_true, List.mem_cons, true_or, true_and, List.count_cons_self]
        have hcnt := hle' x
        simp only [if_true] at hcnt
        by_cases h0 : deg x - 1 = 0
        · have : cs.count x = 0 := by omega
          simp only [h0, if_true, List.mem_cons, true_or, true_iff]
          right; omega
        · simp only [h0, if_false, hcst, false_or]
          constructor
          · rintro ⟨_, h⟩; omega
          · intro h
            have : 0 < cs.count x := by omega
            exact ⟨List.count_pos_iff.1 this, by omega⟩
      · rw [List.count_cons_of_ne (Ne.symm hx)]
        simp only [if_true, hx, if_false, List.mem_cons, false_or]
        have : x ∈ (if deg c - 1 = 0 then c :: st else st) ↔ x ∈ st := by
          split <;> simp [hx]
        rw [this]

/-- Number of edges into `c` from nodes outside `P`. -/
def pending (g : Graph) (P : List NodeId) (c : NodeId) : Nat :=
  g.edges.countP (fun e => e.dst = c ∧ e.src ∉ P)

theorem pending_cons (g : Graph) (P : List NodeId) (v c : NodeId) (hv : v ∉ P) :
    g.pending P c = g.pending (v :: P) c + (g.succs v).count c := by
  unfold pending succs outEdges
  rw [List.count, List.countP_map, List.countP_filter]
  induction g.edges with
  | nil => simp
  | cons e es ih =>
    simp only [List.countP_cons]
    by_cases h1 : e.dst = c <;> by_cases h2 : e.src = v <;> by_cases h3 : e.src ∈ P <;>
      simp_all <;> omega

theorem pending_nil (g : Graph) (c) : g.pending [] c = g.inDeg c := by
  unfold pending inDeg inEdges
  rw [List.countP_eq_length_filter]
  simp

/-- What the outer loop returns, from any state satisfying Kahn's invariant. -/
theorem kahnLoop_spec {g : Graph} (h : g.WF) : ∀ (n : Nat) (P : List NodeId) (deg : NodeId → Nat)
    (st : List NodeId), (∀ c, deg c = g.pending P c) → (P ++ st).Nodup → (∀ x ∈ P ++ st, x ∈ g.ids) →
    (∀ c ∈ g.ids, (c ∈ P ∨ c ∈ st) ↔ deg c = 0) → g.nodes.length ≤ n + P.length →
    let out := kahnLoop g n deg st
    (P ++ out).Nodup ∧ (∀ x ∈ out, x ∈ g.ids) ∧
    (∀ c ∈ g.ids, c ∈ P ++ out ↔ g.pending (P ++ out) c = 0) ∧
    (∀ l1 v l2, out = l1 ++ v :: l2 → ∀ e ∈ g.edges, e.dst = v → e.src ∈ P ∨ e.src ∈ l1) := by
  intro n
  induction n with
  | zero =>
    intro P deg st hdeg hnd hmem hz hfuel
    have hst : st = [] := by
      have h1 : (P ++ st).length ≤ g.ids.length := (List.subperm_of_subset hnd hmem).length_le
      have h2 : g.ids.length = g.nodes.length := by simp [ids]
      rw [List.length_append] at h1
      exact List.length_eq_zero_iff.1 (by omega)
    subst hst
    simp only [kahnLoop, List.append_nil]
    refine ⟨by simpa using hnd, by simp, ?_, ?_⟩
    · intro c hc
      rw [← hdeg, ← hz c hc]; simp
    · intro l1 v l2 hl; simp at hl
  | succ n ih =>
    intro P deg st hdeg hnd hmem hz hfuel
    cases st with
    | nil =>
      simp only [kahnLoop, List.append_nil]
      refine ⟨by simpa using hnd, by simp, ?_, ?_⟩
      · intro c hc
        rw [← hdeg, ← hz c hc]; simp
      · intro l1 v l2 hl; simp at hl
    | cons v st =>
      have hvids : v ∈ g.ids := hmem v (by simp)
      have hPst := List.nodup_append.1 hnd
      have hvP : v ∉ P := fun hv => hPst.2.2 v hv v (by simp) rfl
      have hvst : v ∉ st := (List.nodup_cons.1 hPst.2.1).1
      have hdv : ∀ x ∈ v :: st, deg x = 0 := fun x hx => (hz x (hmem x (by
        simp only [List.mem_append]; exact Or.inr hx))).1 (Or.inr hx)
      have hcnt : ∀ x, (g.succs v).count x ≤ deg x := by
        intro x; rw [hdeg, pending_cons g P v x hvP]; omega
      obtain ⟨r1, r2, r3⟩ := kahnRelax_spec (g.succs v) deg st hcnt
        (fun x hx => hdv x (by simp [hx])) (List.nodup_cons.1 hPst.2.1).2
      -- newly pushed nodes are nodes, not yet popped
      have hnew : ∀ x, x ∈ g.succs v → deg x = (g.succs v).count x →
          x ∈ g.ids ∧ x ∉ P ∧ x ≠ v := by
        intro x hx hd
        have hpos : 0 < (g.succs v).count x := List.count_pos_iff.2 hx
        have hxids : x ∈ g.ids := by
          obtain ⟨e, he, rfl⟩ := List.mem_map.1 hx
          exact h.dst_mem e (List.mem_filter.1 he).1
        refine ⟨hxids, fun hxP => ?_, fun hxv => ?_⟩
        · have := (hz x hxids).1 (Or.inl hxP); omega
        · have := hdv x (by simp [hxv]); omega
      have hih := ih (v :: P) (kahnRelax (g.succs v) deg st).1 (kahnRelax (g.succs v) deg st).2
        (by intro c; rw [r1, hdeg, pending_cons g P v c hvP]; omega)
        (by
          rw [List.nodup_append]
          refine ⟨List.nodup_cons.2 ⟨hvP, hPst.1⟩, r3, ?_⟩
          intro a ha b hb hab
          subst hab
          rcases (r2 a).1 hb with hb1 | ⟨hb, hb'⟩
          · rcases List.mem_cons.1 ha with rfl | ha
            · exact hvst hb1
            · exact hPst.2.2 a ha a (by simp [hb1]) rfl
          · have := hnew a hb hb'
            rcases List.mem_cons.1 ha with rfl | ha
            · exact this.2.2 rfl
            · exact this.2.1 ha)
        (by
          intro x hx
          rcases List.mem_append.1 hx with hx | hx
          · rcases List.mem_cons.1 hx with rfl | hx
            · exact hvids
            · exact hmem x (by simp [hx])
          · rcases (r2 x).1 hx with hx | ⟨hx, hx'⟩
            · exact hmem x (by simp [hx])
            · exact (hnew x hx hx').1)
        (by
          intro c hc
          rw [r1, r2]
          constructor
          · rintro (hcp | hcs | ⟨_, hcs⟩)
            · rcases List.mem_cons.1 hcp with rfl | hcp
              · have := hdv c (by simp); omega
              · have := (hz c hc).1 (Or.inl hcp); omega
            · have := hdv c (by simp [hcs]); omega
            · omega
          · intro h0
            by_cases hd : deg c = 0
            · rcases (hz c hc).2 hd with h1 | h1
              · exact Or.inl (by simp [h1])
              · rcases List.mem_cons.1 h1 with rfl | h1
                · exact Or.inl (by simp)
                · exact Or.inr (Or.inl h1)
            · have := hcnt c
              have hpos : 0 < (g.succs v).count c := by omega
              exact Or.inr (Or.inr ⟨List.count_pos_iff.1 hpos, by omega⟩))
        (by simp only [List.length_cons]; omega)
      obtain ⟨i1, i2, i3, i4⟩ := hih
      have hout : kahnLoop g (n + 1) deg (v :: st) = v :: kahnLoop g n (kahnRelax (g.succs v) deg st).1
        (kahnRelax (g.succs v) deg st).2 := rfl
      simp only
      rw [hout]
      set out' := kahnLoop g n (kahnRelax (g.succs v) deg st).1 (kahnRelax (g.succs v) deg st).2
      have hperm : (P ++ v :: out').Perm (v :: P ++ out') := List.perm_middle
      have hpend : ∀ c, g.pending (P ++ v :: out') c = g.pending (v :: P ++ out') c := by
        intro c; unfold pending
        simp only [hperm.mem_iff]
      refine ⟨hperm.nodup_iff.2 i1, ?_, ?_, ?_⟩
      · intro x hx
        rcases List.mem_cons.1 hx with rfl | hx
        · exact hvids
        · exact i2 x hx
      · intro c hc
        rw [hpend, hperm.mem_iff]; exact i3 c hc
      · intro l1 w l2 hl e he hd
        cases l1 with
        | nil =>
          simp only [List.nil_append, List.cons.injEq] at hl
          obtain ⟨rfl, _⟩ := hl
          left
          have h0 : g.pending P v = 0 := by rw [← hdeg]; exact hdv v (by simp)
          have := List.countP_eq_zero.1 h0 e he
          simpa [hd] using this
        | cons a l1 =>
          simp only [List.cons_append, List.cons.injEq] at hl
          obtain ⟨rfl, hl⟩ := hl
          rcases i4 l1 w l2 hl e he hd with hh | hh
          · rcases List.mem_cons.1 hh with hh | hh
            · right; simp [hh]
            · exact Or.inl hh
          · right; simp [hh]

theorem idxOf_lt_of_split {l1 l2 : List NodeId} {v x : NodeId} (hnd : (l1 ++ v :: l2).Nodup) (hx : x ∈ l1) :
    (l1 ++ v :: l2).idxOf x < (l1 ++ v :: l2).idxOf v := by
  have hv : v ∉ l1 := fun hv => (List.nodup_append.1 hnd).2.2 v hv v (by simp) rfl
  rw [List.idxOf_append_of_mem hx, List.idxOf_append_of_notMem hv]
  have := List.idxOf_lt_length_iff.2 hx
  simp only [List.idxOf_cons_self]
  omega

theorem topo_spec {g : Graph} (h : g.WF) :
    let out := kahnLoop g g.nodes.length g.inDeg (g.ids.filter (fun v => g.inDeg v = 0)).reverse
    out.Nodup ∧ (∀ x ∈ out, x ∈ g.ids) ∧
    (∀ c ∈ g.ids, c ∈ out ↔ g.pending out c = 0) ∧
    (∀ l1 v l2, out = l1 ++ v :: l2 → ∀ e ∈ g.edges, e.dst = v → e.src ∈ l1) := by
  have := kahnLoop_spec h g.nodes.length [] g.inDeg (g.ids.filter (fun v => g.inDeg v = 0)).reverse
    (fun c => (pending_nil g c).symm) (by simpa using h.ids_nodup.filter _)
    (by intro x hx; simp at hx; exact hx.1) (by intro c hc; simp [hc]) (by simp)
  simpa using this

/-- Whatever the sort returns is a topological order of all nodes. -/
theorem topoSort_sound {g : Graph} (h : g.WF) {o} (ho : g.topoSort = .ok o) : g.IsTopo o := by
  obtain ⟨t1, t2, t3, t4⟩ := topo_spec h
  unfold topoSort at ho
  simp only at ho
  split at ho
  · rename_i hlen
    injection ho with ho
    rw [ho] at t1 t2 t3 t4 hlen
    have hmem : ∀ v, v ∈ o ↔ v ∈ g.ids := by
      intro v
      refine ⟨t2 v, fun hv => ?_⟩
      have hsp := List.subperm_of_subset t1 t2
      have : o.Perm g.ids := hsp.perm_of_length_le (by simp [ids, hlen])
      exact this.mem_iff.2 hv
    refine ⟨t1, hmem, fun e he => ?_⟩
    obtain ⟨l1, l2, hl⟩ := List.append_of_mem ((hmem e.dst).2 (h.dst_mem e he))
    have := t4 l1 e.dst l2 hl e he rfl
    rw [hl] at t1 ⊢
    exact idxOf_lt_of_split t1 this
  · cases ho

/-- The sort succeeds on every DAG. -/
theorem topoSort_complete {g : Graph} (h : g.WF) (ha : g.Acyclic) : ∃ o, g.topoSort = .ok o := by
  obtain ⟨t1, t2, t3, t4⟩ := topo_spec h
  unfold topoSort
  simp only
  set o := kahnLoop g g.nodes.length g.inDeg (g.ids.filter (fun v => g.inDeg v = 0)).reverse
  have hall : ∀ v ∈ g.ids, v ∈ o := by
    intro v hv
    by_contra hvo
    obtain ⟨m, ⟨hm1, hm2⟩, hmin⟩ := ha.min_elt (fun x => x ∈ g.ids ∧ x ∉ o) (fun _ h => h.1) ⟨v, hv, hvo⟩
    apply hm2
    rw [t3 m hm1]
    unfold pending
    rw [List.countP_eq_zero]
    intro e he
    simp only [decide_eq_true_eq, not_and, not_not]
    intro hd
    by_contra hc
    exact hmin e.src ⟨e, he, rfl, hd⟩ ⟨h.src_mem e he, hc⟩
  have h1 := (List.subperm_of_subset t1 t2).length_le
  have h2 := (List.subperm_of_subset h.ids_nodup hall).length_le
  have h3 : g.ids.length = g.nodes.length := by simp [ids]
  rw [if_pos (by omega)]
  exact ⟨o, rfl⟩

end Verif.Graph
