import Verif.Spec.Rewrite
import Verif.Lemmas.Upstream
/-! # Exchanging two components in a row -/

namespace Verif
open Graph

variable {S : Type}

section
variable {g : Graph} {B B' : Behav S} {v : Node} {e1 e2 : Edge} {inp : S} {st : Store S}

/-- The store with another state on edge `e1`. -/
def Store.over (st : Store S) (r : EdgeRef) (m : S) : Store S := fun k => if k = .edge r then some m else st k

theorem over_self (st : Store S) (r : EdgeRef) (m : S) : st.over r m (.edge r) = some m := if_pos rfl

theorem over_ne (st : Store S) {r : EdgeRef} {m : S} {k : Key} (h : k ≠ .edge r) : st.over r m k = st k := if_neg h

theorem over_edge (hw : g.WF) {e d : Edge} (he : e ∈ g.edges) (hd : d ∈ g.edges) (h : d ≠ e) (st : Store S) (m : S) :
    st.over e.ref m (.edge d.ref) = st (.edge d.ref) :=
  over_ne st (by rintro hc; injection hc with hc; exact h (ref_inj hw hd he hc))

theorem row_mem (hr : InARow g v e1 e2) : e1 ∈ g.edges ∧ e1.dst = v.id ∧ e2 ∈ g.edges ∧ e2.src = v.id := by
  have h1 := mem_inEdges.1 (by rw [hr.ins]; simp : e1 ∈ g.inEdges v.id)
  have h2 := mem_outEdges.1 (by rw [hr.outs]; simp : e2 ∈ g.outEdges v.id)
  exact ⟨h1.1, h1.2, h2.1, h2.2⟩

/-- Away from `v` the states leaving a node are the same. -/
theorem outputs_over (hw : g.WF) (hr : InARow g v e1 e2) {u : Node} (hne : u.id ≠ v.id) (hB : B'.node u.comp = B.node u.comp) (m : S) {outs : List S}
    (h : Outputs g B inp st u outs) : Outputs g B' inp (st.over e1.ref m) u outs := by
  obtain ⟨ins, h1, h2⟩ := h
  obtain ⟨he1, hd1, -, -⟩ := row_mem hr
  refine ⟨ins, ?_, by rw [hB]; exact h2⟩
  rcases h1 with ⟨a, b⟩ | ⟨a, b⟩
  · exact .inl ⟨a, b⟩
  · refine .inr ⟨a, ?_⟩
    rw [← b]
    refine List.map_congr_left fun d hd => ?_
    have hd := mem_inEdges.1 hd
    exact over_edge hw he1 hd.1 (by rintro rfl; exact hne (hd.2.symm.trans hd1)) _ _

theorem rewrite_flow (hw : g.WF) {order : List NodeId} (ho : g.IsTopo order) (hr : InARow g v e1 e2)
    (hedges : ∀ e ∈ g.edges, e ≠ e1 → e ≠ e2 → SameEdge B B' e e) (hnodes : ∀ u ∈ g.nodes, u ≠ v → B'.node u.comp = B.node u.comp)
    (hsame : ∀ s t, (∃ m, Passes B v e1 e2 s m t) → ∃ m, Passes B' v e1 e2 s m t) (hF : IsFlow g B inp st) :
    ∃ m, IsFlow g B' inp (st.over e1.ref m) := by
  obtain ⟨he1, hd1, he2, hs2⟩ := row_mem hr
  have h1v : e1.src ≠ v.id := by
    intro hc
    have := ho.forward e1 he1
    rw [hc, hd1] at this
    exact lt_irrefl _ this
  have h12 : e1 ≠ e2 := by rintro rfl; exact h1v hs2
  obtain ⟨u, hu, hid, outs, i, s, s1, s2, k1, k2, k3, k4, k5, k6⟩ := hF.edges e1 he1
  obtain ⟨w, hw', hwid, outs', i', t, t1, t2, l1, l2, l3, l4, l5, l6⟩ := hF.edges e2 he2
  have hwv : w = v := node_unique hw hw' hr.mem (hwid.trans hs2)
  subst hwv
  rw [hs2, hr.outs] at l2
  have hi' : i' = 0 := by
    cases i' with
    | zero => rfl
    | succ j => simp at l2
  subst hi'
  obtain ⟨ins, ⟨a1, -⟩ | ⟨-, a2⟩, a3⟩ := l1
  · rw [hr.ins] at a1; cases a1
  rw [hr.ins, hr.outs] at a3
  rw [hr.ins, List.map_cons, List.map_nil, k6] at a2
  have hins : ins = [s2] := by
    cases ins with
    | nil => cases a2
    | cons x l => cases l with
      | nil => simp at a2; rw [a2]
      | cons y l => simp at a2
  subst hins
  obtain ⟨m, ⟨m1, n1, n2⟩, outs2, x, n3, n4, x1, n5, n6⟩ := hsame s t2 ⟨s2, ⟨s1, k4, k5⟩, outs', t, a3, l3, t1, l4, l5⟩
  refine ⟨m, ?_, ?_, ?_⟩
  · intro e he
    by_cases c1 : e = e1
    · subst c1
      exact ⟨u, hu, hid, outs, i, s, m1, m, outputs_over hw hr (by rw [hid]; exact h1v) (hnodes u hu (by rintro rfl; exact h1v hid.symm)) m k1, k2, k3, n1, n2, over_self _ _ _⟩
    by_cases c2 : e = e2
    · subst c2
      refine ⟨w, hw', hwid, outs2, 0, x, x1, t2, ⟨[m], .inr ⟨by rw [hr.ins]; simp, ?_⟩, by rw [hr.ins, hr.outs]; exact n3⟩, by rw [hs2, hr.outs]; rfl, n4, n5, n6, ?_⟩
      · rw [hr.ins]; simp [over_self]
      · rw [over_edge hw he1 he2 (Ne.symm h12)]; exact l6
    · obtain ⟨q, hq, hqid, o, j, r, r1, r2, p1, p2, p3, p4, p5, p6⟩ := hF.edges e he
      have hqv : q.id ≠ w.id := by
        intro hc
        have hmem : e ∈ g.outEdges w.id := mem_outEdges.2 ⟨he, hqid.symm.trans hc⟩
        rw [hr.outs] at hmem
        exact c2 (by simpa using hmem)
      obtain ⟨b1, b2⟩ := hedges e he c1 c2
      exact ⟨q, hq, hqid, o, j, r, r1, r2, outputs_over hw hr hqv (hnodes q hq (by rintro rfl; exact hqv rfl)) m p1, p2, p3, by rw [b1]; exact p4, by rw [b2]; exact p5,
        by rw [over_edge hw he1 he c1]; exact p6⟩
  · intro q hq hsink
    obtain ⟨o, r, p1, p2, p3⟩ := hF.sinks q hq hsink
    have hqv : q.id ≠ w.id := by
      intro hc
      exact hsink.2 e2 he2 (hs2.trans hc.symm)
    exact ⟨o, r, outputs_over hw hr hqv (hnodes q hq (by rintro rfl; exact hqv rfl)) m p1, p2, by rw [over_ne _ (by simp)]; exact p3⟩
  · intro key hk
    by_cases hc : key = .edge e1.ref
    · exact .inl ⟨e1, he1, hc⟩
    · rw [over_ne _ hc] at hk; exact hF.only key hk

end

end Verif
