import Verif.Lemmas.Upstream
import Verif.Lemmas.Transfer
import Verif.Lemmas.Copy
/-! # Solutions of the data-flow equations after inserting a component (C97) -/

namespace Verif
open Graph

variable {S : Type}

/-- Everything about the edges after `addSeries`: the two new edges, and in which order they are met. -/
theorem addSeries_edges {g g' : Graph} (hw : g.WF) {i : Iface} (hi : i ∈ g.interfaces) {nid : NodeId} (hn : nid ∉ g.ids) {ec nc : Comp}
    (hs : addSeries g i nid ec nc = .ok g') {e : Edge} (he : e ∈ g.edges) (hie : i.edge = e.ref) (hne : e.src ≠ e.dst) :
    ∃ c1 c2 : Comp, ∃ n1 n2 : ClassId, (i.node = e.src ∧ c1 = ec ∧ c2 = e.comp ∨ i.node = e.dst ∧ c1 = e.comp ∧ c2 = ec) ∧
      g'.nodes = g.nodes ++ [⟨nid, nc, nc.cls⟩] ∧
      (∀ x, x ∈ g'.edges ↔ (x ∈ g.edges ∧ x ≠ e) ∨ x = ⟨e.src, nid, 0, c1, n1⟩ ∨ x = ⟨nid, e.dst, 0, c2, n2⟩) ∧
      g'.outEdges e.src = (g.outEdges e.src).filter (fun x => x.ref ≠ e.ref) ++ [⟨e.src, nid, 0, c1, n1⟩] ∧
      g'.outEdges nid = [⟨nid, e.dst, 0, c2, n2⟩] ∧
      (∀ u, u ≠ e.src → u ≠ nid → g'.outEdges u = g.outEdges u) ∧
      g'.inEdges e.dst = (g.inEdges e.dst).filter (fun x => x.ref ≠ e.ref) ++ [⟨nid, e.dst, 0, c2, n2⟩] ∧
      g'.inEdges nid = [⟨e.src, nid, 0, c1, n1⟩] ∧
      (∀ u, u ≠ e.dst → u ≠ nid → g'.inEdges u = g.inEdges u) := by
  have hq : g.edge? i.edge = some e := (edge?_eq_some hw).2 ⟨he, hie.symm⟩
  have hsrc : i.edge.src = e.src := by rw [hie]; rfl
  have hdst : i.edge.dst = e.dst := by rw [hie]; rfl
  have hfs : ∀ x ∈ g.edges, x.src ≠ nid := fun x hx hc => hn (hc ▸ hw.src_mem x hx)
  have hfd : ∀ x ∈ g.edges, x.dst ≠ nid := fun x hx hc => hn (hc ▸ hw.dst_mem x hx)
  have hes : e.src ≠ nid := hfs e he
  have hed : e.dst ≠ nid := hfd e he
  have key : ∀ (c1 c2 : Comp) (n1 n2 : ClassId), g' = (((g.addNode nid nc nc.cls).removeEdge e.ref).addEdge e.src nid c1 n1).addEdge nid e.dst c2 n2 →
      g'.nodes = g.nodes ++ [⟨nid, nc, nc.cls⟩] ∧
      (∀ x, x ∈ g'.edges ↔ (x ∈ g.edges ∧ x ≠ e) ∨ x = ⟨e.src, nid, 0, c1, n1⟩ ∨ x = ⟨nid, e.dst, 0, c2, n2⟩) ∧
      g'.outEdges e.src = (g.outEdges e.src).filter (fun x => x.ref ≠ e.ref) ++ [⟨e.src, nid, 0, c1, n1⟩] ∧
      g'.outEdges nid = [⟨nid, e.dst, 0, c2, n2⟩] ∧
      (∀ u, u ≠ e.src → u ≠ nid → g'.outEdges u = g.outEdges u) ∧
      g'.inEdges e.dst = (g.inEdges e.dst).filter (fun x => x.ref ≠ e.ref) ++ [⟨nid, e.dst, 0, c2, n2⟩] ∧
      g'.inEdges nid = [⟨e.src, nid, 0, c1, n1⟩] ∧
      (∀ u, u ≠ e.dst → u ≠ nid → g'.inEdges u = g.inEdges u) := by
    intro c1 c2 n1 n2 hg
    obtain ⟨g0, hg0⟩ : ∃ g0, g0 = (g.addNode nid nc nc.cls).removeEdge e.ref := ⟨_, rfl⟩
    have hm0 : ∀ x, x ∈ g0.edges ↔ x ∈ g.edges ∧ x ≠ e := by
      intro x
      rw [hg0, mem_removeEdge]
      refine and_congr_right (fun hx => ⟨fun h hc => h (by rw [hc]), fun h hc => h (ref_inj hw hx he hc)⟩)
    have hf0 : ∀ q : Edge → Bool, g0.edges.filter q = (g.edges.filter q).filter (fun x => x.ref ≠ e.ref) := by
      intro q
      rw [hg0]
      show (g.edges.filter (fun x => decide (x.ref ≠ e.ref))).filter q = _
      rw [List.filter_filter, List.filter_filter]
      exact List.filter_congr (fun x _ => Bool.and_comm _ _)
    have hr : ∀ (q : Edge → Bool), q e = false → g0.edges.filter q = g.edges.filter q := by
      intro q hqe
      rw [hf0, List.filter_eq_self]
      intro x hx
      have hx := List.mem_filter.1 hx
      rw [decide_eq_true_eq]
      intro hc
      have := ref_inj hw hx.1 he hc
      rw [this] at hx
      rw [hx.2] at hqe
      cases hqe
    rw [← hg0] at hg
    obtain ⟨g1, hg1⟩ : ∃ g1, g1 = g0.addEdge e.src nid c1 n1 := ⟨_, rfl⟩
    have hk0 : g0.newKey e.src nid = 0 := newKey_eq_zero (fun x hx hc => hfd x ((hm0 x).1 hx).1 hc.2)
    have hm1 : ∀ x, x ∈ g1.edges ↔ (x ∈ g.edges ∧ x ≠ e) ∨ x = ⟨e.src, nid, 0, c1, n1⟩ := by
      intro x
      rw [hg1, mem_addEdge, hk0, hm0]
      exact or_comm
    rw [← hg1] at hg
    have hk1 : g1.newKey nid e.dst = 0 := newKey_eq_zero (fun x hx hc => by
      rcases (hm1 x).1 hx with h | h
      · exact hfs x h.1 hc.1
      · rw [h] at hc; exact hes hc.1)
    have hnodes : g1.nodes = g.nodes ++ [⟨nid, nc, nc.cls⟩] := by rw [hg1, hg0]; rfl
    have hids : g1.ids = g.ids ++ [nid] := by unfold Graph.ids; rw [hnodes]; simp
    have hidx : g1.nodeIdx nid = g.ids.length := by
      rw [nodeIdx_eq, hids, List.idxOf_append_of_notMem hn]; simp
    have hlast : g'.edges = g1.edges ++ [⟨nid, e.dst, 0, c2, n2⟩] := by
      rw [hg]
      have hany : ¬ (g1.edges.any (fun x => decide (x.src = nid ∧ x.dst = e.dst))) = true := by
        rw [List.any_eq_true]
        rintro ⟨x, hx, h⟩
        have h : x.src = nid ∧ x.dst = e.dst := by simpa using h
        rcases (hm1 x).1 hx with h' | h'
        · exact hfs x h'.1 h.1
        · rw [h'] at h; exact hes h.1
      unfold Graph.addEdge
      dsimp only
      rw [if_neg hany, hk1]
      apply insertAfterLast_last
      intro x hx
      have hx : x ∈ g1.edges := List.mem_of_getLast? hx
      have hxs : x.src ∈ g.ids := by
        rcases (hm1 x).1 hx with h' | h'
        · exact hw.src_mem x h'.1
        · rw [h']; exact hw.src_mem e he
      rw [decide_eq_true_eq, hidx, nodeIdx_eq, hids, List.idxOf_append_of_mem hxs]
      exact (List.idxOf_lt_length_of_mem hxs).le
    refine ⟨by rw [hg]; exact hnodes, ?_, ?_, ?_, ?_, ?_, ?_, ?_⟩
    · intro x
      rw [hlast, List.mem_append, hm1, List.mem_singleton, or_assoc]
    · unfold outEdges
      rw [hlast, List.filter_append]
      have h2 := addEdge_new_out g0 (u := e.src) (v := nid) c1 n1 (fun x hx hc => hfd x ((hm0 x).1 hx).1 hc.2)
      unfold outEdges at h2
      rw [hg1, h2, hf0]
      simp [hes.symm]
    · unfold outEdges
      rw [hlast, List.filter_append]
      have : g1.edges.filter (fun x => decide (x.src = nid)) = [] := by
        rw [List.filter_eq_nil_iff]
        intro x hx hc
        have hc : x.src = nid := by simpa using hc
        rcases (hm1 x).1 hx with h' | h'
        · exact hfs x h'.1 hc
        · rw [h'] at hc; exact hes hc
      rw [this]
      simp
    · intro u hu hun
      unfold outEdges
      rw [hlast, List.filter_append, hg1, addEdge_filter _ _ _ _ _ (by simpa using hu.symm), hr _ (by simpa using hu.symm)]
      simp [hun.symm]
    · unfold inEdges
      rw [hlast, List.filter_append, hg1, addEdge_filter _ _ _ _ _ (by simpa using hed.symm), hf0]
      simp
    · unfold inEdges
      rw [hlast, List.filter_append]
      have h1 : g1.edges.filter (fun x => decide (x.dst = nid)) = [⟨e.src, nid, 0, c1, n1⟩] := by
        have hp : (g1.edges.filter (fun x => decide (x.dst = nid))).Perm (((⟨e.src, nid, 0, c1, n1⟩ : Edge) :: g0.edges).filter (fun x => decide (x.dst = nid))) := by
          rw [hg1]
          have := (addEdge_perm g0 e.src nid c1 n1).filter (fun x => decide (x.dst = nid))
          rwa [hk0] at this
        have h0 : g0.edges.filter (fun x => decide (x.dst = nid)) = [] := by
          rw [List.filter_eq_nil_iff]
          intro x hx hc
          exact hfd x ((hm0 x).1 hx).1 (by simpa using hc)
        rw [List.filter_cons, if_pos (by simp), h0] at hp
        exact List.perm_singleton.1 hp
      rw [h1]
      simp [hed]
    · intro u hu hun
      unfold inEdges
      rw [hlast, List.filter_append, hg1, addEdge_filter _ _ _ _ _ (by simpa using hun.symm), hr _ (by simpa using hu.symm)]
      simp [hu.symm]
  unfold addSeries at hs
  rw [hq] at hs
  simp only at hs
  split at hs
  · rename_i hc
    injection hs with hs
    rw [hc, hie] at hs
    exact ⟨_, _, _, _, .inl ⟨hc.trans hsrc, rfl, rfl⟩, key _ _ _ _ hs.symm⟩
  · rename_i hc
    injection hs with hs
    obtain ⟨e2, he2, hr2, hnode⟩ := mem_interfaces.1 hi
    have : e2 = e := ref_inj hw he2 he (hr2.symm.trans hie)
    subst this
    rcases hnode with ⟨hnode, -⟩ | ⟨hnode, -⟩
    · exact absurd (hnode.trans hsrc.symm) hc
    · rw [hnode, hsrc, hie] at hs
      exact ⟨_, _, _, _, .inr ⟨hnode, rfl, rfl⟩, key _ _ _ _ hs.symm⟩

/-- The stored states after the insertion: what was on `e` is on the edge behind the new node, `m` on the edge in front of it. -/
def grownStore (st : Store S) (e : Edge) (nid : NodeId) (m : S) : Store S := fun k =>
  if k = .edge ⟨nid, e.dst, 0⟩ then st (.edge e.ref) else if k = .edge ⟨e.src, nid, 0⟩ then some m else if k = .edge e.ref then none else st k

theorem grown_flow {g g' : Graph} (hw : g.WF) {nid : NodeId} (hn : nid ∉ g.ids) {nc : Comp} {e : Edge} (he : e ∈ g.edges)
    {c1 c2 : Comp} {n1 n2 : ClassId} {l1 l2 : List Edge} (ho : g.outEdges e.src = l1 ++ [e]) (hi : g.inEdges e.dst = l2 ++ [e])
    (hnodes : g'.nodes = g.nodes ++ [⟨nid, nc, nc.cls⟩])
    (hedges : ∀ x, x ∈ g'.edges ↔ (x ∈ g.edges ∧ x ≠ e) ∨ x = ⟨e.src, nid, 0, c1, n1⟩ ∨ x = ⟨nid, e.dst, 0, c2, n2⟩)
    (ho1 : g'.outEdges e.src = (g.outEdges e.src).filter (fun x => x.ref ≠ e.ref) ++ [⟨e.src, nid, 0, c1, n1⟩])
    (ho2 : g'.outEdges nid = [⟨nid, e.dst, 0, c2, n2⟩])
    (ho3 : ∀ u, u ≠ e.src → u ≠ nid → g'.outEdges u = g.outEdges u)
    (hi1 : g'.inEdges e.dst = (g.inEdges e.dst).filter (fun x => x.ref ≠ e.ref) ++ [⟨nid, e.dst, 0, c2, n2⟩])
    (hi2 : g'.inEdges nid = [⟨e.src, nid, 0, c1, n1⟩])
    (hi3 : ∀ u, u ≠ e.dst → u ≠ nid → g'.inEdges u = g.inEdges u)
    {B : Behav S} {inp : S} {st : Store S} (hF : IsFlow g B inp st)
    (hnc : ∀ x, B.node nc [x] 1 1 = .ok [x])
    (hthr : ∀ s s2, OnEdge B e.comp s s2 → ∃ m, OnEdge B c1 s m ∧ OnEdge B c2 m s2) :
    ∃ m, IsFlow g' B inp (grownStore st e nid m) ∧
      ∃ v ∈ g.nodes, v.id = e.src ∧ ∃ outs s, Outputs g B inp st v outs ∧ outs[l1.length]? = some s ∧ OnEdge B c1 s m := by
  have hfs : ∀ x ∈ g.edges, x.src ≠ nid := fun x hx hc => hn (hc ▸ hw.src_mem x hx)
  have hfd : ∀ x ∈ g.edges, x.dst ≠ nid := fun x hx hc => hn (hc ▸ hw.dst_mem x hx)
  have hes : e.src ≠ nid := hfs e he
  have hed : e.dst ≠ nid := hfd e he
  have hnd : g.edges.Nodup := List.Nodup.of_map _ hw.refs_nodup
  have hl1 : ∀ x ∈ l1, x ≠ e := by
    have : (l1 ++ [e]).Nodup := ho ▸ hnd.filter _
    intro x hx hc
    exact (List.nodup_append.1 this).2.2 x hx e (by simp) hc
  have hl2 : ∀ x ∈ l2, x ≠ e := by
    have : (l2 ++ [e]).Nodup := hi ▸ hnd.filter _
    intro x hx hc
    exact (List.nodup_append.1 this).2.2 x hx e (by simp) hc
  have hm1 : ∀ x ∈ l1, x ∈ g.edges := fun x hx => (mem_outEdges.1 (ho ▸ List.mem_append_left _ hx : x ∈ g.outEdges e.src)).1
  have hm2 : ∀ x ∈ l2, x ∈ g.edges := fun x hx => (mem_inEdges.1 (hi ▸ List.mem_append_left _ hx : x ∈ g.inEdges e.dst)).1
  have hflt : ∀ l : List Edge, (∀ x ∈ l, x ≠ e) → (∀ x ∈ l, x ∈ g.edges) → (l ++ [e]).filter (fun x => decide (x.ref ≠ e.ref)) = l := by
    intro l h1 h2
    rw [List.filter_append]
    have : l.filter (fun x => decide (x.ref ≠ e.ref)) = l := by
      rw [List.filter_eq_self]
      intro x hx
      rw [decide_eq_true_eq]
      exact fun hc => h1 x hx (ref_inj hw (h2 x hx) he hc)
    rw [this]
    simp
  rw [ho, hflt l1 hl1 hm1] at ho1
  rw [hi, hflt l2 hl2 hm2] at hi1
  obtain ⟨v, hv, hvs, outs, i, s, s1, s2, hO, hport, hs, hb, hnz, hst⟩ := hF.edges e he
  obtain ⟨m, hon1, hon2⟩ := hthr s s2 ⟨s1, hb, hnz⟩
  have hil : i = l1.length := by
    rw [ho] at hport
    have hlt := (List.getElem?_eq_some_iff.1 hport).1
    by_contra hc
    have hlt : i < l1.length := by simp at hlt; omega
    rw [List.getElem?_append_left hlt] at hport
    exact hl1 e (List.mem_of_getElem? hport) rfl
  subst hil
  -- the store on old edges
  have hold : ∀ x ∈ g.edges, x ≠ e → grownStore st e nid m (.edge x.ref) = st (.edge x.ref) := by
    intro x hx hxe
    unfold grownStore
    rw [if_neg, if_neg, if_neg]
    · intro hc; injection hc with hc; exact hxe (ref_inj hw hx he hc)
    · intro hc; injection hc with hc; exact hfd x hx (congrArg EdgeRef.dst hc)
    · intro hc; injection hc with hc; exact hfs x hx (congrArg EdgeRef.src hc)
  have hback : grownStore st e nid m (.edge ⟨nid, e.dst, 0⟩) = st (.edge e.ref) := by simp [grownStore]
  have hfront : grownStore st e nid m (.edge ⟨e.src, nid, 0⟩) = some m := by
    simp [grownStore, hes]
  have hnode : ∀ u, grownStore st e nid m (.node u) = st (.node u) := by
    intro u
    simp [grownStore]
  have hinl : ∀ u, u ≠ nid → (g'.inEdges u).length = (g.inEdges u).length := by
    intro u hu
    by_cases hud : u = e.dst
    · rw [hud, hi1, hi]; simp
    · rw [hi3 u hud hu]
  have houtl : ∀ u, u ≠ nid → (g'.outEdges u).length = (g.outEdges u).length := by
    intro u hu
    by_cases hud : u = e.src
    · rw [hud, ho1, ho]; simp
    · rw [ho3 u hud hu]
  have hins : ∀ u, u ≠ nid → ∀ ins, Inputs g inp st u ins → Inputs g' inp (grownStore st e nid m) u ins := by
    intro u hu ins hI
    by_cases hud : u = e.dst
    · subst hud
      rcases hI with ⟨h, -⟩ | ⟨-, h⟩
      · rw [hi] at h; simp at h
      · refine .inr ⟨by rw [hi1]; simp, ?_⟩
        rw [← h, hi1, hi, List.map_append, List.map_append]
        congr 1
        · apply List.map_congr_left
          intro x hx
          exact hold x (hm2 x hx) (hl2 x hx)
        · show [grownStore st e nid m (.edge ⟨nid, e.dst, 0⟩)] = _
          rw [hback]
          rfl
    · have hsame := hi3 u hud hu
      rcases hI with ⟨h, h2⟩ | ⟨h, h2⟩
      · exact .inl ⟨by rw [hsame]; exact h, h2⟩
      · refine .inr ⟨by rw [hsame]; exact h, ?_⟩
        rw [← h2, hsame]
        apply List.map_congr_left
        intro x hx
        have hx := mem_inEdges.1 hx
        exact hold x hx.1 (fun hc => hud (by rw [← hx.2, hc]))
  have houts : ∀ w ∈ g.nodes, ∀ o, Outputs g B inp st w o → Outputs g' B inp (grownStore st e nid m) w o := by
    rintro w hwm o ⟨ins, h1, h2⟩
    have hwn : w.id ≠ nid := fun hc => hn (hc ▸ List.mem_map_of_mem hwm)
    exact ⟨ins, hins _ hwn _ h1, by rw [hinl _ hwn, houtl _ hwn]; exact h2⟩
  have hmem : ∀ w ∈ g.nodes, w ∈ g'.nodes := fun w h => by rw [hnodes]; exact List.mem_append_left _ h
  refine ⟨m, ⟨?_, ?_, ?_⟩, v, hv, hvs, outs, s, hO, hs, hon1⟩
  · intro x hx
    rcases (hedges x).1 hx with ⟨hxg, hxe⟩ | hxf | hxb
    · obtain ⟨w, hwm, hws, o, j, t, t1, t2, hO', hport', ht, hb', hnz', hst'⟩ := hF.edges x hxg
      refine ⟨w, hmem w hwm, hws, o, j, t, t1, t2, houts w hwm o hO', ?_, ht, hb', hnz', by rw [hold x hxg hxe]; exact hst'⟩
      by_cases hxs : x.src = e.src
      · rw [hxs, ho] at hport'
        rw [hxs, ho1]
        have hlt := (List.getElem?_eq_some_iff.1 hport').1
        have hlt : j < l1.length := by
          by_contra hc
          have hj : j = l1.length := by simp at hlt; omega
          rw [hj] at hport'
          simp at hport'
          exact hxe hport'.symm
        rw [List.getElem?_append_left hlt] at hport' ⊢
        exact hport'
      · rw [ho3 _ hxs (hfs x hxg)]
        exact hport'
    · subst hxf
      obtain ⟨m1, hm1, hm2⟩ := hon1
      refine ⟨v, hmem v hv, hvs, outs, l1.length, s, m1, m, houts v hv outs hO, ?_, hs, hm1, hm2, hfront⟩
      show (g'.outEdges e.src)[l1.length]? = _
      rw [ho1]
      simp
    · subst hxb
      obtain ⟨m2, hm1, hm2⟩ := hon2
      refine ⟨⟨nid, nc, nc.cls⟩, by rw [hnodes]; simp, rfl, [m], 0, m, m2, s2, ⟨[m], .inr ⟨?_, ?_⟩, ?_⟩, ?_, rfl, hm1, hm2, ?_⟩
      · show g'.inEdges nid ≠ []
        rw [hi2]; simp
      · show (g'.inEdges nid).map _ = _
        rw [hi2]
        show [grownStore st e nid m (.edge ⟨e.src, nid, 0⟩)] = _
        rw [hfront]
        rfl
      · show B.node nc [m] (g'.inEdges nid).length (g'.outEdges nid).length = _
        rw [hi2, ho2]
        exact hnc m
      · show (g'.outEdges nid)[0]? = _
        rw [ho2]
        rfl
      · exact hback.trans hst
  · intro w hwm hsink
    rw [hnodes] at hwm
    rcases List.mem_append.1 hwm with hwm | hwm
    · have hwn : w.id ≠ nid := fun hc => hn (hc ▸ List.mem_map_of_mem hwm)
      have hs' : g.IsSink w.id := by
        rw [isSink_iff_outEdges hwm, ← List.length_eq_zero_iff, ← houtl _ hwn, List.length_eq_zero_iff]
        exact (isSink_iff_outEdges (hmem w hwm)).1 hsink
      obtain ⟨o, t, h1, h2, h3⟩ := hF.sinks w hwm hs'
      exact ⟨o, t, houts w hwm o h1, h2, by rw [hnode]; exact h3⟩
    · rw [List.mem_singleton] at hwm
      exact absurd (by rw [hwm]) (hsink.2 ⟨nid, e.dst, 0, c2, n2⟩ ((hedges _).2 (.inr (.inr rfl))))
  · intro k hk
    unfold grownStore at hk
    split at hk
    · rename_i h
      exact .inl ⟨_, (hedges _).2 (.inr (.inr rfl)), h⟩
    · split at hk
      · rename_i h
        exact .inl ⟨_, (hedges _).2 (.inr (.inl rfl)), h⟩
      · split at hk
        · exact absurd rfl hk
        · rename_i h
          rcases hF.only k hk with ⟨x, hx, hkx⟩ | ⟨w, hwm, hs', hkw⟩
          · refine .inl ⟨x, (hedges x).2 (.inl ⟨hx, fun hc => h (by rw [hkx, hc])⟩), hkx⟩
          · refine .inr ⟨w, hmem w hwm, ?_, hkw⟩
            have hwn : w.id ≠ nid := fun hc => hn (hc ▸ List.mem_map_of_mem hwm)
            rw [isSink_iff_outEdges (hmem w hwm), ← List.length_eq_zero_iff, houtl _ hwn, List.length_eq_zero_iff]
            exact (isSink_iff_outEdges hwm).1 hs'

end Verif
