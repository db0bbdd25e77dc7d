import Verif.Lemmas.Propagate
import Verif.Lemmas.Topo
/-! # Carrying a solution of the data-flow equations over to another set of components -/

namespace Verif
open Graph

variable {S S' : Type}

/-- `B` turns `s` into `s2` on edge component `c`, noise included. -/
def OnEdge (B : Behav S) (c : Comp) (s s2 : S) : Prop :=
  ∃ s1, B.edge c s = .ok s1 ∧ (B.noise c = none ∧ s2 = s1 ∨ ∃ f, B.noise c = some f ∧ f s1 = .ok s2)

/-- The states entering `v` after mapping. -/
def mapIns (g : Graph) (M : Key → S → S') (inp' : S') (v : NodeId) (ins : List S) : List S' :=
  if g.inEdges v = [] then [inp'] else (g.inEdges v).zipWith (fun e s => M (.edge e.ref) s) ins

theorem mapIns_inputs {g : Graph} {M : Key → S → S'} {inp : S} (inp' : S') {st : Store S} {v ins} (h : Inputs g inp st v ins) :
    Inputs g inp' (fun k => (st k).map (M k)) v (mapIns g M inp' v ins) := by
  rcases h with ⟨h, _⟩ | ⟨h, h2⟩
  · exact .inl ⟨h, by simp [mapIns, h]⟩
  · refine .inr ⟨h, ?_⟩
    rw [mapIns, if_neg h]
    clear h
    generalize g.inEdges v = es at h2
    induction es generalizing ins with
    | nil => simp
    | cons e es ih =>
      cases ins with
      | nil => simp at h2
      | cons s ins =>
        simp only [List.map_cons, List.cons.injEq] at h2
        simp only [List.map_cons, List.zipWith_cons_cons, h2.1, Option.map_some, ih h2.2]

theorem IsFlow.transfer {g : Graph} {B : Behav S} {B' : Behav S'} {inp : S} {inp' : S'} {st : Store S} (hF : IsFlow g B inp st)
    (M : Key → S → S')
    (hM : ∀ n ∈ g.nodes, ∀ ins outs, Inputs g inp st n.id ins → B.node n.comp ins (g.inEdges n.id).length (g.outEdges n.id).length = .ok outs →
      ∃ outs', B'.node n.comp (mapIns g M inp' n.id ins) (g.inEdges n.id).length (g.outEdges n.id).length = .ok outs' ∧
        (∀ (i : Nat) (e : Edge) (s s2 : S), (g.outEdges n.id)[i]? = some e → outs[i]? = some s → st (.edge e.ref) = some s2 → OnEdge B e.comp s s2 →
          ∃ s', outs'[i]? = some s' ∧ OnEdge B' e.comp s' (M (.edge e.ref) s2)) ∧
        (g.IsSink n.id → ∀ s, outs[0]? = some s → outs'[0]? = some (M (.node n.id) s))) :
    IsFlow g B' inp' (fun k => (st k).map (M k)) where
  edges := by
    intro e he
    obtain ⟨n, hn, hs, outs, i, s, s1, s2, ⟨ins, hin, hno⟩, hi, hs', he1, hnz, hst⟩ := hF.edges e he
    obtain ⟨outs', h1, h2, -⟩ := hM n hn ins outs hin hno
    obtain ⟨s', h3, s1', h4, h5⟩ := h2 i e s s2 (by rw [hs]; exact hi) hs' hst ⟨s1, he1, hnz⟩
    exact ⟨n, hn, hs, outs', i, s', s1', _, ⟨_, mapIns_inputs inp' hin, h1⟩, hi, h3, h4, h5, by simp [hst]⟩
  sinks := by
    intro n hn hs
    obtain ⟨outs, s, ⟨ins, hin, hno⟩, h0, hst⟩ := hF.sinks n hn hs
    obtain ⟨outs', h1, -, h3⟩ := hM n hn ins outs hin hno
    exact ⟨outs', _, ⟨_, mapIns_inputs inp' hin, h1⟩, h3 hs s h0, by simp [hst]⟩
  only := by
    intro k hk
    exact hF.only k (fun h => hk (by simp [h]))

/-- The same for the propagation routine. -/
theorem propagate_iff {g : Graph} (hw : g.WF) {B : Behav S} {inp : S} {old st : Store S} :
    propagate g B inp old = .ok st ↔ (∃ order, g.topoSort = .ok order) ∧ IsFlow g B inp st := by
  unfold propagate
  cases h : g.topoSort with
  | error x => simp
  | ok order => simp only [propagateWith_iff hw (topoSort_sound hw h) old st]; simp

end Verif
