import Verif.Lemmas.Copy
/-! # Helper lemmas: renaming the nodes of a graph changes nothing but names -/

namespace Verif
open Graph

/-- The graph with other node labels. -/
def Graph.rename (g : Graph) (ρ : NodeId → NodeId) : Graph where
  nodes := g.nodes.map (fun n => { n with id := ρ n.id })
  edges := g.edges.map (fun e => { e with src := ρ e.src, dst := ρ e.dst })

/-- A renamed edge. -/
def Edge.rename (ρ : NodeId → NodeId) (e : Edge) : Edge := { e with src := ρ e.src, dst := ρ e.dst }

/-- A renamed handle. -/
def EdgeRef.rename (ρ : NodeId → NodeId) (r : EdgeRef) : EdgeRef := { r with src := ρ r.src, dst := ρ r.dst }

theorem Edge.rename_ref (ρ : NodeId → NodeId) (e : Edge) : (e.rename ρ).ref = e.ref.rename ρ := rfl

section
variable {ρ : NodeId → NodeId} (hρ : Function.Injective ρ)
include hρ

theorem EdgeRef.rename_inj : Function.Injective (EdgeRef.rename ρ) := by
  rintro ⟨a, b, k⟩ ⟨c, d, l⟩ h
  simp only [EdgeRef.rename, EdgeRef.mk.injEq] at h
  rw [hρ h.1, hρ h.2.1, h.2.2]

omit hρ in
theorem rename_ids (g : Graph) : (g.rename ρ).ids = g.ids.map ρ := by
  simp [Graph.ids, Graph.rename, List.map_map, Function.comp_def]

theorem rename_inEdges (g : Graph) (v : NodeId) : (g.rename ρ).inEdges (ρ v) = (g.inEdges v).map (Edge.rename ρ) := by
  unfold Graph.inEdges Graph.rename
  dsimp only
  rw [List.filter_map]
  congr 1
  apply List.filter_congr
  intro e _
  simp [hρ.eq_iff]

theorem rename_outEdges (g : Graph) (v : NodeId) : (g.rename ρ).outEdges (ρ v) = (g.outEdges v).map (Edge.rename ρ) := by
  unfold Graph.outEdges Graph.rename
  dsimp only
  rw [List.filter_map]
  congr 1
  apply List.filter_congr
  intro e _
  simp [hρ.eq_iff]

theorem rename_inDeg (g : Graph) (v : NodeId) : (g.rename ρ).inDeg (ρ v) = g.inDeg v := by
  unfold Graph.inDeg
  rw [rename_inEdges hρ, List.length_map]

theorem rename_outDeg (g : Graph) (v : NodeId) : (g.rename ρ).outDeg (ρ v) = g.outDeg v := by
  unfold Graph.outDeg
  rw [rename_outEdges hρ, List.length_map]

theorem rename_succs (g : Graph) (v : NodeId) : (g.rename ρ).succs (ρ v) = (g.succs v).map ρ := by
  unfold Graph.succs
  rw [rename_outEdges hρ, List.map_map, List.map_map]
  rfl

theorem rename_node? (g : Graph) (v : NodeId) : (g.rename ρ).node? (ρ v) = (g.node? v).map (fun n => { n with id := ρ n.id }) := by
  unfold Graph.node? Graph.rename
  dsimp only
  rw [List.find?_map]
  congr 1
  congr 1
  funext n
  simp [hρ.eq_iff]

theorem kahnRelax_rename : ∀ (cs : List NodeId) (deg deg' : NodeId → Nat) (st : List NodeId), (∀ v, deg' (ρ v) = deg v) →
    (∀ v, (kahnRelax (cs.map ρ) deg' (st.map ρ)).1 (ρ v) = (kahnRelax cs deg st).1 v) ∧
      (kahnRelax (cs.map ρ) deg' (st.map ρ)).2 = (kahnRelax cs deg st).2.map ρ := by
  intro cs
  induction cs with
  | nil => intro deg deg' st h; exact ⟨h, rfl⟩
  | cons c cs ih =>
    intro deg deg' st h
    simp only [List.map_cons, kahnRelax, if_true, h c]
    have hd : ∀ v, (fun x => if x = ρ c then deg c - 1 else deg' x) (ρ v) = (fun x => if x = c then deg c - 1 else deg x) v := by
      intro v
      simp only [hρ.eq_iff, h v]
    by_cases h0 : deg c - 1 = 0
    · rw [if_pos h0, if_pos h0]
      exact ih (fun x => if x = c then deg c - 1 else deg x) (fun x => if x = ρ c then deg c - 1 else deg' x) (c :: st) hd
    · simp only [h0, if_false]
      exact ih (fun x => if x = c then deg c - 1 else deg x) (fun x => if x = ρ c then deg c - 1 else deg' x) st hd

theorem kahnLoop_rename (g : Graph) : ∀ (n : Nat) (deg deg' : NodeId → Nat) (st : List NodeId), (∀ v, deg' (ρ v) = deg v) →
    kahnLoop (g.rename ρ) n deg' (st.map ρ) = (kahnLoop g n deg st).map ρ := by
  intro n
  induction n with
  | zero => intro deg deg' st _; rfl
  | succ n ih =>
    intro deg deg' st h
    cases st with
    | nil => rfl
    | cons v st =>
      simp only [List.map_cons, kahnLoop, rename_succs hρ]
      obtain ⟨h1, h2⟩ := kahnRelax_rename hρ (g.succs v) deg deg' st h
      rw [h2, ih _ _ _ h1]

theorem topoSort_rename (g : Graph) : (g.rename ρ).topoSort = (g.topoSort).map (List.map ρ) := by
  have hst : ((g.rename ρ).ids.filter (fun v => (g.rename ρ).inDeg v = 0)).reverse = ((g.ids.filter (fun v => g.inDeg v = 0)).reverse).map ρ := by
    rw [rename_ids, List.filter_map, List.map_reverse]
    congr 2
    apply List.filter_congr
    intro v _
    simp [rename_inDeg hρ]
  have hl : (g.rename ρ).nodes.length = g.nodes.length := by simp [Graph.rename]
  unfold topoSort
  dsimp only
  rw [hst, hl, kahnLoop_rename hρ g _ _ _ _ (rename_inDeg hρ g), List.length_map]
  split <;> rfl

/-! ### Propagation -/

variable {S : Type}

/-- The same states under the new names. -/
structure RRel (ρ : NodeId → NodeId) (st st' : Store S) : Prop where
  nodes : ∀ v, st' (.node (ρ v)) = st (.node v)
  edges : ∀ r : EdgeRef, st' (.edge (r.rename ρ)) = st (.edge r)

theorem RRel.putNode {st st' : Store S} (h : RRel ρ st st') (v : NodeId) (s : S) : RRel ρ (st.put (.node v) s) (st'.put (.node (ρ v)) s) where
  nodes := by intro w; simp [Store.put, hρ.eq_iff, h.nodes w]
  edges := by intro r; simp [Store.put, h.edges r]

theorem RRel.putEdge {st st' : Store S} (h : RRel ρ st st') (q : EdgeRef) (s : S) :
    RRel ρ (st.put (.edge q) s) (st'.put (.edge (q.rename ρ)) s) where
  nodes := by intro w; simp [Store.put, h.nodes w]
  edges := by intro r; simp [Store.put, (EdgeRef.rename_inj hρ).eq_iff, h.edges r]

omit hρ in
theorem collect_rename {st st' : Store S} (h : RRel ρ st st') (es : List Edge) : collect st' (es.map (Edge.rename ρ)) = collect st es := by
  induction es with
  | nil => rfl
  | cons e es ih => simp only [List.map_cons, collect, Edge.rename_ref, h.edges, ih]

theorem outLoop_rename (B : Behav S) (states : List S) : ∀ (es : List Edge) (i : Nat) {st st' : Store S}, RRel ρ st st' →
    ERel (RRel ρ) (outLoop B states i es st) (outLoop B states i (es.map (Edge.rename ρ)) st') := by
  intro es
  induction es with
  | nil => intro i st st' h; exact h
  | cons e es ih =>
    intro i st st' h
    simp only [List.map_cons, outLoop]
    cases states[i]? with
    | none => exact rfl
    | some s =>
      have : throughEdge B (e.rename ρ) s = throughEdge B e s := rfl
      simp only [this]
      cases throughEdge B e s with
      | error x => exact rfl
      | ok s2 => exact ih (i + 1) (h.putEdge hρ e.ref s2)

theorem propNode_rename (g : Graph) (B : Behav S) (inp : S) (v : NodeId) {st st' : Store S} (h : RRel ρ st st') :
    ERel (RRel ρ) (propNode g B inp v st) (propNode (g.rename ρ) B inp (ρ v) st') := by
  unfold propNode
  rw [rename_inEdges hρ, rename_outEdges hρ, rename_inDeg hρ, rename_outDeg hρ, rename_node? hρ, collect_rename h]
  simp only [List.map_eq_nil_iff]
  cases (if g.inEdges v = [] then Except.ok [inp] else collect st (g.inEdges v)) with
  | error x => exact rfl
  | ok ins =>
    cases g.node? v with
    | none => exact rfl
    | some n =>
      simp only [Option.map_some]
      cases B.node n.comp ins (g.inDeg v) (g.outDeg v) with
      | error x => exact rfl
      | ok outs =>
        dsimp only
        by_cases h0 : g.outDeg v = 0
        · simp only [h0, if_true]
          cases outs[0]? with
          | none => exact rfl
          | some s => exact outLoop_rename hρ B outs _ 0 (h.putNode hρ v s)
        · simp only [h0, if_false]
          exact outLoop_rename hρ B outs _ 0 h

theorem propLoop_rename (g : Graph) (B : Behav S) (inp : S) : ∀ (vs : List NodeId) {st st' : Store S}, RRel ρ st st' →
    ERel (RRel ρ) (propLoop g B inp vs st) (propLoop (g.rename ρ) B inp (vs.map ρ) st') := by
  intro vs
  induction vs with
  | nil => intro st st' h; exact h
  | cons v vs ih =>
    intro st st' h
    have := propNode_rename hρ g B inp v h
    simp only [List.map_cons, propLoop]
    cases h1 : propNode g B inp v st <;> cases h2 : propNode (g.rename ρ) B inp (ρ v) st' <;> rw [h1, h2] at this
    · exact this
    · exact this.elim
    · exact this.elim
    · exact ih this

theorem propagate_rename (g : Graph) (B : Behav S) (inp : S) (old old' : Store S) :
    ERel (RRel ρ) (propagate g B inp old) (propagate (g.rename ρ) B inp old') := by
  unfold propagate
  rw [topoSort_rename hρ]
  cases g.topoSort with
  | error x => exact rfl
  | ok order => exact propLoop_rename hρ g B inp order ⟨fun _ => rfl, fun _ => rfl⟩

theorem outputNode_rename (g : Graph) : outputNode (g.rename ρ) = (outputNode g).map ρ := by
  unfold outputNode
  have : (g.rename ρ).ids.filter (fun v => (g.rename ρ).outEdges v = []) = (g.ids.filter (fun v => g.outEdges v = [])).map ρ := by
    rw [rename_ids, List.filter_map]
    congr 1
    apply List.filter_congr
    intro v _
    simp [rename_outEdges hρ]
  rw [this]
  cases g.ids.filter (fun v => g.outEdges v = []) <;> rfl

end

/-- Positions as labels; labels which do not occur go behind. -/
def position (l : List NodeId) (v : NodeId) : NodeId := if v ∈ l then l.idxOf v else l.length + v

theorem position_inj (l : List NodeId) : Function.Injective (position l) := by
  intro a b h
  unfold position at h
  split_ifs at h with h1 h2 h2
  · exact (List.idxOf_inj h1).1 h
  · have := List.idxOf_lt_length_iff.2 h1
    have : (l.idxOf a : Nat) = l.length + b := h
    omega
  · have := List.idxOf_lt_length_iff.2 h2
    have : l.length + a = (l.idxOf b : Nat) := h
    omega
  · have : l.length + (a : Nat) = l.length + b := h
    exact Nat.add_left_cancel this

theorem position_mem {l : List NodeId} {v : NodeId} (h : v ∈ l) : position l v = l.idxOf v := if_pos h

end Verif
