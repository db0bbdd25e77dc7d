import Verif.Lemmas.Propagate
import Verif.Props.Fixture
/-!
# Properties of propagation (C17, C18, C20)
-/

namespace Verif
open Graph
variable {S : Type}

/-- **C17.** Propagation through a valid graph whose components deliver enough states never fails, in any topological
order; afterwards exactly the edges and the output nodes have a stored state. -/
theorem C17_propagate_total {g : Graph} (hw : g.WF) {B : Behav S} (he : Enough g B) (inp : S) {order}
    (ho : g.IsTopo order) (old : Store S) :
    ∃ st, propagateWith g B inp order old = .ok st ∧
      ∀ k, (∃ s, st k = some s) ↔
        ((∃ e ∈ g.edges, k = .edge e.ref) ∨ (∃ n ∈ g.nodes, g.IsSink n.id ∧ k = .node n.id)) := by
  obtain ⟨st, h⟩ := propLoop_total hw he (inp := inp) (P := []) (by simpa using ho.nodup)
    (fun v hv => (ho.mem_iff v).1 hv) (topo_pre hw ho) (PInv.empty g B inp)
  have h' : propagateWith g B inp order old = .ok st := h
  have hf := propagateWith_flow hw ho h'
  refine ⟨st, h', fun k => ⟨fun ⟨s, hs⟩ => hf.only k (by rw [hs]; simp), ?_⟩⟩
  rintro (⟨e, he, rfl⟩ | ⟨n, hn, hs, rfl⟩)
  · obtain ⟨_, _, _, _, _, _, _, s2, _, _, _, _, _, h⟩ := hf.edges e he
    exact ⟨s2, h⟩
  · obtain ⟨_, s, _, _, h⟩ := hf.sinks n hn hs
    exact ⟨s, h⟩

/-- **C17** with networkx' own sort: succeeds on every valid acyclic graph; on a graph with a cycle nothing is propagated. -/
theorem C17_propagate_acyclic {g : Graph} (hw : g.WF) {B : Behav S} (he : Enough g B) (inp : S) (old : Store S) :
    (g.Acyclic → ∃ st, propagate g B inp old = .ok st) ∧
    (¬ g.Acyclic → propagate g B inp old = .error .unfeasible) := by
  constructor
  · intro ha
    obtain ⟨order, ho⟩ := topoSort_complete hw ha
    obtain ⟨st, h, _⟩ := C17_propagate_total hw he inp (topoSort_sound hw ho) old
    exact ⟨st, by unfold propagate; rw [ho]; exact h⟩
  · intro hc
    unfold propagate
    cases ho : g.topoSort with
    | ok o => exact absurd (topoSort_sound hw ho).acyclic hc
    | error e =>
      unfold topoSort at ho
      simp only at ho
      split at ho
      · cases ho
      · injection ho with ho; rw [← ho]

/-- **C18.** For any topological order and whatever was stored before, propagation succeeds with result `st` exactly when
`st` solves the data-flow equations. -/
theorem C18_solves_dataflow {g : Graph} (hw : g.WF) {B : Behav S} {inp : S} {order} (ho : g.IsTopo order)
    (old st : Store S) : propagateWith g B inp order old = .ok st ↔ IsFlow g B inp st :=
  propagateWith_iff hw ho old st

/-- **C18.** The solution is unique, so success and result are the same for all topological orders and all earlier stores. -/
theorem C18_order_independent {g : Graph} (hw : g.WF) {B : Behav S} {inp : S} {order order'} (ho : g.IsTopo order)
    (ho' : g.IsTopo order') (old old' st : Store S) :
    (propagateWith g B inp order old = .ok st ↔ propagateWith g B inp order' old' = .ok st) ∧
    (∀ F F', IsFlow g B inp F → IsFlow g B inp F' → F = F') := by
  refine ⟨(propagateWith_iff hw ho old st).trans (propagateWith_iff hw ho' old' st).symm, fun F F' h h' => ?_⟩
  have a := (propagateWith_iff hw ho old F).2 h
  rw [(propagateWith_iff hw ho old F').2 h'] at a
  injection a with a
  exact a.symm

/-- Behaviour used in the examples: states are lists of labels; a splitter node concatenates its inputs and copies the
result to every port with the port number, an edge appends its class. -/
def demo : Behav (List Nat) where
  node := fun _ ins _ out => .ok ((List.range (max 1 out)).map (fun i => ins.flatten ++ [i]))
  edge := fun c s => .ok (s ++ [c.cls])
  noise := fun c => if c.cls = 30 then some (fun s => .ok (s ++ [99])) else none

theorem demo_enough (g : Graph) : Enough g demo where
  node := fun n _ ins _ => ⟨_, rfl, by simp⟩
  edge := fun e _ s => ⟨_, rfl⟩
  noise := fun e _ f hf s => by
    unfold demo at hf
    simp only at hf
    split at hf
    · injection hf with hf; exact ⟨_, by rw [← hf]⟩
    · cases hf

example : (match propagateWith Fixture.g demo [7] [0, 1, 2, 3] Store.empty with
    | .ok st => st (.node 3)
    | .error _ => none) = some [7, 0, 10, 0, 30, 99, 7, 0, 10, 1, 31, 0, 20, 0] := by decide +kernel

example : ∃ st, propagate Fixture.g demo [7] Store.empty = .ok st :=
  (C17_propagate_acyclic Fixture.g_wf (demo_enough _) _ _).1 Fixture.g_acyclic

/-- A node that drops a port makes propagation fail, so `Enough` is needed. -/
example : (match propagateWith Fixture.g { demo with node := fun _ ins _ _ => .ok [ins.flatten] } [7] [0, 1, 2, 3]
    Store.empty with
    | .ok _ => none
    | .error e => some e) = some .indexError := by decide +kernel

/-- The node whose output is reported: the one asked for, or the first node without outgoing edges. -/
def Target (g : Graph) (node : Option Key) (k : Key) : Prop :=
  node = some k ∨ (node = none ∧ ∃ pre v post, g.ids = pre ++ v :: post ∧ (∀ e ∈ g.edges, e.src ≠ v) ∧
    (∀ u ∈ pre, ∃ e ∈ g.edges, e.src = u) ∧ k = .node v)

theorem outputNode_target {g : Graph} {v} (h : outputNode g = .ok v) : Target g none (.node v) := by
  have key : ∀ l : List NodeId, ∀ v rest, l.filter (fun v => g.outEdges v = []) = v :: rest →
      ∃ pre post, l = pre ++ v :: post ∧ (∀ e ∈ g.edges, e.src ≠ v) ∧ (∀ u ∈ pre, ∃ e ∈ g.edges, e.src = u) := by
    intro l
    induction l with
    | nil => intro v rest h; simp at h
    | cons a l ih =>
      intro v rest h
      by_cases ha : g.outEdges a = []
      · rw [List.filter_cons_of_pos (by simpa using ha)] at h
        injection h with h1 _
        subst h1
        refine ⟨[], l, rfl, ?_, by simp⟩
        unfold outEdges at ha
        simpa [List.filter_eq_nil_iff] using ha
      · rw [List.filter_cons_of_neg (by simpa using ha)] at h
        obtain ⟨pre, post, h1, h2, h3⟩ := ih v rest h
        refine ⟨a :: pre, post, by rw [h1]; rfl, h2, fun u hu => ?_⟩
        rcases List.mem_cons.1 hu with rfl | hu
        · obtain ⟨e, he⟩ := List.exists_mem_of_ne_nil _ ha
          obtain ⟨h4, h5⟩ := mem_outEdges.1 he
          exact ⟨e, h4, h5⟩
        · exact h3 u hu
  unfold outputNode at h
  split at h
  · cases h
  · rename_i v' rest hf
    injection h with h
    subst h
    obtain ⟨pre, post, h1, h2, h3⟩ := key g.ids v' rest hf
    exact Or.inr ⟨rfl, pre, v', post, h1, h2, h3, rfl⟩

/-- **C20.** A successful `get_output_signal` (`force = true`) / `get_output_signal_pure` (`force = false`) leaves the switch as
it was and returns the state, at the node asked for, of the system simulated with the switch at `force` - whatever
the switch and the stored states were before. -/
theorem C20_output_switch {g : Graph} (hw : g.WF) {force : Bool} {B : Bool → Behav S} {inp : S} {node : Option Key}
    {w w' : World S} {s : S} (h : getOutput force g B inp node w = (w', .ok s)) :
    w'.flag = w.flag ∧ IsFlow g (B force) inp w'.saves ∧ ∃ k, Target g node k ∧ w'.saves k = some s := by
  unfold getOutput at h
  simp only at h
  split at h
  · simp at h
  · rename_i k hk
    split at h
    · simp at h
    · rename_i st hst
      injection h with h1 h2
      subst h1
      have hfl : IsFlow g (B force) inp st := by
        unfold propagate at hst
        split at hst
        · cases hst
        · rename_i o ho
          exact propagateWith_flow hw (topoSort_sound hw ho) hst
      refine ⟨rfl, hfl, k, ?_, ?_⟩
      · split at hk
        · injection hk with hk; subst hk; exact Or.inl rfl
        · split at hk
          · cases hk
          · rename_i v hv
            injection hk with hk; subst hk
            exact outputNode_target hv
      · split at h2
        · cases h2
        · rename_i s' hs'
          injection h2 with h2; subst h2; exact hs'

/-- **C20.** `get_output_noise` is the difference of the two simulations and leaves the switch as it was. -/
theorem C20_noise_difference [Sub S] {g : Graph} (hw : g.WF) {B : Bool → Behav S} {inp : S} {node : Option Key}
    {w w' : World S} {d : S} (h : getNoise g B inp node w = (w', .ok d)) :
    w'.flag = w.flag ∧ ∃ k F F' noisy pure, Target g node k ∧ IsFlow g (B true) inp F ∧ IsFlow g (B false) inp F' ∧
      F k = some noisy ∧ F' k = some pure ∧ d = noisy - pure := by
  unfold getNoise at h
  split at h
  · simp at h
  · rename_i w1 noisy h1
    split at h
    · simp at h
    · rename_i w2 pure h2
      injection h with e1 e2
      subst e1
      injection e2 with e2
      obtain ⟨a1, a2, k, a3, a4⟩ := C20_output_switch hw h1
      obtain ⟨b1, b2, k', b3, b4⟩ := C20_output_switch hw h2
      have hk : k = k' := by
        have hfirst : ∀ (l l' : List NodeId) (v v' : NodeId) (m m' : List NodeId), l ++ v :: m = l' ++ v' :: m' →
            (∀ e ∈ g.edges, e.src ≠ v) → (∀ e ∈ g.edges, e.src ≠ v') → (∀ u ∈ l, ∃ e ∈ g.edges, e.src = u) →
            (∀ u ∈ l', ∃ e ∈ g.edges, e.src = u) → v = v' := by
          intro l
          induction l with
          | nil =>
            intro l' v v' m m' h hv hv' _ hl'
            cases l' with
            | nil => injection h
            | cons a l' =>
              injection h with h _
              obtain ⟨e, he, hs⟩ := hl' a (by simp)
              exact absurd (hs.trans h.symm) (hv e he)
          | cons b l ih =>
            intro l' v v' m m' h hv hv' hl hl'
            cases l' with
            | nil =>
              injection h with h _
              obtain ⟨e, he, hs⟩ := hl b (by simp)
              exact absurd (hs.trans h) (hv' e he)
            | cons a l' =>
              injection h with _ h
              exact ih l' v v' m m' h hv hv' (fun u hu => hl u (by simp [hu])) (fun u hu => hl' u (by simp [hu]))
        rcases a3 with a3 | ⟨a3, pre, v, post, p1, p2, p3, p4⟩ <;>
          rcases b3 with b3 | ⟨b3, pre', v', post', q1, q2, q3, q4⟩
        · rw [a3] at b3; injection b3
        · rw [a3] at b3; cases b3
        · rw [a3] at b3; cases b3
        · rw [p4, q4, hfirst pre pre' v v' post post' (p1.symm.trans q1) p2 q2 p3 q3]
      subst hk
      exact ⟨b1.trans a1, k, _, _, noisy, pure, a3, a2, b2, a4, b4, e2.symm⟩

/-- One of the three output functions. -/
inductive OutCall where
  | signal (node : Option Key)
  | pure (node : Option Key)
  | noise (node : Option Key)

/-- Executing a call. -/
def OutCall.run [Sub S] (g : Graph) (B : Bool → Behav S) (inp : S) : OutCall → World S → World S × Except Err S
  | .signal n, w => getOutput true g B inp n w
  | .pure n, w => getOutput false g B inp n w
  | .noise n, w => getNoise g B inp n w

/-- Executing a sequence of calls, possibly on different systems. -/
inductive OutRun [Sub S] (B : Bool → Behav S) : World S → List (Graph × S × OutCall) → World S → Prop
  | nil (w) : OutRun B w [] w
  | cons {w w1 w2 g inp c cs s} : c.run g B inp w = (w1, .ok s) → OutRun B w1 cs w2 →
      OutRun B w ((g, inp, c) :: cs) w2

/-- **C20.** After any sequence of successful calls the switch is what it was. -/
theorem C20_switch_unchanged [Sub S] {B : Bool → Behav S} {w w' : World S} {cs : List (Graph × S × OutCall)}
    (hw : ∀ x ∈ cs, x.1.WF) (h : OutRun B w cs w') : w'.flag = w.flag := by
  induction h with
  | nil => rfl
  | @cons w w1 w2 g inp c cs s hc _ ih =>
    rw [ih (fun x hx => hw x (by simp [hx]))]
    have hg := hw (g, inp, c) (by simp)
    cases c with
    | signal n => exact (C20_output_switch hg hc).1
    | pure n => exact (C20_output_switch hg hc).1
    | noise n => exact (C20_noise_difference hg hc).1

/-- **C20.** When propagation raises, the switch stays at the forced value (there is no `finally`). -/
theorem C20_switch_stuck_on_error {g : Graph} {force : Bool} {B : Bool → Behav S} {inp : S} {k : Key} {w : World S} {e}
    (h : propagate g (B force) inp w.saves = .error e) :
    getOutput force g B inp (some k) w = (⟨force, w.saves⟩, .error e) := by
  unfold getOutput
  simp only [h]

/-- On the fixture, with noise on edge class 30 only while the switch is on. -/
example : ((getOutput true Fixture.g (fun b => if b then demo else { demo with noise := fun _ => none }) [7] none
      ⟨false, Store.empty⟩).2.toOption, (getOutput false Fixture.g
        (fun b => if b then demo else { demo with noise := fun _ => none }) [7] none ⟨true, Store.empty⟩).2.toOption)
    = (some [7, 0, 10, 0, 30, 99, 7, 0, 10, 1, 31, 0, 20, 0], some [7, 0, 10, 0, 30, 7, 0, 10, 1, 31, 0, 20, 0]) := by
  decide +kernel

example : ∃ w' s, getOutput true Fixture.g (fun _ => demo) [7] none ⟨false, Store.empty⟩ = (w', .ok s) := by
  obtain ⟨st, h⟩ := (C17_propagate_acyclic Fixture.g_wf (demo_enough _) [7] Store.empty).1 Fixture.g_acyclic
  have hf : IsFlow Fixture.g demo [7] st := by
    unfold propagate at h
    split at h
    · cases h
    · rename_i o ho
      exact propagateWith_flow Fixture.g_wf (topoSort_sound Fixture.g_wf ho) h
  obtain ⟨_, s, _, _, hs⟩ := hf.sinks ⟨3, Fixture.snk, 2⟩ (by decide) ⟨by decide, by decide⟩
  refine ⟨⟨false, st⟩, s, ?_⟩
  unfold getOutput
  simp only [show outputNode Fixture.g = .ok 3 by decide, h]
  have : st (.node 3) = some s := hs
  simp only [this]

/-! Cases of the other theorems. -/

example := C17_propagate_total Fixture.g_wf (demo_enough _) [7] Fixture.g_topo Store.empty
example (st : Store (List Nat)) := (C18_solves_dataflow Fixture.g_wf (B := demo) (inp := [7]) Fixture.g_topo Store.empty st)
example (st : Store (List Nat)) := (C18_order_independent Fixture.g_wf (B := demo) (inp := [7]) Fixture.g_topo Fixture.g_topo Store.empty (fun _ => some [1]) st)
example (w' : World (List Nat)) (s : List Nat) (h : getOutput true Fixture.g (fun _ => demo) [7] none ⟨false, Store.empty⟩ = (w', .ok s)) :=
  C20_output_switch Fixture.g_wf h
example (e : Err) (h : propagate Fixture.g { demo with node := fun _ ins _ _ => .ok [ins.flatten] } [7] Store.empty = .error e) :=
  C20_switch_stuck_on_error (force := true) (B := fun _ => { demo with node := fun _ ins _ _ => .ok [ins.flatten] }) (k := .node 3) (w := ⟨false, Store.empty⟩) h

/-- Numbers as states, so that there is a difference. -/
def demoInt : Bool → Behav Int := fun b =>
  { node := fun _ ins _ out => .ok (List.replicate (max 1 out) ins.sum)
    edge := fun c s => .ok (s + c.cls)
    noise := fun c => if b && c.cls = 30 then some (fun s => .ok (s + 99)) else none }

example : (getNoise Fixture.g demoInt 7 none ⟨false, Store.empty⟩).2.toOption = some 99 := by decide +kernel
example (w' : World Int) (d : Int) (h : getNoise Fixture.g demoInt 7 none ⟨false, Store.empty⟩ = (w', .ok d)) := C20_noise_difference Fixture.g_wf h
example (w' : World Int) (h : OutRun demoInt ⟨false, Store.empty⟩ [(Fixture.g, 7, .noise none), (Fixture.line, 7, .signal none)] w') : w'.flag = false :=
  C20_switch_unchanged (by
    intro x hx
    simp only [List.mem_cons, List.not_mem_nil, or_false] at hx
    rcases hx with rfl | rfl
    · exact Fixture.g_wf
    · exact Fixture.line_wf) h

end Verif
