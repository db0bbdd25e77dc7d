import Verif.Spec.Total
import Verif.Spec.Objective
/-! # Vocabulary: the best setting of a design (C99) -/

namespace Verif
open Graph

variable {n : Nat}

/-- Sources and detectors depend continuously on their parameters. -/
def EndsContinuous (rest : Part → List ℝ → Optic n) : Prop :=
  ∀ (p : Part) (N : Nat) (L : List ((Fin N → ℝ) × Signal n → ℝ)), (∀ f ∈ L, Continuous f) → ∀ q, Optic.SmoothAt 0 q (fun q => rest p (L.map (· q)))

/-- A design that runs at every allowed setting: acyclic, the number of edges at each node suits its class, no component has an allowed setting at which it
raises. -/
structure Tunable (P : Prop_ n) (S : Settings) (cls : ClassId → Part) (g : Graph) : Prop where
  wf : g.WF
  acyclic : g.Acyclic
  fits : ∀ v ∈ g.nodes, FitsAt cls g v
  free : ∀ e ∈ g.edges, ∀ ps, (sheet S (cls e.comp.cls) 1).Allows ps → ¬ (cls e.comp.cls).Trapped P S ps

/-- An evaluator can read the state here: an edge or an output node. -/
def Readable (g : Graph) (k : Key) : Prop := (∃ v, k = .node v ∧ g.IsSink v) ∨ ∃ e ∈ g.edges, k = .edge e.ref

/-- The score of the design at a setting. -/
noncomputable def scoreOf (P : Prop_ n) (S : Settings) (cls : ClassId → Part) (rest : Part → List ℝ → Optic n) (hasNoise : Comp → Bool) (inp : Signal n)
    (at_ : Key) (score : Signal n → Except Err ℝ) (g : Graph) (θ : Comp → List ℝ) : Except Err ℝ :=
  systemScore P g (fun θ c => (cls c.cls).optic S rest (θ c)) (fun θ c => (cls c.cls).connector (θ c)) hasNoise inp Store.empty at_ score θ

/-- At some allowed setting the evaluator is handed the state `s`. -/
def Seen (P : Prop_ n) (S : Settings) (cls : ClassId → Part) (rest : Part → List ℝ → Optic n) (hasNoise : Comp → Bool) (inp : Signal n) (at_ : Key) (g : Graph)
    (s : Signal n) : Prop :=
  ∃ θ st, Allowed S cls g θ ∧
    propagate g (physics P (fun c => (cls c.cls).optic S rest (θ c)) (fun c => (cls c.cls).connector (θ c)) hasNoise) inp Store.empty = .ok st ∧ st at_ = some s

/-- `θs i` tends to `θ`, parameter by parameter, for the components of the design. -/
def SettingsTendTo (g : Graph) (θs : ℕ → Comp → List ℝ) (θ : Comp → List ℝ) : Prop :=
  ∀ c, (c ∈ g.nodes.map Node.comp ∨ c ∈ g.edges.map Edge.comp) → ∀ k : Nat,
    Filter.Tendsto (fun i => (θs i c).getD k 0) Filter.atTop (nhds ((θ c).getD k 0))

end Verif
