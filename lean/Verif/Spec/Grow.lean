import Verif.Model.Reading
import Verif.Model.Objective
import Verif.Spec.Propagate
/-! # Vocabulary: designs that grow without losing anything (C97) -/

namespace Verif
open Graph

variable {n : Nat}

/-- The component hands on every signal as it is. -/
def Optic.DoesNothing (P : Prop_ n) (o : Optic n) : Prop := ∀ x, o.apply P x = .ok x

/-- Edge `e` is on the last output port of its start and on the last input port of its end. -/
def LastPorts (g : Graph) (e : Edge) : Prop := (∃ l, g.outEdges e.src = l ++ [e]) ∧ ∃ l, g.inEdges e.dst = l ++ [e]

/-- Nothing branches. -/
def IsLine (g : Graph) : Prop := ∀ v, (g.outEdges v).length ≤ 1 ∧ (g.inEdges v).length ≤ 1

/-- `ps` is a setting of an object with these lists: every free parameter is within its bounds, every locked one is as constructed
(a text or a flag stands as 0, `Entry.toNum`). -/
structure Sheet.Allows (s : Sheet) (ps : List ℝ) : Prop where
  length : ps.length = s.number
  free : ∀ (k : Nat) (x : ℝ) (lo up : ℚ), ps[k]? = some x → s.locks[k]? = some false → s.lower[k]? = some (Entry.num lo) → s.upper[k]? = some (Entry.num up) →
    (lo : ℝ) ≤ x ∧ x ≤ (up : ℝ)
  locked : ∀ (k : Nat) (x : ℝ) (d : Entry), ps[k]? = some x → s.locks[k]? = some true → s.defaults[k]? = some d → x = (d.toNum : ℝ)

/-- `θ` gives every component of the design an allowed setting. -/
structure Allowed (S : Settings) (cls : ClassId → Part) (g : Graph) (θ : Comp → List ℝ) : Prop where
  edges : ∀ e ∈ g.edges, (sheet S (cls e.comp.cls) 1).Allows (θ e.comp)
  nodes : ∀ v ∈ g.nodes, (sheet S (cls v.comp.cls) (g.outEdges v.id).length).Allows (θ v.comp)

/-- Some allowed setting of the design scores `v`. -/
def CanScore (P : Prop_ n) (S : Settings) (cls : ClassId → Part) (rest : Part → List ℝ → Optic n) (hasNoise : Comp → Bool) (inp : Signal n) (at_ : Key)
    (score : Signal n → Except Err ℝ) (g : Graph) (v : ℝ) : Prop :=
  ∃ θ : Comp → List ℝ, Allowed S cls g θ ∧
    systemScore P g (fun θ c => (cls c.cls).optic S rest (θ c)) (fun θ c => (cls c.cls).connector (θ c)) hasNoise inp Store.empty at_ score θ = .ok v

/-- The classes that can be set to do nothing. -/
def Part.CanIdle (p : Part) : Prop :=
  p ∈ [Part.dispersiveFiber, .attenuator, .delayLine, .integratedDelay, .waveguide, .phaseShifter]

/-- The component objects `ec` and `nc` are not in the design yet. -/
structure NewParts (g : Graph) (ec nc : Comp) : Prop where
  edges : ∀ e ∈ g.edges, e.comp ≠ ec ∧ e.comp ≠ nc
  nodes : ∀ v ∈ g.nodes, v.comp ≠ ec ∧ v.comp ≠ nc
  differ : ec ≠ nc

/-- `g'` comes from `g` by any number of insertions (`AddSeriesComponent`) of new components of classes that can be set to do nothing, each with a new
power splitter, at interfaces of edges on last ports. -/
inductive GrownIdly (cls : ClassId → Part) : Graph → Graph → Prop
  | refl (g) : GrownIdly cls g g
  | step {g g1 g2 : Graph} {i : Iface} {e : Edge} {nid : NodeId} {ec nc : Comp} (h : GrownIdly cls g g1) (hi : i ∈ g1.interfaces) (he : e ∈ g1.edges)
      (hie : i.edge = e.ref) (hp : LastPorts g1 e) (hn : nid ∉ g1.ids) (hnew : NewParts g1 ec nc) (hec : (cls ec.cls).CanIdle)
      (hnc : cls nc.cls = .splitter) (hs : addSeries g1 i nid ec nc = .ok g2) : GrownIdly cls g g2

end Verif
