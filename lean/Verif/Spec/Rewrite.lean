import Verif.Spec.Upstream
import Verif.Spec.Physics
/-! # Vocabulary: designs that differ in a way no output shows (C94) -/

namespace Verif
open Graph

variable {S : Type} {n : Nat}

/-- Edge `e1` is the only input and `e2` the only output of node `v`: their components are in a row. -/
structure InARow (g : Graph) (v : Node) (e1 e2 : Edge) : Prop where
  mem : v ∈ g.nodes
  ins : g.inEdges v.id = [e1]
  outs : g.outEdges v.id = [e2]

/-- Edge `e` makes `t` of the state `s`: its component, then its noise. -/
def Crosses (B : Behav S) (e : Edge) (s t : S) : Prop :=
  ∃ s1, B.edge e.comp s = .ok s1 ∧ (B.noise e.comp = none ∧ t = s1 ∨ ∃ f, B.noise e.comp = some f ∧ f s1 = .ok t)

/-- The two edges with node `v` between them make `t` of the state `s`; `m` is the state in between. -/
def Passes (B : Behav S) (v : Node) (e1 e2 : Edge) (s m t : S) : Prop :=
  Crosses B e1 s m ∧ ∃ outs x, B.node v.comp [m] 1 1 = .ok outs ∧ outs[0]? = some x ∧ Crosses B e2 x t

/-- Component `a` and behind it `b` make `y` of the light `x`. -/
def Optic.Then (P : Prop_ n) (a b : Optic n) (x y : Signal n) : Prop := ∃ m, a.apply P x = .ok m ∧ b.apply P m = .ok y

/-- `a` with `b` behind it does the same to all light as `c` with `d` behind it. -/
def SameInARow (P : Prop_ n) (a b c d : Optic n) : Prop := ∀ x y, Optic.Then P a b x y ↔ Optic.Then P c d x y

/-- Components that are linear and do the same at all times. -/
def Optic.IsFilter : Optic n → Prop
  | .fiber _ | .voa _ | .waveShaper _ _ | .splitDelay _ | .delayLine _ | .intDelayLine _ | .waveguide | .phaseShifter _ | .progFilter _ _ | .squareFilter _ => True
  | _ => False

/-- Components that multiply light by a number. -/
def Optic.IsScalar : Optic n → Prop
  | .voa _ | .waveguide | .phaseShifter _ => True
  | _ => False

/-- Components with one setting that adds up: length of fibre, delay, attenuation, phase, depth of a phase modulation. -/
inductive AddsUp : (ℝ → Optic n) → Prop
  | fiber : AddsUp .fiber
  | voa : AddsUp .voa
  | delayLine : AddsUp .delayLine
  | intDelayLine : AddsUp .intDelayLine
  | phaseShifter : AddsUp .phaseShifter
  | phaseMod (freq shift : ℝ) : AddsUp (fun depth => .phaseMod depth freq shift)

end Verif
