import Verif.Spec.Ways
import Verif.Spec.Interferometer
/-!
# Networks of splitters, delay lines, phase shifters and attenuators
-/

namespace Verif
open Graph

variable {n : Nat}

/-- What such a network is built of. -/
def Optic.InDelayNet : Optic n → Prop
  | .voa _ | .phaseShifter _ | .waveguide | .source _ | .delayLine _ | .intDelayLine _ => True
  | _ => False

/-- The factor on the field, the same at all frequencies. -/
noncomputable def Optic.lineGain : Optic n → ℂ
  | .voa a => (dbAmp a : ℂ)
  | .phaseShifter φ => turn φ
  | _ => 1

/-- The delay in seconds. -/
noncomputable def Optic.lineDelay : Optic n → ℝ
  | .delayLine τ => τ
  | .intDelayLine τ => τ * (1 / 10 ^ 12)
  | _ => 0

/-- `c` is the factor on the field from in-edge `d` to out-edge `e` of the node between them: a terminal hands on input `i` at output `i`; a splitter hands on from input `i` to output `j` the square root of the
share of output `j` over that of the number of outputs, turned by `-2π(i/N_in + j/N_out)`. -/
def PortGain (g : Graph) (conn : Comp → Connector) (d e : Edge) (c : ℂ) : Prop :=
  ∃ v ∈ g.nodes, v.id = e.src ∧ ∃ i j : Nat, (g.inEdges e.src)[i]? = some d ∧ (g.outEdges e.src)[j]? = some e ∧
    ((conn v.comp = .terminal ∧ c = if i = j then 1 else 0) ∨
      ∃ r w, conn v.comp = .splitter r ∧ (splitWeights r)[j]? = some w ∧
        c = ((Real.sqrt w / Real.sqrt (g.outEdges e.src).length : ℝ) : ℂ) *
          turn (-(2 * Real.pi * (i / (g.inEdges e.src).length)) + -(2 * Real.pi * (j / (g.outEdges e.src).length))))

/-- `a` is the product of the factors of all components and nodes on a way. -/
inductive WayGain (g : Graph) (optic : Comp → Optic n) (conn : Comp → Connector) : List Edge → ℂ → Prop
  | source {e : Edge} {x : Signal n} (hs : optic e.comp = .source x) : WayGain g optic conn [e] 1
  | next {e d : Edge} {w : List Edge} {a c : ℂ} (h : WayGain g optic conn (d :: w) a) (hc : PortGain g conn d e c) :
      WayGain g optic conn (e :: d :: w) ((optic e.comp).lineGain * (c * a))

/-- `R` lists all ways to the component on edge `e`, once each, with the product of all factors up to it. -/
structure AllGains (g : Graph) (optic : Comp → Optic n) (conn : Comp → Connector) (e : Edge) (R : List (List Edge × ℂ)) : Prop where
  once : (R.map (·.1)).Nodup
  all : ∀ w, w ∈ R.map (·.1) ↔ Way g optic w ∧ ∃ d, w.head? = some d ∧ d.dst = e.src
  gain : ∀ p ∈ R, ∃ d a c, p.1.head? = some d ∧ WayGain g optic conn p.1 a ∧ PortGain g conn d e c ∧ p.2 = c * a

/-- The response of the network at spectral line `k`: the sum over the ways of their factors, each turned by the optical frequency times `2π` times the delay on the way. -/
noncomputable def netResponse (P : Prop_ n) (optic : Comp → Optic n) (R : List (List Edge × ℂ)) (k : Fin n) : ℂ :=
  (R.map fun p => p.2 * turn (2 * Real.pi * (ifftShift P.f k + P.central) * (p.1.map fun d => (optic d.comp).lineDelay).sum)).sum

end Verif
