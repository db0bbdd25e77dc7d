import Verif.Spec.Physics
import Verif.Spec.Propagate
/-!
# The ways of the light through a design
-/

namespace Verif
open Graph

variable {n : Nat}

/-- A way of the light, last edge first: it begins at a light source, every next edge starts where the one before ends, and no other source lies on it (a source replaces the light it is given). -/
inductive Way (g : Graph) (optic : Comp → Optic n) : List Edge → Prop
  | source {e : Edge} {x : Signal n} (he : e ∈ g.edges) (hs : optic e.comp = .source x) : Way g optic [e]
  | next {e d : Edge} {w : List Edge} (h : Way g optic (d :: w)) (he : e ∈ g.edges) (hs : ∀ x, optic e.comp ≠ .source x) (hj : d.dst = e.src) :
      Way g optic (e :: d :: w)

/-- What a node is given when only the in-edge `d` carries light, `s`, and all others are dark. -/
noncomputable def onlyFrom (g : Graph) (d : Edge) (s : Signal n) : List (Signal n) := (g.inEdges d.dst).map fun d' => if d' = d then s else fun _ => 0

/-- `t` is what the node between edges `d` and `e` hands on to `e` of the light `s` that comes in on `d` alone. -/
def HandsOn (P : Prop_ n) (g : Graph) (conn : Comp → Connector) (d : Edge) (s : Signal n) (e : Edge) (t : Signal n) : Prop :=
  ∃ v ∈ g.nodes, v.id = e.src ∧ d.dst = e.src ∧ ∃ outs, ∃ i : Nat, (conn v.comp).apply P (onlyFrom g d s) (g.inEdges e.src).length (g.outEdges e.src).length = .ok outs ∧
    (g.outEdges e.src)[i]? = some e ∧ outs[i]? = some t

/-- `s` is the light at the end of the way if nothing but that way existed: what the source emits, handed on from component to component. -/
inductive Along (P : Prop_ n) (g : Graph) (optic : Comp → Optic n) (conn : Comp → Connector) : List Edge → Signal n → Prop
  | source {e : Edge} {x : Signal n} (hs : optic e.comp = .source x) : Along P g optic conn [e] x
  | next {e d : Edge} {w : List Edge} {s t y : Signal n} (h : Along P g optic conn (d :: w) s) (hn : HandsOn P g conn d s e t) (hy : (optic e.comp).apply P t = .ok y) :
      Along P g optic conn (e :: d :: w) y

/-- `M` lists all ways of the light to the component on edge `e`, once each, with the light that comes to it on that way. -/
structure AllWays (P : Prop_ n) (g : Graph) (optic : Comp → Optic n) (conn : Comp → Connector) (e : Edge) (M : List (List Edge × Signal n)) : Prop where
  once : (M.map (·.1)).Nodup
  all : ∀ w, w ∈ M.map (·.1) ↔ Way g optic w ∧ ∃ d, w.head? = some d ∧ d.dst = e.src
  light : ∀ p ∈ M, ∃ d s, p.1.head? = some d ∧ Along P g optic conn p.1 s ∧ HandsOn P g conn d s e p.2

/-- The same design with every phase shifter turned by `Δ`. -/
def turnedBy (Δ : Comp → ℝ) (optic : Comp → Optic n) (k : Comp) : Optic n :=
  match optic k with
  | .phaseShifter φ => .phaseShifter (φ + Δ k)
  | o => o

open Classical in
/-- The sum of the turns of the phase shifters on a way. -/
noncomputable def turnOf (Δ : Comp → ℝ) (optic : Comp → Optic n) (w : List Edge) : ℝ :=
  ((w.filter fun d => ∃ φ, optic d.comp = .phaseShifter φ).map fun d => Δ d.comp).sum

end Verif
