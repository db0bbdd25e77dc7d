import Verif.Spec.Evolution
import Verif.Lemmas.Topo
/-! # Concrete systems used by the non-vacuity examples -/

namespace Verif.Fixture
open Graph

def src : Comp := ⟨0, 1, false, .sourceNode, 0⟩
def snk : Comp := ⟨1, 2, false, .sinkNode, 1⟩
def split (u : Nat) : Comp := ⟨u, 40, false, .multiPath, 2⟩
def fiber (u : Nat) : Comp := ⟨u, 30, false, .singlePath, 1⟩
def shaper (u : Nat) : Comp := ⟨u, 31, false, .singlePath, 1⟩
def laser (u : Nat) : Comp := ⟨u, 10, false, .inputNode, 0⟩
def diode (u : Nat) : Comp := ⟨u, 20, true, .outputNode, 1⟩

def lib : Library := ⟨[10, 11], [20], [30, 31], [40]⟩
/-- A library with two connector classes. -/
def lib2 : Library := ⟨[10, 11], [20], [30, 31], [40, 41]⟩

/-- source 0 → 1 ⇉ 2 → 3 sink, with two parallel components between 1 and 2; the detector is protected. -/
def g : Graph :=
  { nodes := [⟨0, src, 1⟩, ⟨1, split 2, 40⟩, ⟨2, split 3, 40⟩, ⟨3, snk, 2⟩]
    edges := [⟨0, 1, 0, laser 4, 10⟩, ⟨1, 2, 0, fiber 5, 30⟩, ⟨1, 2, 1, shaper 6, 31⟩, ⟨2, 3, 0, diode 7, 20⟩] }

theorem g_wf : g.WF where
  ids_nodup := by decide
  refs_nodup := by decide
  src_mem := by decide
  dst_mem := by decide

theorem g_topo : g.IsTopo [0, 1, 2, 3] where
  nodup := by decide
  mem_iff := by intro v; rw [show g.ids = [0, 1, 2, 3] by decide]
  forward := by decide

theorem g_acyclic : g.Acyclic := g_topo.acyclic

/-- A line 0 → 1 → 2 → 3: removing 1 → 2 has to merge. -/
def line : Graph :=
  { nodes := [⟨0, src, 1⟩, ⟨1, split 2, 40⟩, ⟨2, split 3, 40⟩, ⟨3, snk, 2⟩]
    edges := [⟨0, 1, 0, laser 4, 10⟩, ⟨1, 2, 0, fiber 5, 30⟩, ⟨2, 3, 0, diode 7, 20⟩] }

theorem line_wf : line.WF where
  ids_nodup := by decide
  refs_nodup := by decide
  src_mem := by decide
  dst_mem := by decide

theorem line_topo : line.IsTopo [0, 1, 2, 3] where
  nodup := by decide
  mem_iff := by intro v; rw [show line.ids = [0, 1, 2, 3] by decide]
  forward := by decide

theorem line_acyclic : line.Acyclic := line_topo.acyclic

/-- The removal step on `line` at the interface (1, edge 1→2). -/
def rmStep : StepRec := ⟨.remove, .iface ⟨1, ⟨1, 2, 0⟩⟩, ⟨0, fiber 0, split 0⟩⟩
def line' : Graph :=
  { nodes := [⟨0, src, 1⟩, ⟨1, split 2, 40⟩, ⟨3, snk, 2⟩]
    edges := [⟨0, 1, 0, laser 4, 10⟩, ⟨1, 3, 0, diode 7, 20⟩] }

theorem rm_legal : LegalStep lib line rmStep line' :=
  ⟨⟨_, line_topo, by decide⟩, trivial, by decide +kernel⟩

/-- Inserting a component in series at interface (2, second edge 1→2) of `g`. -/
def serStep : StepRec := ⟨.addSeries, .iface ⟨2, ⟨1, 2, 1⟩⟩, ⟨9, fiber 8, split 9⟩⟩
def gSer : Graph :=
  { nodes := [⟨0, src, 1⟩, ⟨1, split 2, 40⟩, ⟨2, split 3, 40⟩, ⟨3, snk, 2⟩, ⟨9, split 9, 40⟩]
    edges := [⟨0, 1, 0, laser 4, 10⟩, ⟨1, 2, 0, fiber 5, 30⟩, ⟨1, 9, 0, shaper 6, 31⟩, ⟨2, 3, 0, diode 7, 20⟩,
      ⟨9, 2, 0, fiber 8, 30⟩] }

theorem ser_legal : LegalStep lib g serStep gSer :=
  ⟨⟨_, g_topo, by decide⟩, ⟨by decide, by decide, by decide⟩, by decide +kernel⟩

/-- Removing one of two parallel components (no merge). -/
def rmStep2 : StepRec := ⟨.remove, .iface ⟨1, ⟨1, 2, 1⟩⟩, ⟨0, fiber 0, split 0⟩⟩
theorem rm2_legal : LegalStep lib g rmStep2 line :=
  ⟨⟨_, g_topo, by decide⟩, trivial, by decide +kernel⟩

/-- A history of two steps: remove one parallel edge, then remove the other (merging its ends). -/
theorem hist : History lib g [(line, rmStep), (g, rmStep2)] line' :=
  .step (.step .nil rm2_legal) rm_legal

end Verif.Fixture
