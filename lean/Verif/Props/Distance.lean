import Verif.Spec.Distance
import Verif.Lemmas.Graph
import Verif.Props.Fixture
import Mathlib.Data.List.Perm.Subperm
import Mathlib.Tactic.Linarith
import Mathlib.Tactic.NormNum
import Mathlib.Tactic.Positivity
/-! # Properties of the species distances (C44) -/

namespace Verif
open Graph

/-! ### descriptors -/

theorem checkNames_ok {s : SpecName} {a b : Tagged} (ha : HasScheme s a) (hb : HasScheme s b) : checkNames s a b = .ok () := by
  obtain ⟨da, h1, h2⟩ := ha
  obtain ⟨db, h3, h4⟩ := hb
  simp [checkNames, h1, h2, h3, h4]

theorem checkNames_err {s : SpecName} {a b : Tagged} (h : ¬ (HasScheme s a ∧ HasScheme s b)) :
    checkNames s a b = .error .typeError ∨ checkNames s a b = .error .valueError := by
  unfold checkNames
  split
  · exact .inl rfl
  · rename_i da hda
    split_ifs with h1
    · exact .inr rfl
    · split
      · exact .inl rfl
      · rename_i db hdb
        split_ifs with h2
        · exact .inr rfl
        · exact absurd ⟨⟨da, hda, not_not.1 h1⟩, db, hdb, not_not.1 h2⟩ h

/-- **C44 (descriptors).** Every distance refuses graphs that do not both carry the descriptor of its own scheme; `photoNEAT` cannot be
constructed, and the edit distance only with one of its two rules. -/
theorem C44_descriptors (a b : Tagged) (classes : List ClassId) (o : GedOracle) (d : EditDist) :
    (¬ (HasScheme .simpleSubpopulation a ∧ HasScheme .simpleSubpopulation b) →
      labelDist a b = .error .typeError ∨ labelDist a b = .error .valueError) ∧
    (¬ (HasScheme .vectorDiff a ∧ HasScheme .vectorDiff b) →
      vectorDist classes a b = .error .typeError ∨ vectorDist classes a b = .error .valueError) ∧
    (¬ (HasScheme .editDistance a ∧ HasScheme .editDistance b) →
      editDist o d a b = .error .typeError ∨ editDist o d a b = .error .valueError) ∧
    photoNeatInit = .error .valueError ∧
    (∀ t, EditDist.init .other t = .error .valueError) ∧
    ∀ r t, r ≠ .other → EditDist.init r t = .ok ⟨r, t⟩ := by
  refine ⟨fun h => ?_, fun h => ?_, fun h => ?_, rfl, fun _ => rfl, fun r t h => ?_⟩
  · rcases checkNames_err h with h' | h' <;> simp [labelDist, h', bind, Except.bind]
  · rcases checkNames_err h with h' | h' <;> simp [vectorDist, h', bind, Except.bind]
  · rcases checkNames_err h with h' | h' <;> simp [editDist, h', bind, Except.bind]
  · cases r <;> simp_all [EditDist.init]

/-! ### labels -/

/-- **C44 (labels).** Between graphs carrying labels, the distance is 0 when the labels agree and 1 otherwise. -/
theorem C44_labels (a b : Tagged) (la lb : Nat) (ha : a.desc = some ⟨.simpleSubpopulation, some la⟩)
    (hb : b.desc = some ⟨.simpleSubpopulation, some lb⟩) :
    (labelDist a b = .ok 0 ↔ la = lb) ∧ (labelDist a b = .ok 1 ↔ la ≠ lb) ∧ labelDist a b = labelDist b a ∧ labelDist a a = .ok 0 := by
  have hc : ∀ x y : Tagged, ∀ lx ly, x.desc = some ⟨.simpleSubpopulation, some lx⟩ → y.desc = some ⟨.simpleSubpopulation, some ly⟩ →
      labelDist x y = .ok (if lx = ly then 0 else 1) := by
    intro x y lx ly hx hy
    have := checkNames_ok (s := .simpleSubpopulation) (a := x) (b := y) ⟨_, hx, rfl⟩ ⟨_, hy, rfl⟩
    simp only [labelDist, this, labelOf, hx, hy, bind, Except.bind, pure, Except.pure]
    split_ifs <;> rfl
  rw [hc a b la lb ha hb, hc b a lb la hb ha, hc a a la la ha ha]
  by_cases h : la = lb
  · subst h; simp
  · have h' : lb ≠ la := fun e => h e.symm
    simp [h, h']

/-- **C44 (labels).** With the descriptor of the scheme but without a label on one of them, there is no distance: the missing key is an error. -/
theorem C44_no_label (a b : Tagged) (ha : HasScheme .simpleSubpopulation a) (hb : HasScheme .simpleSubpopulation b)
    (h : (∃ d, a.desc = some d ∧ d.label = none) ∨ ∃ d, b.desc = some d ∧ d.label = none) : labelDist a b = .error .keyError := by
  have hc := checkNames_ok ha hb
  obtain ⟨da, hda, _⟩ := ha
  obtain ⟨db, hdb, _⟩ := hb
  simp only [labelDist, hc, labelOf, hda, hdb, bind, Except.bind, pure, Except.pure]
  rcases h with ⟨d, hd, hl⟩ | ⟨d, hd, hl⟩
  · rw [hda] at hd; cases hd; simp [hl]
  · rw [hdb] at hd; cases hd
    cases da.label <;> simp [hl]

/-! ### class counts -/

theorem bump_ok {classes : List ClassId} {c : ClassId} (h : c ∈ classes) (v : Nat → Nat) :
    bump classes v c = .ok (fun j => if j = classes.idxOf c then v j + 1 else v j) := by
  simp [bump, basisIndex, h, bind, Except.bind, pure, Except.pure]

theorem bump_err {classes : List ClassId} {c : ClassId} (h : c ∉ classes) (v : Nat → Nat) : bump classes v c = .error .keyError := by
  simp [bump, basisIndex, h, bind, Except.bind]

theorem foldl_bump_ok {classes : List ClassId} (hn : classes.Nodup) : ∀ (cs : List ClassId) (v : Nat → Nat), (∀ c ∈ cs, c ∈ classes) →
    ∃ w, cs.foldlM (bump classes) v = .ok w ∧ ∀ (i : Nat) (hi : i < classes.length), w i = v i + cs.count classes[i]
  | [], v, _ => ⟨v, rfl, by simp⟩
  | c :: cs, v, h => by
    obtain ⟨w, hw, hc⟩ := foldl_bump_ok hn cs (fun j => if j = classes.idxOf c then v j + 1 else v j) (fun x hx => h x (List.mem_cons_of_mem _ hx))
    refine ⟨w, ?_, ?_⟩
    · rw [List.foldlM_cons, bump_ok (h c List.mem_cons_self)]
      exact hw
    · intro i hi
      rw [hc i hi, List.count_cons]
      by_cases hix : i = classes.idxOf c
      · have : classes[i] = c := by subst hix; exact List.getElem_idxOf hi
        rw [if_pos hix, this, if_pos (by simp)]
        omega
      · have : c ≠ classes[i] := by
          intro e
          apply hix
          rw [e]
          exact (hn.idxOf_getElem i hi).symm
        simp [hix, this]

theorem foldl_bump_err {classes : List ClassId} : ∀ (cs : List ClassId) (v : Nat → Nat), (∃ c ∈ cs, c ∉ classes) →
    cs.foldlM (bump classes) v = .error .keyError
  | [], _, h => by simp at h
  | c :: cs, v, h => by
    by_cases hc : c ∈ classes
    · rw [List.foldlM_cons, bump_ok hc]
      obtain ⟨x, hx, hxc⟩ := h
      rcases List.mem_cons.1 hx with rfl | hx
      · exact absurd hc hxc
      · exact foldl_bump_err cs _ ⟨x, hx, hxc⟩
    · rw [List.foldlM_cons, bump_err hc]
      rfl

theorem classVector_ok {classes : List ClassId} (hn : classes.Nodup) {g : Graph} (h1 : ∀ n ∈ g.nodes, n.comp.cls ∈ classes)
    (h2 : ∀ e ∈ g.edges, e.comp.cls ∈ classes) :
    ∃ v, classVector classes g = .ok v ∧ ∀ (i : Nat) (hi : i < classes.length), v i = classCount g classes[i] := by
  obtain ⟨v, hv, hvc⟩ := foldl_bump_ok hn (g.nodes.map (·.comp.cls)) (fun _ => 0) (by simpa using h1)
  obtain ⟨w, hw, hwc⟩ := foldl_bump_ok hn (g.edges.map (·.comp.cls)) v (by simpa using h2)
  refine ⟨w, ?_, ?_⟩
  · unfold classVector
    rw [hv]
    exact hw
  · intro i hi
    rw [hwc i hi, hvc i hi]
    simp [classCount, List.count_append]

/-- Every component of the graph is of a registered class. -/
theorem classVector_err {classes : List ClassId} {g : Graph} (hn : classes.Nodup)
    (h : (∃ n ∈ g.nodes, n.comp.cls ∉ classes) ∨ ∃ e ∈ g.edges, e.comp.cls ∉ classes) : classVector classes g = .error .keyError := by
  unfold classVector
  by_cases h1 : ∃ n ∈ g.nodes, n.comp.cls ∉ classes
  · rw [foldl_bump_err _ _ (by simpa using h1)]
    rfl
  · push Not at h1
    obtain ⟨v, hv, -⟩ := foldl_bump_ok hn (g.nodes.map (·.comp.cls)) (fun _ => 0) (by simpa using h1)
    rw [hv]
    rcases h with ⟨n, hn', hc⟩ | h
    · exact absurd (h1 n hn') hc
    · exact foldl_bump_err _ _ (by simpa using h)

/-- **C44 (class counts).** Between graphs whose components are all of registered classes and which have nodes, the distance is
symmetric and non-negative, vanishes exactly when the graphs use the same number of components of every class (so from a graph to itself),
and is the Euclidean distance of these numbers over `√(n₀² + n₁²)`. -/
theorem C44_vector {classes : List ClassId} (hn : classes.Nodup) {a b : Tagged} (ha : HasScheme .vectorDiff a) (hb : HasScheme .vectorDiff b)
    (hac : (∀ n ∈ a.graph.nodes, n.comp.cls ∈ classes) ∧ ∀ e ∈ a.graph.edges, e.comp.cls ∈ classes)
    (hbc : (∀ n ∈ b.graph.nodes, n.comp.cls ∈ classes) ∧ ∀ e ∈ b.graph.edges, e.comp.cls ∈ classes)
    (hne : a.graph.nodes ≠ [] ∨ b.graph.nodes ≠ []) :
    ∃ x, vectorDist classes a b = .ok x ∧ vectorDist classes b a = .ok x ∧ 0 ≤ x ∧
      (x = 0 ↔ ∀ c ∈ classes, classCount a.graph c = classCount b.graph c) ∧
      x ^ 2 * ((a.graph.nodes.length : ℝ) ^ 2 + (b.graph.nodes.length : ℝ) ^ 2) =
        (classes.map (fun c => ((classCount a.graph c : ℝ) - classCount b.graph c) ^ 2)).sum := by
  obtain ⟨v, hv, hvc⟩ := classVector_ok hn hac.1 hac.2
  obtain ⟨w, hw, hwc⟩ := classVector_ok hn hbc.1 hbc.2
  have hlen : ¬ (a.graph.nodes.length = 0 ∧ b.graph.nodes.length = 0) := by
    rintro ⟨h1, h2⟩
    rcases hne with h | h
    · exact h (List.length_eq_zero_iff.1 h1)
    · exact h (List.length_eq_zero_iff.1 h2)
  have hlen' : ¬ (b.graph.nodes.length = 0 ∧ a.graph.nodes.length = 0) := fun h => hlen ⟨h.2, h.1⟩
  have hden : (0 : ℝ) < (a.graph.nodes.length : ℝ) ^ 2 + (b.graph.nodes.length : ℝ) ^ 2 := by
    rcases Nat.eq_zero_or_pos a.graph.nodes.length with h | h
    · have : 0 < b.graph.nodes.length := Nat.pos_of_ne_zero (fun h' => hlen ⟨h, h'⟩)
      positivity
    · positivity
  have hS : 0 ≤ ∑ i ∈ Finset.range classes.length, ((v i : ℝ) - (w i : ℝ)) ^ 2 := Finset.sum_nonneg fun _ _ => sq_nonneg _
  refine ⟨Real.sqrt (∑ i ∈ Finset.range classes.length, ((v i : ℝ) - (w i : ℝ)) ^ 2) /
      Real.sqrt ((a.graph.nodes.length : ℝ) ^ 2 + (b.graph.nodes.length : ℝ) ^ 2), ?_, ?_, by positivity, ?_, ?_⟩
  · simp only [vectorDist, checkNames_ok ha hb, hv, hw, bind, Except.bind, hlen, if_false, pure, Except.pure]
  · simp only [vectorDist, checkNames_ok hb ha, hv, hw, bind, Except.bind, hlen', if_false, pure, Except.pure]
    congr 2
    · congr 1
      exact Finset.sum_congr rfl (fun i _ => by ring)
    · congr 1
      ring
  · rw [div_eq_zero_iff, or_iff_left (Real.sqrt_pos.2 hden).ne', Real.sqrt_eq_zero hS,
      Finset.sum_eq_zero_iff_of_nonneg (fun _ _ => sq_nonneg _)]
    constructor
    · intro h c hc
      obtain ⟨i, hi, rfl⟩ := List.getElem_of_mem hc
      have := h i (Finset.mem_range.2 hi)
      rw [hvc i hi, hwc i hi] at this
      have := pow_eq_zero_iff (two_ne_zero) |>.1 this
      exact_mod_cast sub_eq_zero.1 this
    · intro h i hi
      have hi' := Finset.mem_range.1 hi
      rw [hvc i hi', hwc i hi', h _ (List.getElem_mem hi')]
      ring
  · rw [div_pow, Real.sq_sqrt hS, Real.sq_sqrt hden.le, div_mul_cancel₀ _ hden.ne']
    have : classes.map (fun c => ((classCount a.graph c : ℝ) - classCount b.graph c) ^ 2) =
        (List.range classes.length).map (fun i => ((v i : ℝ) - (w i : ℝ)) ^ 2) := by
      apply List.ext_getElem (by simp)
      intro i h1 h2
      have hi : i < classes.length := by simpa using h1
      simp [hvc i hi, hwc i hi]
    rw [this]
    rfl

/-- **C44 (class counts, defect).** The classes of the terminals are not registered: as soon as one of two such graphs has a component of an
unregistered class, the distance raises `KeyError`. -/
theorem C44_vector_unregistered {classes : List ClassId} (hn : classes.Nodup) {a b : Tagged} (ha : HasScheme .vectorDiff a)
    (hb : HasScheme .vectorDiff b)
    (h : ((∃ n ∈ a.graph.nodes, n.comp.cls ∉ classes) ∨ ∃ e ∈ a.graph.edges, e.comp.cls ∉ classes) ∨
      (∃ n ∈ b.graph.nodes, n.comp.cls ∉ classes) ∨ ∃ e ∈ b.graph.edges, e.comp.cls ∉ classes) :
    vectorDist classes a b = .error .keyError := by
  by_cases h1 : (∃ n ∈ a.graph.nodes, n.comp.cls ∉ classes) ∨ ∃ e ∈ a.graph.edges, e.comp.cls ∉ classes
  · simp only [vectorDist, checkNames_ok ha hb, classVector_err hn h1, bind, Except.bind]
  · have h2 := h.resolve_left h1
    push Not at h1
    obtain ⟨v, hv, -⟩ := classVector_ok hn h1.1 h1.2
    simp only [vectorDist, checkNames_ok ha hb, hv, classVector_err hn h2, bind, Except.bind]

/-- Two connectors joined by three parallel components of the given class. -/
def threeParallel (c : ClassId) : Tagged :=
  ⟨{ nodes := [⟨1, Fixture.split 2, 40⟩, ⟨2, Fixture.split 3, 40⟩]
     edges := [⟨1, 2, 0, ⟨5, c, false, .singlePath, 1⟩, c⟩, ⟨1, 2, 1, ⟨6, c, false, .singlePath, 1⟩, c⟩,
       ⟨1, 2, 2, ⟨7, c, false, .singlePath, 1⟩, c⟩] }, some ⟨.vectorDiff, none⟩⟩

/-- **C44 (class counts, defect).** The distance is not bounded by 1 as the thresholds below 1 suppose. -/
theorem C44_vector_exceeds_one : ∃ x : ℝ, 1 < x ∧ vectorDist [40, 30, 31] (threeParallel 30) (threeParallel 31) = .ok x := by
  obtain ⟨x, h1, -, h0, -, h2⟩ := C44_vector (classes := [40, 30, 31]) (by decide) (a := threeParallel 30) (b := threeParallel 31)
    ⟨_, rfl, rfl⟩ ⟨_, rfl, rfl⟩ (by decide) (by decide) (by decide)
  refine ⟨x, ?_, h1⟩
  have e1 : classCount (threeParallel 30).graph 40 = 2 := by decide
  have e2 : classCount (threeParallel 30).graph 30 = 3 := by decide
  have e3 : classCount (threeParallel 30).graph 31 = 0 := by decide
  have e4 : classCount (threeParallel 31).graph 40 = 2 := by decide
  have e5 : classCount (threeParallel 31).graph 30 = 0 := by decide
  have e6 : classCount (threeParallel 31).graph 31 = 3 := by decide
  have e7 : (threeParallel 30).graph.nodes.length = 2 := rfl
  have e8 : (threeParallel 31).graph.nodes.length = 2 := rfl
  simp only [List.map_cons, List.map_nil, List.sum_cons, List.sum_nil, e1, e2, e3, e4, e5, e6, e7, e8] at h2
  norm_num at h2
  nlinarith

/-- The terminals of `Fixture.g` have classes 1 and 2, which are not registered. -/
example : vectorDist [10, 11, 20, 30, 31, 40] ⟨Fixture.g, some ⟨.vectorDiff, none⟩⟩ (threeParallel 31) = .error .keyError :=
  C44_vector_unregistered (by decide) ⟨_, rfl, rfl⟩ ⟨_, rfl, rfl⟩ (.inl (.inl ⟨_, List.mem_cons_self, by decide⟩))

example : (labelDist ⟨Fixture.g, some ⟨.simpleSubpopulation, some 1⟩⟩ ⟨Fixture.line, some ⟨.simpleSubpopulation, some 2⟩⟩) = .ok 1 := by rfl

/-! ### edit distance -/

/-- The reverse edit. -/
def EditMap.swap (m : EditMap) : EditMap := ⟨m.nodes.map Prod.swap, m.edges.map Prod.swap⟩

theorem EditMap.Valid.swap {m : EditMap} {g h : Graph} (hm : m.Valid g h) : m.swap.Valid h g where
  n1 := by simpa [EditMap.swap, Function.comp_def] using hm.n2
  n2 := by simpa [EditMap.swap, Function.comp_def] using hm.n1
  e1 := by simpa [EditMap.swap, Function.comp_def] using hm.e2
  e2 := by simpa [EditMap.swap, Function.comp_def] using hm.e1
  sn1 := by
    intro p hp
    obtain ⟨q, hq, rfl⟩ := List.mem_map.1 hp
    exact hm.sn2 q hq
  sn2 := by
    intro p hp
    obtain ⟨q, hq, rfl⟩ := List.mem_map.1 hp
    exact hm.sn1 q hq
  se1 := by
    intro p hp
    obtain ⟨q, hq, rfl⟩ := List.mem_map.1 hp
    exact hm.se2 q hq
  se2 := by
    intro p hp
    obtain ⟨q, hq, rfl⟩ := List.mem_map.1 hp
    exact hm.se1 q hq
  ends := by
    intro p hp
    obtain ⟨q, hq, rfl⟩ := List.mem_map.1 hp
    obtain ⟨⟨x, hx, hx1, hx2⟩, y, hy, hy1, hy2⟩ := hm.ends q hq
    exact ⟨⟨x.swap, List.mem_map_of_mem hx, hx2, hx1⟩, y.swap, List.mem_map_of_mem hy, hy2, hy1⟩

theorem EditMap.cost_swap {cn : Node → Node → ℚ} {ce : Edge → Edge → ℚ} (h1 : ∀ x y, cn x y = cn y x) (h2 : ∀ x y, ce x y = ce y x)
    (m : EditMap) (g h : Graph) : m.swap.cost cn ce h g = m.cost cn ce g h := by
  have e1 : (m.nodes.map Prod.swap).map (fun p => cn p.1 p.2) = m.nodes.map (fun p => cn p.1 p.2) := by
    rw [List.map_map]; exact List.map_congr_left (fun p _ => h1 _ _)
  have e2 : (m.edges.map Prod.swap).map (fun p => ce p.1 p.2) = m.edges.map (fun p => ce p.1 p.2) := by
    rw [List.map_map]; exact List.map_congr_left (fun p _ => h2 _ _)
  simp only [EditMap.cost, EditMap.swap, e1, e2, List.length_map]
  ring

/-- The documented answer does not depend on the direction. -/
theorem IsGed.symm {cn : Node → Node → ℚ} {ce : Edge → Edge → ℚ} (h1 : ∀ x y, cn x y = cn y x) (h2 : ∀ x y, ce x y = ce y x) {bound : ℚ}
    {g h : Graph} {r s : Option ℚ} (hr : IsGed cn ce bound g h r) (hs : IsGed cn ce bound h g s) : r = s := by
  cases r with
  | none =>
    cases s with
    | none => rfl
    | some d =>
      obtain ⟨hb, ⟨m, hm, hc⟩, -⟩ := hs
      have := hr m.swap hm.swap
      rw [EditMap.cost_swap h1 h2, hc] at this
      exact absurd this (not_lt.2 hb)
  | some c =>
    obtain ⟨hb, ⟨m, hm, hc⟩, hmin⟩ := hr
    cases s with
    | none =>
      have := hs m.swap hm.swap
      rw [EditMap.cost_swap h1 h2, hc] at this
      exact absurd this (not_lt.2 hb)
    | some d =>
      obtain ⟨hb', ⟨m', hm', hc'⟩, hmin'⟩ := hs
      have a1 := hmin m'.swap hm'.swap
      have a2 := hmin' m.swap hm.swap
      rw [EditMap.cost_swap h1 h2] at a1 a2
      rw [hc'] at a1
      rw [hc] at a2
      rw [le_antisymm a1 a2]

theorem nodeMatch_symm (x y : Node) : nodeMatch x y = nodeMatch y x := by
  unfold nodeMatch
  by_cases h : x.comp.cls = y.comp.cls
  · rw [if_pos h, if_pos h.symm]
  · rw [if_neg h, if_neg (fun e => h e.symm)]

theorem edgeMatch_symm (x y : Edge) : edgeMatch x y = edgeMatch y x := by
  unfold edgeMatch
  by_cases h : x.comp.cls = y.comp.cls
  · rw [if_pos h, if_pos h.symm]
  · rw [if_neg h, if_neg (fun e => h e.symm)]

theorem nodeMatch_nonneg (x y : Node) : 0 ≤ nodeMatch x y := by unfold nodeMatch; split_ifs <;> norm_num
theorem edgeMatch_nonneg (x y : Edge) : 0 ≤ edgeMatch x y := by unfold edgeMatch; split_ifs <;> norm_num

theorem sum_nonneg' {α : Type} (f : α → ℚ) (hf : ∀ x, 0 ≤ f x) (l : List α) : 0 ≤ (l.map f).sum :=
  List.sum_nonneg (fun x hx => by obtain ⟨y, -, rfl⟩ := List.mem_map.1 hx; exact hf y)

theorem le_sum_of_mem' {α : Type} (f : α → ℚ) (hf : ∀ x, 0 ≤ f x) {l : List α} {x : α} (hx : x ∈ l) : f x ≤ (l.map f).sum :=
  List.single_le_sum (fun y hy => by obtain ⟨z, -, rfl⟩ := List.mem_map.1 hy; exact hf z) _ (List.mem_map_of_mem hx)

theorem nodes_nodup_of_wf {g : Graph} (hg : g.WF) : g.nodes.Nodup := List.Nodup.of_map _ hg.ids_nodup
theorem edges_nodup_of_wf {g : Graph} (hg : g.WF) : g.edges.Nodup := List.Nodup.of_map _ hg.refs_nodup

theorem valid_lengths {m : EditMap} {g h : Graph} (hm : m.Valid g h) :
    m.nodes.length ≤ g.nodes.length ∧ m.nodes.length ≤ h.nodes.length ∧ m.edges.length ≤ g.edges.length ∧ m.edges.length ≤ h.edges.length := by
  refine ⟨?_, ?_, ?_, ?_⟩
  · have := (List.subperm_of_subset hm.n1 (l₂ := g.nodes) (by intro x hx; obtain ⟨p, hp, rfl⟩ := List.mem_map.1 hx; exact hm.sn1 p hp)).length_le
    simpa using this
  · have := (List.subperm_of_subset hm.n2 (l₂ := h.nodes) (by intro x hx; obtain ⟨p, hp, rfl⟩ := List.mem_map.1 hx; exact hm.sn2 p hp)).length_le
    simpa using this
  · have := (List.subperm_of_subset hm.e1 (l₂ := g.edges) (by intro x hx; obtain ⟨p, hp, rfl⟩ := List.mem_map.1 hx; exact hm.se1 p hp)).length_le
    simpa using this
  · have := (List.subperm_of_subset hm.e2 (l₂ := h.edges) (by intro x hx; obtain ⟨p, hp, rfl⟩ := List.mem_map.1 hx; exact hm.se2 p hp)).length_le
    simpa using this

theorem cost_nonneg {m : EditMap} {g h : Graph} (hm : m.Valid g h) : 0 ≤ m.cost nodeMatch edgeMatch g h := by
  obtain ⟨h1, h2, h3, h4⟩ := valid_lengths hm
  have q1 : (m.nodes.length : ℚ) ≤ g.nodes.length := by exact_mod_cast h1
  have q2 : (m.nodes.length : ℚ) ≤ h.nodes.length := by exact_mod_cast h2
  have q3 : (m.edges.length : ℚ) ≤ g.edges.length := by exact_mod_cast h3
  have q4 : (m.edges.length : ℚ) ≤ h.edges.length := by exact_mod_cast h4
  have s1 := sum_nonneg' (fun p : Node × Node => nodeMatch p.1 p.2) (fun p => nodeMatch_nonneg _ _) m.nodes
  have s2 := sum_nonneg' (fun p : Edge × Edge => edgeMatch p.1 p.2) (fun p => edgeMatch_nonneg _ _) m.edges
  unfold EditMap.cost
  linarith

/-- An edit costing less than one half changes nothing. -/
theorem sameDesign_of_cheap {m : EditMap} {g h : Graph} (hm : m.Valid g h) (hc : m.cost nodeMatch edgeMatch g h < 1 / 2) :
    SameDesign g h := by
  obtain ⟨h1, h2, h3, h4⟩ := valid_lengths hm
  have q1 : (m.nodes.length : ℚ) ≤ g.nodes.length := by exact_mod_cast h1
  have q2 : (m.nodes.length : ℚ) ≤ h.nodes.length := by exact_mod_cast h2
  have q3 : (m.edges.length : ℚ) ≤ g.edges.length := by exact_mod_cast h3
  have q4 : (m.edges.length : ℚ) ≤ h.edges.length := by exact_mod_cast h4
  have s1 := sum_nonneg' (fun p : Node × Node => nodeMatch p.1 p.2) (fun p => nodeMatch_nonneg _ _) m.nodes
  have s2 := sum_nonneg' (fun p : Edge × Edge => edgeMatch p.1 p.2) (fun p => edgeMatch_nonneg _ _) m.edges
  unfold EditMap.cost at hc
  have k1 : g.nodes.length ≤ m.nodes.length := by
    by_contra hlt
    have : (m.nodes.length : ℚ) + 1 ≤ g.nodes.length := by exact_mod_cast Nat.lt_of_not_le hlt
    linarith
  have k2 : h.nodes.length ≤ m.nodes.length := by
    by_contra hlt
    have : (m.nodes.length : ℚ) + 1 ≤ h.nodes.length := by exact_mod_cast Nat.lt_of_not_le hlt
    linarith
  have k3 : g.edges.length ≤ m.edges.length := by
    by_contra hlt
    have : (m.edges.length : ℚ) + 1 ≤ g.edges.length := by exact_mod_cast Nat.lt_of_not_le hlt
    linarith
  have k4 : h.edges.length ≤ m.edges.length := by
    by_contra hlt
    have : (m.edges.length : ℚ) + 1 ≤ h.edges.length := by exact_mod_cast Nat.lt_of_not_le hlt
    linarith
  refine ⟨m, ?_, ?_, ?_, ?_, ?_, ?_, hm.ends⟩
  · exact (List.subperm_of_subset hm.n1 (l₂ := g.nodes) (by intro x hx; obtain ⟨p, hp, rfl⟩ := List.mem_map.1 hx; exact hm.sn1 p hp)).perm_of_length_le
      (by simpa using k1)
  · exact (List.subperm_of_subset hm.n2 (l₂ := h.nodes) (by intro x hx; obtain ⟨p, hp, rfl⟩ := List.mem_map.1 hx; exact hm.sn2 p hp)).perm_of_length_le
      (by simpa using k2)
  · exact (List.subperm_of_subset hm.e1 (l₂ := g.edges) (by intro x hx; obtain ⟨p, hp, rfl⟩ := List.mem_map.1 hx; exact hm.se1 p hp)).perm_of_length_le
      (by simpa using k3)
  · exact (List.subperm_of_subset hm.e2 (l₂ := h.edges) (by intro x hx; obtain ⟨p, hp, rfl⟩ := List.mem_map.1 hx; exact hm.se2 p hp)).perm_of_length_le
      (by simpa using k4)
  · intro p hp
    by_contra hne
    have := le_sum_of_mem' (fun p : Node × Node => nodeMatch p.1 p.2) (fun p => nodeMatch_nonneg _ _) hp
    have e : nodeMatch p.1 p.2 = 1 / 2 := by simp [nodeMatch, hne]
    rw [e] at this
    linarith
  · intro p hp
    by_contra hne
    have := le_sum_of_mem' (fun p : Edge × Edge => edgeMatch p.1 p.2) (fun p => edgeMatch_nonneg _ _) hp
    have e : edgeMatch p.1 p.2 = 1 := by simp [edgeMatch, hne]
    rw [e] at this
    linarith

/-- The same design can be reached by an edit that costs nothing. -/
theorem cheap_of_sameDesign {g h : Graph} (hg : g.WF) (hh : h.WF) (hs : SameDesign g h) :
    ∃ m : EditMap, m.Valid g h ∧ m.cost nodeMatch edgeMatch g h = 0 := by
  obtain ⟨m, p1, p2, p3, p4, c1, c2, he⟩ := hs
  refine ⟨m, ⟨p1.nodup_iff.2 (nodes_nodup_of_wf hg), p2.nodup_iff.2 (nodes_nodup_of_wf hh), p3.nodup_iff.2 (edges_nodup_of_wf hg),
    p4.nodup_iff.2 (edges_nodup_of_wf hh), fun p hp => p1.mem_iff.1 (List.mem_map_of_mem hp), fun p hp => p2.mem_iff.1 (List.mem_map_of_mem hp),
    fun p hp => p3.mem_iff.1 (List.mem_map_of_mem hp), fun p hp => p4.mem_iff.1 (List.mem_map_of_mem hp), he⟩, ?_⟩
  have l1 := p1.length_eq
  have l2 := p2.length_eq
  have l3 := p3.length_eq
  have l4 := p4.length_eq
  rw [List.length_map] at l1 l2 l3 l4
  have z1 : (m.nodes.map (fun p => nodeMatch p.1 p.2)).sum = 0 := by
    apply List.sum_eq_zero
    intro x hx
    obtain ⟨p, hp, rfl⟩ := List.mem_map.1 hx
    simp [nodeMatch, c1 p hp]
  have z2 : (m.edges.map (fun p => edgeMatch p.1 p.2)).sum = 0 := by
    apply List.sum_eq_zero
    intro x hx
    obtain ⟨p, hp, rfl⟩ := List.mem_map.1 hx
    simp [edgeMatch, c2 p hp]
  simp [EditMap.cost, z1, z2, ← l1, ← l2, ← l3, ← l4]

theorem SameDesign.refl {g : Graph} (hg : g.WF) : SameDesign g g := by
  refine ⟨⟨g.nodes.map (fun n => (n, n)), g.edges.map (fun e => (e, e))⟩, ?_, ?_, ?_, ?_, ?_, ?_, ?_⟩
  · simp [Function.comp_def]
  · simp [Function.comp_def]
  · simp [Function.comp_def]
  · simp [Function.comp_def]
  · intro p hp; obtain ⟨x, -, rfl⟩ := List.mem_map.1 hp; rfl
  · intro p hp; obtain ⟨x, -, rfl⟩ := List.mem_map.1 hp; rfl
  · intro q hq
    obtain ⟨e, he, rfl⟩ := List.mem_map.1 hq
    obtain ⟨n, hn, hne⟩ := List.mem_map.1 (hg.src_mem e he)
    obtain ⟨n', hn', hne'⟩ := List.mem_map.1 (hg.dst_mem e he)
    exact ⟨⟨_, List.mem_map_of_mem hn, hne, hne⟩, _, List.mem_map_of_mem hn', hne', hne'⟩

/-- **C44 (edit distance, exact rule).** If networkx answers as documented, the distance with the exact rule does not depend on the order of
the graphs; it only takes the values 0 and 1 when the graphs can be edited into each other at a cost of at most 30, and raises `TypeError`
otherwise; it is 0 between equal designs, and with a threshold below one half (the default is 1/100) only between equal designs. -/
theorem C44_edit_exact {o : GedOracle} (ho : ∀ g h, IsGed nodeMatch edgeMatch 30 g h (o.full g h)) {t : ℚ} (ht : 0 ≤ t) {a b : Tagged}
    (ha : HasScheme .editDistance a) (hb : HasScheme .editDistance b) (hg : a.graph.WF) (hh : b.graph.WF) :
    editDist o ⟨.full, t⟩ a b = editDist o ⟨.full, t⟩ b a ∧
    (editDist o ⟨.full, t⟩ a b = .ok 0 ∨ editDist o ⟨.full, t⟩ a b = .ok 1 ∨
      editDist o ⟨.full, t⟩ a b = .error .typeError ∧ ∀ m : EditMap, m.Valid a.graph b.graph → 30 < m.cost nodeMatch edgeMatch a.graph b.graph) ∧
    (SameDesign a.graph b.graph → editDist o ⟨.full, t⟩ a b = .ok 0) ∧ editDist o ⟨.full, t⟩ a a = .ok 0 ∧
    (t < 1 / 2 → editDist o ⟨.full, t⟩ a b = .ok 0 → SameDesign a.graph b.graph) := by
  have hval : ∀ x y : Tagged, HasScheme .editDistance x → HasScheme .editDistance y → editDist o ⟨.full, t⟩ x y =
      match o.full x.graph y.graph with
      | none => .error .typeError
      | some s => .ok (if s > t then 1 else 0) := by
    intro x y hx hy
    simp only [editDist, checkNames_ok hx hy, bind, Except.bind, reduceCtorEq, if_false, pure, Except.pure]
    cases o.full x.graph y.graph with
    | none => rfl
    | some s => dsimp only; split_ifs <;> rfl
  have hzero : ∀ x y : Tagged, HasScheme .editDistance x → HasScheme .editDistance y → x.graph.WF → y.graph.WF → SameDesign x.graph y.graph →
      editDist o ⟨.full, t⟩ x y = .ok 0 := by
    intro x y hx hy wx wy hs
    obtain ⟨m, hm, hc⟩ := cheap_of_sameDesign wx wy hs
    rw [hval x y hx hy]
    have := ho x.graph y.graph
    cases he : o.full x.graph y.graph with
    | none =>
      rw [he] at this
      have := this m hm
      rw [hc] at this
      norm_num at this
    | some s =>
      rw [he] at this
      have := this.2.2 m hm
      rw [hc] at this
      have : ¬ s > t := not_lt.2 (le_trans this ht)
      simp [this]
  refine ⟨?_, ?_, hzero a b ha hb hg hh, hzero a a ha ha hg hg (SameDesign.refl hg), ?_⟩
  · rw [hval a b ha hb, hval b a hb ha, IsGed.symm nodeMatch_symm edgeMatch_symm (ho a.graph b.graph) (ho b.graph a.graph)]
  · rw [hval a b ha hb]
    have := ho a.graph b.graph
    cases he : o.full a.graph b.graph with
    | none =>
      rw [he] at this
      exact .inr (.inr ⟨rfl, this⟩)
    | some s =>
      dsimp only
      split_ifs
      · exact .inr (.inl rfl)
      · exact .inl rfl
  · intro ht' h0
    rw [hval a b ha hb] at h0
    have := ho a.graph b.graph
    cases he : o.full a.graph b.graph with
    | none => rw [he] at h0; simp at h0
    | some s =>
      rw [he] at this h0
      obtain ⟨-, ⟨m, hm, hc⟩, -⟩ := this
      have hs : ¬ s > t := by
        intro h'
        simp [h'] at h0
      exact sameDesign_of_cheap hm (by rw [hc]; exact lt_of_le_of_lt (not_lt.1 hs) ht')

/-- **C44 (edit distance, any rule).** Whatever networkx answers, the distance is 0 or 1 unless no edit path was found, and it is 1 exactly
when the answer is above the threshold. -/
theorem C44_edit_values (o : GedOracle) (r : GedRule) (t : ℚ) {a b : Tagged} (ha : HasScheme .editDistance a) (hb : HasScheme .editDistance b) :
    ∀ x, editDist o ⟨r, t⟩ a b = .ok x → (x = 0 ∨ x = 1) ∧
      ∃ s, (if r = .reduced then o.reduced a.graph b.graph else o.full a.graph b.graph) = some s ∧ (x = 1 ↔ t < s) := by
  intro x hx
  simp only [editDist, checkNames_ok ha hb, bind, Except.bind, pure, Except.pure] at hx
  split_ifs at hx ⊢
  · cases he : o.reduced a.graph b.graph with
    | none => rw [he] at hx; simp at hx
    | some s =>
      rw [he] at hx
      dsimp only at hx
      split_ifs at hx with hs
      · cases hx; exact ⟨.inr rfl, s, rfl, by simpa using hs⟩
      · cases hx; exact ⟨.inl rfl, s, rfl, by simpa using hs⟩
  · cases he : o.full a.graph b.graph with
    | none => rw [he] at hx; simp at hx
    | some s =>
      rw [he] at hx
      dsimp only at hx
      split_ifs at hx with hs
      · cases hx; exact ⟨.inr rfl, s, rfl, by simpa using hs⟩
      · cases hx; exact ⟨.inl rfl, s, rfl, by simpa using hs⟩

/-! ### the documented contract of networkx can be met -/

theorem cost_half (m : EditMap) (g h : Graph) (hm : m.Valid g h) : ∃ k : Nat, 2 * m.cost nodeMatch edgeMatch g h = k := by
  obtain ⟨h1, h2, h3, h4⟩ := valid_lengths hm
  have s1 : ∀ l : List (Node × Node), ∃ k : Nat, 2 * (l.map (fun p => nodeMatch p.1 p.2)).sum = k := by
    intro l
    induction l with
    | nil => exact ⟨0, by simp⟩
    | cons p l ih =>
      obtain ⟨k, hk⟩ := ih
      rw [List.map_cons, List.sum_cons, mul_add, hk]
      unfold nodeMatch
      split_ifs
      · exact ⟨k, by simp⟩
      · exact ⟨k + 1, by push_cast; ring⟩
  have s2 : ∀ l : List (Edge × Edge), ∃ k : Nat, 2 * (l.map (fun p => edgeMatch p.1 p.2)).sum = k := by
    intro l
    induction l with
    | nil => exact ⟨0, by simp⟩
    | cons p l ih =>
      obtain ⟨k, hk⟩ := ih
      rw [List.map_cons, List.sum_cons, mul_add, hk]
      unfold edgeMatch
      split_ifs
      · exact ⟨k, by simp⟩
      · exact ⟨k + 2, by push_cast; ring⟩
  obtain ⟨k1, hk1⟩ := s1 m.nodes
  obtain ⟨k2, hk2⟩ := s2 m.edges
  refine ⟨k1 + k2 + 2 * (g.nodes.length - m.nodes.length) + 2 * (h.nodes.length - m.nodes.length) +
    2 * (g.edges.length - m.edges.length) + 2 * (h.edges.length - m.edges.length), ?_⟩
  push_cast [h1, h2, h3, h4]
  unfold EditMap.cost
  linarith

open Classical in
/-- Some answers satisfy the hypothesis of `C44_edit_exact`. -/
theorem ged_exists (g h : Graph) : ∃ r, IsGed nodeMatch edgeMatch 30 g h r := by
  have hex : ∃ k : Nat, ∃ m : EditMap, m.Valid g h ∧ 2 * m.cost nodeMatch edgeMatch g h = k := by
    have hv : (⟨[], []⟩ : EditMap).Valid g h := by constructor <;> simp
    obtain ⟨k, hk⟩ := cost_half _ _ _ hv
    exact ⟨k, _, hv, hk⟩
  obtain ⟨m, hm, hc⟩ := Nat.find_spec hex
  have hmin : ∀ m' : EditMap, m'.Valid g h → m.cost nodeMatch edgeMatch g h ≤ m'.cost nodeMatch edgeMatch g h := by
    intro m' hm'
    obtain ⟨k, hk⟩ := cost_half _ _ _ hm'
    have : Nat.find hex ≤ k := Nat.find_min' hex ⟨m', hm', hk⟩
    have : ((Nat.find hex : Nat) : ℚ) ≤ k := by exact_mod_cast this
    linarith
  by_cases hb : m.cost nodeMatch edgeMatch g h ≤ 30
  · exact ⟨some _, hb, ⟨m, hm, rfl⟩, hmin⟩
  · exact ⟨none, fun m' hm' => lt_of_lt_of_le (not_le.1 hb) (hmin m' hm')⟩

example : ∃ o : GedOracle, ∀ g h, IsGed nodeMatch edgeMatch 30 g h (o.full g h) :=
  ⟨⟨fun _ _ => none, fun g h => (ged_exists g h).choose⟩, fun g h => (ged_exists g h).choose_spec⟩

example : HasScheme .editDistance ⟨Fixture.g, some ⟨.editDistance, none⟩⟩ ∧ Fixture.g.WF := ⟨⟨_, rfl, rfl⟩, Fixture.g_wf⟩

/-! Cases of the theorems above. -/

example := (C44_descriptors ⟨Fixture.g, some ⟨.vectorDiff, none⟩⟩ ⟨Fixture.line, none⟩ [40] ⟨fun _ _ => none, fun _ _ => none⟩ ⟨.full, 1⟩).1
  (by rintro ⟨_, d, h, _⟩; simp at h)
example := C44_labels ⟨Fixture.g, some ⟨.simpleSubpopulation, some 1⟩⟩ ⟨Fixture.line, some ⟨.simpleSubpopulation, some 2⟩⟩ 1 2 rfl rfl
example := C44_no_label ⟨Fixture.g, some ⟨.simpleSubpopulation, none⟩⟩ ⟨Fixture.line, some ⟨.simpleSubpopulation, some 2⟩⟩ ⟨_, rfl, rfl⟩ ⟨_, rfl, rfl⟩
  (.inl ⟨_, rfl, rfl⟩)
example := C44_vector (classes := [40, 30, 31]) (by decide) (a := threeParallel 30) (b := threeParallel 31) ⟨_, rfl, rfl⟩ ⟨_, rfl, rfl⟩
  (by decide) (by decide) (.inl (by simp [threeParallel]))
example (o : GedOracle) (ho : ∀ g h, IsGed nodeMatch edgeMatch 30 g h (o.full g h)) :=
  C44_edit_exact ho (t := 1 / 4) (by norm_num) (a := ⟨Fixture.g, some ⟨.editDistance, none⟩⟩) (b := ⟨Fixture.line, some ⟨.editDistance, none⟩⟩)
    ⟨_, rfl, rfl⟩ ⟨_, rfl, rfl⟩ Fixture.g_wf Fixture.line_wf
example := C44_edit_values ⟨fun _ _ => some 3, fun _ _ => some 5⟩ .reduced 4 (a := ⟨Fixture.g, some ⟨.editDistance, none⟩⟩)
  (b := ⟨Fixture.line, some ⟨.editDistance, none⟩⟩) ⟨_, rfl, rfl⟩ ⟨_, rfl, rfl⟩ 0 (by decide +kernel)

end Verif
