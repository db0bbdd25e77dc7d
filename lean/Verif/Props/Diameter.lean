import Verif.Lemmas.EditCompose
import Verif.Spec.Diameter
import Verif.Props.Speciation
import Mathlib.Analysis.InnerProductSpace.PiL2
/-! # What a species says about two of its members (C107) -/

namespace Verif
open Graph

section
variable {G K : Type} [DecidableEq G] [Field K] [LinearOrder K] [IsStrictOrderedRing K]

/-- **C107 (diameter).** For a distance with the triangle inequality, two members of one species are less than twice the threshold of the
round apart, whatever happened before. -/
theorem C107_diameter {d : G → G → K} (hs : Symm d) (h0 : ∀ a, d a a = 0) (ht : ∀ a b c, d a c ≤ d a b + d b c) {sqrt : Nat → K} {S : Spec G K}
    (h : SpecReach sqrt S) {r : SpecRnd G} (hr : r.Honest) (pop : List G) {a b rep : G} (ha : (S.speciate d sqrt r pop).imap a = some rep)
    (hb : (S.speciate d sqrt r pop).imap b = some rep) : d a b < 2 * S.thr := by
  have hthr := (C33_threshold_range h).1.1
  have hrad := (C32_species_radius h hs hr pop).1
  have key : ∀ g, (S.speciate d sqrt r pop).imap g = some rep → d rep g < S.thr := by
    intro g hg
    rcases hrad g rep hg with rfl | h'
    · rw [h0]; exact hthr
    · exact h'
  have h1 := key a ha
  have h2 := key b hb
  have h3 := ht a rep b
  rw [hs a rep] at h3
  linarith

/-- **C107 (classes).** For a distance that only tells whether two designs are of a kind (0 or 1, 0 being an equivalence), the species of
every round are exactly the kinds in the population. -/
theorem C107_classes {d : G → G → K} (hs : Symm d) (h01 : ∀ a b, d a b = 0 ∨ d a b = 1) (h0 : ∀ a, d a a = 0)
    (ht : ∀ a b c, d a b = 0 → d b c = 0 → d a c = 0) {sqrt : Nat → K} {S : Spec G K}
    (h : SpecReach sqrt S) {r : SpecRnd G} (hr : r.Honest) {pop : List G} {a b : G} (ha : a ∈ pop) (hb : b ∈ pop) :
    (S.speciate d sqrt r pop).imap a = (S.speciate d sqrt r pop).imap b ↔ d a b = 0 := by
  obtain ⟨hpos, hlt⟩ := (C33_threshold_range h).1
  obtain ⟨hrad, -, hfar⟩ := C32_species_radius h hs hr pop
  have hpart := (C31_partition (d := d) h hr pop).1
  obtain ⟨ra, na, hma, hsa⟩ := (hpart a).1 ha
  obtain ⟨rb, nb, hmb, hsb⟩ := (hpart b).1 hb
  have key : ∀ g rep, (S.speciate d sqrt r pop).imap g = some rep → d rep g = 0 := by
    intro g rep hg
    rcases hrad g rep hg with rfl | h'
    · exact h0 _
    · rcases h01 rep g with e | e
      · exact e
      · rw [e] at h'
        exact absurd h' (not_lt.2 hlt.le)
  have ka := key a ra hma
  have kb := key b rb hmb
  constructor
  · intro e
    rw [hma, hmb] at e
    cases e
    exact ht _ _ _ (by rw [hs]; exact ka) kb
  · intro e
    rw [hma, hmb]
    by_contra hne
    have hne' : ra ≠ rb := fun e => hne (by rw [e])
    have := hfar ra na rb nb hsa hsb hne'
    have z : d ra rb = 0 := ht _ _ _ ka (ht _ _ _ e (by rw [hs]; exact kb))
    rw [z] at this
    exact absurd this (not_le.2 hpos)

end

/-! ### labels -/

/-- **C107 (labels).** With the distance of labels, the species of every round are exactly the labels in the population. -/
theorem C107_labels {G K : Type} [DecidableEq G] [Field K] [LinearOrder K] [IsStrictOrderedRing K] {tag : G → Tagged} {label : G → Nat}
    (hl : ∀ g, (tag g).desc = some ⟨.simpleSubpopulation, some (label g)⟩) {d : G → G → K}
    (hd : ∀ a b n, labelDist (tag a) (tag b) = .ok n → d a b = n) {sqrt : Nat → K} {S : Spec G K}
    (h : SpecReach sqrt S) {r : SpecRnd G} (hr : r.Honest) {pop : List G} {a b : G} (ha : a ∈ pop) (hb : b ∈ pop) :
    (S.speciate d sqrt r pop).imap a = (S.speciate d sqrt r pop).imap b ↔ label a = label b := by
  have hval : ∀ a b, d a b = if label a = label b then 0 else 1 := by
    intro a b
    obtain ⟨h1, h2, -⟩ := C44_labels (tag a) (tag b) _ _ (hl a) (hl b)
    split_ifs with e
    · rw [hd a b 0 (h1.2 e)]; simp
    · rw [hd a b 1 (h2.2 e)]; simp
  have hz : ∀ a b, d a b = 0 ↔ label a = label b := by
    intro a b
    rw [hval]
    split_ifs with e <;> simp [e]
  rw [C107_classes (fun a b => by rw [hval, hval]; simp [eq_comm]) (fun a b => by rw [hval]; split_ifs <;> simp) (fun a => (hz a a).2 rfl)
    (fun a b c h1 h2 => (hz a c).2 (((hz a b).1 h1).trans ((hz b c).1 h2))) h hr ha hb]
  exact hz a b

/-! ### edit distance -/

/-- **C107 (edits, triangle).** The documented answers of networkx satisfy the triangle inequality, as far as its bound of 30 allows. -/
theorem C107_edit_triangle {g h k : Graph} (hh : h.WF) {x y : ℚ} {z : Option ℚ} (h1 : IsGed nodeMatch edgeMatch 30 g h (some x))
    (h2 : IsGed nodeMatch edgeMatch 30 h k (some y)) (h3 : IsGed nodeMatch edgeMatch 30 g k z) :
    (x + y ≤ 30 → z ≠ none) ∧ ∀ w, z = some w → w ≤ x + y := by
  obtain ⟨-, ⟨m, hm, hc⟩, -⟩ := h1
  obtain ⟨-, ⟨m', hm', hc'⟩, -⟩ := h2
  have hcost := andThen_cost hm hm'
  rw [hc, hc'] at hcost
  constructor
  · rintro hb rfl
    have := h3 _ (hm.andThen hh hm')
    linarith
  · rintro w rfl
    exact (h3.2.2 _ (hm.andThen hh hm')).trans hcost

theorem editDist_full {o : GedOracle} {t : ℚ} {a b : Tagged} (ha : HasScheme .editDistance a) (hb : HasScheme .editDistance b) :
    editDist o ⟨.full, t⟩ a b = match o.full a.graph b.graph with
      | none => .error .typeError
      | some s => .ok (if s > t then 1 else 0) := by
  simp only [editDist, checkNames_ok ha hb, bind, Except.bind, pure, Except.pure, reduceCtorEq, if_false]
  cases o.full a.graph b.graph with
  | none => rfl
  | some s => dsimp only; split_ifs <;> rfl

/-- **C107 (edits, diameter).** With the exact rule and threshold `t`, two designs that the distance does not tell from a third (so that they may
share its species) can be edited into each other at a cost of at most `2t`. -/
theorem C107_edit_diameter {o : GedOracle} (ho : ∀ g h, IsGed nodeMatch edgeMatch 30 g h (o.full g h)) {t : ℚ} (ht : 2 * t ≤ 30) {a b rep : Tagged}
    (ha : HasScheme .editDistance a) (hb : HasScheme .editDistance b) (hr : HasScheme .editDistance rep) (hw : rep.graph.WF)
    (h1 : editDist o ⟨.full, t⟩ rep a = .ok 0) (h2 : editDist o ⟨.full, t⟩ rep b = .ok 0) :
    (∃ m : EditMap, m.Valid a.graph b.graph ∧ m.cost nodeMatch edgeMatch a.graph b.graph ≤ 2 * t) ∧ editDist o ⟨.full, 2 * t⟩ a b = .ok 0 := by
  have get : ∀ x : Tagged, HasScheme .editDistance x → editDist o ⟨.full, t⟩ rep x = .ok 0 →
      ∃ s, o.full rep.graph x.graph = some s ∧ s ≤ t := by
    intro x hx he
    rw [editDist_full hr hx] at he
    cases hs : o.full rep.graph x.graph with
    | none => rw [hs] at he; cases he
    | some s =>
      rw [hs] at he
      refine ⟨s, rfl, ?_⟩
      by_contra hlt
      dsimp only at he
      rw [if_pos (lt_of_not_ge hlt)] at he
      cases he
  obtain ⟨x, hx, hxt⟩ := get a ha h1
  obtain ⟨y, hy, hyt⟩ := get b hb h2
  have gx := ho rep.graph a.graph
  rw [hx] at gx
  have gy := ho rep.graph b.graph
  rw [hy] at gy
  have gx' := ho a.graph rep.graph
  rw [gx'.symm nodeMatch_symm edgeMatch_symm gx] at gx'
  obtain ⟨t1, t2⟩ := C107_edit_triangle hw gx' gy (ho a.graph b.graph)
  cases hz : o.full a.graph b.graph with
  | none => exact absurd hz (t1 (by linarith))
  | some w =>
    have hwle := t2 w hz
    have gz := ho a.graph b.graph
    rw [hz] at gz
    obtain ⟨-, ⟨m, hm, hc⟩, -⟩ := gz
    refine ⟨⟨m, hm, by rw [hc]; linarith⟩, ?_⟩
    rw [editDist_full ha hb, hz]
    dsimp only
    rw [if_neg (by linarith)]

theorem SameDesign.symm {g h : Graph} (hs : SameDesign g h) : SameDesign h g := by
  obtain ⟨m, p1, p2, p3, p4, c1, c2, he⟩ := hs
  refine ⟨m.swap, by simpa [EditMap.swap, Function.comp_def] using p2, by simpa [EditMap.swap, Function.comp_def] using p1,
    by simpa [EditMap.swap, Function.comp_def] using p4, by simpa [EditMap.swap, Function.comp_def] using p3, ?_, ?_, ?_⟩
  · intro p hp
    obtain ⟨q, hq, rfl⟩ := List.mem_map.1 hp
    exact (c1 q hq).symm
  · intro p hp
    obtain ⟨q, hq, rfl⟩ := List.mem_map.1 hp
    exact (c2 q hq).symm
  · intro p hp
    obtain ⟨q, hq, rfl⟩ := List.mem_map.1 hp
    obtain ⟨⟨x, hx, hx1, hx2⟩, y, hy, hy1, hy2⟩ := he q hq
    exact ⟨⟨x.swap, List.mem_map_of_mem hx, hx2, hx1⟩, y.swap, List.mem_map_of_mem hy, hy2, hy1⟩

theorem SameDesign.trans {g h k : Graph} (hg : g.WF) (hh : h.WF) (hk : k.WF) (h1 : SameDesign g h) (h2 : SameDesign h k) : SameDesign g k := by
  obtain ⟨m, hm, hc⟩ := cheap_of_sameDesign hg hh h1
  obtain ⟨m', hm', hc'⟩ := cheap_of_sameDesign hh hk h2
  have := andThen_cost hm hm'
  rw [hc, hc'] at this
  exact sameDesign_of_cheap (hm.andThen hh hm') (by linarith)

/-- **C107 (edits, classes).** With the exact rule, a threshold below one half (the default is 1/100) and designs never more than 30 apart, the
species of every round are exactly the different designs in the population: two members share a species if and only if they are the same
design up to names. -/
theorem C107_edit_classes {G K : Type} [DecidableEq G] [Field K] [LinearOrder K] [IsStrictOrderedRing K] {tag : G → Tagged}
    (htag : ∀ g, HasScheme .editDistance (tag g)) (hw : ∀ g, (tag g).graph.WF)
    {o : GedOracle} (ho : ∀ g h, IsGed nodeMatch edgeMatch 30 g h (o.full g h)) {t : ℚ} (ht0 : 0 ≤ t) (ht : t < 1 / 2) {d : G → G → K}
    (hd : ∀ a b, ∃ n : Nat, editDist o ⟨.full, t⟩ (tag a) (tag b) = .ok n ∧ d a b = n) {sqrt : Nat → K} {S : Spec G K}
    (h : SpecReach sqrt S) {r : SpecRnd G} (hr : r.Honest) {pop : List G} {a b : G} (ha : a ∈ pop) (hb : b ∈ pop) :
    (S.speciate d sqrt r pop).imap a = (S.speciate d sqrt r pop).imap b ↔ SameDesign (tag a).graph (tag b).graph := by
  have hval : ∀ a b, (d a b = 0 ∨ d a b = 1) ∧ (d a b = 0 ↔ SameDesign (tag a).graph (tag b).graph) := by
    intro a b
    obtain ⟨n, hn, e⟩ := hd a b
    obtain ⟨-, h01, hs, -, hs'⟩ := C44_edit_exact ho ht0 (htag a) (htag b) (hw a) (hw b)
    rw [hn] at h01 hs hs'
    rcases h01 with e' | e' | e'
    · cases e'
      exact ⟨.inl (by simpa using e), fun _ => hs' ht rfl, fun _ => by simpa using e⟩
    · cases e'
      refine ⟨.inr (by simpa using e), fun h0 => ?_, fun hsd => ?_⟩
      · rw [e] at h0; simp at h0
      · cases hs hsd
    · cases e'.1
  have hz := fun a b => (hval a b).2
  rw [C107_classes ?_ (fun a b => (hval a b).1) (fun a => (hz a a).2 (SameDesign.refl (hw a)))
    (fun a b c h1 h2 => (hz a c).2 (((hz a b).1 h1).trans (hw a) (hw b) (hw c) ((hz b c).1 h2))) h hr ha hb]
  · exact hz a b
  · intro a b
    by_cases e : SameDesign (tag a).graph (tag b).graph
    · rw [(hz a b).2 e, (hz b a).2 e.symm]
    · rw [((hval a b).1).resolve_left (fun h0 => e ((hz a b).1 h0)), ((hval b a).1).resolve_left (fun h0 => e ((hz b a).1 h0).symm)]

/-- A chain of two components of the given classes. -/
def twoChain (c c' : ClassId) : Tagged :=
  ⟨{ nodes := [⟨1, Fixture.split 1, 40⟩, ⟨2, Fixture.split 2, 40⟩, ⟨3, Fixture.split 3, 40⟩]
     edges := [⟨1, 2, 0, ⟨5, c, false, .singlePath, 1⟩, c⟩, ⟨2, 3, 0, ⟨6, c', false, .singlePath, 1⟩, c'⟩] }, some ⟨.editDistance, none⟩⟩

theorem twoChain_ged {o : GedOracle} (ho : ∀ g h, IsGed nodeMatch edgeMatch 30 g h (o.full g h)) : ∀ c c' k k',
    ∃ s, o.full (twoChain c c').graph (twoChain k k').graph = some s ∧ s ≤ (if c = k then 0 else 1) + (if c' = k' then 0 else 1) := by
  let em (c c' k k' : ClassId) : EditMap :=
    ⟨(twoChain c c').graph.nodes.map (fun n => (n, n)), List.zip (twoChain c c').graph.edges (twoChain k k').graph.edges⟩
  have hv : ∀ c c' k k', (em c c' k k').Valid (twoChain c c').graph (twoChain k k').graph := by
    intro c c' k k'
    constructor <;> simp [em, twoChain, Fixture.split]
  have hcost : ∀ c c' k k', (em c c' k k').cost nodeMatch edgeMatch (twoChain c c').graph (twoChain k k').graph =
      (if c = k then 0 else 1) + (if c' = k' then 0 else 1) := by
    intro c c' k k'
    simp [EditMap.cost, em, twoChain, nodeMatch, edgeMatch]
  intro c c' k k'
  have hg := ho (twoChain c c').graph (twoChain k k').graph
  cases hx : o.full (twoChain c c').graph (twoChain k k').graph with
  | none =>
    rw [hx] at hg
    have := hg _ (hv c c' k k')
    rw [hcost] at this
    split_ifs at this <;> norm_num at this
  | some s =>
    rw [hx] at hg
    refine ⟨s, rfl, ?_⟩
    rw [← hcost c c' k k']
    exact hg.2.2 _ (hv c c' k k')

/-- **C107 (edits, defect).** With threshold 1 the distance is not transitive: two designs can both be taken for the same kind as a third and
yet not for the same kind as each other.  Which of them share a species depends on which one is the representative. -/
theorem C107_edit_defect {o : GedOracle} (ho : ∀ g h, IsGed nodeMatch edgeMatch 30 g h (o.full g h)) :
    editDist o ⟨.full, 1⟩ (twoChain 30 31) (twoChain 30 30) = .ok 0 ∧ editDist o ⟨.full, 1⟩ (twoChain 30 31) (twoChain 31 31) = .ok 0 ∧
    editDist o ⟨.full, 1⟩ (twoChain 30 30) (twoChain 31 31) = .ok 1 := by
  have hs : ∀ c c', HasScheme .editDistance (twoChain c c') := fun c c' => ⟨_, rfl, rfl⟩
  have ub := twoChain_ged ho
  refine ⟨?_, ?_, ?_⟩
  · obtain ⟨s, h1, h2⟩ := ub 30 31 30 30
    rw [editDist_full (hs _ _) (hs _ _), h1]
    norm_num at h2
    dsimp only
    rw [if_neg (not_lt.2 h2)]
  · obtain ⟨s, h1, h2⟩ := ub 30 31 31 31
    rw [editDist_full (hs _ _) (hs _ _), h1]
    norm_num at h2
    dsimp only
    rw [if_neg (not_lt.2 h2)]
  · obtain ⟨s, h1, -⟩ := ub 30 30 31 31
    rw [editDist_full (hs _ _) (hs _ _), h1]
    have hg := ho (twoChain 30 30).graph (twoChain 31 31).graph
    rw [h1] at hg
    obtain ⟨-, ⟨m, hm, hc⟩, -⟩ := hg
    obtain ⟨l1, l2, l3, l4⟩ := valid_lengths hm
    have e1 : m.edges.map (fun q => edgeMatch q.1 q.2) = m.edges.map (fun _ => (1 : ℚ)) := by
      refine List.map_congr_left (fun q hq => ?_)
      have a1 : q.1.comp.cls = 30 := by
        have := hm.se1 q hq
        simp only [twoChain, List.mem_cons, List.not_mem_nil, or_false] at this
        rcases this with e | e <;> rw [e]
      have a2 : q.2.comp.cls = 31 := by
        have := hm.se2 q hq
        simp only [twoChain, List.mem_cons, List.not_mem_nil, or_false] at this
        rcases this with e | e <;> rw [e]
      simp [edgeMatch, a1, a2]
    have s1 := sum_nonneg' (fun p : Node × Node => nodeMatch p.1 p.2) (fun p => nodeMatch_nonneg _ _) m.nodes
    have q1 : (m.nodes.length : ℚ) ≤ (twoChain 30 30).graph.nodes.length := by exact_mod_cast l1
    have q2 : (m.nodes.length : ℚ) ≤ (twoChain 31 31).graph.nodes.length := by exact_mod_cast l2
    have q3 : (m.edges.length : ℚ) ≤ 2 := by exact_mod_cast l3
    unfold EditMap.cost at hc
    rw [e1] at hc
    have k1 : ((twoChain 30 30).graph.edges.length : ℚ) = 2 := rfl
    have k2 : ((twoChain 31 31).graph.edges.length : ℚ) = 2 := rfl
    rw [k1, k2, List.map_const', List.sum_replicate, nsmul_eq_mul, mul_one] at hc
    dsimp only
    rw [if_pos (by linarith)]

/-! ### class counts -/

theorem sizeNorm_pos {classes : List ClassId} {a : Tagged} (ha : Countable classes a) (b : Tagged) : 0 < sizeNorm a b := by
  have : 0 < a.graph.nodes.length := List.length_pos_of_ne_nil ha.some
  unfold sizeNorm
  positivity

/-- The numbers of components by class, as a vector. -/
noncomputable def countVec (classes : List ClassId) (a : Tagged) : EuclideanSpace ℝ (Fin classes.length) :=
  WithLp.toLp 2 (fun i => (classCount a.graph classes[i] : ℝ))

theorem vectorDist_norm {classes : List ClassId} (hn : classes.Nodup) {a b : Tagged} (ha : Countable classes a) (hb : Countable classes b) :
    vectorDist classes a b = .ok (dist (countVec classes a) (countVec classes b) / sizeNorm a b) := by
  obtain ⟨x, h1, -, h0, -, h2⟩ := C44_vector hn ha.scheme hb.scheme ⟨ha.nodes, ha.edges⟩ ⟨hb.nodes, hb.edges⟩ (.inl ha.some)
  rw [h1]
  congr 1
  have hp := sizeNorm_pos ha b
  have hs : classes.map (fun c => ((classCount a.graph c : ℝ) - classCount b.graph c) ^ 2) =
      List.ofFn (fun i : Fin classes.length => ((classCount a.graph classes[i] : ℝ) - classCount b.graph classes[i]) ^ 2) := by
    apply List.ext_getElem (by simp)
    intro i h1 h2
    simp
  have hd : dist (countVec classes a) (countVec classes b) ^ 2 = x ^ 2 * sizeNorm a b ^ 2 := by
    rw [sizeNorm, Real.sq_sqrt (by positivity), h2, hs, List.sum_ofFn, EuclideanSpace.dist_eq, Real.sq_sqrt (Finset.sum_nonneg fun _ _ => by positivity)]
    refine Finset.sum_congr rfl (fun i _ => ?_)
    rw [Real.dist_eq, sq_abs]
    rfl
  rw [eq_div_iff hp.ne']
  rw [← mul_pow] at hd
  exact ((pow_left_inj₀ dist_nonneg (by positivity) two_ne_zero).1 hd).symm

/-- **C107 (class counts, triangle).** The distances of class counts satisfy the triangle inequality after multiplication with `√(n₀² + n₁²)`; so
they satisfy it between designs with equally many nodes, and two members of a species with threshold `thr` are less than
`thr (√(nₐ² + n²) + √(n² + n_b²)) / √(nₐ² + n_b²)` apart, where `n` belongs to the representative. -/
theorem C107_vector_triangle {classes : List ClassId} (hn : classes.Nodup) {a b c : Tagged} (ha : Countable classes a) (hb : Countable classes b)
    (hc : Countable classes c) :
    ∃ x y z : ℝ, vectorDist classes a b = .ok x ∧ vectorDist classes b c = .ok y ∧ vectorDist classes a c = .ok z ∧
      z * sizeNorm a c ≤ x * sizeNorm a b + y * sizeNorm b c ∧
      (a.graph.nodes.length = b.graph.nodes.length → b.graph.nodes.length = c.graph.nodes.length → z ≤ x + y) ∧
      ∀ thr, x < thr → y < thr → z < thr * (sizeNorm a b + sizeNorm b c) / sizeNorm a c := by
  have p1 := sizeNorm_pos ha b
  have p2 := sizeNorm_pos hb c
  have p3 := sizeNorm_pos ha c
  have tri : dist (countVec classes a) (countVec classes c) / sizeNorm a c * sizeNorm a c ≤
      dist (countVec classes a) (countVec classes b) / sizeNorm a b * sizeNorm a b + dist (countVec classes b) (countVec classes c) / sizeNorm b c * sizeNorm b c := by
    rw [div_mul_cancel₀ _ p1.ne', div_mul_cancel₀ _ p2.ne', div_mul_cancel₀ _ p3.ne']
    exact dist_triangle _ _ _
  refine ⟨_, _, _, vectorDist_norm hn ha hb, vectorDist_norm hn hb hc, vectorDist_norm hn ha hc, tri, ?_, ?_⟩
  · intro e1 e2
    have s1 : sizeNorm a b = sizeNorm a c := by simp only [sizeNorm, e2]
    have s2 : sizeNorm b c = sizeNorm a c := by simp only [sizeNorm, e1]
    rw [s1, s2, ← add_mul] at tri
    rw [s1, s2]
    exact le_of_mul_le_mul_right tri p3
  · intro thr h1 h2
    rw [lt_div_iff₀ p3]
    refine tri.trans_lt ?_
    rw [mul_add]
    exact add_lt_add (mul_lt_mul_of_pos_right h1 p1) (mul_lt_mul_of_pos_right h2 p2)

/-- Two connectors joined by `m` parallel components of class `c`. -/
def bundle (c m : Nat) : Tagged :=
  ⟨{ nodes := [⟨0, ⟨1, 40, false, .multiPath, m⟩, 40⟩, ⟨1, ⟨2, 40, false, .multiPath, m⟩, 40⟩]
     edges := (List.range m).map (fun i => ⟨0, 1, i, ⟨3 + i, c, false, .singlePath, 1⟩, c⟩) }, some ⟨.vectorDiff, none⟩⟩

/-- A chain of `2m` connectors, `m` of each kind, with `m` components of class 30 and then `m - 1` of class 31, and one more of class 31 beside
the first. -/
def longChain (m : Nat) : Tagged :=
  ⟨{ nodes := (List.range m).map (fun i => ⟨i, ⟨i, 40, false, .multiPath, 2⟩, 40⟩) ++ (List.range m).map (fun i => ⟨m + i, ⟨m + i, 41, false, .multiPath, 2⟩, 41⟩)
     edges := (List.range m).map (fun i => ⟨i, i + 1, 0, ⟨2 * m + i, 30, false, .singlePath, 1⟩, 30⟩) ++
       ((List.range (m - 1)).map (fun i => ⟨m + i, m + i + 1, 0, ⟨3 * m + i, 31, false, .singlePath, 1⟩, 31⟩) ++
        [⟨0, 1, 1, ⟨4 * m, 31, false, .singlePath, 1⟩, 31⟩]) }, some ⟨.vectorDiff, none⟩⟩

theorem bundle_wf (c m : Nat) : (bundle c m).graph.WF where
  ids_nodup := by simp [bundle, ids]
  refs_nodup := by
    simp only [bundle, List.map_map]
    refine List.Nodup.map_on (fun i _ j _ h => ?_) List.nodup_range
    simpa [Edge.ref] using h
  src_mem := by simp [bundle, ids]
  dst_mem := by simp [bundle, ids]

theorem longChain_wf {m : Nat} (hm : 1 ≤ m) : (longChain m).graph.WF where
  ids_nodup := by
    simp only [longChain, ids, List.map_append, List.map_map, Function.comp_def, List.map_id']
    refine List.Nodup.append List.nodup_range ?_ ?_
    · exact List.Nodup.map_on (fun i _ j _ h => by simpa using h) List.nodup_range
    · intro x h1 h2
      obtain ⟨i, -, rfl⟩ := List.mem_map.1 h2
      have := List.mem_range.1 h1
      omega
  refs_nodup := by
    simp only [longChain, List.map_append, List.map_map, List.map_cons, List.map_nil]
    refine List.Nodup.append ?_ (List.Nodup.append ?_ (by simp) ?_) ?_
    · exact List.Nodup.map_on (fun i _ j _ h => by simpa [Edge.ref] using h) List.nodup_range
    · exact List.Nodup.map_on (fun i _ j _ h => by simpa [Edge.ref] using h) List.nodup_range
    · intro x h1 h2
      obtain ⟨i, -, rfl⟩ := List.mem_map.1 h1
      simp [Edge.ref] at h2
    · intro x h1 h2
      obtain ⟨i, hi, rfl⟩ := List.mem_map.1 h1
      have hi := List.mem_range.1 hi
      rcases List.mem_append.1 h2 with h2 | h2
      · obtain ⟨j, -, h⟩ := List.mem_map.1 h2
        have e : (m + j : Nat) = i := congrArg EdgeRef.src h
        omega
      · simp [Edge.ref] at h2
  src_mem := by
    intro e he
    simp only [longChain, ids, List.map_append, List.map_map, Function.comp_def, List.mem_append, List.mem_map, List.mem_range, List.mem_cons,
      List.not_mem_nil, or_false] at he ⊢
    rcases he with ⟨i, hi, rfl⟩ | ⟨i, hi, rfl⟩ | rfl
    · exact .inl ⟨i, hi, rfl⟩
    · exact .inr ⟨i, by omega, rfl⟩
    · exact .inl ⟨0, by omega, rfl⟩
  dst_mem := by
    intro e he
    have key : ∀ k, k < 2 * m → (∃ a < m, a = k) ∨ ∃ a < m, m + a = k := by
      intro k hk
      by_cases h : k < m
      · exact .inl ⟨k, h, rfl⟩
      · exact .inr ⟨k - m, by omega, by omega⟩
    simp only [longChain, ids, List.map_append, List.map_map, Function.comp_def, List.mem_append, List.mem_map, List.mem_range, List.mem_cons,
      List.not_mem_nil, or_false] at he ⊢
    rcases he with ⟨i, hi, rfl⟩ | ⟨i, hi, rfl⟩ | rfl <;> exact key _ (by dsimp only; omega)

theorem bundle_countable {c : Nat} (hc : c ∈ [40, 41, 30, 31]) (m : Nat) : Countable [40, 41, 30, 31] (bundle c m) where
  scheme := ⟨_, rfl, rfl⟩
  nodes := by simp [bundle]
  edges := by
    intro e he
    obtain ⟨i, -, rfl⟩ := List.mem_map.1 he
    exact hc
  some := by simp [bundle]

theorem longChain_countable {m : Nat} (hm : 1 ≤ m) : Countable [40, 41, 30, 31] (longChain m) where
  scheme := ⟨_, rfl, rfl⟩
  nodes := by
    intro n hn
    rcases List.mem_append.1 hn with hn | hn <;> obtain ⟨i, -, rfl⟩ := List.mem_map.1 hn <;> simp
  edges := by
    intro n hn
    rcases List.mem_append.1 hn with hn | hn
    · obtain ⟨i, -, rfl⟩ := List.mem_map.1 hn; simp
    · rcases List.mem_append.1 hn with hn | hn
      · obtain ⟨i, -, rfl⟩ := List.mem_map.1 hn; simp
      · rw [List.mem_singleton.1 hn]; simp
  some := by
    have : 0 < (longChain m).graph.nodes.length := by simp [longChain]; omega
    exact List.length_pos_iff.1 this

theorem bundle_count (c m k : Nat) : classCount (bundle c m).graph k = (if k = 40 then 2 else 0) + if k = c then m else 0 := by
  simp only [classCount, bundle, List.map_map, Function.comp_def, List.map_const', List.map_cons, List.map_nil, List.count_append, List.count_replicate,
    List.length_range]
  congr 1
  · by_cases h : k = 40
    · simp [h]
    · simp [h, Ne.symm h]
  · by_cases h : k = c
    · simp [h]
    · simp [h, Ne.symm h]

theorem longChain_count {m : Nat} (hm : 1 ≤ m) (k : Nat) :
    classCount (longChain m).graph k = if k = 40 ∨ k = 41 ∨ k = 30 ∨ k = 31 then m else 0 := by
  simp only [classCount, longChain, List.map_append, List.map_map, Function.comp_def, List.map_const', List.map_cons, List.map_nil, List.count_append,
    List.count_replicate, List.length_range, List.count_cons, List.count_nil]
  by_cases h1 : k = 40
  · subst h1; simp
  by_cases h2 : k = 41
  · subst h2; simp
  by_cases h3 : k = 30
  · subst h3; simp
  by_cases h4 : k = 31
  · subst h4; simp; omega
  simp [h1, h2, h3, h4, Ne.symm h1, Ne.symm h2, Ne.symm h3, Ne.symm h4]

/-- **C107 (class counts, defect).** Nothing follows for two members of a species: for every `M` there are a population of three well-formed
designs of registered components and a new set of species with threshold 9/10 such that the first round puts all three into one species,
though two of them are further than `M` apart. -/
theorem C107_vector_unbounded (M : ℝ) : ∃ tag : Fin 3 → Tagged, ∃ d : Fin 3 → Fin 3 → ℝ, ∃ S : Spec (Fin 3) ℝ,
    (∀ i, (tag i).graph.WF ∧ Countable [40, 41, 30, 31] (tag i)) ∧ (∀ i j, vectorDist [40, 41, 30, 31] (tag i) (tag j) = .ok (d i j)) ∧
    Spec.init none (9 / 10) = .ok S ∧
    (∀ sqrt r, SpecRnd.Honest r → (∀ i, (S.speciate d sqrt r [0, 1, 2]).imap i = some 0) ∧ (S.speciate d sqrt r [0, 1, 2]).species = [(0, 3)]) ∧ M < d 1 2 := by
  obtain ⟨m, hm1, hmM⟩ : ∃ m : Nat, 1 ≤ m ∧ 2 * M < m := by
    obtain ⟨k, hk⟩ := exists_nat_gt (2 * M)
    exact ⟨k + 1, by omega, by push_cast; linarith⟩
  have hm1' : (1 : ℝ) ≤ m := by exact_mod_cast hm1
  let tag : Fin 3 → Tagged := ![longChain m, bundle 30 m, bundle 31 m]
  have hc : ∀ i, Countable [40, 41, 30, 31] (tag i) := by
    intro i
    fin_cases i
    · exact longChain_countable hm1
    · exact bundle_countable (by simp) m
    · exact bundle_countable (by simp) m
  have hn : [40, 41, 30, 31].Nodup := by decide
  let d : Fin 3 → Fin 3 → ℝ := fun i j => dist (countVec [40, 41, 30, 31] (tag i)) (countVec [40, 41, 30, 31] (tag j)) / sizeNorm (tag i) (tag j)
  have hnode : ∀ c, (bundle c m).graph.nodes.length = 2 := fun _ => rfl
  have hnode' : (longChain m).graph.nodes.length = 2 * m := by simp [longChain]; omega
  have hd0 : ∀ i, d 0 i < 9 / 10 := by
    intro i
    have hp := sizeNorm_pos (hc 0) (tag i)
    rw [div_lt_iff₀ hp]
    have hs : sizeNorm (tag 0) (tag i) ^ 2 = ((tag 0).graph.nodes.length : ℝ) ^ 2 + ((tag i).graph.nodes.length : ℝ) ^ 2 := Real.sq_sqrt (by positivity)
    refine lt_of_pow_lt_pow_left₀ 2 (by positivity) ?_
    rw [mul_pow, hs, EuclideanSpace.dist_eq, Real.sq_sqrt (Finset.sum_nonneg fun _ _ => by positivity)]
    simp only [Real.dist_eq, sq_abs]
    fin_cases i
    · show _ < (9 / 10 : ℝ) ^ 2 * (((longChain m).graph.nodes.length : ℝ) ^ 2 + ((longChain m).graph.nodes.length : ℝ) ^ 2)
      rw [hnode']
      simp
      positivity
    · show _ < (9 / 10 : ℝ) ^ 2 * (((longChain m).graph.nodes.length : ℝ) ^ 2 + ((bundle 30 m).graph.nodes.length : ℝ) ^ 2)
      rw [hnode', hnode]
      simp [Fin.sum_univ_four, countVec, tag, bundle_count, longChain_count hm1]
      nlinarith
    · show _ < (9 / 10 : ℝ) ^ 2 * (((longChain m).graph.nodes.length : ℝ) ^ 2 + ((bundle 31 m).graph.nodes.length : ℝ) ^ 2)
      rw [hnode', hnode]
      simp [Fin.sum_univ_four, countVec, tag, bundle_count, longChain_count hm1]
      nlinarith
  refine ⟨tag, d, ⟨none, 9 / 10, [], fun _ => none⟩, ?_, fun i j => vectorDist_norm hn (hc i) (hc j), ?_, ?_, ?_⟩
  · intro i
    refine ⟨?_, hc i⟩
    fin_cases i
    · exact longChain_wf hm1
    · exact bundle_wf _ _
    · exact bundle_wf _ _
  · unfold Spec.init
    rw [if_neg (by norm_num)]
  · intro sqrt r hr
    have hr0 : r.repOrder [] = [] := List.perm_nil.1 (hr.1 [])
    have h1 := hd0 1
    have h2 := hd0 2
    have e : ∀ g : Fin 3 → Option (Fin 3), (∀ i, g i = some 0) ↔ g 0 = some 0 ∧ g 1 = some 0 ∧ g 2 = some 0 := fun g => Fin.forall_fin_succ.trans (by simp [Fin.forall_fin_succ])
    rw [e]
    simp [Spec.speciate, repLoop, dropRedundant, redOuter, assign1, dset, dinc, h1, h2, hr0]
  · have hp := sizeNorm_pos (hc 1) (tag 2)
    have hs : sizeNorm (tag 1) (tag 2) ^ 2 = 8 := by
      rw [sizeNorm, Real.sq_sqrt (by positivity)]
      show ((bundle 30 m).graph.nodes.length : ℝ) ^ 2 + ((bundle 31 m).graph.nodes.length : ℝ) ^ 2 = 8
      rw [hnode, hnode]
      norm_num
    have hq : dist (countVec [40, 41, 30, 31] (tag 1)) (countVec [40, 41, 30, 31] (tag 2)) ^ 2 = 2 * (m : ℝ) ^ 2 := by
      rw [EuclideanSpace.dist_eq, Real.sq_sqrt (Finset.sum_nonneg fun _ _ => by positivity)]
      simp only [Real.dist_eq, sq_abs]
      simp [Fin.sum_univ_four, countVec, tag, bundle_count]
      ring
    have hd : d 1 2 ^ 2 = ((m : ℝ) / 2) ^ 2 := by
      show (dist (countVec [40, 41, 30, 31] (tag 1)) (countVec [40, 41, 30, 31] (tag 2)) / sizeNorm (tag 1) (tag 2)) ^ 2 = _
      rw [div_pow, hs, hq]
      ring
    have : d 1 2 = (m : ℝ) / 2 := (pow_left_inj₀ (by positivity) (by positivity) two_ne_zero).1 hd
    rw [this]
    linarith

/-! Cases of the theorems above. -/

/-- Members 2 and 3 of the species of 5 in the second round of `Props/Speciation`. -/
example : specDist 2 3 < 2 * spec1.thr :=
  C107_diameter (fun a b => by unfold specDist; rw [abs_sub_comm]) (fun a => by simp [specDist])
    (fun a b c => by
      unfold specDist
      rw [← add_div]
      exact div_le_div_of_nonneg_right (abs_sub_le _ _ _) (by norm_num))
    spec1_reach specRnd_honest [2, 11, 5, 7, 3] (a := 2) (b := 3) (rep := 5) (by decide +kernel) (by decide +kernel)

/-- Numbers of a kind when they leave the same remainder. -/
example : ((spec1.speciate (fun a b => if a % 3 = b % 3 then 0 else 1) (fun _ => 3) specRnd [2, 11, 5, 7, 3]).imap 2 =
    (spec1.speciate (fun a b => if a % 3 = b % 3 then 0 else 1) (fun _ => 3) specRnd [2, 11, 5, 7, 3]).imap 5) :=
  (C107_classes (d := fun a b => if a % 3 = b % 3 then (0 : ℚ) else 1) (fun a b => by simp [eq_comm]) (fun a b => by split_ifs <;> simp)
    (fun a => by simp) (fun a b c h1 h2 => by
      have e1 : a % 3 = b % 3 := by by_contra h; simp [h] at h1
      have e2 : b % 3 = c % 3 := by by_contra h; simp [h] at h2
      simp [e1.trans e2]) spec1_reach specRnd_honest (by simp) (by simp)).2 (by norm_num)

example := C107_labels (tag := fun g : Nat => ⟨Fixture.g, some ⟨.simpleSubpopulation, some (g % 3)⟩⟩) (label := fun g => g % 3) (fun _ => rfl)
  (d := fun a b => if a % 3 = b % 3 then (0 : ℚ) else 1)
  (fun a b n h => by
    obtain ⟨h1, h2, -⟩ := C44_labels ⟨Fixture.g, some ⟨.simpleSubpopulation, some (a % 3)⟩⟩ ⟨Fixture.g, some ⟨.simpleSubpopulation, some (b % 3)⟩⟩ _ _ rfl rfl
    split_ifs with e
    · rw [h1.2 e] at h; cases h; simp
    · rw [h2.2 e] at h; cases h; simp)
  spec1_reach specRnd_honest (pop := [2, 11, 5, 7, 3]) (a := 2) (b := 7) (by simp) (by simp)

theorem twoChain_wf (c c' : ClassId) : (twoChain c c').graph.WF := by
  constructor <;> simp [twoChain, ids, Edge.ref]

example {o : GedOracle} (ho : ∀ g h, IsGed nodeMatch edgeMatch 30 g h (o.full g h)) : editDist o ⟨.full, 2⟩ (twoChain 30 30) (twoChain 31 31) = .ok 0 := by
  have := (C107_edit_diameter ho (t := 1) (by norm_num) ⟨_, rfl, rfl⟩ ⟨_, rfl, rfl⟩ ⟨_, rfl, rfl⟩ (twoChain_wf 30 31) (C107_edit_defect ho).1
    (C107_edit_defect ho).2.1).2
  simpa using this

example {o : GedOracle} (ho : ∀ g h, IsGed nodeMatch edgeMatch 30 g h (o.full g h)) :=
  C107_edit_classes (tag := fun p : Nat × Nat => twoChain p.1 p.2) (fun _ => ⟨_, rfl, rfl⟩) (fun _ => twoChain_wf _ _) ho (t := 1 / 100) (by norm_num) (by norm_num)
    (d := fun p q => match editDist o ⟨.full, 1 / 100⟩ (twoChain p.1 p.2) (twoChain q.1 q.2) with | .ok n => (n : ℚ) | .error _ => 0)
    (fun p q => by
      obtain ⟨s, h, -⟩ := twoChain_ged ho p.1 p.2 q.1 q.2
      have : ∃ n, editDist o ⟨.full, 1 / 100⟩ (twoChain p.1 p.2) (twoChain q.1 q.2) = .ok n := by
        rw [editDist_full ⟨_, rfl, rfl⟩ ⟨_, rfl, rfl⟩, h]
        exact ⟨_, rfl⟩
      obtain ⟨n, hn⟩ := this
      exact ⟨n, hn, by rw [hn]⟩)
    (.init (t := some 2) (thr := 2 / 5) (S := ⟨some 2, 2 / 5, [], fun _ => none⟩) (sqrt := fun _ => 3) (by unfold Spec.init; rw [if_neg (by norm_num)]))
    (r := ⟨id, fun _ => id⟩) ⟨fun _ => List.Perm.refl _, fun _ _ => List.Perm.refl _⟩ (pop := [(30, 31), (31, 31)]) (a := (30, 31)) (b := (31, 31)) (by simp) (by simp)

example := C107_vector_triangle (by decide) (longChain_countable (m := 3) (by decide)) (bundle_countable (c := 30) (by simp) 3) (bundle_countable (c := 31) (by simp) 3)

end Verif
