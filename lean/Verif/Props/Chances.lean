import Verif.Spec.Chances
import Verif.Props.Evolver
import Verif.Props.Undo
import Mathlib.Algebra.BigOperators.Group.List.Basic
import Mathlib.Algebra.Order.BigOperators.Group.Finset
/-!
# How likely evolution histories are (C96)
-/

namespace Verif
open Graph

/-- The entry of the uniform matrix that an offered step is drawn with. -/
theorem lookup_flat {lib ops} {g : Graph} (hw : g.WF) (ha : g.Acyclic) (hops : ops.Nodup) {M k l o}
    (hM : lookupMatrix lib ops g = .ok M) (hk : M.CanDraw k) (hs : M.sample k = .ok (l, o)) :
    M.flat k = 1 / (mutations lib ops g : ℚ) := by
  obtain ⟨order, hto⟩ := topoSort_complete hw ha
  obtain ⟨l', o', h1, h2, h3⟩ := sample_spec M hk.1
  rw [hs] at h1; injection h1 with h1; injection h1 with e1 e2; subst e1 e2
  have hl := lookup_onlyLegal hw ha hops hto hM _ _ l o h2 h3 hk.2
  have ho : o ∈ ops := by
    obtain ⟨l', o', h1, h4, _⟩ := (C12_sampling_legal hw ha hto hops hM).1 k hk
    rw [hs] at h1; injection h1 with h1; injection h1 with e1 e2; subst e1 e2
    exact h4
  obtain ⟨M', m1, _, _, _, _, m6⟩ := (C11_lookup_uniform (lib := lib) hw ha hto hops).2 ⟨o, ho, List.ne_nil_of_mem hl⟩
  rw [hM] at m1; injection m1 with m1; subst m1
  have := ((m6 _ _ l o h2 h3).1 hl).1
  unfold PMat.flat mutations
  rw [this, hto]

theorem mutations_pos {lib ops} {g : Graph} {r : StepRec} (h : OfferedMove lib ops g r) : 0 < mutations lib ops g := by
  obtain ⟨h1, order, hto, hl⟩ := h
  unfold mutations
  rw [hto]
  unfold legalCount
  refine Nat.pos_of_ne_zero fun hc => ?_
  have := List.sum_eq_zero_iff.1 hc _ (List.mem_map_of_mem (f := fun o => (locs lib g order o).length) h1)
  simp only [List.length_eq_zero_iff] at this
  rw [this] at hl
  cases hl

theorem evolve_graph_eq {lib matrix x k d uuid y o M l} (hM : matrix x.graph = .ok M) (hs : M.sample k = .ok (l, o))
    (h : evolveGraph lib matrix x k d uuid = .ok (y, o)) : applyOp lib x.graph o l d = .ok y.graph := by
  unfold evolveGraph at h
  simp only [hM, hs] at h
  split at h
  · cases h
  · rename_i g' hg'
    split at h
    · cases h
    · injection h with h; injection h with h1 h2; subst h1; exact hg'

/-- **C96.** What the uniform evolver can do, and how likely it is: a sequence of calls from a valid design takes certain steps to a certain design
exactly if they form an evolution history every step of which it offers, and the chance of these choices is then the product, over the steps, of one
over the number of mutations offered; it is never zero. -/
theorem C96_chance {lib ops} {x0 : Ind} (hw : x0.graph.WF) (ha : x0.graph.Acyclic) (hops : ops.Nodup) (rs : List (Graph × StepRec)) (q : ℚ) (g : Graph) :
    ((∃ y, ChanceRun lib (lookupMatrix lib ops) x0 rs q y ∧ y.graph = g) ↔
      History lib x0.graph rs g ∧ (∀ p ∈ rs, OfferedMove lib ops p.1 p.2) ∧
        q = (rs.map fun p => 1 / (mutations lib ops p.1 : ℚ)).prod) ∧
    ((∀ p ∈ rs, OfferedMove lib ops p.1 p.2) → 0 < (rs.map fun p => 1 / (mutations lib ops p.1 : ℚ)).prod) := by
  refine ⟨⟨?_, ?_⟩, ?_⟩
  · rintro ⟨y, h, rfl⟩
    induction h with
    | start => exact ⟨.nil, by simp, by simp⟩
    | @step rs q x M k r uuid y hrun hM hk hs hd he ih =>
      obtain ⟨i1, i2, i3⟩ := ih
      obtain ⟨w, a⟩ := history_dag hw ha i1
      obtain ⟨order, hto⟩ := topoSort_complete w a
      obtain ⟨l', o', s1, s2, s3⟩ := (C12_sampling_legal w a hto hops hM).1 k hk
      rw [hs] at s1; injection s1 with s1; injection s1 with e1 e2; subst e1 e2
      have happ := evolve_graph_eq hM hs he
      refine ⟨.step i1 ⟨⟨order, topoSort_sound w hto, s3⟩, hd, happ⟩, ?_, ?_⟩
      · intro p hp
        rcases List.mem_cons.1 hp with rfl | hp
        · exact ⟨s2, order, hto, s3⟩
        · exact i2 p hp
      · rw [lookup_flat w a hops hM hk hs, i3, List.map_cons, List.prod_cons, mul_comm]
  · rintro ⟨h, hoff, rfl⟩
    induction h with
    | nil => exact ⟨x0, .start, rfl⟩
    | @step rs g r g' hh hleg ih =>
      obtain ⟨x, hx, hxg⟩ := ih (fun p hp => hoff p (List.mem_cons_of_mem _ hp))
      subst hxg
      obtain ⟨w, a⟩ := history_dag hw ha hh
      obtain ⟨ho, order, hto, hl⟩ := hoff _ List.mem_cons_self
      obtain ⟨M, hM, _⟩ := (C11_lookup_uniform (lib := lib) w a hto hops).2 ⟨r.op, ho, List.ne_nil_of_mem hl⟩
      obtain ⟨k, ⟨hk, hs⟩, _⟩ := (C12_sampling_legal w a hto hops hM).2 r.op ho r.loc hl
      obtain ⟨y, he, hl2⟩ := C12_evolve_never_fails w a hops hM hk hs hleg.2.1 0
      refine ⟨y, ?_, ?_⟩
      · rw [List.map_cons, List.prod_cons, mul_comm, ← lookup_flat w a hops hM hk hs]
        exact .step hx hM hk hs hleg.2.1 he
      · have h1 := hl2.2.2
        have h2 := hleg.2.2
        simp only at h1
        rw [h2] at h1
        injection h1 with h1
        exact h1.symm
  · intro hoff
    induction rs with
    | nil => simp
    | cons p rs ih =>
      rw [List.map_cons, List.prod_cons]
      have h1 := mutations_pos (hoff p List.mem_cons_self)
      have h2 : (0 : ℚ) < mutations lib ops p.1 := by exact_mod_cast h1
      have h3 := ih (fun p hp => hoff p (List.mem_cons_of_mem _ hp))
      positivity

/-- **C96.** Every legal step of an operator in use is offered, except that of two nodes without a path between them only one direction is: a legal
step is offered if it is not a parallel one, or if the second node lies downstream of the first. -/
theorem C96_offered {lib ops} {g g' : Graph} (hw : g.WF) (ha : g.Acyclic) {r : StepRec} (h : LegalStep lib g r g') (ho : r.op ∈ ops)
    (hp : ∀ u v, r.loc = .pair u v → g.Reach u v) : OfferedMove lib ops g r := by
  obtain ⟨order, hto⟩ := topoSort_complete hw ha
  refine ⟨ho, order, hto, ?_⟩
  obtain ⟨⟨o', ho', hl⟩, _, _⟩ := h
  obtain ⟨op, loc, draw⟩ := r
  simp only at hl hp ⊢
  cases op with
  | addSeries => exact hl
  | remove => exact hl
  | swap => exact hl
  | addParallel =>
    obtain ⟨⟨u, v⟩, hm, rfl⟩ := List.mem_map.1 hl
    refine List.mem_map.2 ⟨(u, v), ?_, rfl⟩
    have hs := topoSort_sound hw hto
    obtain ⟨mu, mv, pu, pv, hlt⟩ := parallelLocs_spec ho' hm
    have hne : u ≠ v := by rintro rfl; exact lt_irrefl _ hlt
    have hcond : ∀ w, w = u ∨ w = v → ∃ n, g.node? w = some n ∧ g.inDeg w ≠ 0 ∧ g.outDeg w ≠ 0 ∧
        n.comp.prot = false ∧ g.inDeg w < n.comp.maxIn ∧ g.outDeg w < n.comp.maxIn := by
      rintro w (rfl | rfl)
      · exact parallelOk_iff.1 pu
      · exact parallelOk_iff.1 pv
    rcases C05_all_legal_pairs_offered hs mu mv hne hcond with h1 | h1
    · exact h1
    · obtain ⟨_, _, _, _, hlt2⟩ := parallelLocs_spec hs h1
      exact absurd (hp u v rfl) (not_reach_of_idx hs hlt2)

/-- **C96.** (Finding.)  Of two nodes between which a parallel component may go in some order of the design, the evolver always offers one direction and never
both.  Which one, for nodes without a path between them, is decided by networkx's sort; the other direction is a legal mutation that is never tried. -/
theorem C96_one_direction {lib} {ops : List Op} {g g' : Graph} (hw : g.WF) (ha : g.Acyclic) (hop : Op.addParallel ∈ ops) {u v : NodeId} {d : Draw}
    (h : LegalStep lib g ⟨.addParallel, .pair u v, d⟩ g') :
    (OfferedMove lib ops g ⟨.addParallel, .pair u v, d⟩ ∨ OfferedMove lib ops g ⟨.addParallel, .pair v u, d⟩) ∧
    ¬ (OfferedMove lib ops g ⟨.addParallel, .pair u v, d⟩ ∧ OfferedMove lib ops g ⟨.addParallel, .pair v u, d⟩) := by
  obtain ⟨order, hto⟩ := topoSort_complete hw ha
  have hs := topoSort_sound hw hto
  obtain ⟨⟨o', ho', hl⟩, _, _⟩ := h
  have hm : (u, v) ∈ parallelLocs g o' := by
    obtain ⟨p, hp, hp2⟩ := List.mem_map.1 hl
    injection hp2 with h1 h2
    have : p = (u, v) := Prod.ext h1 h2
    rwa [this] at hp
  have key : ∀ a b, OfferedMove lib ops g ⟨.addParallel, .pair a b, d⟩ ↔ (a, b) ∈ parallelLocs g order := by
    intro a b
    constructor
    · rintro ⟨_, o2, h2, h3⟩
      rw [hto] at h2; injection h2 with h2; subst h2
      obtain ⟨p, hp, hp2⟩ := List.mem_map.1 h3
      injection hp2 with h1 h2
      have : p = (a, b) := Prod.ext h1 h2
      rwa [this] at hp
    · intro h2
      exact ⟨hop, order, hto, List.mem_map.2 ⟨(a, b), h2, rfl⟩⟩
  rw [key, key]
  obtain ⟨mu, mv, pu, pv, hlt⟩ := parallelLocs_spec ho' hm
  have hne : u ≠ v := by rintro rfl; exact lt_irrefl _ hlt
  refine ⟨C05_all_legal_pairs_offered hs mu mv hne ?_, ?_⟩
  · rintro w (rfl | rfl)
    · exact parallelOk_iff.1 pu
    · exact parallelOk_iff.1 pv
  · rintro ⟨h1, h2⟩
    obtain ⟨_, _, _, _, l1⟩ := parallelLocs_spec hs h1
    obtain ⟨_, _, _, _, l2⟩ := parallelLocs_spec hs h2
    omega

/-- The steps of a history and the graphs they are applied to. -/
theorem history_step_mem {lib : Library} {g0 g : Graph} {rs : List (Graph × StepRec)} (hw : g0.WF) (ha : g0.Acyclic) (h : History lib g0 rs g) :
    ∀ p ∈ rs, p.1.WF ∧ p.1.Acyclic ∧ ∃ g', LegalStep lib p.1 p.2 g' := by
  induction h with
  | nil => intro p hp; cases hp
  | step hh hs ih =>
    intro p hp
    rcases List.mem_cons.1 hp with rfl | hp
    · obtain ⟨w, a⟩ := history_dag hw ha hh
      exact ⟨w, a, _, hs⟩
    · exact ih p hp

/-- **C96.** Any chain of library components between the two ends of a design is found with a positive chance by the uniform evolver with the insertion and
removal operators, in as many calls as the design has components between its ends and the chain has components. -/
theorem C96_reach {lib : Library} {ops : List Op} (hops : ops.Nodup) (hrem : Op.remove ∈ ops) (hadd : Op.addSeries ∈ ops) {x0 : Ind} {ns nt cl cd}
    (hw : x0.graph.WF) (ha : x0.graph.Acyclic) (hE : TwoEnded x0.graph ns nt cl cd)
    (hF : InnerFree x0.graph ns nt) {n : Node} (hn : n ∈ x0.graph.nodes) (hs : n.id ≠ ns.id) (ht : n.id ≠ nt.id)
    {l : List (Comp × Node)} (hC : ChainFrom lib x0.graph l) :
    ∃ rs q y m, ChanceRun lib (lookupMatrix lib ops) x0 rs q y ∧ 0 < q ∧ rs.length + 2 = x0.graph.edges.length + l.length ∧
      m.comp = n.comp ∧ m.name = n.name ∧ y.graph.nodes.Perm (ns :: m :: nt :: l.map (·.2)) ∧
      (y.graph.edges.map Edge.shape).Perm ((ns.id, m.id, cl.1, cl.2) :: chainShapes nt.id cd m.id l) := by
  obtain ⟨rs, g', m, hH, hk, h1, h2, h3, h4, h5⟩ := C93_reach_chain lib hw ha hE hF hn hs ht hC
  have hoff : ∀ p ∈ rs, OfferedMove lib ops p.1 p.2 := by
    intro p hp
    obtain ⟨w, a, g2, hleg⟩ := history_step_mem hw ha hH p hp
    have hop := hk p hp
    refine C96_offered w a hleg (by rcases hop with h | h <;> rw [h] <;> assumption) fun u v hl => ?_
    obtain ⟨⟨o, _, hl2⟩, _⟩ := hleg
    rw [hl] at hl2
    rcases hop with h | h <;> rw [h] at hl2 <;> obtain ⟨i, _, hi⟩ := List.mem_map.1 hl2 <;> cases hi
  obtain ⟨c1, c2⟩ := C96_chance hw ha hops rs _ g'
  obtain ⟨y, hy, rfl⟩ := c1.2 ⟨hH, hoff, rfl⟩
  exact ⟨rs, _, y, m, hy, c2 hoff, h1, h2, h3, h4, h5⟩

theorem pairs_length {α : Type} (l : List α) : 2 * (pairs l).length = l.length * (l.length - 1) := by
  induction l with
  | nil => rfl
  | cons x xs ih =>
    unfold pairs
    simp only [List.length_append, List.length_map, List.length_cons, Nat.add_sub_cancel]
    rw [Nat.mul_add, ih]
    cases xs.length with
    | zero => rfl
    | succ n => simp only [Nat.add_sub_cancel]; ring

/-- **C96.** How many mutations there are to choose among: for a design with `N` nodes and `E` components at most two insertions and two removals per component,
one parallel component per pair of nodes, one exchange per node and component. -/
theorem C96_bound (lib : Library) {ops : List Op} (hops : ops.Nodup) {g : Graph} (hw : g.WF) :
    2 * mutations lib ops g ≤ 10 * g.edges.length + 2 * g.nodes.length + g.nodes.length * (g.nodes.length - 1) := by
  unfold mutations
  split
  · rename_i order hto
    have hs := topoSort_sound hw hto
    have hol : order.length = g.nodes.length := by
      have := (List.perm_ext_iff_of_nodup hs.nodup hw.ids_nodup).2 hs.mem_iff
      rw [this.length_eq]; simp [ids]
    have hI : g.interfaces.length ≤ 2 * g.edges.length := by
      unfold interfaces
      simp only [List.length_append, List.length_map]
      have h1 := List.length_filter_le (fun e : Edge => decide (g.inDeg e.src ≠ 0)) g.edges
      have h2 := List.length_filter_le (fun e : Edge => decide (g.outDeg e.dst ≠ 0)) g.edges
      omega
    have b1 : (locs lib g order .addSeries).length ≤ 2 * g.edges.length := by
      simpa [locs, seriesLocs] using hI
    have b2 : (locs lib g order .remove).length ≤ 2 * g.edges.length := by
      refine le_trans ?_ hI
      simp only [locs, removeLocs, List.length_map]
      exact List.length_filter_le _ _
    have b3 : (locs lib g order .swap).length ≤ g.nodes.length + g.edges.length := by
      simp only [locs, swapLocs, List.length_append, List.length_map]
      exact Nat.add_le_add (List.length_filter_le _ _) (List.length_filter_le _ _)
    have b4 : 2 * (locs lib g order .addParallel).length ≤ g.nodes.length * (g.nodes.length - 1) := by
      simp only [locs, parallelLocs, List.length_map]
      rw [pairs_length]
      have := List.length_filter_le (parallelOk g) order
      rw [hol] at this
      exact Nat.mul_le_mul this (Nat.sub_le_sub_right this 1)
    have hsub : legalCount lib ops g order ≤ legalCount lib [.addSeries, .addParallel, .remove, .swap] g order := by
      unfold legalCount
      have hp : List.Subperm ops [.addSeries, .addParallel, .remove, .swap] :=
        List.subperm_of_subset hops (by intro o _; cases o <;> simp)
      obtain ⟨l, hl1, hl2⟩ := hp
      rw [← (hl1.map _).sum_eq]
      exact List.Sublist.sum_le_sum (hl2.map _) (by simp)
    have : legalCount lib [.addSeries, .addParallel, .remove, .swap] g order = (locs lib g order .addSeries).length +
        ((locs lib g order .addParallel).length + ((locs lib g order .remove).length + (locs lib g order .swap).length)) := by
      simp [legalCount]
    omega
  · omega

/-- **C96.** With positive weights the weighted evolver leaves no mutation out: every step the uniform evolver offers has a positive chance. -/
theorem C96_weighted {lib ops} {x : Ind} (hw : x.graph.WF) (ha : x.graph.Acyclic) (hops : ops.Nodup) {w : Op → ℚ} (hpos : ∀ o ∈ ops, 0 < w o)
    {r : StepRec} (hoff : OfferedMove lib ops x.graph r) :
    ∃ M i j, weightedMatrix lib ops noScale w x.graph = .ok M ∧ M.locs[i]? = some r.loc ∧ M.ops[j]? = some r.op ∧ 0 < M.m i j := by
  obtain ⟨ho, order, hto, hl⟩ := hoff
  have hnn : ∀ o ∈ ops, 0 ≤ (if locs lib x.graph order o = [] then 0 else w o) := by
    intro o ho
    split
    · exact le_refl _
    · exact (hpos o ho).le
  have hA : 0 < activeWeight lib ops w x.graph order := by
    unfold activeWeight
    refine lt_of_lt_of_le ?_ (List.single_le_sum (fun y hy => ?_) _ (List.mem_map_of_mem ho))
    · rw [if_neg (List.ne_nil_of_mem hl)]; exact hpos _ ho
    · obtain ⟨o, ho, rfl⟩ := List.mem_map.1 hy
      exact hnn o ho
  obtain ⟨M, hM, _, m3, _, m5, _, m7⟩ := (C13_operator_weights hw ha hto hops (fun o ho => (hpos o ho).le)).2 hA
  obtain ⟨i, hi, hil⟩ := List.getElem_of_mem (m5 _ ho _ hl)
  obtain ⟨j, hj, hjo⟩ := List.getElem_of_mem ho
  have hil' : M.locs[i]? = some r.loc := by rw [List.getElem?_eq_getElem hi, hil]
  have hjo' : M.ops[j]? = some r.op := by rw [m3, List.getElem?_eq_getElem hj, hjo]
  refine ⟨M, i, j, hM, hil', hjo', ?_⟩
  rw [(m7 i j _ _ hil' hjo').1 hl]
  have h1 : (0 : ℚ) < (locs lib x.graph order r.op).length := by
    exact_mod_cast List.length_pos_of_mem hl
  have := hpos _ ho
  positivity

/-- **C96.** (Finding.)  The Hessian-based evolver removes only from the less sensitive half: whenever a removal has a positive chance, at least half
of the removable components score as high or higher, whatever the shuffle. -/
theorem C96_sensitive_half {lib ops} {g : Graph} (hw : g.WF) (ha : g.Acyclic)
    (hops : ops.Nodup) {score : EdgeRef → Option ℚ} {shuffle : List Nat → List Nat} (hsh : ∀ l, (shuffle l).Perm l)
    (hscore : ∀ e ∈ g.edges, ∃ s, score e.ref = some s) {gen : ℚ} (h0 : 0 ≤ gen) (h1 : gen ≤ 1) {M}
    (hM : hessianMatrix lib ops score shuffle gen g = .ok M) {i j l} (hl : M.locs[i]? = some l) (hj : M.ops[j]? = some .remove)
    (hpos : 0 < M.m i j) (R : Finset EdgeRef) (hR : ∀ e, e ∈ R ↔ ∃ n order, Loc.iface ⟨n, e⟩ ∈ locs lib g order .remove) :
    ∃ f s0, l = .iface f ∧ f.edge ∈ R ∧ score f.edge = some s0 ∧ R.card ≤ 2 * (R.filter fun e => ∃ s, score e = some s ∧ s0 ≤ s).card := by
  obtain ⟨order, hto⟩ := topoSort_complete hw ha
  obtain ⟨c1, c2⟩ := C15_schedule (lib := lib) hw ha hto hops hsh hscore h0 h1
  have hex : ∃ o ∈ ops, locs lib g order o ≠ [] ∧ 0 < genWeight gen o := by
    by_contra hc
    push Not at hc
    rw [c1 (fun o ho hne => le_antisymm (hc o ho hne) (genWeight_nonneg h0 h1 o))] at hM
    cases hM
  obtain ⟨M', m1, _, m3, m4, _⟩ := c2 hex
  rw [hM] at m1; injection m1 with m1; subst m1
  have hrem : Op.remove ∈ ops := m3 ▸ List.mem_of_getElem? hj
  have hlm := m4 i j l _ hl hj hpos
  have hne : removeLocs g ≠ [] := by
    intro hc
    simp [locs, hc] at hlm
  obtain ⟨f, hf, ⟨s0, hs0, q, k, hq, hk, T, hTc, hfT, hT⟩, hrow⟩ := C14_single_removal hw ha hops hsh hscore h0 h1 hrem hne hM
  have hRm : ∀ e, e ∈ R ↔ ∃ n, (⟨n, e⟩ : Iface) ∈ removeLocs g := by
    intro e
    rw [hR]
    constructor
    · rintro ⟨n, o, h⟩
      obtain ⟨i, hi, hi2⟩ := List.mem_map.1 h
      injection hi2 with hi2
      exact ⟨n, hi2 ▸ hi⟩
    · rintro ⟨n, h⟩
      exact ⟨n, order, List.mem_map_of_mem h⟩
  have hboth : ∀ e ∈ R, (⟨e.src, e⟩ : Iface) ∈ removeLocs g ∧ (⟨e.dst, e⟩ : Iface) ∈ removeLocs g ∧ e.src ≠ e.dst := by
    intro r hr
    obtain ⟨n, hn⟩ := (hRm r).1 hr
    obtain ⟨e, he, nu, mu, nv, mv, h1, h2, h3, _, h5, h6, h7, h8, h9⟩ := removeLocs_spec hw hn
    simp only at h1
    have hs : r.src = e.src := by rw [h1]; rfl
    have hd : r.dst = e.dst := by rw [h1]; rfl
    have hprot : ∀ n ∈ g.nodes, n.id = e.src ∨ n.id = e.dst → n.comp.prot = false := by
      rintro n hn (h | h)
      · rw [List.inj_on_of_nodup_map hw.ids_nodup hn mu (h.trans h2.symm)]; exact h6
      · rw [List.inj_on_of_nodup_map hw.ids_nodup hn mv (h.trans h3.symm)]; exact h7
    refine ⟨mem_removeLocs hw he h1 (Or.inl hs) h8 h9 h5 hprot, mem_removeLocs hw he h1 (Or.inr hd) h8 h9 h5 hprot, ?_⟩
    rw [hs, hd]
    exact ha.no_loop he
  have hcount : 2 * R.card ≤ (removeLocs g).length := by
    have hd : Disjoint (R.image fun e => (⟨e.src, e⟩ : Iface)) (R.image fun e => (⟨e.dst, e⟩ : Iface)) := by
      rw [Finset.disjoint_left]
      intro x hx hy
      obtain ⟨a, ha1, rfl⟩ := Finset.mem_image.1 hx
      obtain ⟨b, _, hb2⟩ := Finset.mem_image.1 hy
      injection hb2 with e1 e2
      subst e2
      exact (hboth _ ha1).2.2 e1.symm
    have hsub : (R.image fun e => (⟨e.src, e⟩ : Iface)) ∪ (R.image fun e => (⟨e.dst, e⟩ : Iface)) ⊆ (removeLocs g).toFinset := by
      intro x hx
      rw [List.mem_toFinset]
      rcases Finset.mem_union.1 hx with hx | hx <;> obtain ⟨a, ha1, rfl⟩ := Finset.mem_image.1 hx
      · exact (hboth a ha1).1
      · exact (hboth a ha1).2.1
    have h2 := Finset.card_le_card hsub
    rw [Finset.card_union_of_disjoint hd, Finset.card_image_of_injective _ (fun a b h => by injection h),
      Finset.card_image_of_injective _ (fun a b h => by injection h)] at h2
    have h3 := List.toFinset_card_le (removeLocs g)
    omega
  have hnode : ∀ f' ∈ T, f'.node = f'.edge.src ∨ f'.node = f'.edge.dst := by
    intro f' hf'
    obtain ⟨e, he, nu, mu, nv, mv, h1, h2, h3, h4, _⟩ := removeLocs_spec hw (hT f' hf').1
    rw [h1]
    exact h4
  have himg : T.card ≤ 2 * (T.image Iface.edge).card := by
    refine Finset.card_le_mul_card_image T 2 fun e _ => ?_
    have : (T.filter fun a => a.edge = e) ⊆ {(⟨e.src, e⟩ : Iface), ⟨e.dst, e⟩} := by
      intro x hx
      obtain ⟨hx1, hx2⟩ := Finset.mem_filter.1 hx
      subst hx2
      rw [Finset.mem_insert, Finset.mem_singleton]
      rcases hnode x hx1 with h | h
      · left; rw [← h]
      · right; rw [← h]
    exact (Finset.card_le_card this).trans Finset.card_le_two
  have hin : (T.image Iface.edge) ⊆ R.filter fun e => ∃ s, score e = some s ∧ s0 ≤ s := by
    intro e he
    obtain ⟨x, hx, rfl⟩ := Finset.mem_image.1 he
    obtain ⟨h1, h2⟩ := hT x hx
    exact Finset.mem_filter.2 ⟨(hRm _).2 ⟨x.node, h1⟩, h2⟩
  have hc := Finset.card_le_card hin
  have hlf : l = .iface f := by
    by_contra hc
    have := hrow i j l hl hj
    rw [if_neg hc] at this
    rw [this] at hpos
    exact lt_irrefl _ hpos
  refine ⟨f, s0, hlf, (hRm _).2 ⟨f.node, hf⟩, hs0, ?_⟩
  unfold IsRoundHalf at hq
  omega

/-- **C96.** (Finding.)  In particular, where three components can be removed or more, the one with the strictly highest score is never removed. -/
theorem C96_never_drawn {lib ops} {g : Graph} (hw : g.WF) (ha : g.Acyclic)
    (hops : ops.Nodup) {score : EdgeRef → Option ℚ} {shuffle : List Nat → List Nat} (hsh : ∀ l, (shuffle l).Perm l)
    (hscore : ∀ e ∈ g.edges, ∃ s, score e.ref = some s) {gen : ℚ} (h0 : 0 ≤ gen) (h1 : gen ≤ 1) {M}
    (hM : hessianMatrix lib ops score shuffle gen g = .ok M) {i j n} {e : EdgeRef} (hl : M.locs[i]? = some (.iface ⟨n, e⟩))
    (hj : M.ops[j]? = some .remove) (R : Finset EdgeRef) (hR : ∀ e, e ∈ R ↔ ∃ n order, Loc.iface ⟨n, e⟩ ∈ locs lib g order .remove)
    (h3 : 3 ≤ R.card) (htop : ∀ e' ∈ R, e' ≠ e → ∀ s s', score e = some s → score e' = some s' → s' < s) : ¬ 0 < M.m i j := by
  intro hpos
  obtain ⟨f, s0, h4, _, h6, h7⟩ := C96_sensitive_half hw ha hops hsh hscore h0 h1 hM hl hj hpos R hR
  injection h4 with h4
  subst h4
  have : (R.filter fun e => ∃ s, score e = some s ∧ s0 ≤ s) ⊆ {e} := by
    intro e' he'
    obtain ⟨a, s, b, c⟩ := Finset.mem_filter.1 he'
    rw [Finset.mem_singleton]
    by_contra hc
    exact absurd (htop e' a hc s0 s h6 b) (not_lt.2 c)
  have h8 := Finset.card_le_card this
  rw [Finset.card_singleton] at h8
  omega

namespace Odds
open Fixture

def x0 : Ind := ⟨g, 1, 0, none⟩

theorem hist_offered : ∀ p ∈ [(line, rmStep), (g, rmStep2)], OfferedMove lib allOps p.1 p.2 := by
  intro p hp
  simp only [List.mem_cons, List.not_mem_nil, or_false] at hp
  rcases hp with rfl | rfl
  · exact C96_offered line_wf line_acyclic rm_legal (by decide) (fun u v h => by cases h)
  · exact C96_offered g_wf g_acyclic rm2_legal (by decide) (fun u v h => by cases h)

/-- Two removals in a row: 13 mutations to choose among, then 9. -/
example : ∃ y, ChanceRun lib (lookupMatrix lib allOps) x0 [(line, rmStep), (g, rmStep2)] (1 / 117) y ∧ y.graph = line' := by
  refine (C96_chance (x0 := x0) g_wf g_acyclic (by decide) _ _ _).1.2 ⟨hist, hist_offered, ?_⟩
  have h1 : mutations lib allOps g = 13 := by decide +kernel
  have h2 : mutations lib allOps line = 9 := by decide +kernel
  simp only [List.map_cons, List.map_nil, h1, h2, List.prod_cons, List.prod_nil]
  norm_num

example := C96_reach (lib := lib) (ops := allOps) (by decide) (by decide) (by decide) (x0 := x0) g_wf g_acyclic Back.g_ends Back.g_free
  (n := ⟨2, split 3, 40⟩) (by decide) (by decide) (by decide) Back.chain

example : 2 * mutations lib allOps g ≤ 10 * 4 + 2 * 4 + 4 * 3 := C96_bound lib (by decide) g_wf

example := C96_weighted (lib := lib) (ops := allOps) (x := x0) g_wf g_acyclic (by decide) (w := fun _ => 1) (by decide)
  (C96_offered g_wf g_acyclic ser_legal (by decide) (fun u v h => by cases h))

/-- A component from one arm to the other, in the direction the sort does not take. -/
theorem cross_legal : LegalStep lib Back.arms ⟨.addParallel, .pair 2 3, Back.new⟩ (addParallel Back.arms 2 3 (fiber 20)) :=
  ⟨⟨_, Back.arms_topo, by decide⟩, show 30 ∈ lib.edge by decide, rfl⟩

theorem cross_not_offered : ¬ OfferedMove lib allOps Back.arms ⟨.addParallel, .pair 2 3, Back.new⟩ := by
  rintro ⟨_, o, h1, h2⟩
  have h3 : Back.arms.topoSort = .ok [0, 1, 3, 2, 4, 5] := by decide +kernel
  rw [h3] at h1
  injection h1 with h1
  subst h1
  revert h2
  decide

example : OfferedMove lib allOps Back.arms ⟨.addParallel, .pair 3 2, Back.new⟩ :=
  (C96_one_direction Back.arms_wf Back.arms_topo.acyclic (by decide) cross_legal).1.resolve_left cross_not_offered

def score : EdgeRef → Option ℚ := fun r => some (r.src + 2 * r.dst)

def removable : Finset EdgeRef := {⟨1, 2, 0⟩, ⟨1, 3, 0⟩, ⟨2, 4, 0⟩, ⟨3, 4, 0⟩}

theorem removable_iff (e : EdgeRef) : e ∈ removable ↔ ∃ n order, Loc.iface ⟨n, e⟩ ∈ locs lib Back.arms order .remove := by
  constructor
  · intro h
    refine ⟨e.src, [], ?_⟩
    revert e
    decide
  · rintro ⟨n, o, h⟩
    obtain ⟨i, hi, hi2⟩ := List.mem_map.1 h
    injection hi2 with hi2
    have : ∀ i ∈ removeLocs Back.arms, i.edge ∈ removable := by decide
    have := this i hi
    rw [hi2] at this
    exact this

/-- The component in front of the coupler on the second arm has the highest score and is never removed. -/
example {M i j n} (h : hessianMatrix lib allOps score id (1 / 2) Back.arms = .ok M) (hl : M.locs[i]? = some (.iface ⟨n, ⟨3, 4, 0⟩⟩))
    (hj : M.ops[j]? = some .remove) : ¬ 0 < M.m i j := by
  refine C96_never_drawn Back.arms_wf Back.arms_topo.acyclic (by decide) (fun l => List.Perm.refl _) (fun e _ => ⟨_, rfl⟩) (by norm_num) (by norm_num) h hl hj
    removable removable_iff (by decide) ?_
  intro e' he' hne s s' hs hs'
  simp only [score, Option.some.injEq] at hs hs'
  subst hs hs'
  simp only [removable, Finset.mem_insert, Finset.mem_singleton] at he'
  rcases he' with rfl | rfl | rfl | rfl
  · norm_num
  · norm_num
  · norm_num
  · exact absurd rfl hne

/-- Half way through the run some removal has a positive chance. -/
example : ∃ M i j l, hessianMatrix lib allOps score id (1 / 2) Back.arms = .ok M ∧ M.locs[i]? = some l ∧ M.ops[j]? = some .remove ∧ 0 < M.m i j := by
  obtain ⟨o, ho⟩ := topoSort_complete Back.arms_wf Back.arms_topo.acyclic
  have hne : locs lib Back.arms o .remove ≠ [] := show (removeLocs Back.arms).map Loc.iface ≠ [] by decide
  obtain ⟨M, h, _, h3, _, h5⟩ := (C15_schedule (lib := lib) (score := score) (shuffle := id) (gen := 1 / 2) Back.arms_wf Back.arms_topo.acyclic ho (ops := allOps)
    (by decide) (fun l => List.Perm.refl _) (fun e _ => ⟨_, rfl⟩) (by norm_num) (by norm_num)).2 ⟨.remove, by decide, hne, by decide +kernel⟩
  have hj : allOps[allOps.idxOf .remove]? = some .remove := by decide
  have h6 := h5 _ _ hj
  rw [if_neg hne] at h6
  have hA : 0 < activeWeight lib allOps (genWeight (1 / 2)) Back.arms o := by
    have : ∀ x ∈ allOps.map (fun o' => if locs lib Back.arms o o' = [] then 0 else genWeight (1 / 2) o'), (0 : ℚ) ≤ x := by
      intro x hx
      obtain ⟨o', _, rfl⟩ := List.mem_map.1 hx
      split
      · exact le_refl _
      · exact genWeight_nonneg (by norm_num) (by norm_num) o'
    refine lt_of_lt_of_le ?_ (List.single_le_sum this _ (List.mem_map_of_mem (show Op.remove ∈ allOps by decide)))
    rw [if_neg hne]; decide +kernel
  have hpos : 0 < M.opTotal (allOps.idxOf .remove) := by
    rw [h6]; exact div_pos (by decide +kernel) hA
  by_contra hc
  push Not at hc
  refine absurd hpos (not_lt.2 (Finset.sum_nonpos fun i hi => ?_))
  have hi' := Finset.mem_range.1 hi
  exact hc M i _ M.locs[i] h (List.getElem?_eq_getElem hi') (by rw [h3]; exact hj)

end Odds

end Verif
