import Verif.Spec.RandomGraph
import Verif.Props.Evolver
import Verif.Props.Tables
/-! # C100: designs made by `random_graph` -/

namespace Verif
open Graph

section Main
variable {S : Settings} {cls : ClassId → Part} {lib : Library}

/-! ### Inner nodes -/

theorem inner_iff {g : Graph} (hw : g.WF) {v : NodeId} : InnerNode g v ↔ v ∈ g.ids ∧ ¬ g.IsSource v ∧ ¬ g.IsSink v := by
  unfold InnerNode IsSource IsSink
  constructor
  · rintro ⟨⟨e, he, rfl⟩, e', he', h⟩
    exact ⟨hw.dst_mem e he, fun hc => hc.2 e he rfl, fun hc => hc.2 e' he' h⟩
  · rintro ⟨hv, h1, h2⟩
    constructor
    · by_contra hc; push Not at hc; exact h1 ⟨hv, hc⟩
    · by_contra hc; push Not at hc; exact h2 ⟨hv, hc⟩

theorem inner_of_deg {g : Graph} {v : NodeId} (h1 : g.inDeg v ≠ 0) (h2 : g.outDeg v ≠ 0) : InnerNode g v := by
  constructor
  · obtain ⟨e, he⟩ := List.exists_mem_of_length_pos (Nat.pos_of_ne_zero h1)
    obtain ⟨ha, hb⟩ := List.mem_filter.1 he
    exact ⟨e, ha, by simpa using hb⟩
  · obtain ⟨e, he⟩ := List.exists_mem_of_length_pos (Nat.pos_of_ne_zero h2)
    obtain ⟨ha, hb⟩ := List.mem_filter.1 he
    exact ⟨e, ha, by simpa using hb⟩

theorem deg_of_inner {g : Graph} {v : NodeId} (h : InnerNode g v) : g.inDeg v ≠ 0 ∧ g.outDeg v ≠ 0 := by
  obtain ⟨⟨e, he, rfl⟩, e', he', h⟩ := h
  constructor
  · exact Nat.ne_of_gt (List.length_pos_of_mem (List.mem_filter.2 ⟨he, by simp⟩))
  · exact Nat.ne_of_gt (List.length_pos_of_mem (List.mem_filter.2 ⟨he', by simpa using h⟩))

theorem interfaces_iff {g : Graph} : g.interfaces ≠ [] ↔ ∃ v, InnerNode g v := by
  constructor
  · intro h
    obtain ⟨i, hi⟩ := List.exists_mem_of_ne_nil _ h
    obtain ⟨e, he, -, ⟨-, h2⟩ | ⟨-, h2⟩⟩ := mem_interfaces.1 hi
    · exact ⟨e.src, inner_of_deg h2 (Nat.ne_of_gt (List.length_pos_of_mem (List.mem_filter.2 ⟨he, by simp⟩)))⟩
    · exact ⟨e.dst, inner_of_deg (Nat.ne_of_gt (List.length_pos_of_mem (List.mem_filter.2 ⟨he, by simp⟩))) h2⟩
  · rintro ⟨v, h⟩
    obtain ⟨⟨e, he, rfl⟩, -⟩ := id h
    exact List.ne_nil_of_mem (mem_interfaces.2 ⟨e, he, rfl, .inr ⟨rfl, (deg_of_inner h).2⟩⟩ : (⟨e.dst, e.ref⟩ : Iface) ∈ g.interfaces)

/-- A step keeps an inner node. -/
theorem step_inner {g g' : Graph} {r : StepRec} (hw : g.WF) (ha : g.Acyclic) (hs : LegalStep lib g r g') (h : ∃ v, InnerNode g v) : ∃ v, InnerNode g' v := by
  obtain ⟨t1, t2⟩ := step_terminals hw ha hs
  have hw' := step_wf hw ha hs
  suffices hk : ∃ v, InnerNode g v ∧ v ∈ g'.ids by
    obtain ⟨v, h1, h2⟩ := hk
    obtain ⟨-, h3, h4⟩ := (inner_iff hw).1 h1
    exact ⟨v, (inner_iff hw').2 ⟨h2, fun hc => h3 ((t1 v).1 hc), fun hc => h4 ((t2 v).1 hc)⟩⟩
  obtain ⟨v, hv⟩ := h
  have hvi := ((inner_iff hw).1 hv).1
  cases legal_kind hs with
  | series i _ _ hi hn _ _ h =>
    obtain ⟨_, _, _, h'', h1, hnodes, _⟩ := addSeries_shape hw hi hn r.draw.ec r.draw.nc
    rw [h] at h1; injection h1 with h1; subst h1
    exact ⟨v, hv, by simp only [ids, hnodes, List.map_append, List.mem_append]; exact .inl hvi⟩
  | parallel u w o _ _ _ _ _ h => subst h; exact ⟨v, hv, hvi⟩
  | remove i _ _ hi h =>
    have hi' := (List.mem_filter.1 hi).2
    obtain ⟨e, he, nu, _, nv, _, hr, _, _, hnode, _⟩ := removeLocs_spec hw hi
    obtain ⟨keep, _, _, hres⟩ := removeComp_shape hw he hr hnode
    rw [h] at hres; injection hres with hres
    split at hres
    · subst hres; exact ⟨v, hv, hvi⟩
    · rename_i hp
      have m := mergeFacts ha he hp
      refine ⟨e.src, inner_of_deg ?_ (Nat.ne_of_gt (List.length_pos_of_mem (List.mem_filter.2 ⟨he, by simp⟩))), ?_⟩
      · rw [hr] at hi'
        simp only [decide_eq_true_eq] at hi'
        exact hi'.1
      · subst hres
        rw [show ∀ f : Node → Node, (∀ n, (f n).id = n.id) → (((g.removeEdge e.ref).contract e.src e.dst).setNode e.src f).ids =
          ((g.removeEdge e.ref).contract e.src e.dst).ids from fun f hf => setNode_ids _ _ _ hf, contract_ids]
        · exact List.mem_filter.2 ⟨hw.src_mem e he, by simpa using m.ne⟩
        · intro n; rfl
  | swapNode u _ _ _ _ h => subst h; exact ⟨v, hv, by rw [setNode_comp_ids]; exact hvi⟩
  | swapEdge u _ _ _ _ h => subst h; exact ⟨v, hv, hvi⟩

/-- Without an inner node a step exchanges a component. -/
theorem step_bare {g g' : Graph} {r : StepRec} (hs : LegalStep lib g r g') (h : ¬ ∃ v, InnerNode g v) :
    r.op = .swap ∧ (∃ e ∈ g.edges, r.loc = .edge e.ref) ∧ g'.nodes = g.nodes ∧ g'.edges.map Edge.ref = g.edges.map Edge.ref := by
  have hi0 : g.interfaces = [] := by
    by_contra hc; exact h (interfaces_iff.1 hc)
  cases legal_kind hs with
  | series i _ _ hi => rw [hi0] at hi; cases hi
  | parallel u w o _ _ ho hi =>
    exfalso
    obtain ⟨-, -, h3, -, -⟩ := parallelLocs_spec ho hi
    obtain ⟨n, -, h1, h2, -⟩ := parallelOk_iff.1 h3
    exact h ⟨_, inner_of_deg h1 h2⟩
  | remove i _ _ hi => rw [removeLocs, hi0] at hi; cases hi
  | swapNode u _ hl hi =>
    exfalso
    rcases mem_swapLocs hi with ⟨n, hn, -, -, h1, h2, -⟩ | ⟨e, he, h1, -⟩
    · exact h ⟨_, inner_of_deg h1 h2⟩
    · rw [hl] at h1; cases h1
  | swapEdge u hop hl hi _ hg =>
    subst hg
    refine ⟨hop, ?_, rfl, setEdge_comp_refs _ _ _⟩
    rcases mem_swapLocs hi with ⟨n, hn, h1, -⟩ | ⟨e, he, h1, -⟩
    · rw [hl] at h1; cases h1
    · exact ⟨e, he, h1⟩

/-- **C100.** Whether a design can grow is settled when it is assembled: through every evolution history there is a node between its ends exactly if there was one
at the start.  (Finding.)  A design whose source is connected straight to the sink never gets one: all that can happen to it is that the components
on its edges are exchanged. -/
theorem C100_inner {g0 g : Graph} {rs : List (Graph × StepRec)} (hw : g0.WF) (ha : g0.Acyclic) (h : History lib g0 rs g) :
    ((∃ v, InnerNode g v) ↔ ∃ v, InnerNode g0 v) ∧
    ((¬ ∃ v, InnerNode g0 v) → (∀ p ∈ rs, p.2.op = .swap ∧ ∃ e ∈ p.1.edges, p.2.loc = .edge e.ref) ∧ g.nodes = g0.nodes ∧
      g.edges.map Edge.ref = g0.edges.map Edge.ref) := by
  induction h with
  | nil => exact ⟨Iff.rfl, fun _ => ⟨by simp, rfl, rfl⟩⟩
  | @step rs g r g' hh hs ih =>
    obtain ⟨w, a⟩ := history_dag hw ha hh
    have hno : (¬ ∃ v, InnerNode g0 v) → ¬ ∃ v, InnerNode g v := fun hc hv => hc (ih.1.1 hv)
    refine ⟨⟨fun hv => ?_, fun hv => step_inner w a hs (ih.1.2 hv)⟩, fun hc => ?_⟩
    · by_contra hc
      obtain ⟨-, -, h1, h2⟩ := step_bare hs (hno hc)
      have he : ∀ v, InnerNode g' v → InnerNode g v := by
        rintro v ⟨⟨e, he, h3⟩, e', he', h4⟩
        have m1 : e.ref ∈ g.edges.map Edge.ref := h2 ▸ List.mem_map_of_mem he
        have m2 : e'.ref ∈ g.edges.map Edge.ref := h2 ▸ List.mem_map_of_mem he'
        obtain ⟨f, hf, q1⟩ := List.mem_map.1 m1
        obtain ⟨f', hf', q2⟩ := List.mem_map.1 m2
        exact ⟨⟨f, hf, (congrArg EdgeRef.dst q1).trans h3⟩, f', hf', (congrArg EdgeRef.src q2).trans h4⟩
      obtain ⟨v, hv⟩ := hv
      exact hno hc ⟨v, he v hv⟩
    · obtain ⟨b1, b2, b3, b4⟩ := step_bare hs (hno hc)
      obtain ⟨c1, c2, c3⟩ := ih.2 hc
      refine ⟨fun p hp => ?_, b3.trans c2, b4.trans c3⟩
      rcases List.mem_cons.1 hp with rfl | hp
      · exact ⟨b1, b2⟩
      · exact c1 p hp

/-! ### One call -/

/-- A call whose matrix allows offered mutations only carries one out. -/
theorem call_steps (hS : S.Sensible) (hf : LibraryFits cls lib) {x : Ind} {h : Heap} (hl : Lifetime S cls lib x.graph h)
    {matrix : Graph → Heap → Except Err PMat} {M : PMat} (hM : matrix x.graph h = .ok M)
    (hleg : ∀ order, x.graph.topoSort = .ok order → OnlyLegal lib x.graph order M) {c : Pick} (hk : M.CanDraw c.k)
    (hd : ∀ l o, M.sample c.k = .ok (l, o) → drawOk lib x.graph o l c.draw ∧ NewObjects x.graph c.draw) :
    ∃ (y : Ind) (h' : Heap) (o : Op) (l : Loc), evolveCall S cls lib matrix x h c = ((y, h'), .ok o) ∧ o ∈ M.ops ∧ y.current = c.uuid ∧ y.parent = x.current ∧ y.latest = some o ∧
      LegalStep lib x.graph ⟨o, l, c.draw⟩ y.graph ∧ Lifetime S cls lib y.graph h' := by
  have hst := hl.stocked hS hf
  obtain ⟨order, hto⟩ := topoSort_complete hst.wf hst.acyclic
  obtain ⟨l, o, s1, s2, s3⟩ := sample_spec M hk.1
  obtain ⟨d1, d2⟩ := hd l o s1
  have hlo := hleg order hto _ _ l o s2 s3 hk.2
  obtain ⟨g', hg'⟩ := applyOp_total hst.wf hlo d1
  have hL : LegalStep lib x.graph ⟨o, l, c.draw⟩ g' := ⟨⟨order, topoSort_sound hst.wf hto, hlo⟩, d1, hg'⟩
  obtain ⟨h', h1, h2, h3⟩ := hst.evolve hS hf hL d2
  obtain ⟨ps, ms, is, lo, up, h4, -, h5⟩ := h2.listed hS
  refine ⟨⟨g', c.uuid, x.current, some o⟩, h', o, l, ?_, List.mem_of_getElem? s3, rfl, rfl, rfl, hL, .evolve hl hL d2 h1⟩
  have h3 : updateDesign cls g' (construct S cls c.draw h) = .ok h' := h3
  unfold evolveCall
  simp only [hM, s1, hg', h3, h4, h5, if_true]

theorem history_join {g0 g1 g2 : Graph} {rs rs' : List (Graph × StepRec)} (h : History lib g0 rs g1) (h' : History lib g1 rs' g2) : History lib g0 (rs' ++ rs) g2 := by
  induction h' with
  | nil => exact h
  | step _ hs ih => exact .step ih hs

theorem lineage_cons {x x1 y : Ind} {u : Nat} {us : List Nat} (h1 : x1.current = u) (h2 : x1.parent = x.current) (h : LineageAfter x1 y us) :
    LineageAfter x y (u :: us) := by
  unfold LineageAfter at h ⊢
  rw [List.reverse_cons]
  rcases hr : us.reverse with _ | ⟨a, _ | ⟨b, t⟩⟩ <;> rw [hr] at h
  · subst h; exact ⟨h1, h2⟩
  · exact ⟨h.1, h.2.trans h1⟩
  · exact h

/-- The first call of the loop. -/
theorem random_cons {matrix : Nat → Graph → Heap → Except Err PMat} {n : Nat} {c : Pick} {cs : List Pick} {x y : Ind} {h h' : Heap} {o : Op}
    (hc : evolveCall S cls lib (matrix n) x h c = ((y, h'), .ok o)) :
    randomFrom S cls lib matrix n (c :: cs) x h = randomFrom S cls lib matrix (n + 1) cs y h' := by
  simp [randomFrom, hc]

theorem random_raise {matrix : Nat → Graph → Heap → Except Err PMat} {n : Nat} {c : Pick} {cs : List Pick} {x : Ind} {h : Heap} {e : Err}
    (hc : matrix n x.graph h = .error e) (he : e ≠ .assertion) : randomFrom S cls lib matrix n (c :: cs) x h = ((x, h), .error e) := by
  have : evolveCall S cls lib (matrix n) x h c = ((x, h), .error e) := by unfold evolveCall; rw [hc]
  unfold randomFrom
  rw [this]
  cases e <;> first | rfl | exact absurd rfl he

/-- **C100.** `random_graph` with the uniform evolver, from a design in its life that has a node between its ends: whatever the random numbers it returns, after exactly
as many mutations as asked for.  The result is reached by an evolution history of that length, is again a design in its life (so it can be propagated, tuned, evolved on),
and carries the last two ids as its own and its parent's.  The caller's design is that result. -/
theorem C100_uniform (hS : S.Sensible) (hf : LibraryFits cls lib) {ops : List Op} (hops : ops.Nodup) (hadd : Op.addSeries ∈ ops) {x : Ind} {h : Heap}
    (hl : Lifetime S cls lib x.graph h) (hi : ∃ v, InnerNode x.graph v) {picks : List Pick} (hp : PossiblePicks S cls lib (lookupEvolver lib ops) 0 picks x h) :
    ∃ y h' rs, randomGraph S cls lib (lookupEvolver lib ops) picks x h = ((y, h'), .ok ()) ∧ rs.length = picks.length ∧ History lib x.graph rs y.graph ∧
      (∀ p ∈ rs, p.2.op ∈ ops) ∧ Lifetime S cls lib y.graph h' ∧ (∃ v, InnerNode y.graph v) ∧ LineageAfter x y (picks.map Pick.uuid) := by
  unfold randomGraph
  generalize hmd : lookupEvolver lib ops = md at hp
  generalize (0 : Nat) = n at hp
  induction hp with
  | nil => exact ⟨_, _, [], rfl, rfl, .nil, by simp, hl, hi, rfl⟩
  | @cons n c cs x h h1 h2 h3 ih =>
    subst hmd
    have hst := hl.stocked hS hf
    obtain ⟨order, hto⟩ := topoSort_complete hst.wf hst.acyclic
    have hne : locs lib x.graph order .addSeries ≠ [] := by
      have := interfaces_iff.2 hi
      simpa [locs, seriesLocs] using this
    obtain ⟨M, hM, -, hMo, -⟩ := (C11_lookup_uniform (lib := lib) hst.wf hst.acyclic hto hops).2 ⟨_, hadd, hne⟩
    have hM' : lookupEvolver lib ops n x.graph h = .ok M := hM
    obtain ⟨y, h', o, l, c1, c2, c3, c4, c5, c6, c7⟩ := call_steps hS hf hl hM' (fun order hto => lookup_onlyLegal hst.wf hst.acyclic hops hto hM)
      (h1 M hM') (fun l o => h2 M l o hM')
    rw [c1] at ih
    obtain ⟨z, h'', rs, r1, r2, r3, r4, r5, r6, r7⟩ := ih c7 (step_inner hst.wf hst.acyclic c6 hi)
    refine ⟨z, h'', rs ++ [(x.graph, ⟨o, l, c.draw⟩)], (random_cons c1).trans r1, by simp [r2], history_join (.step .nil c6) r3, ?_, r5, r6, ?_⟩
    · intro p hp
      rcases List.mem_append.1 hp with hp | hp
      · exact r4 p hp
      · rw [List.mem_singleton.1 hp]; rw [hMo] at c2; exact c2
    · exact lineage_cons c3 c4 r7

/-- **C100.** (Finding.)  Without a node between the ends, and without a second class to exchange a component for, `random_graph` raises `RuntimeWarning` however many
evolutions are asked for; the design is left as it was. -/
theorem C100_bare {ops : List Op} (hops : ops.Nodup) {x : Ind} {h : Heap} (hw : x.graph.WF) (ha : x.graph.Acyclic) (hi : ¬ ∃ v, InnerNode x.graph v)
    (hs : ∀ e ∈ x.graph.edges, e.comp.prot = true ∨ (edgeCategory lib x.graph e.ref).length ≤ 1) {picks : List Pick} (hp : picks ≠ []) :
    randomGraph S cls lib (lookupEvolver lib ops) picks x h = ((x, h), .error .runtimeWarning) := by
  obtain ⟨c, cs, rfl⟩ := List.exists_cons_of_ne_nil hp
  obtain ⟨order, hto⟩ := topoSort_complete hw ha
  refine random_raise ((C11_lookup_uniform (lib := lib) hw ha hto hops).1 fun o ho => ?_) (by decide)
  have hi0 : x.graph.interfaces = [] := by
    by_contra hc; exact hi (interfaces_iff.1 hc)
  cases o with
  | addSeries => simp [locs, seriesLocs, hi0]
  | remove => simp [locs, removeLocs, hi0]
  | addParallel =>
    rw [List.eq_nil_iff_forall_not_mem]
    intro l hl
    obtain ⟨⟨u, v⟩, hm, -⟩ := List.mem_map.1 hl
    obtain ⟨-, -, h3, -, -⟩ := parallelLocs_spec (topoSort_sound hw hto) hm
    obtain ⟨n, -, h1, h2, -⟩ := parallelOk_iff.1 h3
    exact hi ⟨_, inner_of_deg h1 h2⟩
  | swap =>
    rw [List.eq_nil_iff_forall_not_mem]
    intro l hl
    rcases mem_swapLocs hl with ⟨n, hn, -, -, h1, h2, -⟩ | ⟨e, he, -, h1, h2⟩
    · exact hi ⟨_, inner_of_deg h1 h2⟩
    · rcases hs e he with h | h
      · rw [h] at h1; cases h1
      · omega

theorem hessian_onlyLegal {ops : List Op} {g : Graph} (hw : g.WF) (ha : g.Acyclic) {order} (hto : g.topoSort = .ok order) (hops : ops.Nodup)
    {score : EdgeRef → Option ℚ} {shuffle : List Nat → List Nat} (hsh : ∀ l, (shuffle l).Perm l) (hscore : ∀ e ∈ g.edges, ∃ s, score e.ref = some s)
    {gen : ℚ} (h0 : 0 ≤ gen) (h1 : gen ≤ 1) {M} (hM : hessianMatrix lib ops score shuffle gen g = .ok M) : OnlyLegal lib g order M := by
  obtain ⟨c1, c2⟩ := C15_schedule (lib := lib) hw ha hto hops hsh hscore h0 h1
  have hex : ∃ o ∈ ops, locs lib g order o ≠ [] ∧ 0 < genWeight gen o := by
    by_contra hc
    push Not at hc
    rw [c1 (fun o ho hne => le_antisymm (hc o ho hne) (genWeight_nonneg h0 h1 o))] at hM
    cases hM
  obtain ⟨M', m1, -, -, m4, -⟩ := c2 hex
  rw [hM] at m1; injection m1 with m1; subst m1
  exact m4

/-- One call of the Hessian evolver in generation 0 or 1. -/
theorem hessian_call (hS : S.Sensible) (hf : LibraryFits cls lib) {ops : List Op} (hops : ops.Nodup)
    {scores : Graph → Heap → Except Err (EdgeRef → Option ℚ)} (hsc : ∀ g h s, scores g h = .ok s → ∀ e ∈ g.edges, ∃ q, s e.ref = some q)
    (hna : ∀ g h, scores g h ≠ .error .assertion) {shuffle : Nat → List Nat → List Nat} (hsh : ∀ n l, (shuffle n l).Perm l) {n : Nat} (hn : n ≤ 1)
    {c : Pick} {ds : List Pick} (cs : List Pick) {x : Ind} {h : Heap} (hl : Lifetime S cls lib x.graph h)
    (hp : PossiblePicks S cls lib (hessianEvolver lib ops scores shuffle) n (c :: ds) x h) :
    (∃ e, randomFrom S cls lib (hessianEvolver lib ops scores shuffle) n (c :: cs) x h = ((x, h), .error e)) ∨
    ∃ y h' r, randomFrom S cls lib (hessianEvolver lib ops scores shuffle) n (c :: cs) x h = randomFrom S cls lib (hessianEvolver lib ops scores shuffle) (n + 1) cs y h' ∧
      LegalStep lib x.graph r y.graph ∧ Lifetime S cls lib y.graph h' ∧ PossiblePicks S cls lib (hessianEvolver lib ops scores shuffle) (n + 1) ds y h' := by
  have hst := hl.stocked hS hf
  cases hp with
  | cons h1 h2 h3 =>
  rcases hm : hessianEvolver lib ops scores shuffle n x.graph h with e | M
  · refine .inl ⟨e, random_raise hm fun hc => ?_⟩
    subst hc
    unfold hessianEvolver at hm
    split at hm
    · rename_i hse; injection hm with hm; subst hm; exact hna _ _ hse
    · rename_i s hse
      obtain ⟨order, hto⟩ := topoSort_complete hst.wf hst.acyclic
      have h01 : (0 : ℚ) ≤ n ∧ (n : ℚ) ≤ 1 := ⟨by positivity, by exact_mod_cast hn⟩
      obtain ⟨c1, c2⟩ := C15_schedule (lib := lib) hst.wf hst.acyclic hto hops (hsh n) (hsc _ _ _ hse) h01.1 h01.2
      by_cases hex : ∃ o ∈ ops, locs lib x.graph order o ≠ [] ∧ 0 < genWeight (n : ℚ) o
      · obtain ⟨M', m1, -⟩ := c2 hex
        have m1 : weightedMatrix lib ops (hessianScale s (shuffle n)) (genWeight n) x.graph = .ok M' := m1
        rw [hm] at m1; cases m1
      · push Not at hex
        have := c1 (fun o ho hne => le_antisymm (hex o ho hne) (genWeight_nonneg h01.1 h01.2 o))
        have m1 : weightedMatrix lib ops (hessianScale s (shuffle n)) (genWeight n) x.graph = .error .runtimeWarning := this
        rw [hm] at m1; cases m1
  · right
    have hleg : ∀ order, x.graph.topoSort = .ok order → OnlyLegal lib x.graph order M := by
      intro order hto
      unfold hessianEvolver at hm
      split at hm
      · cases hm
      · rename_i s hse
        have h01 : (0 : ℚ) ≤ n ∧ (n : ℚ) ≤ 1 := ⟨by positivity, by exact_mod_cast hn⟩
        exact hessian_onlyLegal hst.wf hst.acyclic hto hops (hsh n) (hsc _ _ _ hse) h01.1 h01.2 hm
    obtain ⟨y, h', o, l, c1, c2, c3, c4, c5, c6, c7⟩ := call_steps hS hf hl hm hleg (h1 M hm) (fun l o => h2 M l o hm)
    rw [c1] at h3
    exact ⟨y, h', _, random_cons c1, c6, c7, h3⟩

/-- **C100.** (Finding.)  `random_graph` with the Hessian evolver hands the number of the evolution to `evolve_graph` as the fraction of the run.  Asked for three evolutions
or more (the default is ten) it therefore raises after at most two mutations, which stay in the caller's design, except where the design then offers nothing to
remove and nothing to exchange. -/
theorem C100_hessian (hS : S.Sensible) (hf : LibraryFits cls lib) {ops : List Op} (hops : ops.Nodup) (hadd : Op.addSeries ∈ ops) (hrem : Op.remove ∈ ops)
    (hswap : Op.swap ∈ ops) {scores : Graph → Heap → Except Err (EdgeRef → Option ℚ)} (hsc : ∀ g h s, scores g h = .ok s → ∀ e ∈ g.edges, ∃ q, s e.ref = some q)
    (hna : ∀ g h, scores g h ≠ .error .assertion) {shuffle : Nat → List Nat → List Nat} (hsh : ∀ n l, (shuffle n l).Perm l)
    {x : Ind} {h : Heap} (hl : Lifetime S cls lib x.graph h) (hi : ∃ v, InnerNode x.graph v) {picks : List Pick} (hlen : 3 ≤ picks.length)
    (hp : PossiblePicks S cls lib (hessianEvolver lib ops scores shuffle) 0 (picks.take 2) x h) :
    (∃ y h' rs e, randomGraph S cls lib (hessianEvolver lib ops scores shuffle) picks x h = ((y, h'), .error e) ∧ rs.length ≤ 2 ∧ History lib x.graph rs y.graph) ∨
    ∃ rs g, rs.length = 2 ∧ History lib x.graph rs g ∧ removeLocs g = [] ∧ swapLocs lib g = [] := by
  obtain ⟨a, b, c, cs, rfl⟩ : ∃ a b c cs, picks = a :: b :: c :: cs := by
    match picks, hlen with
    | a :: b :: c :: cs, _ => exact ⟨a, b, c, cs, rfl⟩
  unfold randomGraph
  have hst := hl.stocked hS hf
  rcases hessian_call hS hf hops hsc hna hsh (by omega) (b :: c :: cs) hl hp with ⟨e, he⟩ | ⟨x1, h1, r1, e1, s1, l1, p1⟩
  · exact .inl ⟨x, h, [], e, he, by simp, .nil⟩
  have hst1 := l1.stocked hS hf
  rcases hessian_call hS hf hops hsc hna hsh (by omega) (c :: cs) l1 p1 with ⟨e, he⟩ | ⟨x2, h2, r2, e2, s2, l2, p2⟩
  · exact .inl ⟨x1, h1, _, e, e1.trans he, by simp, .step .nil s1⟩
  have hst2 := l2.stocked hS hf
  have hH : History lib x.graph [(x1.graph, r2), (x.graph, r1)] x2.graph := .step (.step .nil s1) s2
  by_cases hoff : removeLocs x2.graph = [] ∧ swapLocs lib x2.graph = []
  · exact .inr ⟨_, _, by rfl, hH, hoff⟩
  left
  obtain ⟨order, hto⟩ := topoSort_complete hst2.wf hst2.acyclic
  have hi2 := step_inner hst1.wf hst1.acyclic s2 (step_inner hst.wf hst.acyclic s1 hi)
  have hne : locs lib x2.graph order .addSeries ≠ [] := by
    have := interfaces_iff.2 hi2
    simpa [locs, seriesLocs] using this
  obtain ⟨e, he, hea⟩ : ∃ e, hessianEvolver lib ops scores shuffle 2 x2.graph h2 = .error e ∧ e ≠ .assertion := by
    unfold hessianEvolver
    rcases hse : scores x2.graph h2 with e | s
    · exact ⟨e, rfl, fun hc => hna _ _ (hc ▸ hse)⟩
    · refine ⟨.runtimeWarning, ?_, by decide⟩
      obtain ⟨o2, ho2, ho2', hl2⟩ : ∃ o2 ∈ ops, (o2 = Op.remove ∨ o2 = .swap) ∧ locs lib x2.graph order o2 ≠ [] := by
        by_cases h1 : removeLocs x2.graph = []
        · exact ⟨_, hswap, .inr rfl, fun hc => hoff ⟨h1, hc⟩⟩
        · exact ⟨_, hrem, .inl rfl, by simpa [locs] using h1⟩
      exact C15_late_generation_raises hst2.wf hst2.acyclic hto hops (hsh 2) (hsc _ _ _ hse) (by norm_num) hadd (.inl rfl) hne ho2 ho2' hl2
  exact ⟨x2, h2, _, e, e1.trans (e2.trans (random_raise he hea)), by simp, hH⟩

theorem sample_no_assert (P : PMat) (k : Nat) : P.sample k ≠ .error .assertion := by
  unfold PMat.sample
  split <;> simp

theorem applyOp_no_assert (g : Graph) (op : Op) (l : Loc) (d : Draw) : applyOp lib g op l d ≠ .error .assertion := by
  unfold applyOp
  split
  · unfold addSeries; split
    · simp
    · dsimp only; split <;> simp
  · simp
  · unfold removeComp; split
    · simp
    · dsimp only; split
      · simp
      · split <;> simp
  · unfold swapComp; split
    · split
      · simp
      · split <;> simp
    · split
      · simp
      · split <;> simp
    · simp
  · simp

theorem updateNodes_no_assert (g : Graph) (ns : List Node) (h : Heap) : updateNodes cls g ns h ≠ .error .assertion := by
  induction ns generalizing h with
  | nil => simp [updateNodes]
  | cons n ns ih =>
    unfold updateNodes
    split
    · rename_i e he
      intro hc; injection hc with hc; subst hc
      unfold updateModel at he
      split at he <;> simp at he
    · exact ih _

theorem updateDesign_no_assert (g : Graph) (h : Heap) : updateDesign cls g h ≠ .error .assertion := by
  unfold updateDesign
  split
  · rename_i e he
    intro hc; injection hc with hc; subst hc
    unfold Graph.topoSort at he
    dsimp only at he
    split at he <;> simp at he
  · exact updateNodes_no_assert _ _ _

theorem pushRow_no_assert (m : PModel) (i : Nat) (as : List Attr) (cols : List (List Val)) : pushRow m i as cols ≠ .error .assertion := by
  induction as generalizing cols with
  | nil => simp [pushRow]
  | cons a as ih =>
    unfold pushRow
    split
    · simp
    · simp
    · split
      · rename_i he
        intro hc; injection hc with hc; subst hc; exact ih _ he
      · simp

theorem lockLoop_no_assert (as : List Attr) (m : PModel) (mid : ModelId) (i : Nat) (ls : List Bool) (acc : Extracted) : lockLoop as m mid i ls acc ≠ .error .assertion := by
  induction ls generalizing i acc with
  | nil => simp [lockLoop]
  | cons l ls ih =>
    unfold lockLoop
    split
    · exact ih _ _
    · split
      · rename_i he
        intro hc; injection hc with hc; subst hc; exact pushRow_no_assert _ _ _ _ he
      · exact ih _ _

theorem modelLoop_no_assert (as : List Attr) (h : Heap) (ms : List ModelId) (acc : Extracted) : modelLoop as h ms acc ≠ .error .assertion := by
  induction ms generalizing acc with
  | nil => simp [modelLoop]
  | cons m ms ih =>
    unfold modelLoop
    split
    · exact ih _
    · split
      · rename_i he
        intro hc; injection hc with hc; subst hc; exact lockLoop_no_assert _ _ _ _ _ _ he
      · exact ih _

theorem extractToList_no_assert (g : Graph) (h : Heap) : extractToList g h ≠ .error .assertion := by
  unfold extractToList
  split
  · rename_i he
    intro hc; injection hc with hc; subst hc; exact modelLoop_no_assert _ _ _ _ he
  · split <;> simp

/-- **C100.** (Finding.)  An evolution that the assertion on the bounds refuses is reported and then forgotten, but not taken back: the operator has been applied, parameters out
of bounds stay in the design, while its ids and its record of the latest mutation are those from before; `random_graph` goes on from there. -/
theorem C100_refused {matrix : Nat → Graph → Heap → Except Err PMat} {n : Nat} {x y : Ind} {h h' : Heap} {c : Pick} {P : PMat} (hP : matrix n x.graph h = .ok P)
    (hr : evolveCall S cls lib (matrix n) x h c = ((y, h'), .error .assertion)) :
    y.current = x.current ∧ y.parent = x.parent ∧ y.latest = x.latest ∧ (∃ l o, P.sample c.k = .ok (l, o) ∧ applyOp lib x.graph o l c.draw = .ok y.graph) ∧
      (∃ ps ms is lo up, extractToList y.graph h' = .ok (ps, ms, is, lo, up) ∧ ¬ Respects lo up ps) ∧
      ∀ cs, randomFrom S cls lib matrix n (c :: cs) x h = randomFrom S cls lib matrix (n + 1) cs y h' := by
  have hgo : ∀ cs, randomFrom S cls lib matrix n (c :: cs) x h = randomFrom S cls lib matrix (n + 1) cs y h' := fun cs => by simp [randomFrom, hr]
  unfold evolveCall at hr
  rw [hP] at hr
  dsimp only at hr
  split at hr
  · rename_i e he
    injection hr with _ hr; injection hr with hr; subst hr; exact absurd he (sample_no_assert _ _)
  rename_i l o hs
  split at hr
  · rename_i e he
    injection hr with _ hr; injection hr with hr; subst hr; exact absurd he (applyOp_no_assert _ _ _ _)
  rename_i g' hg'
  split at hr
  · rename_i e he
    injection hr with _ hr; injection hr with hr; subst hr; exact absurd he (updateDesign_no_assert _ _)
  rename_i h1 hh1
  split at hr
  · rename_i e he
    injection hr with _ hr; injection hr with hr; subst hr; exact absurd he (extractToList_no_assert _ _)
  rename_i ps ms is lo up hx
  split at hr
  · injection hr with _ hr; cases hr
  rename_i hb
  injection hr with hr _; injection hr with hy hh
  subst hy hh
  refine ⟨rfl, rfl, rfl, ⟨l, o, hs, hg'⟩, ⟨ps, ms, is, lo, up, hx, fun hc => hb ?_⟩, hgo⟩
  obtain ⟨-, -, -, e1, e2, -⟩ := extractToList_ok hx
  exact C75_guard.1 _ _ _ (e1.trans e2.symm) hc

/-! ### Every history can come about -/

theorem random_append {matrix : Nat → Graph → Heap → Except Err PMat} {n : Nat} {ps : List Pick} {x y : Ind} {h h' : Heap}
    (hr : randomFrom S cls lib matrix n ps x h = ((y, h'), .ok ())) (qs : List Pick) :
    randomFrom S cls lib matrix n (ps ++ qs) x h = randomFrom S cls lib matrix (n + ps.length) qs y h' := by
  induction ps generalizing n x h with
  | nil => simp only [randomFrom, Prod.mk.injEq] at hr; obtain ⟨⟨rfl, rfl⟩, -⟩ := hr; rfl
  | cons c cs ih =>
    rw [List.cons_append]
    have hn : n + (c :: cs).length = n + 1 + cs.length := by simp; omega
    rw [hn]
    generalize hR : randomFrom S cls lib matrix (n + 1 + cs.length) qs y h' = R
    unfold randomFrom at hr ⊢
    split at hr
    · exact (ih hr).trans hR
    · exact (ih hr).trans hR
    · injection hr with _ hr; cases hr

theorem possible_append {matrix : Nat → Graph → Heap → Except Err PMat} {n : Nat} {ps qs : List Pick} {x y : Ind} {h h' : Heap}
    (hp : PossiblePicks S cls lib matrix n ps x h) (hr : randomFrom S cls lib matrix n ps x h = ((y, h'), .ok ()))
    (hq : PossiblePicks S cls lib matrix (n + ps.length) qs y h') : PossiblePicks S cls lib matrix n (ps ++ qs) x h := by
  induction hp with
  | nil => simp only [randomFrom, Prod.mk.injEq] at hr; obtain ⟨⟨rfl, rfl⟩, -⟩ := hr; exact hq
  | @cons n c cs x h h1 h2 h3 ih =>
    have hn : n + (c :: cs).length = n + 1 + cs.length := by simp; omega
    rw [hn] at hq
    refine .cons h1 h2 (ih ?_ hq)
    unfold randomFrom at hr
    split at hr
    · rename_i he; rw [he]; exact hr
    · rename_i he; rw [he]; exact hr
    · injection hr with _ hr; cases hr

/-- **C100.** Conversely every evolution history out of new components, by the evolver's operators at the locations they offer, can come about: there are random
numbers with which `random_graph` carries out exactly these mutations. -/
theorem C100_complete (hS : S.Sensible) (hf : LibraryFits cls lib) {ops : List Op} (hops : ops.Nodup) {x : Ind} {h : Heap} (hl : Lifetime S cls lib x.graph h)
    {rs : List (Graph × StepRec)} {g : Graph} (hh : History lib x.graph rs g)
    (hrs : ∀ p ∈ rs, p.2.op ∈ ops ∧ NewObjects p.1 p.2.draw ∧ ∃ order, p.1.topoSort = .ok order ∧ p.2.loc ∈ locs lib p.1 order p.2.op) (uuid : Nat → Nat) :
    ∃ picks y h', picks.map Pick.draw = (rs.map fun p => p.2.draw).reverse ∧ picks.map Pick.uuid = (List.range rs.length).map uuid ∧
      PossiblePicks S cls lib (lookupEvolver lib ops) 0 picks x h ∧ randomGraph S cls lib (lookupEvolver lib ops) picks x h = ((y, h'), .ok ()) ∧
      y.graph = g ∧ Lifetime S cls lib g h' := by
  induction hh with
  | nil => exact ⟨[], x, h, rfl, rfl, .nil, rfl, rfl, hl⟩
  | @step rs g r g' hh hs ih =>
    obtain ⟨picks, y, h1, p1, p2, p3, p4, rfl, p6⟩ := ih fun p hp => hrs p (List.mem_cons_of_mem _ hp)
    obtain ⟨q1, q2, order, q3, q4⟩ := hrs _ List.mem_cons_self
    dsimp only at q1 q2 q3 q4
    have hst := p6.stocked hS hf
    obtain ⟨M, hM, -⟩ := (C11_lookup_uniform (lib := lib) hst.wf hst.acyclic q3 hops).2 ⟨_, q1, List.ne_nil_of_mem q4⟩
    obtain ⟨k, ⟨k1, k2⟩, -⟩ := (C12_sampling_legal hst.wf hst.acyclic q3 hops hM).2 _ q1 _ q4
    have hM' : lookupEvolver lib ops (0 + picks.length) y.graph h1 = .ok M := hM
    have hd : ∀ l o, M.sample k = .ok (l, o) → drawOk lib y.graph o l r.draw ∧ NewObjects y.graph r.draw := by
      intro l o hlo
      rw [k2] at hlo
      injection hlo with hlo; injection hlo with a b; subst a; subst b
      exact ⟨hs.2.1, q2⟩
    obtain ⟨z, h2, o, l, c1, c2, c3, c4, c5, c6, c7⟩ := call_steps (c := ⟨k, r.draw, uuid rs.length⟩) hS hf p6 hM'
      (fun order hto => lookup_onlyLegal hst.wf hst.acyclic hops hto hM) k1 hd
    have hz : z.graph = g' := by
      have e1 := c1
      unfold evolveCall at e1
      rw [hM'] at e1
      dsimp only at e1
      rw [k2] at e1
      dsimp only at e1
      rw [hs.2.2] at e1
      dsimp only at e1
      split at e1
      · injection e1 with _ e1; cases e1
      split at e1
      · injection e1 with _ e1; cases e1
      split at e1
      · injection e1 with e1 _; injection e1 with e1 _; rw [← e1]
      · injection e1 with _ e1; cases e1
    refine ⟨picks ++ [⟨k, r.draw, uuid rs.length⟩], z, h2, by simp [p1], by simp [p2, List.range_succ], ?_, ?_, hz, hz ▸ c7⟩
    · refine possible_append p3 p4 (.cons (fun M' hM2 => ?_) (fun M' l o hM2 => ?_) .nil)
      · rw [hM'] at hM2; injection hM2 with hM2; subst hM2; exact k1
      · rw [hM'] at hM2; injection hM2 with hM2; subst hM2; exact hd l o
    · exact (random_append p4 _).trans (random_cons c1)

/-! ### Picks exist -/

theorem positive_exists {M : PMat} (h : M.IsDistribution) : ∃ k, M.CanDraw k := by
  by_contra hc
  push Not at hc
  have h0 : M.total ≤ 0 := by
    refine Finset.sum_nonpos fun i hi => Finset.sum_nonpos fun j hj => ?_
    have hi := Finset.mem_range.1 hi
    have hj := Finset.mem_range.1 hj
    by_contra hp
    push Not at hp
    refine hc (i * M.ops.length + j) ⟨?_, ?_⟩
    · calc i * M.ops.length + j < i * M.ops.length + M.ops.length := by omega
        _ = (i + 1) * M.ops.length := by ring
        _ ≤ M.locs.length * M.ops.length := Nat.mul_le_mul_right _ hi
    · unfold PMat.flat
      rw [show (i * M.ops.length + j) / M.ops.length = i by
        rw [Nat.add_comm, Nat.add_mul_div_right _ _ (by omega), Nat.div_eq_of_lt hj]; omega]
      rw [Nat.add_comm, Nat.add_mul_mod_self_right, Nat.mod_eq_of_lt hj]
      exact hp
  rw [h.total] at h0
  norm_num at h0

theorem filter_other {l : List ClassId} (h : l.Nodup) (hl : 1 < l.length) (c : ClassId) : ∃ a, a ∈ l.filter (· ≠ c) := by
  match l, h, hl with
  | a :: b :: t, h, _ =>
    by_cases ha : a = c
    · refine ⟨b, List.mem_filter.2 ⟨by simp, ?_⟩⟩
      have : a ≠ b := by intro e; subst e; simp at h
      simpa using fun e => this (ha.trans e.symm)
    · exact ⟨a, List.mem_filter.2 ⟨by simp, by simpa using ha⟩⟩

theorem draw_exists {g : Graph} (hw : g.WF) {order : List NodeId} (he : lib.edge ≠ []) (hn : lib.node ≠ []) (h1 : lib.source.Nodup) (h2 : lib.sink.Nodup) (h3 : lib.edge.Nodup) (h4 : lib.node.Nodup)
    {o : Op} {l : Loc} (hl : l ∈ locs lib g order o) : ∃ d, drawOk lib g o l d ∧ NewObjects g d := by
  obtain ⟨v, hv⟩ := Infinite.exists_notMem_finset g.ids.toFinset
  obtain ⟨a, ha⟩ := Infinite.exists_notMem_finset (componentsOf g).toFinset
  obtain ⟨b, hb⟩ := Infinite.exists_notMem_finset (insert a (componentsOf g).toFinset)
  rw [List.mem_toFinset] at hv ha
  simp only [Finset.mem_insert, List.mem_toFinset, not_or] at hb
  obtain ⟨ce, hce⟩ := List.exists_mem_of_ne_nil _ he
  obtain ⟨cn, hcn⟩ := List.exists_mem_of_ne_nil _ hn
  have key : ∀ c : ClassId, NewObjects g ⟨v, ⟨a, c, false, .singlePath, 1⟩, ⟨b, cn, false, .multiPath, 2⟩⟩ := fun c => ⟨ha, hb.2, fun e => hb.1 e.symm⟩
  cases o with
  | addSeries => exact ⟨_, ⟨hv, hce, hcn⟩, key ce⟩
  | addParallel => exact ⟨⟨v, ⟨a, ce, false, .singlePath, 1⟩, ⟨b, cn, false, .multiPath, 2⟩⟩, hce, key ce⟩
  | remove => exact ⟨_, trivial, key ce⟩
  | swap =>
    obtain ⟨c, hc⟩ : ∃ c, c ∈ swapSet lib g l := by
      rcases mem_swapLocs hl with ⟨n, hn, rfl, -, -, -, h5⟩ | ⟨e, he, rfl, -, h5⟩
      · simp only [swapSet, (node?_eq_some hw).2 ⟨hn, rfl⟩]
        exact filter_other h4 h5 _
      · simp only [swapSet, (edge?_eq_some hw).2 ⟨he, rfl⟩]
        refine filter_other ?_ h5 _
        unfold edgeCategory
        split
        · exact h1
        · split
          · exact h2
          · exact h3
    exact ⟨⟨v, ⟨a, c, false, .singlePath, 1⟩, ⟨b, cn, false, .multiPath, 2⟩⟩, hc, key c⟩

/-- Possible picks exist wherever the matrices allow offered mutations only. -/
theorem picks_exist (hS : S.Sensible) (hf : LibraryFits cls lib) (he : lib.edge ≠ []) (hn : lib.node ≠ []) (h1 : lib.source.Nodup) (h2 : lib.sink.Nodup) (h3 : lib.edge.Nodup) (h4 : lib.node.Nodup)
    {matrix : Nat → Graph → Heap → Except Err PMat} (m : Nat) {n : Nat}
    (hmat : ∀ k < n + m, ∀ g h M, Lifetime S cls lib g h → matrix k g h = .ok M → M.IsDistribution ∧ ∀ order, g.topoSort = .ok order → OnlyLegal lib g order M)
    {x : Ind} {h : Heap} (hl : Lifetime S cls lib x.graph h) : ∃ picks, picks.length = m ∧ PossiblePicks S cls lib matrix n picks x h := by
  induction m generalizing n x h with
  | zero => exact ⟨[], rfl, .nil⟩
  | succ m ih =>
    have hst := hl.stocked hS hf
    rcases hM : matrix n x.graph h with e | M
    · obtain ⟨ps, p1, p2⟩ := ih (n := n + 1) (fun k hk => hmat k (by omega)) hl
      refine ⟨⟨0, ⟨0, ⟨0, 0, false, .singlePath, 1⟩, ⟨0, 0, false, .multiPath, 2⟩⟩, 0⟩ :: ps, by simp [p1], .cons ?_ ?_ ?_⟩
      · intro M hM'; rw [hM] at hM'; cases hM'
      · intro M _ _ hM'; rw [hM] at hM'; cases hM'
      · have : ∀ c, evolveCall S cls lib (matrix n) x h c = ((x, h), .error e) := fun c => by unfold evolveCall; rw [hM]
        rw [this]; exact p2
    · obtain ⟨hD, hL⟩ := hmat n (by omega) _ _ _ hl hM
      obtain ⟨order, hto⟩ := topoSort_complete hst.wf hst.acyclic
      obtain ⟨k, hk⟩ := positive_exists hD
      obtain ⟨l, o, s1, s2, s3⟩ := sample_spec M hk.1
      obtain ⟨d, d1, d2⟩ := draw_exists hst.wf he hn h1 h2 h3 h4 (hL order hto _ _ l o s2 s3 hk.2)
      have hd : ∀ l' o', M.sample k = .ok (l', o') → drawOk lib x.graph o' l' d ∧ NewObjects x.graph d := by
        intro l' o' hs
        rw [s1] at hs; injection hs with hs; injection hs with a b; subst a; subst b
        exact ⟨d1, d2⟩
      obtain ⟨y, h', o', l', c1, -, -, -, -, -, c7⟩ := call_steps (c := ⟨k, d, 0⟩) hS hf hl hM hL hk hd
      obtain ⟨ps, p1, p2⟩ := ih (n := n + 1) (fun k hk => hmat k (by omega)) c7
      refine ⟨⟨k, d, 0⟩ :: ps, by simp [p1], .cons ?_ ?_ ?_⟩
      · intro M' hM'; rw [hM] at hM'; injection hM' with hM'; subst hM'; exact hk
      · intro M' l o hM'; rw [hM] at hM'; injection hM' with hM'; subst hM'; exact hd l o
      · rw [c1]; exact p2

end Main

/-! ### Examples -/

/-- The fixture has nodes between its ends. -/
theorem fix_inner : ∃ v, InnerNode Fixture.g v := ⟨1, by unfold InnerNode; decide⟩

/-- `C100_inner` on a history that inserts a component. -/
example : ∃ v, InnerNode Fixture.gSer v := (C100_inner Fixture.g_wf Fixture.g_acyclic (.step .nil Fixture.ser_legal)).1.2 fix_inner

/-- `C100_uniform` for every number of evolutions. -/
example (x : Ind) (hx : x.graph = Fixture.g) (n : Nat) : ∃ h picks y h' rs, randomGraph stdSettings fixCls Fixture.lib (lookupEvolver Fixture.lib allOps) picks x h = ((y, h'), .ok ()) ∧
    rs.length = n ∧ History Fixture.lib Fixture.g rs y.graph := by
  obtain ⟨h, hl⟩ := fix_start
  rw [← hx] at hl
  obtain ⟨picks, p1, p2⟩ := picks_exist (lib := Fixture.lib) (matrix := lookupEvolver Fixture.lib allOps) std_sensible fix_fits (by decide) (by decide) (by decide) (by decide)
    (by decide) (by decide) n (n := 0) (fun k _ g h M hl hM => by
      have hst := hl.stocked std_sensible fix_fits
      refine ⟨?_, fun order hto => lookup_onlyLegal hst.wf hst.acyclic (by decide) hto hM⟩
      obtain ⟨order, hto⟩ := topoSort_complete hst.wf hst.acyclic
      obtain ⟨c1, c2⟩ := C11_lookup_uniform (lib := Fixture.lib) (ops := allOps) hst.wf hst.acyclic hto (by decide)
      have hex : ∃ o ∈ allOps, locs Fixture.lib g order o ≠ [] := by
        by_contra hc
        push Not at hc
        have := c1 hc
        rw [show lookupMatrix Fixture.lib allOps g = .ok M from hM] at this; cases this
      obtain ⟨M', m1, m2, -⟩ := c2 hex
      rw [show lookupMatrix Fixture.lib allOps g = .ok M from hM] at m1
      injection m1 with m1; subst m1; exact m2) hl
  obtain ⟨y, h', rs, r1, r2, r3, -⟩ := C100_uniform std_sensible fix_fits (by decide) (by decide) hl (by rw [hx]; exact fix_inner) p2
  exact ⟨h, picks, y, h', rs, r1, by rw [r2, p1], hx ▸ r3⟩

/-- `C100_complete` on the insertion of a fibre. -/
example (x : Ind) (hx : x.graph = Fixture.g) : ∃ h picks y h', randomGraph stdSettings fixCls Fixture.lib (lookupEvolver Fixture.lib allOps) picks x h = ((y, h'), .ok ()) ∧
    y.graph = Fixture.gSer := by
  obtain ⟨h, hl⟩ := fix_start
  rw [← hx] at hl
  have hH : History Fixture.lib x.graph [(x.graph, Fixture.serStep)] Fixture.gSer := .step .nil (hx ▸ Fixture.ser_legal)
  obtain ⟨picks, y, h', -, -, -, r1, r2, -⟩ := C100_complete (ops := allOps) std_sensible fix_fits (by decide) hl hH (by
    intro p hp
    rw [List.mem_singleton.1 hp]
    refine ⟨(by decide : Fixture.serStep.op ∈ allOps), by rw [hx]; exact fix_new, _, by rw [hx]; exact fixture_topo, by rw [hx]; decide⟩) (fun _ => 0)
  exact ⟨h, picks, y, h', r1, r2⟩

/-- A design that is a source connected straight to the sink. -/
def bareDesign : Graph := { nodes := [⟨0, Fixture.src, 1⟩, ⟨3, Fixture.snk, 2⟩], edges := [⟨0, 3, 0, { Fixture.laser 4 with prot := true }, 10⟩] }

theorem bareDesign_wf : bareDesign.WF where
  ids_nodup := by decide
  refs_nodup := by decide
  src_mem := by decide
  dst_mem := by decide

theorem bareDesign_topo : bareDesign.IsTopo [0, 3] where
  nodup := by decide
  mem_iff := by intro v; rw [show bareDesign.ids = [0, 3] by decide]
  forward := by decide

theorem bareDesign_inner : ¬ ∃ v, InnerNode bareDesign v := by
  rintro ⟨v, ⟨e, he, h1⟩, e', he', h2⟩
  simp only [bareDesign, List.mem_singleton] at he he'
  subst he he'
  exact absurd ((h1 : 3 = v).trans (h2 : 0 = v).symm) (by decide)

/-- `C100_bare`. -/
example (x : Ind) (hx : x.graph = bareDesign) (h : Heap) (c : Pick) :
    randomGraph stdSettings fixCls Fixture.lib (lookupEvolver Fixture.lib allOps) [c] x h = ((x, h), .error .runtimeWarning) :=
  C100_bare (by decide) (by rw [hx]; exact bareDesign_wf) (by rw [hx]; exact bareDesign_topo.acyclic) (by rw [hx]; exact bareDesign_inner) (by rw [hx]; decide) (by simp)

/-- Settings with an extinction ratio of 2: the attenuations of a wave shaper have lower bound 2 and default 1. -/
def brightSettings : Settings := { stdSettings with extinction := 2 }

/-- Wave shapers only: a source, a splitter, a sink. -/
def shaperLine : Graph := { nodes := [⟨0, Fixture.src, 1⟩, ⟨1, Fixture.split 2, 40⟩, ⟨3, Fixture.snk, 2⟩], edges := [⟨0, 1, 0, Fixture.shaper 4, 31⟩, ⟨1, 3, 0, Fixture.diode 7, 20⟩] }

/-- `C100_refused`: an insertion that is refused. -/
example : ∃ y h', evolveCall brightSettings fixCls Fixture.lib (lookupEvolver Fixture.lib [.addSeries] 0) ⟨shaperLine, 5, 4, none⟩
    (fun _ => newModel brightSettings .waveShaper) ⟨5, Fixture.serStep.draw, 6⟩ = ((y, h'), .error .assertion) :=
  ⟨_, _, Prod.ext rfl (by decide +kernel)⟩

/-- `C100_hessian` with scores that are all the same. -/
example (x : Ind) (hx : x.graph = Fixture.g) (c : Pick) : ∃ h a b, 
    (∃ y h' rs e, randomGraph stdSettings fixCls Fixture.lib (hessianEvolver Fixture.lib allOps (fun _ _ => .ok fun _ => some 1) fun _ => id) [a, b, c] x h = ((y, h'), .error e) ∧
      rs.length ≤ 2 ∧ History Fixture.lib x.graph rs y.graph) ∨
    ∃ rs g, rs.length = 2 ∧ History Fixture.lib x.graph rs g ∧ removeLocs g = [] ∧ swapLocs Fixture.lib g = [] := by
  obtain ⟨h, hl⟩ := fix_start
  rw [← hx] at hl
  obtain ⟨picks, p1, p2⟩ := picks_exist (lib := Fixture.lib) (matrix := hessianEvolver Fixture.lib allOps (fun _ _ => .ok fun _ => some 1) fun _ => id)
    std_sensible fix_fits (by decide) (by decide) (by decide) (by decide)
    (by decide) (by decide) 2 (n := 0) (fun k hk g h M hl hM => by
      have hst := hl.stocked std_sensible fix_fits
      have hk : k ≤ 1 := by omega
      have h01 : (0 : ℚ) ≤ k ∧ (k : ℚ) ≤ 1 := ⟨by positivity, by exact_mod_cast hk⟩
      have hM : hessianMatrix Fixture.lib allOps (fun _ => some 1) id k g = .ok M := hM
      refine ⟨?_, fun order hto => hessian_onlyLegal hst.wf hst.acyclic hto (by decide) (fun _ => .rfl) (fun _ _ => ⟨_, rfl⟩) h01.1 h01.2 hM⟩
      obtain ⟨order, hto⟩ := topoSort_complete hst.wf hst.acyclic
      obtain ⟨c1, c2⟩ := C15_schedule (lib := Fixture.lib) (ops := allOps) (score := fun _ => some 1) (shuffle := id) hst.wf hst.acyclic hto (by decide) (fun _ => .rfl) (fun _ _ => ⟨_, rfl⟩) h01.1 h01.2
      have hex : ∃ o ∈ allOps, locs Fixture.lib g order o ≠ [] ∧ 0 < genWeight k o := by
        by_contra hc
        push Not at hc
        rw [c1 (fun o ho hne => le_antisymm (hc o ho hne) (genWeight_nonneg h01.1 h01.2 o))] at hM
        cases hM
      obtain ⟨M', m1, m2, -⟩ := c2 hex
      rw [hM] at m1
      injection m1 with m1; subst m1; exact m2) hl
  match picks, p1 with
  | [a, b], _ =>
    exact ⟨h, a, b, C100_hessian (picks := [a, b, c]) std_sensible fix_fits (by decide) (by decide) (by decide) (by decide) (fun _ _ s hs e _ => ⟨1, by injection hs with hs; rw [← hs]⟩)
      (by simp) (fun _ _ => .rfl) hl (by rw [hx]; exact fix_inner) (by simp) p2⟩

end Verif
