import Verif.Model.ScheduledRun
import Verif.Lemmas.ScheduledRun
import Verif.Props.WholeRun
/-! # C104: what the schedule of the Hessian evolver does in a run -/

namespace Verif
open Graph

/-! ### Which calls belong to which generation -/

section Calls
variable {C K : Type} [Field K] [LinearOrder K] [IsStrictOrderedRing K]

/-- **C104.** With tournaments or the roulette and no elite, a run makes one call for the start, then in each generation `n_population` mutations followed by `n_population`
parameter optimisations: what is evaluated in generation `k` was made from the optimised start (`k = 0`) or from something evaluated in generation `k - 1`, by a
mutation that was handed `k / (n_generations - 1)`, and there are `n_population` such designs in each of `n_generations` generations. -/
theorem C104_calls {cfg : TopCfg C K} (hs : Sane cfg) (hpop : 0 < cfg.nPop) (hr : cfg.rule.Single) (hel : pyRound (cfg.ratio * cfg.nPop) = 0) {w : Pool C} {start : C}
    {mgr : Option (Spec Nat K)} (hm : ∀ S, mgr = some S → SpecReach cfg.sqrt S) {st : RunSt C K} (h : topologyOptimization cfg w start mgr = .ok st) :
    st.trace.length = cfg.nGen ∧ (∀ gen ∈ st.trace, gen.length = cfg.nPop) ∧ st.w.calls = w.calls + 1 + 2 * cfg.nPop * cfg.nGen ∧
    ∃ s0, cfg.opt w.calls start = .ok s0 ∧ ∀ k gen, st.trace[k]? = some gen → ∀ q ∈ gen, ∃ p b m n,
      ((k = 0 ∧ p = s0) ∨ ∃ j prev, k = j + 1 ∧ st.trace[j]? = some prev ∧ p ∈ prev) ∧
      w.calls + 1 + 2 * cfg.nPop * k ≤ m ∧ m < w.calls + 1 + 2 * cfg.nPop * k + cfg.nPop ∧ generationOfCall (w.calls + 1) cfg.nPop cfg.nGen m = k ∧
      cfg.ev m p.2 = .ok b ∧ cfg.opt n b = .ok q := by
  unfold topologyOptimization at h
  split at h
  · cases h
  · next st0 h0 =>
    obtain ⟨i1, i2⟩ := initialState_calls h0
    obtain ⟨s0, e0, J0⟩ := initialState_kinBy (R := fun k => MadeAt cfg (w.calls + 1 + 2 * cfg.nPop * k) cfg.nPop) h0
    obtain ⟨J, hlen⟩ := generations_counted (c0 := w.calls + 1) hs hpop hr hel (initialState_inv hm h0) ⟨J0, by rw [i1, i2]; rfl⟩ h
    rw [i2, List.length_nil, Nat.zero_add] at hlen
    have hone : cfg.rule.oneEach = true := by rcases hr with ⟨d, hr⟩ | ⟨d, hr⟩ <;> rw [hr] <;> rfl
    refine ⟨hlen, fun gen hgen => ?_, by rw [J.calls, hlen], s0, e0, fun k gen hk q hq => ?_⟩
    · obtain ⟨gens, I, -⟩ := generations_inv hs hpop (initialState_inv hm h0) h
      rw [List.nil_append] at I
      rw [I.trace, List.mem_map] at hgen
      obtain ⟨g, hg, rfl⟩ := hgen
      exact (I.sizes g hg).2 hone
    obtain ⟨parents, ⟨p1, p2, p3⟩, p4⟩ := J.kin.kin k gen hk
    obtain ⟨p, hp, b, n, ⟨m, m1, m2, m3, -⟩, hb⟩ := p4 q hq
    have hkl : k < cfg.nGen := by
      rw [← hlen]
      exact (List.getElem?_eq_some_iff.1 hk).1
    refine ⟨p, b, m, n, ?_, m1, m2, ?_, m3, hb⟩
    · rcases k with _ | j
      · rw [p2 rfl] at hp
        exact .inl ⟨rfl, List.eq_of_mem_replicate hp⟩
      · have hj : j < st.trace.length := by omega
        exact .inr ⟨j, _, rfl, List.getElem?_eq_getElem hj, (p3 j _ rfl (List.getElem?_eq_getElem hj)).1 p hp⟩
    · unfold generationOfCall
      have hd : (m - (w.calls + 1)) / (2 * cfg.nPop) = k := by
        refine Nat.div_eq_of_lt_le ?_ ?_
        · rw [Nat.mul_comm]; omega
        · rw [Nat.mul_comm, Nat.mul_add]; omega
      rw [hd]
      omega

end Calls

/-! ### An end that stays open -/

theorem step_open {lib : Library} {g g' : Graph} {r : StepRec} (hw : g.WF) (ha : g.Acyclic) (hs : LegalStep lib g r g') (hd : r.draw.ec.prot = false)
    (h : OpenEnd g) : OpenEnd g' := by
  obtain ⟨n, hn, hsrc, ht, e, he, hes, hp⟩ := h
  obtain ⟨t1, -⟩ := step_terminals hw ha hs
  refine ⟨n, step_keeps_node hw hs hn (.inr (.inl hsrc)), (t1 _).2 hsrc, ht, ?_⟩
  cases legal_kind hs with
  | series i _ _ hi hnid _ _ h =>
    obtain ⟨e0, he0, _, h'', h1, -, hperm⟩ := addSeries_shape hw hi hnid r.draw.ec r.draw.nc
    rw [h] at h1; injection h1 with h1; subst h1
    by_cases hc : e.ref = e0.ref
    · have hee : e = e0 := List.inj_on_of_nodup_map hw.refs_nodup he he0 hc
      subst hee
      by_cases hi' : i.node = e.src
      · exact ⟨⟨e.src, r.draw.nid, 0, r.draw.ec, r.draw.ec.cls⟩, hperm.mem_iff.2 (by rw [if_pos hi']; exact List.mem_cons_self), hes, hd⟩
      · exact ⟨⟨e.src, r.draw.nid, 0, e.comp, e.name⟩, hperm.mem_iff.2 (by rw [if_neg hi']; exact List.mem_cons_self), hes, hp⟩
    · exact ⟨e, hperm.mem_iff.2 (List.mem_append_right _ (mem_removeEdge.2 ⟨he, hc⟩)), hes, hp⟩
  | parallel u w o _ _ _ _ _ h =>
    subst h
    exact ⟨e, mem_addEdge.2 (.inr he), hes, hp⟩
  | remove i _ _ hi h =>
    obtain ⟨e0, he0, nu, _, nv, _, hr, _, _, hnode, _, _, _, hin, _⟩ := removeLocs_spec hw hi
    obtain ⟨keep, _, _, hres⟩ := removeComp_shape hw he0 hr hnode
    rw [h] at hres; injection hres with hres
    have hne : e.src ≠ e0.src := fun hc => not_source_deg hin (by rw [← hc, hes]; exact hsrc)
    have hnd : e.src ≠ e0.dst := fun hc => hsrc.2 e0 he0 (by rw [← hc, hes])
    have hmem : e ∈ (g.removeEdge e0.ref).edges := mem_removeEdge.2 ⟨he, fun hc => hne (congrArg EdgeRef.src hc)⟩
    split at hres
    · subst hres; exact ⟨e, hmem, hes, hp⟩
    · rename_i hpth
      have m := mergeFacts ha he0 hpth
      obtain ⟨m1, m2, m3⟩ := m.no_edges ha
      obtain ⟨new, c1, c2, -⟩ := contract_edges m1 m2 m3
      subst hres
      by_cases hdst : e.dst = e0.dst
      · have : (renEdge e0.src e0.dst e).body ∈ new.map Edge.body :=
          c2.mem_iff.2 (List.mem_map.2 ⟨e, List.mem_filter.2 ⟨hmem, by simp [hdst]⟩, rfl⟩)
        obtain ⟨x, hx, hb⟩ := List.mem_map.1 this
        refine ⟨x, c1.mem_iff.2 (List.mem_append_left _ hx), ?_, ?_⟩
        · have : x.src = (renEdge e0.src e0.dst e).src := congrArg (·.1) hb
          rw [this, ← hes]
          simp [renEdge, ren, hnd]
        · have : x.comp = (renEdge e0.src e0.dst e).comp := congrArg (·.2.2.1) hb
          rw [this]
          exact hp
      · exact ⟨e, c1.mem_iff.2 (List.mem_append_right _ (List.mem_filter.2 ⟨hmem, by simp [hnd, hdst]⟩)), hes, hp⟩
  | swapNode u _ _ _ _ h => subst h; exact ⟨e, he, hes, hp⟩
  | swapEdge u _ _ _ _ h =>
    subst h
    by_cases hc : e.ref = u
    · refine ⟨{ e with comp := r.draw.ec }, List.mem_map.2 ⟨e, he, by rw [if_pos hc]⟩, hes, hd⟩
    · exact ⟨e, List.mem_map.2 ⟨e, he, by rw [if_neg hc]⟩, hes, hp⟩

/-- At an open end an exchange is offered, if there is more than one light source. -/
theorem open_swap {lib : Library} {g : Graph} (hw : g.WF) (h2 : 2 ≤ lib.source.length) (h : OpenEnd g) (order : List NodeId) : locs lib g order .swap ≠ [] := by
  obtain ⟨n, hn, hsrc, ht, e, he, hes, hp⟩ := h
  have hq : g.node? e.src = some n := (node?_eq_some hw).2 ⟨hn, hes.symm⟩
  intro hc
  have : Loc.edge e.ref ∈ swapLocs lib g := by
    refine List.mem_append_right _ (List.mem_map.2 ⟨e, List.mem_filter.2 ⟨he, ?_⟩, rfl⟩)
    have hcat : edgeCategory lib g e.ref = lib.source := by
      unfold edgeCategory
      rw [show e.ref.src = e.src from rfl, hq, Option.map_some, ht, if_pos rfl]
    simp only [hp, decide_eq_true_eq]
    refine ⟨by simp, ?_⟩
    show decide (1 < (edgeCategory lib g e.ref).length) = true
    rw [hcat]
    exact decide_eq_true (by omega)
  have hl : locs lib g order .swap = swapLocs lib g := rfl
  rw [← hl, hc] at this
  cases this

/-! ### Which mutations are possible when -/

variable {W : RunWorld}

theorem runFraction_mem (nGen c0 nPop n : Nat) :
    0 ≤ runFraction nGen (generationOfCall c0 nPop nGen n) ∧ runFraction nGen (generationOfCall c0 nPop nGen n) ≤ 1 := by
  unfold runFraction generationOfCall
  rcases Nat.lt_or_ge nGen 2 with h | h
  · have : nGen - 1 = 0 := by omega
    rw [this, Nat.min_zero]
    simp
  · have h1 : (0 : ℚ) < (nGen : ℚ) - 1 := by
      have : (2 : ℚ) ≤ nGen := by exact_mod_cast h
      linarith
    refine ⟨by positivity, (div_le_one h1).2 ?_⟩
    have : min ((n - c0) / (2 * nPop)) (nGen - 1) ≤ nGen - 1 := Nat.min_le_right _ _
    have h2 : ((min ((n - c0) / (2 * nPop)) (nGen - 1) : Nat) : ℚ) ≤ ((nGen - 1 : Nat) : ℚ) := by exact_mod_cast this
    rw [Nat.cast_sub (by omega)] at h2
    simpa using h2

/-- What can be drawn from the generation dependent matrix has positive weight. -/
theorem hessian_drawn {lib : Library} {ops : List Op} {g : Graph} (hw : g.WF) (ha : g.Acyclic) (hops : ops.Nodup) {score : EdgeRef → Option ℚ} {shuffle : List Nat → List Nat}
    (hsh : ∀ l, (shuffle l).Perm l) (hscore : ∀ e ∈ g.edges, ∃ s, score e.ref = some s) {gen : ℚ} (h0 : 0 ≤ gen) (h1 : gen ≤ 1) {M : PMat}
    (hM : hessianMatrix lib ops score shuffle gen g = .ok M) {k : Nat} (hk : M.CanDraw k) {l : Loc} {o : Op} (hs : M.sample k = .ok (l, o)) :
    M.IsDistribution ∧ o ∈ ops ∧ 0 < genWeight gen o := by
  obtain ⟨order, hto⟩ := topoSort_complete hw ha
  obtain ⟨c1, c2⟩ := C15_schedule (lib := lib) hw ha hto hops hsh hscore h0 h1
  have hex : ∃ o ∈ ops, locs lib g order o ≠ [] ∧ 0 < genWeight gen o := by
    by_contra hc
    push Not at hc
    rw [c1 (fun o ho hne => le_antisymm (hc o ho hne) (genWeight_nonneg h0 h1 o))] at hM
    cases hM
  obtain ⟨M', m1, m2, m3, -, m5⟩ := c2 hex
  rw [hM] at m1; injection m1 with m1; subst m1
  obtain ⟨l', o', s1, s2, s3⟩ := sample_spec M hk.1
  rw [hs] at s1
  injection s1 with s1
  injection s1 with a b
  subst a; subst b
  have hpos : 0 < M.opTotal (k % M.ops.length) := by
    have hi : k / M.ops.length < M.locs.length := (List.getElem?_eq_some_iff.1 s2).1
    have hj : k % M.ops.length < M.ops.length := (List.getElem?_eq_some_iff.1 s3).1
    refine lt_of_lt_of_le hk.2 ?_
    unfold PMat.opTotal PMat.flat
    exact Finset.single_le_sum (f := fun i => M.m i (k % M.ops.length)) (fun i hi' => (m2.bounds i (Finset.mem_range.1 hi') _ hj).1) (Finset.mem_range.2 hi)
  rw [m3] at s3
  rw [m3] at hpos
  refine ⟨m2, List.mem_of_getElem? s3, ?_⟩
  rw [m5 _ _ s3] at hpos
  rcases lt_or_eq_of_le (genWeight_nonneg h0 h1 o) with h | h
  · exact h
  · rw [← h] at hpos
    simp at hpos

theorem evolved_scheduled (hW : W.Sound) {ops : List Op} {scores : Graph → Heap → Except Err (EdgeRef → Option ℚ)} {shuffle : Nat → List Nat → List Nat}
    (hsc : Scored ops scores shuffle) {c0 nPop nGen : Nat} (hmat : W.matrix = scheduledEvolver W.lib ops scores shuffle c0 nPop nGen) {n : Nat} {d d' : Design}
    (hd : Design.Alive W d) (h : designEv W n d = .ok d') :
    ∃ r, LegalStep W.lib d.1.graph r d'.1.graph ∧ r.draw = (W.pick n d).draw ∧ d'.1.latest = some r.op ∧ r.op ∈ ops ∧
      0 < genWeight (runFraction nGen (generationOfCall c0 nPop nGen n)) r.op := by
  obtain ⟨x, hp⟩ := d
  have hst := Lifetime.stocked hW.settings hW.library hd
  unfold designEv at h
  cases hM : W.matrix n x.graph hp with
  | error e =>
    have : evolveCall W.S W.cls W.lib (W.matrix n) x hp (W.pick n (x, hp)) = ((x, hp), .error e) := by unfold evolveCall; rw [hM]
    dsimp only at h
    rw [this] at h
    cases h
  | ok M =>
    have hk := hW.index n (x, hp) M hd hM
    obtain ⟨l0, o0, s1, -, -⟩ := sample_spec M hk.1
    obtain ⟨y, h', o, l, c1, -, -, -, c5, c6, -⟩ := call_steps hW.settings hW.library hd hM (fun order ho => hW.legal n (x, hp) M order hd hM ho)
      hk (fun l o => hW.parts n (x, hp) M l o hd hM)
    have ho : o = o0 := by
      unfold evolveCall at c1
      rw [hM] at c1
      dsimp only at c1
      rw [s1] at c1
      dsimp only at c1
      split at c1
      · cases c1
      · split at c1
        · cases c1
        · split at c1
          · cases c1
          · split at c1
            · simp only [Prod.mk.injEq, Except.ok.injEq] at c1
              exact c1.2.symm
            · cases c1
    dsimp only at h
    rw [c1] at h
    injection h with h
    subst h
    have hM' := hM
    rw [hmat] at hM'
    unfold scheduledEvolver at hM'
    cases hse : scores x.graph hp with
    | error e => rw [hse] at hM'; cases hM'
    | ok s =>
      rw [hse] at hM'
      obtain ⟨f0, f1⟩ := runFraction_mem nGen c0 nPop n
      obtain ⟨-, w1, w2⟩ := hessian_drawn hst.wf hst.acyclic hsc.ops (hsc.perm n) (hsc.all _ _ _ hse) f0 f1 hM' hk s1
      exact ⟨⟨o, l, _⟩, c6, rfl, c5, by rw [ho]; exact w1, by rw [ho]; exact w2⟩

/-- **C104.** In a run with the Hessian evolver (tournaments or the roulette, no elite), every design evaluated was made by one offered mutation from the start or from a design
evaluated one generation earlier, which records that mutation; it was no removal in the first generation and no insertion in the last. -/
theorem C104_steps (hW : W.Sound) {ops : List Op} {scores : Graph → Heap → Except Err (EdgeRef → Option ℚ)} {shuffle : Nat → List Nat → List Nat}
    (hsc : Scored ops scores shuffle) {base : TopCfg Design ℚ} (hs : Sane base) (hpop : 0 < base.nPop) (hr : base.rule.Single) (hel : pyRound (base.ratio * base.nPop) = 0)
    {w : Pool Design} (hmat : W.matrix = scheduledEvolver W.lib ops scores shuffle (w.calls + 1) base.nPop base.nGen) {start : Design} (h0 : Design.Alive W start)
    {mgr : Option (Spec Nat ℚ)} (hm : ∀ S, mgr = some S → SpecReach base.sqrt S) {st : RunSt Design ℚ} (h : topologyOptimization (W.cfg base) w start mgr = .ok st)
    {k : Nat} {gen : List (ℚ × Design)} (hk : st.trace[k]? = some gen) {q : ℚ × Design} (hq : q ∈ gen) :
    ∃ (p : Design) (r : StepRec), ((k = 0 ∧ p.1 = start.1) ∨ ∃ j prev s, k = j + 1 ∧ st.trace[j]? = some prev ∧ (s, p) ∈ prev) ∧
      LegalStep W.lib p.1.graph r q.2.1.graph ∧ q.2.1.latest = some r.op ∧ q.2.1.parent = p.1.current ∧ r.op ∈ ops ∧
      (r.op = .remove → 0 < k) ∧ (r.op = .addSeries ∨ r.op = .addParallel → k + 1 < base.nGen) := by
  have hs' : Sane (W.cfg base) := ⟨hs.1, hs.2⟩
  have hrule : ∀ r, base.rule ≠ .preferential r := by
    rintro r hc
    rcases hr with ⟨d, hr⟩ | ⟨d, hr⟩ <;> rw [hr] at hc <;> cases hc
  obtain ⟨hlen, -, -, s0, e0, hp⟩ := C104_calls hs' hpop hr hel hm h
  obtain ⟨p, b, m, n, hpar, -, -, hgen, hev, hopt⟩ := hp k gen hk q hq
  have hkl : k < base.nGen := by
    have := (List.getElem?_eq_some_iff.1 hk).1
    rw [hlen] at this
    exact this
  have hpa : Design.Alive W p.2 := by
    rcases hpar with ⟨-, rfl⟩ | ⟨j, prev, -, hj, hpm⟩
    · exact (start_stands (base := base) hW h0 e0).1.1
    · exact ((C103_run hW hs hpop hrule h0 hm h).1 j prev hj p hpm).1
  obtain ⟨r, r1, -, r3, r4, r5⟩ := evolved_scheduled hW hsc hmat hpa hev
  obtain ⟨b1, b2, -⟩ := evolved_design hW hpa hev
  obtain ⟨q1, -, -⟩ := C103_optimised (s := q.1) (d' := q.2) hW b1 hopt
  have hgen : generationOfCall (w.calls + 1) base.nPop base.nGen m = k := hgen
  rw [hgen] at r5
  refine ⟨p.2, r, ?_, by rw [q1]; exact r1, by rw [q1]; exact r3, by rw [q1]; exact b2, r4, fun ho => ?_, fun ho => ?_⟩
  · rcases hpar with ⟨hk0, rfl⟩ | ⟨j, prev, hj, hjp, hpm⟩
    · exact .inl ⟨hk0, (start_stands (base := base) hW h0 e0).2⟩
    · exact .inr ⟨j, prev, p.1, hj, hjp, hpm⟩
  · rw [ho] at r5
    rcases Nat.eq_zero_or_pos k with rfl | hk0
    · simp [genWeight, runFraction] at r5
    · exact hk0
  · by_contra hc
    have hkg : k + 1 = base.nGen := by omega
    have hf : runFraction base.nGen k = 1 ∨ runFraction base.nGen k = 0 ∧ base.nGen = 1 := by
      unfold runFraction
      rw [← hkg]
      push_cast
      rcases Nat.eq_zero_or_pos k with rfl | hk0
      · right; simp
      · left
        have : (k : ℚ) ≠ 0 := by exact_mod_cast hk0.ne'
        rw [add_sub_cancel_right, div_self this]
    rcases hf with hf | ⟨-, hf⟩
    · rw [hf] at r5
      rcases ho with ho | ho <;> rw [ho] at r5 <;> simp [genWeight] at r5
    · -- a run of one generation raises
      unfold topologyOptimization at h
      split at h
      · cases h
      · have hg1 : (W.cfg base).nGen = 1 := hf
        rw [hg1, generations, generation, if_pos hg1] at h
        cases h

/-- **C104.** Sizes in such a run: no design of the first generation has fewer components than the start, no design of the last one has more than the design it was made
from, and a design of generation `k` has at most `k + 1` more components than the start, and in the last generation at most `n_generations - 1`. -/
theorem C104_sizes (hW : W.Sound) {ops : List Op} {scores : Graph → Heap → Except Err (EdgeRef → Option ℚ)} {shuffle : Nat → List Nat → List Nat}
    (hsc : Scored ops scores shuffle) {base : TopCfg Design ℚ} (hs : Sane base) (hpop : 0 < base.nPop) (hr : base.rule.Single) (hel : pyRound (base.ratio * base.nPop) = 0)
    {w : Pool Design} (hmat : W.matrix = scheduledEvolver W.lib ops scores shuffle (w.calls + 1) base.nPop base.nGen) {start : Design} (h0 : Design.Alive W start)
    {mgr : Option (Spec Nat ℚ)} (hm : ∀ S, mgr = some S → SpecReach base.sqrt S) {st : RunSt Design ℚ} (h : topologyOptimization (W.cfg base) w start mgr = .ok st)
    {k : Nat} {gen : List (ℚ × Design)} (hk : st.trace[k]? = some gen) {q : ℚ × Design} (hq : q ∈ gen) :
    start.1.graph.edges.length ≤ q.2.1.graph.edges.length + k ∧ q.2.1.graph.edges.length ≤ start.1.graph.edges.length + min (k + 1) (base.nGen - 1) ∧
    ∀ j prev, k = j + 1 → k + 1 = base.nGen → st.trace[j]? = some prev → ∃ p ∈ prev, q.2.1.graph.edges.length ≤ p.2.1.graph.edges.length := by
  have hrule : ∀ r, base.rule ≠ .preferential r := by
    rintro r hc
    rcases hr with ⟨d, hr⟩ | ⟨d, hr⟩ <;> rw [hr] at hc <;> cases hc
  have hrun := C103_run hW hs hpop hrule h0 hm h
  have one : ∀ {k : Nat} {gen : List (ℚ × Design)}, st.trace[k]? = some gen → ∀ {q : ℚ × Design}, q ∈ gen →
      ∃ p : Design, ((k = 0 ∧ p.1 = start.1) ∨ ∃ j prev s, k = j + 1 ∧ st.trace[j]? = some prev ∧ (s, p) ∈ prev) ∧
        q.2.1.graph.edges.length ≤ p.1.graph.edges.length + 1 ∧ p.1.graph.edges.length ≤ q.2.1.graph.edges.length + 1 ∧
        (k = 0 → p.1.graph.edges.length ≤ q.2.1.graph.edges.length) ∧ (k + 1 = base.nGen → q.2.1.graph.edges.length ≤ p.1.graph.edges.length) := by
    intro k gen hk q hq
    obtain ⟨p, r, hpar, hstep, -, -, -, hrem, hadd⟩ := C104_steps hW hsc hs hpop hr hel hmat h0 hm h hk hq
    have hdag : p.1.graph.WF ∧ p.1.graph.Acyclic := by
      rcases hpar with ⟨-, hp⟩ | ⟨j, prev, s, -, hj, hpm⟩
      · have := Lifetime.stocked hW.settings hW.library h0
        rw [hp]
        exact ⟨this.wf, this.acyclic⟩
      · have := Lifetime.stocked hW.settings hW.library (hrun.1 j prev hj _ hpm).1
        exact ⟨this.wf, this.acyclic⟩
    obtain ⟨z1, z2, z3, z4⟩ := step_size hdag.1 hdag.2 hstep
    refine ⟨p, hpar, ?_⟩
    cases ho : r.op with
    | addSeries =>
      have a := (z1 ho).2
      have b := hadd (.inl ho)
      omega
    | addParallel =>
      have a := (z2 ho).2
      have b := hadd (.inr ho)
      omega
    | remove =>
      have a := (z3 ho).1
      have b := hrem ho
      omega
    | swap =>
      have a := (z4 ho).2
      omega
  have both : ∀ (k : Nat) (gen : List (ℚ × Design)), st.trace[k]? = some gen → ∀ q ∈ gen,
      start.1.graph.edges.length ≤ q.2.1.graph.edges.length + k ∧ q.2.1.graph.edges.length ≤ start.1.graph.edges.length + (k + 1) ∧
        (k + 1 = base.nGen → q.2.1.graph.edges.length ≤ start.1.graph.edges.length + k) := by
    intro k
    induction k with
    | zero =>
      intro gen hk q hq
      obtain ⟨p, hpar, a, b, c, d⟩ := one hk hq
      rcases hpar with ⟨-, hp⟩ | ⟨j, -, -, hj, -⟩
      · rw [hp] at a b c d
        have := c rfl
        omega
      · omega
    | succ k ih =>
      intro gen hk q hq
      obtain ⟨p, hpar, a, b, c, d⟩ := one hk hq
      rcases hpar with ⟨hk0, -⟩ | ⟨j, prev, s, hj, hjp, hpm⟩
      · omega
      · obtain rfl : j = k := by omega
        obtain ⟨i1, i2, -⟩ := ih prev hjp _ hpm
        dsimp only at i1 i2
        omega
  obtain ⟨a, b, c⟩ := both k gen hk q hq
  have hkl : k < base.nGen := by
    have h1 := (List.getElem?_eq_some_iff.1 hk).1
    have h2 : st.trace.length = base.nGen := (C104_calls (cfg := W.cfg base) ⟨hs.1, hs.2⟩ hpop hr hel hm h).1
    omega
  refine ⟨a, by omega, fun j prev hj hkg hjp => ?_⟩
  obtain ⟨p, hpar, -, -, -, d⟩ := one hk hq
  rcases hpar with ⟨hk0, -⟩ | ⟨j', prev', s, hj', hjp', hpm⟩
  · omega
  · obtain rfl : j = j' := by omega
    rw [hjp] at hjp'
    injection hjp' with hjp'
    subst hjp'
    exact ⟨_, hpm, d hkg⟩

/-! ### Runs with the Hessian evolver finish, or do not -/

/-- **C104.** Runs with the Hessian evolver finish, with tournaments or the roulette with positive evaluations, whatever the random numbers, from any design in its life that has
an unprotected light source behind its source terminal, if the library has at least two light sources, new components are not protected, the swap operator is
among the operators and scoring components does not raise.  (Exchanging that light source is possible in every generation.) -/
theorem C104_finishes (hW : W.Sound) {ops : List Op} {scores : Graph → Heap → Except Err (EdgeRef → Option ℚ)} {shuffle : Nat → List Nat → List Nat}
    (hsc : Scored ops scores shuffle) (hscore : ∀ g h, ∃ s, scores g h = .ok s) (hswap : Op.swap ∈ ops) (hsrc : 2 ≤ W.lib.source.length)
    (hnew : ∀ n d, (W.pick n d).draw.ec.prot = false) {base : TopCfg Design ℚ} (hs : Sane base) (hpop : 0 < base.nPop) (hhof : 0 < base.nHof) (hgen : base.nGen ≠ 1)
    (hel : pyRound (base.ratio * base.nPop) = 0) {c0 nPop nGen : Nat} (hmat : W.matrix = scheduledEvolver W.lib ops scores shuffle c0 nPop nGen)
    (hw : ∀ n d, (W.env n d).Working) (hmeth : W.method ≠ .unknown)
    (hrule : (∃ d, base.rule = .tournament d ∧ 0 < d) ∨
      ((∃ p, base.rule = .roulette p) ∧ (∀ n, 0 ≤ base.u n ∧ base.u n < 1) ∧ W.method ≠ .pso ∧ ∀ g h, 0 < W.eval g h))
    (w : Pool Design) {start : Design} (h0 : Design.Alive W start) (ho : OpenEnd start.1.graph) {mgr : Option (Spec Nat ℚ)}
    (hm : ∀ S, mgr = some S → SpecReach base.sqrt S) : ∃ st, topologyOptimization (W.cfg base) w start mgr = .ok st := by
  refine C102_finishes (cfg := W.cfg base) (P := fun d => Design.Alive W d ∧ OpenEnd d.1.graph) ⟨hs.1, hs.2⟩ hpop hhof hgen hel hm ?_ ?_ ?_ w ⟨h0, ho⟩
  · rcases hrule with ⟨d, hd, hd0⟩ | ⟨⟨p, hp⟩, hu, hpso, hpos⟩
    · have he : (W.cfg base).rule = .tournament d := hd
      unfold RuleWorks
      rw [he]
      exact hd0
    · have he : (W.cfg base).rule = .roulette p := hp
      unfold RuleWorks
      rw [he]
      refine ⟨hu, fun n c s c' hc h => ?_⟩
      rw [(C103_optimised hW hc.1 h).2.2 hpso]
      exact hpos _ _
  · rintro n ⟨x, hp⟩ ⟨hc, hop⟩
    have hst := Lifetime.stocked hW.settings hW.library hc
    obtain ⟨order, hto⟩ := topoSort_complete hst.wf hst.acyclic
    obtain ⟨s, hse⟩ := hscore x.graph hp
    obtain ⟨f0, f1⟩ := runFraction_mem nGen c0 nPop n
    obtain ⟨M, hM, -⟩ := (C15_schedule (lib := W.lib) hst.wf hst.acyclic hto hsc.ops (hsc.perm n) (hsc.all _ _ _ hse) f0 f1).2
      ⟨.swap, hswap, open_swap hst.wf hsrc hop order, one_pos⟩
    have hM' : W.matrix n x.graph hp = .ok M := by
      rw [hmat]
      unfold scheduledEvolver
      rw [hse]
      exact hM
    obtain ⟨y, h', o, l, c1, -, -, -, -, c6, c7⟩ := call_steps hW.settings hW.library hc hM' (fun order ho => hW.legal n (x, hp) M order hc hM' ho)
      (hW.index n (x, hp) M hc hM') (fun l o => hW.parts n (x, hp) M l o hc hM')
    have hev : designEv W n (x, hp) = .ok (y, h') := by
      unfold designEv
      dsimp only
      rw [c1]
    refine ⟨(y, h'), hev, ?_, c7, step_open hst.wf hst.acyclic c6 (hnew _ _) hop⟩
    have hst' := c7.stocked hW.settings hW.library
    obtain ⟨order', hto'⟩ := topoSort_complete hst'.wf hst'.acyclic
    show designChk (y, h') = true
    unfold designChk
    rw [hto']
  · rintro n d ⟨hc, hop⟩
    obtain ⟨s, d', hd⟩ := C103_optimises (n := n) hW hc (hw n) hmeth
    obtain ⟨q1, q2, -⟩ := C103_optimised hW hc hd
    exact ⟨s, d', hd, q2, by rw [q1]; exact hop⟩

/-- **C104 (finding).** In the last generation the Hessian evolver raises on every design where neither a removal nor an exchange is possible. -/
theorem C104_stuck {lib : Library} {ops : List Op} {scores : Graph → Heap → Except Err (EdgeRef → Option ℚ)} {shuffle : Nat → List Nat → List Nat}
    (hsc : Scored ops scores shuffle) {g : Graph} (hw : g.WF) (ha : g.Acyclic) {order : List NodeId} (hto : g.topoSort = .ok order) (hrem : locs lib g order .remove = [])
    (hswap : locs lib g order .swap = []) {c0 nPop nGen n : Nat} (hpop : 0 < nPop) (hgen : 2 ≤ nGen) (hn : c0 + 2 * nPop * (nGen - 1) ≤ n) {h : Heap}
    {s : EdgeRef → Option ℚ} (hs : scores g h = .ok s) : scheduledEvolver lib ops scores shuffle c0 nPop nGen n g h = .error .runtimeWarning := by
  have hk : generationOfCall c0 nPop nGen n = nGen - 1 := by
    unfold generationOfCall
    refine Nat.min_eq_right ((Nat.le_div_iff_mul_le (by omega)).2 ?_)
    rw [Nat.mul_comm]
    omega
  have hf : runFraction nGen (nGen - 1) = 1 := by
    have h2 : (2 : ℚ) ≤ nGen := by exact_mod_cast hgen
    unfold runFraction
    rw [Nat.cast_sub (by omega), Nat.cast_one]
    exact div_self (by linarith)
  unfold scheduledEvolver
  rw [hs, hk, hf]
  refine (C15_schedule (lib := lib) hw ha hto hsc.ops (hsc.perm n) (hsc.all _ _ _ hs) zero_le_one le_rfl).1 (fun o _ hne => ?_)
  cases o with
  | addSeries => simp [genWeight]
  | addParallel => simp [genWeight]
  | remove => exact absurd hrem hne
  | swap => exact absurd hswap hne

/-! ### Examples -/

/-- A pick that the matrix and the library allow. -/
def PickAllowed (lib : Library) (matrix : Nat → Graph → Heap → Except Err PMat) (n : Nat) (d : Design) (c : Pick) : Prop :=
  ∀ M, matrix n d.1.graph d.2 = .ok M → M.CanDraw c.k ∧ ∀ l o, M.sample c.k = .ok (l, o) → drawOk lib d.1.graph o l c.draw ∧ NewObjects d.1.graph c.draw

/-- For every evaluator and method, and every evolver whose matrices are distributions on offered mutations, there are random numbers and optimisers as supposed, and the
random numbers can be chosen freely among those possible. -/
theorem world_for {S : Settings} (hS : S.Sensible) {cls : ClassId → Part} {lib : Library} (hf : LibraryFits cls lib) (he : lib.edge ≠ []) (hn : lib.node ≠ [])
    (h1 : lib.source.Nodup) (h2 : lib.sink.Nodup) (h3 : lib.edge.Nodup) (h4 : lib.node.Nodup) {matrix : Nat → Graph → Heap → Except Err PMat}
    (hmat : ∀ n g h M, Lifetime S cls lib g h → matrix n g h = .ok M → M.IsDistribution ∧ ∀ order, g.topoSort = .ok order → OnlyLegal lib g order M)
    (pref : Nat → Pick) (hpref : ∀ n, (pref n).draw.ec.prot = false) (eval : Graph → Heap → ℚ) (method : OptMethod) :
    ∃ W : RunWorld, W.Sound ∧ W.S = S ∧ W.cls = cls ∧ W.lib = lib ∧ W.matrix = matrix ∧ W.eval = eval ∧ W.method = method ∧ (∀ n d, (W.env n d).Working) ∧
      (∀ n d, (W.pick n d).draw.ec.prot = false) ∧ ∀ n d, PickAllowed lib matrix n d (pref n) → W.pick n d = pref n := by
  classical
  have hpick : ∀ (n : Nat) (d : Design), ∃ c : Pick, c.draw.ec.prot = false ∧ (Lifetime S cls lib d.1.graph d.2 → PickAllowed lib matrix n d c) ∧
      (PickAllowed lib matrix n d (pref n) → c = pref n) := by
    intro n d
    by_cases hp : PickAllowed lib matrix n d (pref n)
    · exact ⟨pref n, hpref n, fun _ => hp, fun _ => rfl⟩
    by_cases hd : Lifetime S cls lib d.1.graph d.2 ∧ ∃ M, matrix n d.1.graph d.2 = .ok M
    · obtain ⟨hl, M, hM⟩ := hd
      have hst := hl.stocked hS hf
      obtain ⟨order, hto⟩ := topoSort_complete hst.wf hst.acyclic
      obtain ⟨m1, m2⟩ := hmat n _ _ M hl hM
      obtain ⟨k, hk⟩ := positive_exists m1
      obtain ⟨l, o, s1, s2, s3⟩ := sample_spec M hk.1
      obtain ⟨dr, d1, d2⟩ := draw_exists hst.wf he hn h1 h2 h3 h4 (m2 order hto _ _ l o s2 s3 hk.2)
      have d1' : drawOk lib d.1.graph o l ⟨dr.nid, ⟨dr.ec.uid, dr.ec.cls, false, dr.ec.ntype, dr.ec.maxIn⟩, dr.nc⟩ := by
        cases o <;> exact d1
      refine ⟨⟨k, ⟨dr.nid, ⟨dr.ec.uid, dr.ec.cls, false, dr.ec.ntype, dr.ec.maxIn⟩, dr.nc⟩, 0⟩, rfl, fun _ M' hM' => ?_, fun h => absurd h hp⟩
      rw [hM] at hM'
      injection hM' with hM'
      subst hM'
      refine ⟨hk, fun l' o' hs => ?_⟩
      dsimp only at hs
      rw [s1] at hs
      injection hs with hs
      injection hs with a b
      subst a
      subst b
      exact ⟨d1', ⟨d2.edge, d2.node, d2.differ⟩⟩
    · exact ⟨⟨0, Fixture.serStep.draw, 0⟩, rfl, fun hl M hM => absurd ⟨hl, M, hM⟩ hd, fun h => absurd h hp⟩
  choose pick hpick using hpick
  refine ⟨⟨S, cls, lib, matrix, pick, fun _ d => match extractToList d.1.graph d.2 with
    | .ok (_, _, _, lo, _) => lazyEnv lo
    | .error _ => lazyEnv [], eval, method⟩, ⟨hS, hf, ?_, ?_, ?_, ?_, ?_⟩, rfl, rfl, rfl, rfl, rfl, rfl, ?_, fun n d => (hpick n d).1, fun n d => (hpick n d).2.2⟩
  · exact fun n d M order hl hM hto => (hmat n _ _ M hl hM).2 order hto
  · exact fun n d M hl hM => ((hpick n d).2.1 hl M hM).1
  · exact fun n d M l o hl hM => ((hpick n d).2.1 hl M hM).2 l o
  · intro n d ps ms is lo up hl hex
    obtain ⟨rfl, rfl, e1, e2, e3, -⟩ := extractToList_ok hex
    dsimp only
    rw [hex, List.length_map]
    exact ⟨fun _ _ _ _ => e2, fun _ _ _ _ => e2, fun _ _ _ => e2, fun _ => e2⟩
  · intro n d ps ms is lo up hl hex
    have hst := Lifetime.stocked hS hf hl
    obtain ⟨ps', ms', is', lo', up', hex', hres, -⟩ := hst.listed hS
    rw [hex] at hex'
    injection hex' with hex'
    simp only [Prod.mk.injEq] at hex'
    obtain ⟨rfl, rfl, rfl, rfl, rfl⟩ := hex'
    obtain ⟨-, -, e1, e2, e3, -⟩ := extractToList_ok hex
    have hlo : Respects lo up lo := ⟨rfl, fun i y hy l u hl hu => by
      rw [hl] at hy
      injection hy with hy
      subst hy
      have hi : i < ps.length := by rw [e1, ← e2]; exact (List.getElem?_eq_some_iff.1 hl).1
      obtain ⟨a, b⟩ := hres.2 i _ (List.getElem?_eq_getElem hi) l u hl hu
      exact ⟨le_refl _, a.trans b⟩⟩
    dsimp only
    rw [hex]
    exact ⟨fun _ _ => hlo, fun _ _ => hlo, fun _ => hlo, fun _ => hlo⟩
  · intro n d
    dsimp only
    split
    · exact ⟨fun y hy => hy, fun _ _ => rfl, le_refl _⟩
    · exact ⟨fun y hy => hy, fun _ _ => rfl, le_refl _⟩

/-- The matrices of the Hessian evolver are as `world_for` wants them. -/
theorem scheduled_legal {S : Settings} (hS : S.Sensible) {cls : ClassId → Part} {lib : Library} (hf : LibraryFits cls lib) {ops : List Op}
    {scores : Graph → Heap → Except Err (EdgeRef → Option ℚ)} {shuffle : Nat → List Nat → List Nat} (hsc : Scored ops scores shuffle) (c0 nPop nGen n : Nat) (g : Graph)
    (h : Heap) (M : PMat) (hl : Lifetime S cls lib g h) (hM : scheduledEvolver lib ops scores shuffle c0 nPop nGen n g h = .ok M) :
    M.IsDistribution ∧ ∀ order, g.topoSort = .ok order → OnlyLegal lib g order M := by
  have hst := hl.stocked hS hf
  obtain ⟨f0, f1⟩ := runFraction_mem nGen c0 nPop n
  unfold scheduledEvolver at hM
  cases hse : scores g h with
  | error e => rw [hse] at hM; cases hM
  | ok s =>
    rw [hse] at hM
    dsimp only at hM
    refine ⟨?_, fun order hto => hessian_onlyLegal hst.wf hst.acyclic hto hsc.ops (hsc.perm n) (hsc.all _ _ _ hse) f0 f1 hM⟩
    obtain ⟨order, hto⟩ := topoSort_complete hst.wf hst.acyclic
    obtain ⟨c1, c2⟩ := C15_schedule (lib := lib) hst.wf hst.acyclic hto hsc.ops (hsc.perm n) (hsc.all _ _ _ hse) f0 f1
    have hex : ∃ o ∈ ops, locs lib g order o ≠ [] ∧ 0 < genWeight (runFraction nGen (generationOfCall c0 nPop nGen n)) o := by
      by_contra hc
      push Not at hc
      have := c1 (fun o ho hne => le_antisymm (hc o ho hne) (genWeight_nonneg f0 f1 o))
      unfold hessianMatrix at this
      rw [this] at hM
      cases hM
    obtain ⟨M', m1, m2, -⟩ := c2 hex
    unfold hessianMatrix at m1
    rw [m1] at hM
    injection hM with hM
    rw [← hM]
    exact m2

/-- Scores that do not depend on the component. -/
def flatScores : Graph → Heap → Except Err (EdgeRef → Option ℚ) := fun _ _ => .ok fun _ => some 1

theorem flat_scored : Scored allOps flatScores (fun _ l => l) where
  ops := by decide
  all := by
    intro g h s hs e _
    injection hs with hs
    exact ⟨1, by rw [← hs]⟩
  perm := fun _ l => .refl l

theorem designBase_elite (rule : Rule ℚ) : pyRound ((designBase rule).ratio * (designBase rule).nPop) = 0 := show pyRound ((0 : ℚ) * (3 : Nat)) = 0 by decide +kernel

theorem fix_open : OpenEnd Fixture.g :=
  ⟨⟨0, Fixture.src, 1⟩, by decide, by unfold Graph.IsSource; decide, rfl, ⟨0, 1, 0, Fixture.laser 4, 10⟩, by decide, rfl, rfl⟩

/-- A run of four generations from the fixture with the Hessian evolver: it returns. -/
theorem scheduled_demo (x : Ind) (hx : x.graph = Fixture.g) : ∃ (W : RunWorld) (h : Heap) (st : RunSt Design ℚ), W.Sound ∧ Design.Alive W (x, h) ∧
    W.matrix = scheduledEvolver W.lib allOps flatScores (fun _ l => l) 1 3 4 ∧
    topologyOptimization (W.cfg (designBase (.tournament 2))) ⟨fun _ => (x, h), 0, 0⟩ (x, h) none = .ok st := by
  obtain ⟨h, hl⟩ := fix_start
  obtain ⟨W, hW, rfl', e1, e2, e3, -, e5, e6, e7, -⟩ := world_for std_sensible fix_fits (by decide) (by decide) (by decide) (by decide) (by decide) (by decide)
    (scheduled_legal std_sensible fix_fits flat_scored 1 3 4) (fun _ => ⟨0, Fixture.serStep.draw, 0⟩) (fun _ => rfl) (fun g _ => (g.edges.length : ℚ) + 1) .lbfgsGa
  have h0 : Design.Alive W (x, h) := by
    unfold Design.Alive
    rw [rfl', e1, e2, hx]
    exact hl
  rw [← e2] at e3
  obtain ⟨st, hst⟩ := C104_finishes (base := designBase (.tournament 2)) (start := (x, h)) (mgr := none) hW flat_scored (fun _ _ => ⟨_, rfl⟩) (by decide) (by rw [e2]; decide) e7
    (designBase_sane _) (show 0 < 3 by decide) (show 0 < 2 by decide) (show 4 ≠ 1 by decide) (designBase_elite _) e3 e6 (by rw [e5]; decide) (.inl ⟨2, rfl, by decide⟩)
    ⟨fun _ => (x, h), 0, 0⟩ h0 (by rw [hx]; exact fix_open) (fun S hS => by cases hS)
  exact ⟨W, h, st, hW, h0, e3, hst⟩

/-- What the theorems say about the designs of this run. -/
example (x : Ind) (hx : x.graph = Fixture.g) : ∃ (W : RunWorld) (h : Heap) (st : RunSt Design ℚ), W.Sound ∧
    topologyOptimization (W.cfg (designBase (.tournament 2))) ⟨fun _ => (x, h), 0, 0⟩ (x, h) none = .ok st ∧ st.trace.length = 4 ∧ (∀ gen ∈ st.trace, gen.length = 3) ∧
    (∀ k gen, st.trace[k]? = some gen → ∀ q ∈ gen, 4 ≤ q.2.1.graph.edges.length + k ∧ q.2.1.graph.edges.length ≤ 4 + min (k + 1) 3) ∧
    (∀ gen, st.trace[0]? = some gen → ∀ q ∈ gen, q.2.1.latest ≠ some .remove) ∧
    (∀ gen, st.trace[3]? = some gen → ∀ q ∈ gen, q.2.1.latest = some .remove ∨ q.2.1.latest = some .swap) := by
  obtain ⟨W, h, st, hW, h0, e3, hst⟩ := scheduled_demo x hx
  refine ⟨W, h, st, hW, hst, ?_⟩
  have hr : (designBase (.tournament 2)).rule.Single := .inl ⟨2, rfl⟩
  have hn : (designBase (.tournament 2)).nPop = 3 := rfl
  have hg : (designBase (.tournament 2)).nGen = 4 := rfl
  have hel := designBase_elite (.tournament 2)
  have hs := designBase_sane (.tournament 2)
  have hx4 : x.graph.edges.length = 4 := by rw [hx]; decide
  generalize designBase (.tournament 2) = B at hst hr hn hg hel hs
  have hpop : 0 < B.nPop := by rw [hn]; decide
  have hm : ∀ S, (none : Option (Spec Nat ℚ)) = some S → SpecReach B.sqrt S := fun S hS => by cases hS
  have e3 : W.matrix = scheduledEvolver W.lib allOps flatScores (fun _ l => l) (0 + 1) B.nPop B.nGen := by rw [hn, hg]; exact e3
  obtain ⟨hl, hlen, -⟩ := C104_calls (cfg := W.cfg B) ⟨hs.1, hs.2⟩ hpop hr hel hm hst
  refine ⟨hl.trans hg, fun gen h => (hlen gen h).trans hn, fun k gen hk q hq => ?_, fun gen hk q hq hl => ?_, fun gen hk q hq => ?_⟩
  · obtain ⟨a, b, -⟩ := C104_sizes (w := ⟨fun _ => (x, h), 0, 0⟩) hW flat_scored hs hpop hr hel e3 h0 hm hst hk hq
    dsimp only at a b
    rw [hx4] at a b
    rw [hg] at b
    exact ⟨a, b⟩
  · obtain ⟨p, r, -, -, b, -, -, c, -⟩ := C104_steps (w := ⟨fun _ => (x, h), 0, 0⟩) hW flat_scored hs hpop hr hel e3 h0 hm hst hk hq
    rw [hl] at b
    injection b with b
    exact absurd (c b.symm) (by decide)
  · obtain ⟨p, r, -, -, b, -, -, -, c⟩ := C104_steps (w := ⟨fun _ => (x, h), 0, 0⟩) hW flat_scored hs hpop hr hel e3 h0 hm hst hk hq
    rw [hg] at c
    rw [b]
    cases ho : r.op with
    | addSeries => exact absurd (c (.inl ho)) (by decide)
    | addParallel => exact absurd (c (.inr ho)) (by decide)
    | remove => exact .inl rfl
    | swap => exact .inr rfl

/-! ### A run that is lost -/

/-- Source, one power splitter, sink, the light source and the detector protected, as in `scripts/test_pulse_rep_talbot.py:31-39`. -/
def lostStart : Graph :=
  { nodes := [⟨0, Fixture.src, 1⟩, ⟨1, Fixture.split 2, 40⟩, ⟨3, Fixture.snk, 2⟩]
    edges := [⟨0, 1, 0, ⟨4, 10, true, .inputNode, 0⟩, 10⟩, ⟨1, 3, 0, Fixture.diode 7, 20⟩] }

/-- The same with a fibre inserted. -/
def lostGrown : Graph :=
  { nodes := [⟨0, Fixture.src, 1⟩, ⟨1, Fixture.split 2, 40⟩, ⟨3, Fixture.snk, 2⟩, ⟨9, Fixture.split 9, 40⟩]
    edges := [⟨0, 1, 0, ⟨4, 10, true, .inputNode, 0⟩, 10⟩, ⟨1, 9, 0, Fixture.fiber 8, 30⟩, ⟨9, 3, 0, Fixture.diode 7, 20⟩] }

theorem lostStart_wf : lostStart.WF where
  ids_nodup := by decide
  refs_nodup := by decide
  src_mem := by decide
  dst_mem := by decide

theorem lostStart_topo : lostStart.IsTopo [0, 1, 3] where
  nodup := by decide
  mem_iff := by intro v; rw [show lostStart.ids = [0, 1, 3] by decide]
  forward := by decide

theorem lostStart_placed : Placed fixCls lostStart where
  nodes := by unfold Part.IsNode; decide
  edges := by unfold Part.IsNode; decide
  distinct := by decide

theorem lostStart_alive : ∃ h, Lifetime stdSettings fixCls Fixture.lib lostStart h := by
  have hn : ∀ n ∈ lostStart.nodes, fixHeap n.comp.uid = newModel stdSettings (fixCls n.comp.cls) := by
    intro n hn
    simp only [lostStart, List.mem_cons, List.not_mem_nil, or_false] at hn
    rcases hn with rfl | rfl | rfl <;> rfl
  have he : ∀ n ∈ lostStart.edges, fixHeap n.comp.uid = newModel stdSettings (fixCls n.comp.cls) := by
    intro n hn
    simp only [lostStart, List.mem_cons, List.not_mem_nil, or_false] at hn
    rcases hn with rfl | rfl <;> rfl
  have hk : Kit stdSettings fixCls lostStart fixHeap := ⟨lostStart_wf, lostStart_topo.acyclic, lostStart_placed,
      fun n hn' hsp => by rw [hn n hn', newModel, sheet_terminal (lostStart_placed.nodes n hn') hsp]; exact OfSheet.self _,
      fun e he' => by rw [he e he']; exact OfSheet.self _, fun e he' => by rw [he e he']; exact newModel_inBounds std_sensible _⟩
  obtain ⟨h', h1, -⟩ := hk.update
  exact ⟨h', .start lostStart_wf lostStart_topo.acyclic lostStart_placed hn he h1⟩

/-- The evolver of the lost run: one individual, three generations. -/
def lostEvolver : Nat → Graph → Heap → Except Err PMat := scheduledEvolver Fixture.lib allOps flatScores (fun _ l => l) 1 1 3

/-- Its random numbers: an insertion, then its removal. -/
def lostPick (n : Nat) : Pick := if n = 1 then ⟨20, ⟨9, Fixture.fiber 8, Fixture.split 9⟩, 1⟩ else ⟨30, ⟨19, Fixture.fiber 18, Fixture.split 19⟩, 2⟩

/-- The graph after a mutation. -/
def graphAfter (lib : Library) (matrix : Except Err PMat) (g : Graph) (c : Pick) : Except Err Graph :=
  match matrix with
  | .error e => .error e
  | .ok M => match M.sample c.k with
    | .error e => .error e
    | .ok (l, o) => applyOp lib g o l c.draw

theorem designEv_graph {n : Nat} {d d' : Design} (h : designEv W n d = .ok d') : graphAfter W.lib (W.matrix n d.1.graph d.2) d.1.graph (W.pick n d) = .ok d'.1.graph := by
  unfold designEv evolveCall at h
  unfold graphAfter
  cases hM : W.matrix n d.1.graph d.2 with
  | error e => rw [hM] at h; cases h
  | ok M =>
    rw [hM] at h
    dsimp only at h ⊢
    cases hs : M.sample (W.pick n d).k with
    | error e => rw [hs] at h; cases h
    | ok lo =>
      obtain ⟨l, o⟩ := lo
      rw [hs] at h
      dsimp only at h ⊢
      cases ha : applyOp W.lib d.1.graph o l (W.pick n d).draw with
      | error e => rw [ha] at h; cases h
      | ok g' =>
        rw [ha] at h
        dsimp only at h
        split at h
        · next hx =>
          injection h with h
          subst h
          split at hx
          · simp at hx
          · split at hx
            · simp at hx
            · split at hx
              · simp only [Prod.mk.injEq] at hx
                rw [← hx.1]
              · simp at hx
        · cases h

/-- Arguments of the lost run. -/
def lostBase : TopCfg Design ℚ where
  nPop := 1
  nGen := 3
  nHof := 1
  rule := .tournament 2
  ratio := 0
  ev := fun _ c => .ok c
  chk := fun _ => true
  hasParams := fun _ => true
  over := fun _ c => c
  opt := fun _ c => .ok (1, c)
  sim := fun _ _ _ => false
  u := fun _ => 0
  draw := fun n j => n + j
  dist := fun _ _ => 0
  sqrt := fun _ => 2
  specRnd := fun _ => ⟨fun l => l, fun _ l => l⟩
  decay := fun _ => none
  setup := none
  fuel := 9

theorem lost_allowed {n : Nat} {x : Ind} {h : Heap} {l : Loc} {o : Op} (hk : (match lostEvolver n x.graph (fun m => h m) with
      | .ok M => decide ((lostPick n).k < M.locs.length * M.ops.length) && decide (0 < M.flat (lostPick n).k) && decide (M.sample (lostPick n).k = .ok (l, o))
      | .error _ => false) = true) (hd : drawOk Fixture.lib x.graph o l (lostPick n).draw) (hn : NewObjects x.graph (lostPick n).draw) :
    PickAllowed Fixture.lib lostEvolver n (x, h) (lostPick n) := by
  intro M hM
  dsimp only at hM
  rw [hM] at hk
  simp only [Bool.and_eq_true, decide_eq_true_eq] at hk
  refine ⟨⟨hk.1.1, hk.1.2⟩, fun l' o' hs => ?_⟩
  rw [hk.2] at hs
  injection hs with hs
  injection hs with a b
  subst a
  subst b
  exact ⟨hd, hn⟩

/-- **C104 (finding).** A run that cannot return: a bare start with protected ends, sound settings, working optimisers, random numbers the matrices allow.  The insertion of the
first generation is removed in the second, and the last one raises. -/
theorem C104_run_lost (x : Ind) (hx : x.graph = lostStart) : ∃ (W : RunWorld) (h : Heap), W.Sound ∧ Design.Alive W (x, h) ∧ (∀ n d, (W.env n d).Working) ∧ W.method = .lbfgsGa ∧
    W.matrix = scheduledEvolver W.lib allOps flatScores (fun _ l => l) 1 1 3 ∧ ∀ st, topologyOptimization (W.cfg lostBase) ⟨fun _ => (x, h), 0, 0⟩ (x, h) none ≠ .ok st := by
  obtain ⟨h, hl⟩ := lostStart_alive
  obtain ⟨W, hW, rfl', e1, e2, e3, -, e5, e6, e7, e8⟩ := world_for std_sensible fix_fits (by decide) (by decide) (by decide) (by decide) (by decide) (by decide)
    (scheduled_legal std_sensible fix_fits flat_scored 1 1 3) lostPick (fun n => by unfold lostPick; split <;> rfl) (fun g _ => (g.edges.length : ℚ) + 1) .lbfgsGa
  have h0 : Design.Alive W (x, h) := by
    unfold Design.Alive
    rw [rfl', e1, e2, hx]
    exact hl
  refine ⟨W, h, hW, h0, e6, e5, by rw [e3, e2], fun st hst => ?_⟩
  have hsane : Sane lostBase := ⟨fun _ => ⟨fun _ => .refl _, fun _ _ => .refl _⟩, by intro S h; cases h⟩
  obtain ⟨c1, c2, -, s0, c3, c4⟩ := C104_calls (cfg := W.cfg lostBase) ⟨hsane.1, hsane.2⟩ (show 0 < 1 by decide) (.inl ⟨2, rfl⟩)
    (show pyRound ((0 : ℚ) * (1 : Nat)) = 0 by decide +kernel) (fun S hS => by cases hS) hst
  have hal := (C103_run (base := lostBase) hW hsane (show 0 < 1 by decide) (fun r h => by cases h) h0 (fun S hS => by cases hS) hst).1
  have c1 : st.trace.length = 3 := c1
  -- what the parameter optimisation returns has the graph it was given
  have hopt : ∀ {m : Nat} {p b : Design} {n : Nat} {q : ℚ × Design}, Design.Alive W p → designEv W m p = .ok b → (W.cfg lostBase).opt n b = .ok q → q.2.1.graph = b.1.graph := by
    intro m p b n q hp hb hq
    obtain ⟨b1, -⟩ := evolved_design hW hp hb
    rw [(C103_optimised (s := q.1) (d' := q.2) hW b1 hq).1]
  have hat : ∀ {k : Nat} (hk : k < 3) {q : ℚ × Design}, q ∈ st.trace[k]'(by omega) → ∃ p b n,
      ((k = 0 ∧ p = s0.2) ∨ ∃ j, ∃ hj : j < 3, k = j + 1 ∧ ∃ s, (s, p) ∈ st.trace[j]'(by omega)) ∧ Design.Alive W p ∧ designEv W (1 + 2 * k) p = .ok b ∧ (W.cfg lostBase).opt n b = .ok q ∧
      q.2.1.graph = b.1.graph := by
    intro k hk q hq
    obtain ⟨p, b, m, n, d1, d2, d3, -, d4, d5⟩ := c4 k _ (List.getElem?_eq_getElem (by omega)) q hq
    have hm : m = 1 + 2 * k := by
      have e : (W.cfg lostBase).nPop = 1 := rfl
      rw [e] at d2 d3
      dsimp only at d2 d3
      omega
    subst hm
    have hp : Design.Alive W p.2 := by
      rcases d1 with ⟨-, rfl⟩ | ⟨j, prev, -, hj, hpm⟩
      · exact (start_stands (base := lostBase) hW h0 c3).1.1
      · exact (hal j prev hj p hpm).1
    refine ⟨p.2, b, n, ?_, hp, d4, d5, hopt hp d4 d5⟩
    rcases d1 with ⟨hk0, rfl⟩ | ⟨j, prev, hj, hjp, hpm⟩
    · exact .inl ⟨hk0, rfl⟩
    · obtain ⟨hj', rfl⟩ := List.getElem?_eq_some_iff.1 hjp
      exact .inr ⟨j, by omega, hj, p.1, hpm⟩
  have hne : ∀ {k : Nat} (hk : k < 3), ∃ q, q ∈ st.trace[k]'(by omega) := by
    intro k hk
    have : (st.trace[k]'(by omega)).length = 1 := c2 _ (List.getElem_mem _)
    exact ⟨_, List.getElem_mem (n := 0) (by omega)⟩
  have g0 : ∀ q ∈ st.trace[0]'(by omega), q.2.1.graph = lostGrown := by
    intro q hq
    obtain ⟨p, b, n, f1, hp, f2, f3, f4⟩ := hat (by decide) hq
    rcases f1 with ⟨-, rfl⟩ | ⟨j, -, hj, -⟩
    · have hg : s0.2.1.graph = lostStart := by rw [(start_stands (base := lostBase) hW h0 c3).2, hx]
      have := designEv_graph f2
      rw [f4]
      have hpk : W.pick (1 + 2 * 0) s0.2 = lostPick 1 := by
        refine e8 1 s0.2 (lost_allowed (l := .iface ⟨1, ⟨1, 3, 0⟩⟩) (o := .addSeries) ?_ ?_ ?_)
        · rw [hg]; exact (by decide +kernel : (match lostEvolver 1 lostStart fixHeap with
            | .ok M => decide ((lostPick 1).k < M.locs.length * M.ops.length) && decide (0 < M.flat (lostPick 1).k) &&
                decide (M.sample (lostPick 1).k = .ok (Loc.iface ⟨1, ⟨1, 3, 0⟩⟩, Op.addSeries))
            | .error _ => false) = true)
        · rw [hg]; exact ⟨by decide, by decide, by decide⟩
        · rw [hg]; exact ⟨by decide, by decide, by decide⟩
      rw [hpk, e2, e3, hg] at this
      have h2 : graphAfter Fixture.lib (lostEvolver 1 lostStart fixHeap) lostStart (lostPick 1) = .ok lostGrown := by decide +kernel
      have h3 : (Except.ok b.1.graph : Except Err Graph) = .ok lostGrown := this.symm.trans h2
      injection h3
    · omega
  have g1 : ∀ q ∈ st.trace[1]'(by omega), q.2.1.graph = lostStart := by
    intro q hq
    obtain ⟨p, b, n, f1, hp, f2, f3, f4⟩ := hat (by decide) hq
    rcases f1 with ⟨hj, -⟩ | ⟨j, hj', hj, s, hpm⟩
    · omega
    · obtain rfl : j = 0 := by omega
      have hg := g0 _ hpm
      dsimp only at hg
      have := designEv_graph f2
      rw [f4]
      have hpk : W.pick (1 + 2 * 1) p = lostPick 3 := by
        refine e8 3 p (lost_allowed (l := .iface ⟨1, ⟨1, 9, 0⟩⟩) (o := .remove) ?_ ?_ ?_)
        · rw [hg]; exact (by decide +kernel : (match lostEvolver 3 lostGrown fixHeap with
            | .ok M => decide ((lostPick 3).k < M.locs.length * M.ops.length) && decide (0 < M.flat (lostPick 3).k) &&
                decide (M.sample (lostPick 3).k = .ok (Loc.iface ⟨1, ⟨1, 9, 0⟩⟩, Op.remove))
            | .error _ => false) = true)
        · trivial
        · rw [hg]; exact ⟨by decide, by decide, by decide⟩
      rw [hpk, e2, e3, hg] at this
      have h2 : graphAfter Fixture.lib (lostEvolver 3 lostGrown fixHeap) lostGrown (lostPick 3) = .ok lostStart := by decide +kernel
      have h3 : (Except.ok b.1.graph : Except Err Graph) = .ok lostStart := this.symm.trans h2
      injection h3
  obtain ⟨q, hq⟩ := hne (k := 2) (by decide)
  obtain ⟨p, b, n, f1, hp, f2, f3, f4⟩ := hat (by decide) hq
  rcases f1 with ⟨hj, -⟩ | ⟨j, hj', hj, s, hpm⟩
  · omega
  · obtain rfl : j = 1 := by omega
    have hg := g1 _ hpm
    dsimp only at hg
    have := designEv_graph f2
    rw [e2, e3, hg] at this
    have hto : lostStart.topoSort = .ok [0, 1, 3] := by decide +kernel
    have hstuck := C104_stuck (lib := Fixture.lib) (ops := allOps) (c0 := 1) (nPop := 1) (nGen := 3) (n := 1 + 2 * 2) (h := p.2) flat_scored lostStart_wf lostStart_topo.acyclic hto
      (by decide +kernel) (by decide +kernel) (by decide) (by decide) (by decide) rfl
    rw [hstuck] at this
    cases this

end Verif
