import Verif.Lemmas.Evolver
import Verif.Props.Evolution
/-!
# Properties of the evolvers (C11 - C16)
-/

namespace Verif
open Graph Finset

/-- **C11.** The lookup evolver's matrix: with no legal mutation an error is raised; otherwise the matrix is a
distribution, each (location, operator) pair has one entry, it is `1/N` for the `N` legal mutations and zero for
all others. -/
theorem C11_lookup_uniform {lib ops} {g : Graph} (hw : g.WF) (ha : g.Acyclic) {order} (hto : g.topoSort = .ok order)
    (hops : ops.Nodup) :
    ((∀ o ∈ ops, locs lib g order o = []) → lookupMatrix lib ops g = .error .runtimeWarning) ∧
    ((∃ o ∈ ops, locs lib g order o ≠ []) → ∃ M, lookupMatrix lib ops g = .ok M ∧ M.IsDistribution ∧
      M.ops = ops ∧ M.locs.Nodup ∧ (∀ o ∈ ops, ∀ l ∈ locs lib g order o, l ∈ M.locs) ∧
      ∀ i j l o, M.locs[i]? = some l → M.ops[j]? = some o →
        (l ∈ locs lib g order o → M.m i j = 1 / (legalCount lib ops g order : ℚ) ∧ 0 < M.m i j) ∧
        (l ∉ locs lib g order o → M.m i j = 0)) := by
  have key : legalCount lib ops g order = 0 ↔ ∀ o ∈ ops, locs lib g order o = [] := by
    unfold legalCount
    rw [List.sum_eq_zero_iff]
    simp
  refine ⟨fun h => (lookup_spec hw ha hto hops).1 (key.2 h), fun ⟨o, ho, hne⟩ => ?_⟩
  have hN : legalCount lib ops g order ≠ 0 := fun h => hne (key.1 h o ho)
  obtain ⟨M, m1, m2, m3, m4, m5⟩ := (lookup_spec (lib := lib) hw ha hto hops).2 hN
  have h1 : (1 : ℚ) ≤ legalCount lib ops g order := by exact_mod_cast Nat.one_le_iff_ne_zero.2 hN
  refine ⟨M, m1, ⟨?_, m4⟩, m3, m2 ▸ allLocs_nodup hw ha (topoSort_sound hw hto).nodup, ?_, ?_⟩
  · intro i hi j hj
    rw [m5 i j _ _ (List.getElem?_eq_getElem hi) (List.getElem?_eq_getElem hj)]
    split
    · exact ⟨by positivity, by rw [div_le_one (by linarith)]; exact h1⟩
    · exact ⟨le_refl _, by norm_num⟩
  · intro o _ l hl
    rw [m2]; exact locs_subset hl
  · intro i j l o hl ho
    rw [m5 i j l o hl ho]
    refine ⟨fun h => ?_, fun h => if_neg h⟩
    rw [if_pos h]
    exact ⟨rfl, by positivity⟩

/-- All four operators. -/
def allOps : List Op := [.addSeries, .addParallel, .remove, .swap]

/-- The order in which the fixture is sorted. -/
theorem fixture_topo : Fixture.g.topoSort = .ok [0, 1, 2, 3] := by decide +kernel

example : ∃ M, lookupMatrix Fixture.lib allOps Fixture.g = .ok M ∧ M.IsDistribution := by
  obtain ⟨M, h1, h2, _⟩ := (C11_lookup_uniform (lib := Fixture.lib) (ops := allOps) Fixture.g_wf Fixture.g_acyclic
    fixture_topo (by decide)).2 ⟨.addSeries, by decide, by decide⟩
  exact ⟨M, h1, h2⟩

/-- **C12.** Whatever index is drawn decodes to a legal mutation, and every legal mutation is decoded from exactly
one index that can be drawn. -/
theorem C12_sampling_legal {lib ops} {g : Graph} (hw : g.WF) (ha : g.Acyclic) {order} (hto : g.topoSort = .ok order)
    (hops : ops.Nodup) {M} (hM : lookupMatrix lib ops g = .ok M) :
    (∀ k, M.CanDraw k → ∃ l o, M.sample k = .ok (l, o) ∧ o ∈ ops ∧ l ∈ locs lib g order o) ∧
    (∀ o ∈ ops, ∀ l ∈ locs lib g order o, ∃! k, M.CanDraw k ∧ M.sample k = .ok (l, o)) := by
  have hex : ∃ o ∈ ops, locs lib g order o ≠ [] := by
    by_contra hc
    rw [(C11_lookup_uniform hw ha hto hops).1 (by push Not at hc; exact hc)] at hM
    cases hM
  obtain ⟨M', m1, _, m3, m4, m5, m6⟩ := (C11_lookup_uniform hw ha hto hops).2 hex
  rw [hM] at m1; injection m1 with m1; subst m1
  refine ⟨fun k hk => ?_, fun o ho l hl => ?_⟩
  · obtain ⟨l, o, h1, h2, h3⟩ := sample_spec M hk.1
    refine ⟨l, o, h1, m3 ▸ List.mem_of_getElem? h3, ?_⟩
    by_contra hc
    have h0 := (m6 _ _ l o h2 h3).2 hc
    have := hk.2
    unfold PMat.flat at this
    rw [h0] at this
    exact lt_irrefl _ this
  · have hlm := m5 o ho l hl
    obtain ⟨i, hi, hil⟩ := List.getElem_of_mem hlm
    obtain ⟨j, hj, hjo⟩ := List.getElem_of_mem ho
    have hops' : M.ops.Nodup := m3 ▸ hops
    have hj' : j < M.ops.length := by rw [m3]; exact hj
    have hjo' : M.ops[j]? = some o := by rw [m3, List.getElem?_eq_getElem hj, hjo]
    have hil' : M.locs[i]? = some l := by rw [List.getElem?_eq_getElem hi, hil]
    have hdiv : (i * M.ops.length + j) / M.ops.length = i := by
      rw [Nat.mul_comm, Nat.mul_add_div (by omega), Nat.div_eq_of_lt hj', Nat.add_zero]
    have hmod : (i * M.ops.length + j) % M.ops.length = j := by
      rw [Nat.mul_comm, Nat.mul_add_mod, Nat.mod_eq_of_lt hj']
    refine ⟨i * M.ops.length + j, ⟨⟨?_, ?_⟩, ?_⟩, ?_⟩
    · calc i * M.ops.length + j < i * M.ops.length + M.ops.length := by omega
        _ = (i + 1) * M.ops.length := by ring
        _ ≤ M.locs.length * M.ops.length := Nat.mul_le_mul_right _ hi
    · unfold PMat.flat
      rw [hdiv, hmod]
      exact ((m6 i j l o hil' hjo').1 hl).2
    · unfold PMat.sample
      rw [hdiv, hmod, hil', hjo']
    · rintro k ⟨hk1, hk2⟩
      obtain ⟨l', o', h1, h2, h3⟩ := sample_spec M hk1.1
      rw [hk2] at h1
      injection h1 with h1
      injection h1 with e1 e2
      subst e1 e2
      have a1 := ((get?_idxOf_iff m4).1 h2).2
      have a2 := ((get?_idxOf_iff m4).1 hil').2
      have b1 := ((get?_idxOf_iff hops').1 h3).2
      have b2 := ((get?_idxOf_iff hops').1 hjo').2
      have hkk := Nat.div_add_mod k M.ops.length
      rw [← a1, a2, ← b1, b2] at hkk
      rw [← hkk, Nat.mul_comm]

/-- **C12.** An evolve step with the lookup evolver never fails on a valid graph with a legal mutation, whatever is
drawn, and its result is that of a legal step. -/
theorem C12_evolve_never_fails {lib ops} {x : Ind} (hw : x.graph.WF) (ha : x.graph.Acyclic) (hops : ops.Nodup)
    {M k l o} (hM : lookupMatrix lib ops x.graph = .ok M) (hk : M.CanDraw k) (hs : M.sample k = .ok (l, o))
    {d} (hd : drawOk lib x.graph o l d) (uuid : Nat) :
    ∃ y, evolveGraph lib (lookupMatrix lib ops) x k d uuid = .ok (y, o) ∧
      LegalStep lib x.graph ⟨o, l, d⟩ y.graph := by
  obtain ⟨order, hto⟩ := topoSort_complete hw ha
  obtain ⟨l', o', h1, _, h3⟩ := (C12_sampling_legal hw ha hto hops hM).1 k hk
  rw [hs] at h1; injection h1 with h1; injection h1 with e1 e2; subst e1 e2
  obtain ⟨g', hg'⟩ := applyOp_total hw h3 hd
  have hleg : LegalStep lib x.graph ⟨o, l, d⟩ g' := ⟨⟨order, topoSort_sound hw hto, h3⟩, hd, hg'⟩
  obtain ⟨o2, ho2⟩ := topoSort_complete (step_wf hw ha hleg) (step_acyclic hw ha hleg)
  refine ⟨⟨g', uuid, x.current, some o⟩, ?_, hleg⟩
  unfold evolveGraph
  simp only [hM, hs, hg', ho2]

/-- An evolve step whose matrix allows only offered pairs is a legal step. -/
theorem evoStep_legal {lib matrix x y l o d uuid} (hw : x.graph.WF)
    (hm : ∀ M order, x.graph.topoSort = .ok order → matrix x.graph = .ok M → OnlyLegal lib x.graph order M)
    (ha : x.graph.Acyclic) (h : EvoStep lib matrix x y l o d uuid) : LegalStep lib x.graph ⟨o, l, d⟩ y.graph := by
  obtain ⟨M, k, h1, h2, h3, h4, h5⟩ := h
  obtain ⟨order, hto⟩ := topoSort_complete hw ha
  obtain ⟨l', o', s1, s2, s3⟩ := sample_spec M h2.1
  rw [h3] at s1; injection s1 with s1; injection s1 with e1 e2; subst e1 e2
  have hl := hm M order hto h1 _ _ l o s2 s3 h2.2
  refine ⟨⟨order, topoSort_sound hw hto, hl⟩, h4, ?_⟩
  unfold evolveGraph at h5
  simp only [h1, h3] at h5
  split at h5
  · cases h5
  · rename_i g' hg'
    split at h5
    · cases h5
    · injection h5 with h5
      injection h5 with h5 _
      rw [← h5]; exact hg'

theorem lookup_onlyLegal {lib ops} {g : Graph} (hw : g.WF) (ha : g.Acyclic) (hops : ops.Nodup) {M order}
    (hto : g.topoSort = .ok order) (hM : lookupMatrix lib ops g = .ok M) : OnlyLegal lib g order M := by
  intro i j l o hl ho hpos
  by_contra hc
  have hex : ∃ o ∈ ops, locs lib g order o ≠ [] := by
    by_contra hc
    rw [(C11_lookup_uniform hw ha hto hops).1 (by push Not at hc; exact hc)] at hM
    cases hM
  obtain ⟨M', m1, _, _, _, _, m6⟩ := (C11_lookup_uniform hw ha hto hops).2 hex
  rw [hM] at m1; injection m1 with m1; subst m1
  rw [(m6 i j l o hl ho).2 hc] at hpos
  exact lt_irrefl _ hpos

/-- **C12.** Any number of evolve steps of the lookup evolver is a history of legal steps, so everything proved
about histories (C01 - C09) applies to every graph the evolver can reach. -/
theorem C12_run_is_history {lib ops} {x0 : Ind} (hw : x0.graph.WF) (ha : x0.graph.Acyclic) (hops : ops.Nodup)
    {x xs os} (h : EvoRun lib (· = lookupMatrix lib ops) x0 (x :: xs) os) :
    ∃ rs, History lib x0.graph rs x.graph ∧ rs.map (fun r => r.2.op) = os := by
  generalize hL : x :: xs = L at h
  induction h generalizing x xs with
  | start =>
    injection hL with h1 h2; subst h1
    exact ⟨[], .nil, rfl⟩
  | step hrun hms hstep _ ih =>
    injection hL with h1 h2; subst h1
    obtain ⟨rs, h3, h4⟩ := ih rfl
    obtain ⟨w, a⟩ := history_dag hw ha h3
    subst hms
    have := evoStep_legal w (fun M order hto hM => lookup_onlyLegal w a hops hto hM) a hstep
    exact ⟨_, .step h3 this, by simp [h4]⟩

/-- **C13.** With non-negative operator weights the operator-based evolver raises an error if the applicable operators
have no weight at all; otherwise each applicable operator gets its weight divided by the weight of the applicable
ones, inapplicable operators get zero, and all locations of one operator are equally likely. -/
theorem C13_operator_weights {lib ops} {g : Graph} (hw : g.WF) (ha : g.Acyclic) {order}
    (hto : g.topoSort = .ok order) (hops : ops.Nodup) {w : Op → ℚ} (hw0 : ∀ o ∈ ops, 0 ≤ w o) :
    (activeWeight lib ops w g order = 0 → weightedMatrix lib ops noScale w g = .error .runtimeWarning) ∧
    (0 < activeWeight lib ops w g order → ∃ M, weightedMatrix lib ops noScale w g = .ok M ∧ M.IsDistribution ∧
      M.ops = ops ∧ M.locs.Nodup ∧ (∀ o ∈ ops, ∀ l ∈ locs lib g order o, l ∈ M.locs) ∧
      (∀ j o, M.ops[j]? = some o → (locs lib g order o = [] → M.opTotal j = 0) ∧
        (locs lib g order o ≠ [] → M.opTotal j = w o / activeWeight lib ops w g order)) ∧
      (∀ i j l o, M.locs[i]? = some l → M.ops[j]? = some o →
        (l ∈ locs lib g order o →
          M.m i j = w o / activeWeight lib ops w g order / (locs lib g order o).length) ∧
        (l ∉ locs lib g order o → M.m i j = 0))) := by
  by_cases hN : legalCount lib ops g order = 0
  · have hall : ∀ o ∈ ops, locs lib g order o = [] := by
      intro o ho
      unfold legalCount at hN
      have := List.sum_eq_zero_iff.1 hN _ (List.mem_map_of_mem (f := fun o => (locs lib g order o).length) ho)
      simpa using this
    refine ⟨fun _ => ?_, fun h => ?_⟩
    · unfold weightedMatrix; rw [(lookup_spec hw ha hto hops).1 hN]
    · exfalso
      unfold activeWeight at h
      rw [List.map_congr_left (g := fun _ => (0 : ℚ)) (fun o ho => by rw [if_pos (hall o ho)])] at h
      simp at h
  · obtain ⟨M0, hM0, _⟩ := (lookup_spec (lib := lib) hw ha hto hops).2 hN
    obtain ⟨c1, _, c3⟩ := lookup_col hw ha hto hops hM0
    have hNQ : (0 : ℚ) < legalCount lib ops g order := by exact_mod_cast Nat.pos_of_ne_zero hN
    have hidx : ∀ o ∈ ops, ops[ops.idxOf o]? = some o := fun o ho => (get?_idxOf_iff hops).2 ⟨ho, rfl⟩
    obtain ⟨f1, f2⟩ := weighted_final hw ha hto hops noScale w (fun o i => M0.m i (ops.idxOf o))
      (by
        intro M hM j o ho
        rw [hM0] at hM; injection hM with hM; subst hM
        rw [((get?_idxOf_iff hops).1 ho).2]; rfl)
      (by intro o ho he; rw [(c3 _ o (hidx o ho)).2, he]; simp)
      (by
        intro o ho he
        rw [(c3 _ o (hidx o ho)).2]
        have : (locs lib g order o).length ≠ 0 := by simpa using he
        have : ((locs lib g order o).length : ℚ) ≠ 0 := by exact_mod_cast this
        exact div_ne_zero this hNQ.ne')
      (by
        intro o ho i hi
        rw [(c3 _ o (hidx o ho)).1 i _ (List.getElem?_eq_getElem hi)]
        split
        · positivity
        · exact le_refl _)
      hw0
    refine ⟨f1, fun h => ?_⟩
    obtain ⟨M, m1, m2, m3, m4, m5, m6⟩ := f2 h.ne'
    refine ⟨M, m1, m4, m3, m2 ▸ allLocs_nodup hw ha (topoSort_sound hw hto).nodup,
      fun o _ l hl => m2 ▸ locs_subset hl, fun j o ho => ?_, fun i j l o hl ho => ?_⟩
    · rw [m6 j o (m3 ▸ ho)]
      exact ⟨fun he => if_pos he, fun he => if_neg he⟩
    · rw [m2] at hl
      rw [m3] at ho
      have hj := ((get?_idxOf_iff hops).1 ho).2
      rw [m5 i j l o hl ho, hj, (c3 j o ho).2, (c3 j o ho).1 i l hl]
      refine ⟨fun h => ?_, fun h => ?_⟩
      · rw [if_neg (List.ne_nil_of_mem h), if_pos h]
        have : (locs lib g order o).length ≠ 0 := by simpa using List.ne_nil_of_mem h
        have : ((locs lib g order o).length : ℚ) ≠ 0 := by exact_mod_cast this
        field_simp
      · rw [if_neg h]
        split <;> simp

/-- Weights 1, 2, 0, 1 on the fixture. -/
example : ∃ M, weightedMatrix Fixture.lib allOps noScale
    (fun o => match o with | .addSeries => 1 | .addParallel => 2 | .remove => 0 | .swap => 1) Fixture.g = .ok M := by
  obtain ⟨M, h, _⟩ := (C13_operator_weights (lib := Fixture.lib) (ops := allOps) Fixture.g_wf Fixture.g_acyclic
    fixture_topo (by decide) (w := fun o => match o with | .addSeries => 1 | .addParallel => 2 | .remove => 0 | .swap => 1)
    (by decide)).2 (by decide +kernel)
  exact ⟨M, h⟩

/-- **C14.** The tournament on a column whose possible rows (those with non-zero probability) are interfaces with a
score: for every shuffle one possible row gets everything; it belongs to the `k` rows sampled,
`k = max(1, round(n/2))`, and has the smallest score among them; so at least `k` possible rows have a score at
least as large. -/
theorem C14_tournament {locs : List Loc} {score : EdgeRef → Option ℚ} {c s : Nat → ℚ} {shuffle : List Nat → List Nat}
    (hsh : ∀ l, (shuffle l).Perm l)
    (h : ∀ i < locs.length, c i ≠ 0 → ∃ f, locs[i]? = some (.iface f) ∧ score f.edge = some (s i))
    (hne : ∃ i < locs.length, c i ≠ 0) :
    ∃ r < locs.length, c r ≠ 0 ∧
      hessianTournament score shuffle locs c = .ok (fun i => if i = r then 1 else 0) ∧
      ∃ n q k, n = ((range locs.length).filter (fun i => c i ≠ 0)).card ∧ IsRoundHalf n q ∧ k = max 1 q ∧
        ∃ T : Finset Nat, T.card = k ∧ r ∈ T ∧ ∀ i ∈ T, i < locs.length ∧ c i ≠ 0 ∧ s r ≤ s i := by
  obtain ⟨_, h2⟩ := tournament_spec (s := s) hsh h
  obtain ⟨i0, hi0, hc0⟩ := hne
  set rows := (List.range locs.length).filter (fun i => c i ≠ 0) with hrows
  have hmem : ∀ i, i ∈ rows ↔ i < locs.length ∧ c i ≠ 0 := by
    intro i; rw [hrows]; simp
  have hnd : rows.Nodup := List.nodup_range.filter _
  obtain ⟨r, hr, h3, h4, h5⟩ := h2 (List.ne_nil_of_mem ((hmem i0).2 ⟨hi0, hc0⟩))
  refine ⟨r, ((hmem r).1 hr).1, ((hmem r).1 hr).2, h3, rows.length, roundHalf rows.length, _, ?_, roundHalf_spec _, rfl,
    ((shuffle rows).take (max 1 (roundHalf rows.length))).toFinset, ?_, ?_, ?_⟩
  · rw [← List.toFinset_card_of_nodup hnd]
    congr 1
    ext i
    rw [List.mem_toFinset, hmem, Finset.mem_filter, Finset.mem_range]
  · have hn2 : ((shuffle rows).take (max 1 (roundHalf rows.length))).Nodup :=
      ((hsh rows).nodup_iff.2 hnd).sublist (List.take_sublist _ _)
    rw [List.toFinset_card_of_nodup hn2, List.length_take, (hsh rows).length_eq]
    have hpos : rows.length ≠ 0 := by simpa using List.ne_nil_of_mem hr
    have := roundHalf_le rows.length
    omega
  · exact List.mem_toFinset.2 h4
  · intro i hi
    have hi := List.mem_toFinset.1 hi
    obtain ⟨a, b⟩ := (hmem i).1 ((hsh rows).mem_iff.1 (List.mem_of_mem_take hi))
    exact ⟨a, b, h5 i hi⟩

/-- Three possible rows with scores 5, 2, 7; reversing shuffle; two are sampled (rows 3 and 2), row 2 wins. -/
example : (match hessianTournament (fun r => some (match r.src with | 0 => (5 : ℚ) | 1 => 2 | _ => 7)) List.reverse
    [.node 0, .iface ⟨0, ⟨0, 1, 0⟩⟩, .iface ⟨1, ⟨1, 2, 0⟩⟩, .iface ⟨2, ⟨2, 3, 0⟩⟩]
    (fun i => if i = 0 then 0 else 1/3) with
    | .ok f => decide (f 0 = 0 ∧ f 1 = 0 ∧ f 2 = 1 ∧ f 3 = 0)
    | .error _ => false) = true := by decide +kernel

/-- The generation weights are non-negative for `gen` in `[0,1]`. -/
theorem genWeight_nonneg {gen : ℚ} (h0 : 0 ≤ gen) (h1 : gen ≤ 1) (o : Op) : 0 ≤ genWeight gen o := by
  cases o <;> simp only [genWeight] <;> linarith

/-- How the weight depends on the generation. -/
theorem activeWeight_gen (lib ops) (g : Graph) (order) : ∃ A R S : ℚ, 0 ≤ A ∧ 0 ≤ R ∧ 0 ≤ S ∧
    (∀ gen, activeWeight lib ops (genWeight gen) g order = A * (1 - gen) + R * (2 * gen) + S) := by
  induction ops with
  | nil => exact ⟨0, 0, 0, le_refl _, le_refl _, le_refl _, by intro gen; simp [activeWeight]⟩
  | cons o ops ih =>
    obtain ⟨A, R, S, hA, hR, hS, h⟩ := ih
    have hcons : ∀ gen, activeWeight lib (o :: ops) (genWeight gen) g order =
        (if locs lib g order o = [] then 0 else genWeight gen o) + activeWeight lib ops (genWeight gen) g order := by
      intro gen; simp [activeWeight]
    by_cases he : locs lib g order o = []
    · exact ⟨A, R, S, hA, hR, hS, fun gen => by rw [hcons, if_pos he, h]; ring⟩
    · cases o with
      | addSeries => exact ⟨A + 1, R, S, by linarith, hR, hS, fun gen => by rw [hcons, if_neg he, h, genWeight]; ring⟩
      | addParallel => exact ⟨A + 1, R, S, by linarith, hR, hS, fun gen => by rw [hcons, if_neg he, h, genWeight]; ring⟩
      | remove => exact ⟨A, R + 1, S, hA, by linarith, hS, fun gen => by rw [hcons, if_neg he, h, genWeight]; ring⟩
      | swap => exact ⟨A, R, S + 1, hA, hR, by linarith, fun gen => by rw [hcons, if_neg he, h, genWeight]; ring⟩

/-- The columns after the Hessian scaling: what the matrix theorems need to know about them. -/
theorem hessian_cols {lib ops} {g : Graph} (hw : g.WF) (ha : g.Acyclic) {order} (hto : g.topoSort = .ok order)
    (hops : ops.Nodup) {score : EdgeRef → Option ℚ} {shuffle : List Nat → List Nat} (hsh : ∀ l, (shuffle l).Perm l)
    (hscore : ∀ e ∈ g.edges, ∃ s, score e.ref = some s) {M0} (hM0 : lookupMatrix lib ops g = .ok M0) :
    ∃ sc : Op → Nat → ℚ,
      (∀ j o, ops[j]? = some o → hessianScale score shuffle M0.locs o (fun i => M0.m i j) = .ok (sc o)) ∧
      (∀ o ∈ ops, locs lib g order o = [] → colSum (allLocs g order).length (sc o) = 0) ∧
      (∀ o ∈ ops, locs lib g order o ≠ [] → colSum (allLocs g order).length (sc o) ≠ 0) ∧
      (∀ o ∈ ops, ∀ i < (allLocs g order).length, 0 ≤ sc o i) ∧
      (∀ o ∈ ops, ∀ i l, (allLocs g order)[i]? = some l → l ∉ locs lib g order o → sc o i = 0) ∧
      (.remove ∈ ops → locs lib g order .remove ≠ [] → ∃ f ∈ removeLocs g, ∃ r s0,
        (allLocs g order)[r]? = some (.iface f) ∧ score f.edge = some s0 ∧
        (∀ i, sc .remove i = if i = r then 1 else 0) ∧
        ∃ q k, IsRoundHalf (removeLocs g).length q ∧ k = max 1 q ∧
          ∃ T : Finset Iface, T.card = k ∧ f ∈ T ∧ ∀ f' ∈ T, f' ∈ removeLocs g ∧ ∃ s', score f'.edge = some s' ∧ s0 ≤ s') := by
  obtain ⟨c1, hN, c3⟩ := lookup_col hw ha hto hops hM0
  have hNQ : (0 : ℚ) < legalCount lib ops g order := by exact_mod_cast Nat.pos_of_ne_zero hN
  have hidx : ∀ o ∈ ops, ops[ops.idxOf o]? = some o := fun o ho => (get?_idxOf_iff hops).2 ⟨ho, rfl⟩
  have hord := (topoSort_sound hw hto).nodup
  have hnd := allLocs_nodup hw ha hord
  set col : Op → Nat → ℚ := fun o i => M0.m i (ops.idxOf o) with hcol
  have colz : ∀ o ∈ ops, locs lib g order o = [] → colSum (allLocs g order).length (col o) = 0 := by
    intro o ho he; rw [hcol]; rw [(c3 _ o (hidx o ho)).2, he]; simp
  have colnz : ∀ o ∈ ops, locs lib g order o ≠ [] → colSum (allLocs g order).length (col o) ≠ 0 := by
    intro o ho he
    rw [hcol]; rw [(c3 _ o (hidx o ho)).2]
    have : (locs lib g order o).length ≠ 0 := by simpa using he
    have : ((locs lib g order o).length : ℚ) ≠ 0 := by exact_mod_cast this
    exact div_ne_zero this hNQ.ne'
  have colpos : ∀ o ∈ ops, ∀ i < (allLocs g order).length, 0 ≤ col o i := by
    intro o ho i hi
    rw [hcol]; simp only
    rw [(c3 _ o (hidx o ho)).1 i _ (List.getElem?_eq_getElem hi)]
    split
    · positivity
    · exact le_refl _
  have colnot : ∀ o ∈ ops, ∀ i l, (allLocs g order)[i]? = some l → l ∉ locs lib g order o → col o i = 0 := by
    intro o ho i l hl hn
    rw [hcol]; simp only
    rw [(c3 _ o (hidx o ho)).1 i l hl, if_neg hn]
  have colyes : ∀ o ∈ ops, ∀ i l, (allLocs g order)[i]? = some l → l ∈ locs lib g order o → col o i ≠ 0 := by
    intro o ho i l hl hn
    rw [hcol]; simp only
    rw [(c3 _ o (hidx o ho)).1 i l hl, if_pos hn]
    positivity
  by_cases hrem : Op.remove ∈ ops ∧ locs lib g order .remove ≠ []
  · obtain ⟨hro, hrne⟩ := hrem
    -- score of a row
    let s : Nat → ℚ := fun i => match (allLocs g order)[i]? with
      | some (.iface f) => (score f.edge).getD 0
      | _ => 0
    have hrow : ∀ i < (allLocs g order).length, col .remove i ≠ 0 → ∃ f ∈ removeLocs g, (allLocs g order)[i]? = some (.iface f) ∧
        score f.edge = some (s i) := by
      intro i hi hc
      have hi' := List.getElem?_eq_getElem hi
      have hin : (allLocs g order)[i] ∈ locs lib g order .remove := by
        by_contra hcon; exact hc (colnot _ hro i _ hi' hcon)
      obtain ⟨f, hf, hfe⟩ := List.mem_map.1 hin
      obtain ⟨e, he, hre⟩ : ∃ e ∈ g.edges, f.edge = e.ref := by
        obtain ⟨e, he, nu, mu, nv, mv, hr, _⟩ := removeLocs_spec hw hf
        exact ⟨e, he, hr⟩
      obtain ⟨sv, hsv⟩ := hscore e he
      refine ⟨f, hf, by rw [hi', ← hfe], ?_⟩
      have : s i = (score f.edge).getD 0 := by
        show (match (allLocs g order)[i]? with
          | some (.iface f) => (score f.edge).getD 0
          | _ => 0) = _
        rw [hi', ← hfe]
      rw [this, hre, hsv]; rfl
    have hne : ∃ i < (allLocs g order).length, col .remove i ≠ 0 := by
      obtain ⟨l, hl⟩ := List.exists_mem_of_ne_nil _ hrne
      obtain ⟨i, hi, hil⟩ := List.getElem_of_mem (locs_subset hl)
      exact ⟨i, hi, colyes _ hro i l (by rw [List.getElem?_eq_getElem hi, hil]) hl⟩
    obtain ⟨r, hr, hrc, htour, n, q, k, hn, hq, hk, T, hTc, hrT, hT⟩ :=
      C14_tournament (score := score) (s := s) hsh
        (fun i hi hc => by obtain ⟨f, _, h1, h2⟩ := hrow i hi hc; exact ⟨f, h1, h2⟩) hne
    refine ⟨fun o i => if o = .remove then (if i = r then 1 else 0) else col o i, ?_, ?_, ?_, ?_, ?_, ?_⟩
    · intro j o ho
      have hj := ((get?_idxOf_iff hops).1 ho).2
      unfold hessianScale
      by_cases hor : o = .remove
      · subst hor
        simp only [if_true, c1]
        rw [← hj]
        exact htour
      · simp only [if_neg hor]
        rw [hcol, ← hj]
    · intro o ho he
      by_cases hor : o = .remove
      · subst hor; exact absurd he hrne
      · simp only [if_neg hor]; exact colz o ho he
    · intro o ho he
      by_cases hor : o = .remove
      · simp only [if_pos hor]
        unfold colSum
        rw [Finset.sum_ite_eq']
        simp [hr]
      · simp only [if_neg hor]; exact colnz o ho he
    · intro o ho i hi
      by_cases hor : o = .remove
      · simp only [if_pos hor]; split <;> norm_num
      · simp only [if_neg hor]; exact colpos o ho i hi
    · intro o ho i l hl hnot
      by_cases hor : o = .remove
      · simp only [if_pos hor]
        rw [if_neg]
        rintro rfl
        subst hor
        exact hrc (colnot _ ho i l hl hnot)
      · simp only [if_neg hor]; exact colnot o ho i l hl hnot
    · intro _ _
      obtain ⟨f, hf, hf1, hf2⟩ := hrow r hr hrc
      refine ⟨f, hf, r, s r, hf1, hf2, fun i => by simp, q, k, ?_, hk, ?_⟩
      · have : n = (removeLocs g).length := by
          rw [hn]
          have hsumm : (removeLocs g).length = ((locs lib g order .remove)).toFinset.card := by
            rw [List.toFinset_card_of_nodup (locs_nodup hw ha hord _)]
            simp [locs]
          rw [hsumm]
          refine Finset.card_bij (fun i _ => ((allLocs g order)[i]?).getD (.node 0)) ?_ ?_ ?_
          · intro i hi
            obtain ⟨h1, h2⟩ := Finset.mem_filter.1 hi
            have h1 := Finset.mem_range.1 h1
            rw [List.getElem?_eq_getElem h1]
            rw [List.mem_toFinset]
            by_contra hcon
            exact h2 (colnot _ hro i _ (List.getElem?_eq_getElem h1) hcon)
          · intro i hi j hj hij
            have h1 := Finset.mem_range.1 (Finset.mem_filter.1 hi).1
            have h2 := Finset.mem_range.1 (Finset.mem_filter.1 hj).1
            rw [List.getElem?_eq_getElem h1, List.getElem?_eq_getElem h2] at hij
            exact (List.Nodup.getElem_inj_iff hnd).1 hij
          · intro l hl
            have hl := List.mem_toFinset.1 hl
            obtain ⟨i, hi, hil⟩ := List.getElem_of_mem (locs_subset hl)
            refine ⟨i, ?_, ?_⟩
            · refine Finset.mem_filter.2 ⟨Finset.mem_range.2 hi, ?_⟩
              exact colyes _ hro i l (by rw [List.getElem?_eq_getElem hi, hil]) hl
            · rw [List.getElem?_eq_getElem hi, hil]; rfl
        rw [← this]; exact hq
      · let fOf : Nat → Iface := fun i => match (allLocs g order)[i]? with
          | some (.iface f) => f
          | _ => f
        have hfOf : ∀ i ∈ T, (allLocs g order)[i]? = some (.iface (fOf i)) ∧ fOf i ∈ removeLocs g ∧
            score (fOf i).edge = some (s i) := by
          intro i hi
          obtain ⟨h1, h2, _⟩ := hT i hi
          obtain ⟨f', hf', h3, h4⟩ := hrow i h1 h2
          have : fOf i = f' := by
            show (match (allLocs g order)[i]? with
              | some (.iface f) => f
              | _ => f) = f'
            rw [h3]
          rw [this]
          exact ⟨h3, hf', h4⟩
        refine ⟨T.image fOf, ?_, ?_, ?_⟩
        · rw [Finset.card_image_of_injOn, hTc]
          intro i hi j hj hij
          have h1 := (hfOf i hi).1
          have h2 := (hfOf j hj).1
          rw [hij, ← h2] at h1
          exact (List.Nodup.getElem_inj_iff hnd (hi := (hT i hi).1) (hj := (hT j hj).1)).1
            (by
              rw [List.getElem?_eq_getElem (hT i hi).1, List.getElem?_eq_getElem (hT j hj).1] at h1
              exact Option.some.inj h1)
        · refine Finset.mem_image.2 ⟨r, hrT, ?_⟩
          have := (hfOf r hrT).1
          rw [hf1] at this
          injection this with this
          injection this with this
          exact this.symm
        · intro f' hf'
          obtain ⟨i, hi, rfl⟩ := Finset.mem_image.1 hf'
          exact ⟨(hfOf i hi).2.1, s i, (hfOf i hi).2.2, (hT i hi).2.2⟩
  · refine ⟨col, ?_, colz, colnz, colpos, colnot, fun h1 h2 => absurd ⟨h1, h2⟩ hrem⟩
    intro j o ho
    have hj := ((get?_idxOf_iff hops).1 ho).2
    unfold hessianScale
    by_cases hor : o = .remove
    · subst hor
      simp only [if_true, c1]
      have hom := List.mem_of_getElem? ho
      have hem : locs lib g order .remove = [] := by
        by_contra hc; exact hrem ⟨hom, hc⟩
      have hzero : ∀ i < (allLocs g order).length, col .remove i = 0 := fun i hi =>
        colnot _ hom i _ (List.getElem?_eq_getElem hi) (by rw [hem]; simp)
      have ht := tournament_spec (score := score) (s := fun _ => 0) (c := col .remove) (locs := allLocs g order) hsh
        (fun i hi hc => absurd (hzero i hi) hc)
      rw [← hj]
      refine ht.1 ?_
      rw [List.filter_eq_nil_iff]
      intro i hi
      simp [hzero i (List.mem_range.1 hi)]
    · simp only [if_neg hor]
      rw [hcol, ← hj]

/-- Result of building the Hessian evolver's matrix, for any progress in `[0,1]`. -/
theorem hessian_final {lib ops} {g : Graph} (hw : g.WF) (ha : g.Acyclic) {order} (hto : g.topoSort = .ok order)
    (hops : ops.Nodup) {score : EdgeRef → Option ℚ} {shuffle : List Nat → List Nat} (hsh : ∀ l, (shuffle l).Perm l)
    (hscore : ∀ e ∈ g.edges, ∃ s, score e.ref = some s) {gen : ℚ} (h0 : 0 ≤ gen) (h1 : gen ≤ 1) :
    (activeWeight lib ops (genWeight gen) g order = 0 →
      hessianMatrix lib ops score shuffle gen g = .error .runtimeWarning) ∧
    (activeWeight lib ops (genWeight gen) g order ≠ 0 → ∃ sc : Op → Nat → ℚ, ∃ M, hessianMatrix lib ops score shuffle gen g = .ok M ∧
      M.locs = allLocs g order ∧ M.ops = ops ∧ M.IsDistribution ∧
      (∀ i j l o, (allLocs g order)[i]? = some l → ops[j]? = some o →
        M.m i j = if locs lib g order o = [] then 0
          else sc o i / colSum (allLocs g order).length (sc o) * (genWeight gen o / activeWeight lib ops (genWeight gen) g order)) ∧
      (∀ j o, ops[j]? = some o → M.opTotal j = if locs lib g order o = [] then 0
        else genWeight gen o / activeWeight lib ops (genWeight gen) g order) ∧
      (∀ o ∈ ops, ∀ i l, (allLocs g order)[i]? = some l → l ∉ locs lib g order o → sc o i = 0) ∧
      (.remove ∈ ops → locs lib g order .remove ≠ [] → ∃ f ∈ removeLocs g, ∃ r s0,
        (allLocs g order)[r]? = some (.iface f) ∧ score f.edge = some s0 ∧
        (∀ i, sc .remove i = if i = r then 1 else 0) ∧
        ∃ q k, IsRoundHalf (removeLocs g).length q ∧ k = max 1 q ∧
          ∃ T : Finset Iface, T.card = k ∧ f ∈ T ∧ ∀ f' ∈ T, f' ∈ removeLocs g ∧ ∃ s', score f'.edge = some s' ∧ s0 ≤ s')) := by
  by_cases hN : legalCount lib ops g order = 0
  · have hall : ∀ o ∈ ops, locs lib g order o = [] := by
      intro o ho
      unfold legalCount at hN
      have := List.sum_eq_zero_iff.1 hN _ (List.mem_map_of_mem (f := fun o => (locs lib g order o).length) ho)
      simpa using this
    refine ⟨fun _ => ?_, fun h => ?_⟩
    · unfold hessianMatrix weightedMatrix; rw [(lookup_spec hw ha hto hops).1 hN]
    · exfalso
      apply h
      unfold activeWeight
      rw [List.map_congr_left (g := fun _ => (0 : ℚ)) (fun o ho => by rw [if_pos (hall o ho)])]
      simp
  · obtain ⟨M0, hM0, _⟩ := (lookup_spec (lib := lib) hw ha hto hops).2 hN
    obtain ⟨sc, s1, s2, s3, s4, s5, s6⟩ := hessian_cols hw ha hto hops hsh hscore hM0
    obtain ⟨f1, f2⟩ := weighted_final hw ha hto hops (hessianScale score shuffle) (genWeight gen) sc
      (by intro M hM; rw [hM0] at hM; injection hM with hM; subst hM; exact s1) s2 s3 s4
      (fun o _ => genWeight_nonneg h0 h1 o)
    refine ⟨f1, fun h => ?_⟩
    obtain ⟨M, m1, m2, m3, m4, m5, m6⟩ := f2 h
    exact ⟨sc, M, m1, m2, m3, m4, m5, m6, s5, s6⟩

/-- **C14.** In the Hessian evolver's matrix, for any shuffle and any scores of the edges, all the removal probability
sits on one offered removal location; `k = max(1, round(n/2))` of the `n` offered removals, including this one,
have a sensitivity at least as large. -/
theorem C14_single_removal {lib ops} {g : Graph} (hw : g.WF) (ha : g.Acyclic)
    (hops : ops.Nodup) {score : EdgeRef → Option ℚ} {shuffle : List Nat → List Nat} (hsh : ∀ l, (shuffle l).Perm l)
    (hscore : ∀ e ∈ g.edges, ∃ s, score e.ref = some s) {gen : ℚ} (h0 : 0 ≤ gen) (h1 : gen ≤ 1)
    (hrem : .remove ∈ ops) (hne : removeLocs g ≠ []) {M}
    (hM : hessianMatrix lib ops score shuffle gen g = .ok M) :
    ∃ f ∈ removeLocs g, (∃ s0, score f.edge = some s0 ∧
      (∃ q k, IsRoundHalf (removeLocs g).length q ∧ k = max 1 q ∧
        ∃ T : Finset Iface, T.card = k ∧ f ∈ T ∧ ∀ f' ∈ T, f' ∈ removeLocs g ∧ ∃ s', score f'.edge = some s' ∧ s0 ≤ s')) ∧
      ∀ i j l, M.locs[i]? = some l → M.ops[j]? = some .remove →
        M.m i j = if l = .iface f then M.opTotal j else 0 := by
  obtain ⟨order, hto⟩ := topoSort_complete hw ha
  obtain ⟨f1, f2⟩ := hessian_final (lib := lib) hw ha hto hops hsh hscore h0 h1
  have hW : activeWeight lib ops (genWeight gen) g order ≠ 0 := by
    intro h; rw [f1 h] at hM; cases hM
  obtain ⟨sc, M', m1, m2, m3, m4, m5, m6, _, m7⟩ := f2 hW
  rw [hM] at m1; injection m1 with m1; subst m1
  have hne' : locs lib g order .remove ≠ [] := by simpa [locs] using hne
  obtain ⟨f, hf, r, s0, hr, hs0, hsc, q, k, hq, hk, T, hT⟩ := m7 hrem hne'
  have hrlt := (List.getElem?_eq_some_iff.1 hr).1
  refine ⟨f, hf, ⟨s0, hs0, q, k, hq, hk, T, hT⟩, ?_⟩
  intro i j l hl hj
  rw [m2] at hl
  rw [m3] at hj
  rw [m6 j _ hj, if_neg hne', m5 i j l _ hl hj, if_neg hne', hsc i]
  have hsum : colSum (allLocs g order).length (sc .remove) = 1 := by
    unfold colSum
    rw [Finset.sum_congr rfl (fun i _ => hsc i), Finset.sum_ite_eq']
    simp [hrlt]
  rw [hsum]
  have hnd := allLocs_nodup hw ha (topoSort_sound hw hto).nodup
  have hil : i = r ↔ l = .iface f := by
    constructor
    · rintro rfl; rw [hl] at hr; exact Option.some.inj hr
    · rintro rfl
      exact ((get?_idxOf_iff hnd).1 hl).2.symm.trans ((get?_idxOf_iff hnd).1 hr).2
  by_cases h : i = r
  · rw [if_pos h, if_pos (hil.1 h)]; ring
  · rw [if_neg h, if_neg (fun hc => h (hil.2 hc))]; ring

/-- **C15.** For run progress `gen` in `[0,1]`: an error is raised if the applicable operators have no weight; otherwise
the matrix is a distribution over offered pairs, each applicable operator getting its weight `1-gen`, `1-gen`,
`2 gen`, `1` divided by the total weight of the applicable operators. -/
theorem C15_schedule {lib ops} {g : Graph} (hw : g.WF) (ha : g.Acyclic) {order} (hto : g.topoSort = .ok order)
    (hops : ops.Nodup) {score : EdgeRef → Option ℚ} {shuffle : List Nat → List Nat} (hsh : ∀ l, (shuffle l).Perm l)
    (hscore : ∀ e ∈ g.edges, ∃ s, score e.ref = some s) {gen : ℚ} (h0 : 0 ≤ gen) (h1 : gen ≤ 1) :
    ((∀ o ∈ ops, locs lib g order o ≠ [] → genWeight gen o = 0) →
      hessianMatrix lib ops score shuffle gen g = .error .runtimeWarning) ∧
    ((∃ o ∈ ops, locs lib g order o ≠ [] ∧ 0 < genWeight gen o) →
      ∃ M, hessianMatrix lib ops score shuffle gen g = .ok M ∧ M.IsDistribution ∧ M.ops = ops ∧
      OnlyLegal lib g order M ∧
      ∀ j o, ops[j]? = some o → M.opTotal j = if locs lib g order o = [] then 0
        else genWeight gen o / activeWeight lib ops (genWeight gen) g order) := by
  obtain ⟨f1, f2⟩ := hessian_final (lib := lib) hw ha hto hops hsh hscore h0 h1
  constructor
  · intro h
    apply f1
    unfold activeWeight
    rw [List.map_congr_left (g := fun _ => (0 : ℚ)) (fun o ho => by
      split
      · rfl
      · rename_i he; exact h o ho he)]
    simp
  · rintro ⟨o, ho, he, hp⟩
    have hW : activeWeight lib ops (genWeight gen) g order ≠ 0 := by
      have hge : genWeight gen o ≤ activeWeight lib ops (genWeight gen) g order := by
        refine List.single_le_sum ?_ _ (List.mem_map.2 ⟨o, ho, by rw [if_neg he]⟩)
        intro x hx
        obtain ⟨o', _, rfl⟩ := List.mem_map.1 hx
        split
        · exact le_refl _
        · exact genWeight_nonneg h0 h1 o'
      linarith
    obtain ⟨sc, M, m1, m2, m3, m4, m5, m6, m7, _⟩ := f2 hW
    refine ⟨M, m1, m4, m3, ?_, m6⟩
    intro i j l o hl ho hpos
    by_contra hc
    rw [m2] at hl; rw [m3] at ho
    rw [m5 i j l o hl ho, m7 o (List.mem_of_getElem? ho) i l hl hc] at hpos
    simp at hpos

/-- **C15.** At the start of a run removal has probability zero; at the end growth has. -/
theorem C15_schedule_ends {lib ops} {g : Graph} (hw : g.WF) (ha : g.Acyclic)
    (hops : ops.Nodup) {score : EdgeRef → Option ℚ} {shuffle : List Nat → List Nat} (hsh : ∀ l, (shuffle l).Perm l)
    (hscore : ∀ e ∈ g.edges, ∃ s, score e.ref = some s) :
    (∀ M, hessianMatrix lib ops score shuffle 0 g = .ok M → ∀ j, M.ops[j]? = some .remove → M.opTotal j = 0) ∧
    (∀ M, hessianMatrix lib ops score shuffle 1 g = .ok M → ∀ j o, M.ops[j]? = some o →
      o = .addSeries ∨ o = .addParallel → M.opTotal j = 0) := by
  obtain ⟨order, hto⟩ := topoSort_complete hw ha
  constructor
  · intro M hM j hj
    obtain ⟨f1, f2⟩ := hessian_final (lib := lib) hw ha hto hops hsh hscore (le_refl (0 : ℚ)) zero_le_one
    have hW : activeWeight lib ops (genWeight 0) g order ≠ 0 := by intro h; rw [f1 h] at hM; cases hM
    obtain ⟨sc, M', m1, m2, m3, m4, m5, m6, _⟩ := f2 hW
    rw [hM] at m1; injection m1 with m1; subst m1
    rw [m6 j _ (m3 ▸ hj)]
    simp [genWeight]
  · intro M hM j o hj ho
    obtain ⟨f1, f2⟩ := hessian_final (lib := lib) hw ha hto hops hsh hscore zero_le_one (le_refl (1 : ℚ))
    have hW : activeWeight lib ops (genWeight 1) g order ≠ 0 := by intro h; rw [f1 h] at hM; cases hM
    obtain ⟨sc, M', m1, m2, m3, m4, m5, m6, _⟩ := f2 hW
    rw [hM] at m1; injection m1 with m1; subst m1
    rw [m6 j _ (m3 ▸ hj)]
    rcases ho with rfl | rfl <;> simp [genWeight]

/-- **C15.** On the same graph, removal's share of the probability never decreases as the run progresses. -/
theorem C15_removal_share_monotone {lib ops} {g : Graph} (hw : g.WF) (ha : g.Acyclic)
    (hops : ops.Nodup) {score score' : EdgeRef → Option ℚ} {shuffle shuffle' : List Nat → List Nat}
    (hsh : ∀ l, (shuffle l).Perm l) (hsh' : ∀ l, (shuffle' l).Perm l)
    (hscore : ∀ e ∈ g.edges, ∃ s, score e.ref = some s) (hscore' : ∀ e ∈ g.edges, ∃ s, score' e.ref = some s)
    {a b : ℚ} (h0 : 0 ≤ a) (hab : a ≤ b) (h1 : b ≤ 1) {M M'}
    (hM : hessianMatrix lib ops score shuffle a g = .ok M) (hM' : hessianMatrix lib ops score' shuffle' b g = .ok M')
    {j} (hj : ops[j]? = some .remove) : M.opTotal j ≤ M'.opTotal j := by
  obtain ⟨order, hto⟩ := topoSort_complete hw ha
  obtain ⟨f1, f2⟩ := hessian_final (lib := lib) hw ha hto hops hsh hscore h0 (hab.trans h1)
  obtain ⟨f1', f2'⟩ := hessian_final (lib := lib) hw ha hto hops hsh' hscore' (h0.trans hab) h1
  have hW : activeWeight lib ops (genWeight a) g order ≠ 0 := by intro h; rw [f1 h] at hM; cases hM
  have hW' : activeWeight lib ops (genWeight b) g order ≠ 0 := by intro h; rw [f1' h] at hM'; cases hM'
  obtain ⟨_, N, m1, _, _, _, _, m6, _⟩ := f2 hW
  obtain ⟨_, N', m1', _, _, _, _, m6', _⟩ := f2' hW'
  rw [hM] at m1; injection m1 with m1; subst m1
  rw [hM'] at m1'; injection m1' with m1'; subst m1'
  rw [m6 j _ hj, m6' j _ hj]
  split
  · exact le_refl _
  · obtain ⟨A, R, S, hA, hR, hS, hf⟩ := activeWeight_gen lib ops g order
    rw [hf a] at hW ⊢
    rw [hf b] at hW' ⊢
    have p1 : 0 < A * (1 - a) + R * (2 * a) + S := by
      refine lt_of_le_of_ne ?_ (Ne.symm hW)
      have := mul_nonneg hA (show 0 ≤ 1 - a by linarith)
      have := mul_nonneg hR (show 0 ≤ 2 * a by linarith)
      linarith
    have p2 : 0 < A * (1 - b) + R * (2 * b) + S := by
      refine lt_of_le_of_ne ?_ (Ne.symm hW')
      have := mul_nonneg hA (show 0 ≤ 1 - b by linarith)
      have := mul_nonneg hR (show 0 ≤ 2 * b by linarith)
      linarith
    simp only [genWeight]
    rw [div_le_div_iff₀ p1 p2]
    nlinarith [mul_nonneg hA (sub_nonneg.2 hab), mul_nonneg hS (sub_nonneg.2 hab)]

/-- **C15.** Beyond the end of the run (`gen > 1`, as when `random_graph` passes the integers 2, 3, ... as `generation`) the
evolver always raises, on every graph offering both growth and some other mutation. -/
theorem C15_late_generation_raises {lib ops} {g : Graph} (hw : g.WF) (ha : g.Acyclic) {order}
    (hto : g.topoSort = .ok order) (hops : ops.Nodup) {score : EdgeRef → Option ℚ} {shuffle : List Nat → List Nat}
    (hsh : ∀ l, (shuffle l).Perm l) (hscore : ∀ e ∈ g.edges, ∃ s, score e.ref = some s) {gen : ℚ} (h1 : 1 < gen)
    {o1 o2} (ho1 : o1 ∈ ops) (ho1' : o1 = .addSeries ∨ o1 = .addParallel) (hl1 : locs lib g order o1 ≠ [])
    (ho2 : o2 ∈ ops) (ho2' : o2 = .remove ∨ o2 = .swap) (hl2 : locs lib g order o2 ≠ []) :
    hessianMatrix lib ops score shuffle gen g = .error .runtimeWarning := by
  have hN : legalCount lib ops g order ≠ 0 := by
    intro h
    unfold legalCount at h
    have := List.sum_eq_zero_iff.1 h _ (List.mem_map_of_mem (f := fun o => (locs lib g order o).length) ho1)
    exact hl1 (by simpa using this)
  obtain ⟨M0, hM0, _⟩ := (lookup_spec (lib := lib) hw ha hto hops).2 hN
  obtain ⟨sc, s1, s2, s3, s4, s5, s6⟩ := hessian_cols hw ha hto hops hsh hscore hM0
  obtain ⟨Q, q1, q2, q3, q4, q5⟩ := weighted_raw hw ha hto hops hN (hessianScale score shuffle) (genWeight gen) sc
    (by intro M hM; rw [hM0] at hM; injection hM with hM; subst hM; exact s1) s2 s3
  unfold hessianMatrix
  rw [q1]
  unfold PMat.normalizeVerify
  split
  · rfl
  · rename_i hW
    -- a row with positive entry in a column
    have hrow : ∀ o ∈ ops, locs lib g order o ≠ [] → ∃ i < (allLocs g order).length,
        0 < sc o i / colSum (allLocs g order).length (sc o) := by
      intro o ho he
      by_contra hc
      push Not at hc
      have hS0 : 0 < colSum (allLocs g order).length (sc o) :=
        lt_of_le_of_ne (Finset.sum_nonneg (fun k hk => s4 o ho k (Finset.mem_range.1 hk))) (Ne.symm (s3 o ho he))
      apply s3 o ho he
      unfold colSum
      apply Finset.sum_eq_zero
      intro i hi
      have hi := Finset.mem_range.1 hi
      have := hc i hi
      have h2 := s4 o ho i hi
      by_contra hne
      have : 0 < sc o i := lt_of_le_of_ne h2 (Ne.symm hne)
      have := div_pos this hS0
      linarith [hc i hi]
    have hidx : ∀ o ∈ ops, ops[ops.idxOf o]? = some o := fun o ho => (get?_idxOf_iff hops).2 ⟨ho, rfl⟩
    obtain ⟨i1, hi1, p1⟩ := hrow o1 ho1 hl1
    obtain ⟨i2, hi2, p2⟩ := hrow o2 ho2 hl2
    have e1 := q4 i1 _ _ o1 (List.getElem?_eq_getElem hi1) (hidx o1 ho1)
    have e2 := q4 i2 _ _ o2 (List.getElem?_eq_getElem hi2) (hidx o2 ho2)
    rw [if_neg hl1] at e1
    rw [if_neg hl2] at e2
    have w1 : genWeight gen o1 < 0 := by rcases ho1' with rfl | rfl <;> simp only [genWeight] <;> linarith
    have w2 : 0 < genWeight gen o2 := by rcases ho2' with rfl | rfl <;> simp only [genWeight] <;> linarith
    have n1 : Q.m i1 (ops.idxOf o1) < 0 := by rw [e1]; exact mul_neg_of_pos_of_neg p1 w1
    have n2 : 0 < Q.m i2 (ops.idxOf o2) := by rw [e2]; exact mul_pos p2 w2
    rw [if_neg]
    rw [inRange_iff]
    intro hall
    have a1 := (hall i1 (ops.idxOf o1) _ o1 (by rw [q2]; exact List.getElem?_eq_getElem hi1) (by rw [q3]; exact hidx o1 ho1)).2
    have a2 := (hall i2 (ops.idxOf o2) _ o2 (by rw [q2]; exact List.getElem?_eq_getElem hi2) (by rw [q3]; exact hidx o2 ho2)).2
    simp only at a1 a2
    rcases lt_or_gt_of_ne hW with hneg | hposW
    · have := div_neg_of_pos_of_neg n2 hneg
      linarith
    · have := div_neg_of_neg_of_pos n1 hposW
      linarith

/-- The hypotheses of the schedule theorems on the fixture, for every score and shuffle. -/
example (shuffle : List Nat → List Nat) (hsh : ∀ l, (shuffle l).Perm l) :
    (∃ M, hessianMatrix Fixture.lib allOps (fun r => some (r.src : ℚ)) shuffle (1/3) Fixture.g = .ok M) ∧
    hessianMatrix Fixture.lib allOps (fun r => some (r.src : ℚ)) shuffle 2 Fixture.g = .error .runtimeWarning := by
  constructor
  · obtain ⟨M, h, _⟩ := (C15_schedule (lib := Fixture.lib) (ops := allOps) Fixture.g_wf Fixture.g_acyclic
      fixture_topo (by decide) hsh (score := fun r => some (r.src : ℚ)) (fun e _ => ⟨_, rfl⟩) (gen := 1/3)
      (by norm_num) (by norm_num)).2 ⟨.remove, by decide, by decide, by norm_num [genWeight]⟩
    exact ⟨M, h⟩
  · exact C15_late_generation_raises (lib := Fixture.lib) (ops := allOps) Fixture.g_wf Fixture.g_acyclic
      fixture_topo (by decide) hsh (fun e _ => ⟨_, rfl⟩) (by norm_num) (o1 := .addSeries) (o2 := .remove)
      (by decide) (by decide) (by decide) (by decide) (by decide) (by decide)

/-- **C16.** Over any number of evolve steps (with any of the evolvers): each child's parent id is the id its
predecessor had, no id is used twice, and `latest_mutation` names the operator that made the child's graph out of its
predecessor's. -/
theorem C16_lineage_chain {lib ms x0 xs os} (h : EvoRun lib ms x0 xs os) :
    xs.IsChain (fun y x => y.parent = x.current ∧
      ∃ o l d, y.latest = some o ∧ applyOp lib x.graph o l d = .ok y.graph) ∧ (xs.map Ind.current).Nodup ∧
    (xs.map Ind.latest) = os.map some ++ [x0.latest] ∧ xs.getLast? = some x0 := by
  induction h with
  | start => simp
  | @step x xs os matrix y l o d uuid hrun _ hstep hfresh ih =>
    obtain ⟨M, k, h1, h2, h3, h4, h5⟩ := hstep
    have hy : y.current = uuid ∧ y.parent = x.current ∧ y.latest = some o ∧ applyOp lib x.graph o l d = .ok y.graph := by
      unfold evolveGraph at h5
      simp only [h1, h3] at h5
      split at h5
      · cases h5
      · rename_i hap
        split at h5
        · cases h5
        · injection h5 with h5
          injection h5 with h5 _
          subst h5
          exact ⟨rfl, rfl, rfl, hap⟩
    obtain ⟨i1, i2, i3, i4⟩ := ih
    refine ⟨?_, ?_, ?_, ?_⟩
    · rw [List.isChain_cons_cons]; exact ⟨⟨hy.2.1, o, l, d, hy.2.2.1, hy.2.2.2⟩, i1⟩
    · rw [List.map_cons, List.nodup_cons, hy.1]; exact ⟨hfresh, i2⟩
    · rw [List.map_cons, i3, hy.2.2.1]; rfl
    · rw [List.getLast?_cons_cons]; exact i4

/-- A run on the fixture: for every legal mutation there is a one-step run applying it (so the hypotheses of
`C12_evolve_never_fails`, `C12_run_is_history` and `C16_lineage_chain` can be met). -/
example : ∃ y, EvoRun Fixture.lib (· = lookupMatrix Fixture.lib allOps) ⟨Fixture.g, 0, 0, none⟩
    [y, ⟨Fixture.g, 0, 0, none⟩] [.addSeries] := by
  obtain ⟨M, hM, _⟩ := (C11_lookup_uniform (lib := Fixture.lib) (ops := allOps) Fixture.g_wf Fixture.g_acyclic
    fixture_topo (by decide)).2 ⟨.addSeries, by decide, by decide⟩
  obtain ⟨k, ⟨hk, hs⟩, _⟩ := (C12_sampling_legal Fixture.g_wf Fixture.g_acyclic fixture_topo (by decide) hM).2
    .addSeries (by decide) (.iface ⟨2, ⟨1, 2, 1⟩⟩) (by decide)
  have hd : drawOk Fixture.lib Fixture.g .addSeries (.iface ⟨2, ⟨1, 2, 1⟩⟩) ⟨9, Fixture.fiber 8, Fixture.split 9⟩ :=
    ⟨by decide, by decide, by decide⟩
  obtain ⟨y, hy, _⟩ := C12_evolve_never_fails (x := ⟨Fixture.g, 0, 0, none⟩) Fixture.g_wf Fixture.g_acyclic (by decide)
    hM hk hs hd 1
  exact ⟨y, .step .start rfl ⟨M, k, hM, hk, hs, hd, hy⟩ (by decide)⟩

/-! Cases of the other theorems. -/

example (x : Ind) (h : EvoRun Fixture.lib (· = lookupMatrix Fixture.lib allOps) ⟨Fixture.g, 0, 0, none⟩ [x, ⟨Fixture.g, 0, 0, none⟩] [.addSeries]) :
    (∃ rs, History Fixture.lib Fixture.g rs x.graph ∧ rs.map (fun r => r.2.op) = [.addSeries]) ∧ x.parent = 0 :=
  ⟨C12_run_is_history Fixture.g_wf Fixture.g_acyclic (by decide) h, by
    have := (C16_lineage_chain h).1
    simp only [List.isChain_cons_cons] at this
    exact this.1.1⟩
example := C14_tournament (locs := [.node 0, .iface ⟨0, ⟨0, 1, 0⟩⟩, .iface ⟨1, ⟨1, 2, 0⟩⟩, .iface ⟨2, ⟨2, 3, 0⟩⟩])
  (score := fun r => some (match r.src with | 0 => (5 : ℚ) | 1 => 2 | _ => 7)) (c := fun i => if i = 0 then 0 else 1 / 3)
  (s := fun i => match i with | 1 => 5 | 2 => 2 | _ => 7) (shuffle := List.reverse) List.reverse_perm (by
    intro i hi hc
    match i, hi, hc with
    | 0, _, hc => exact absurd rfl hc
    | 1, _, _ => exact ⟨_, rfl, rfl⟩
    | 2, _, _ => exact ⟨_, rfl, rfl⟩
    | 3, _, _ => exact ⟨_, rfl, rfl⟩
    | i + 4, hi, _ => simp at hi) ⟨1, by decide, by norm_num⟩
example (M : PMat) (hM : hessianMatrix Fixture.lib allOps (fun r => some (r.src : ℚ)) List.reverse (1 / 3) Fixture.g = .ok M) :=
  C14_single_removal Fixture.g_wf Fixture.g_acyclic (by decide) List.reverse_perm (fun e _ => ⟨_, rfl⟩) (by norm_num) (by norm_num) (by decide) (by decide) hM
example := C15_schedule_ends (lib := Fixture.lib) (ops := allOps) Fixture.g_wf Fixture.g_acyclic (by decide) List.reverse_perm (score := fun r => some (r.src : ℚ))
  (fun e _ => ⟨_, rfl⟩)
example (M M' : PMat) (hM : hessianMatrix Fixture.lib allOps (fun r => some (r.src : ℚ)) List.reverse (1 / 3) Fixture.g = .ok M)
    (hM' : hessianMatrix Fixture.lib allOps (fun _ => some 1) id (1 / 2) Fixture.g = .ok M') : M.opTotal 2 ≤ M'.opTotal 2 :=
  C15_removal_share_monotone Fixture.g_wf Fixture.g_acyclic (by decide) List.reverse_perm (fun _ => .refl _) (fun e _ => ⟨_, rfl⟩) (fun e _ => ⟨_, rfl⟩)
    (by norm_num) (by norm_num) (by norm_num) hM hM' rfl

end Verif
