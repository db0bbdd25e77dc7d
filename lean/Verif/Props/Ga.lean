import Verif.Lemmas.Ga
/-! # Properties of the parameter genetic algorithm (C35, C36) -/

namespace Verif
variable {K : Type} [LinearOrder K]

/-- A small setting: minimise the distance of the sum to 7. -/
def envDemo : GaEnv ℚ where
  fn := fun _ x => |x.sum - 7|
  gen := fun k => [(k % 5 : Nat), (k % 3 : Nat), 1]
  raw := fun k => 7 * k + 3
  subset := fun k n => [k % n]

/-- **C35.** When the algorithm returns, the score is the one the objective gave for the vector returned; with at least one
generation it is the least of all scores evaluated, the first `n` of which belong to the start vector.  The number of
evaluations is fixed.  The logger gets, for every generation, the `n` scores of the survivors in ascending order, and the
best of a generation is never above that of an earlier one. -/
theorem C35_ga {e : GaEnv K} {x0 : List K} {nGen n : Nat} {rateMut rateCrx : ℚ} {x : List K} {s : K} {st : GaSt K}
    (h : parametersGA e x0 nGen n rateMut rateCrx = .ok (x, s, st)) :
    (∃ i < st.calls, e.fn i x = s) ∧
    (st.evals.length = st.calls ∧ ∀ (i : Nat) (q : K × List K), st.evals[i]? = some q → q.1 = e.fn i q.2 ∧ (i < n → q.2 = x0)) ∧
    (0 < nGen → ∀ q ∈ st.evals, s ≤ q.1) ∧ (nGen = 0 → x = x0 ∧ s = e.fn 0 x0) ∧
    st.calls = n + nGen * (2 * ⌊rateCrx * n⌋.toNat + ⌊rateMut * n⌋.toNat + n / 20) ∧
    st.pop.length = n ∧
    ∃ hist : List (List K), hist.length = nGen ∧ st.log = hist.flatten ∧ (∀ l ∈ hist, l.length = n ∧ l.Pairwise (· ≤ ·)) ∧
      hist.Pairwise (fun a b => ∀ p ∈ a, ∃ q ∈ b, q ≤ p) ∧ (0 < nGen → ∃ l, hist.getLast? = some l ∧ l.head? = some s) := by
  unfold parametersGA at h
  split at h
  · cases h
  · next st1 hg =>
    split at h
    · next s' x' rest hpop =>
      simp only [Except.ok.injEq, Prod.mk.injEq] at h
      obtain ⟨rfl, rfl, rfl⟩ := h
      obtain ⟨k0, a1, a2, a3, a4, a5, a6, a7⟩ := gaInit_ok (e := e) (x0 := x0) (n := n) (m := 0) (st := ⟨[], 0, 0, 0, [], []⟩)
        (kept := []) ⟨rfl, by simp, by simp⟩ rfl rfl rfl (by simp)
      have R0 : GaReady e n (gaInit e x0 n ⟨[], 0, 0, 0, [], []⟩) k0 :=
        ⟨a1, a2, by omega, fun _ q hq => ⟨q, a4 ▸ hq, le_refl _⟩⟩
      obtain ⟨hist, b1, b2, b3, b4, b5, ⟨more, b6⟩, b7, _⟩ := gaGenerations_ok R0 hg
      have hkept : ∃ rest', (hist.getLast?).getD k0 = (s', x') :: rest' := by
        have := b2.pop
        rw [hpop] at this
        cases hk : (hist.getLast?).getD k0 with
        | nil => rw [hk] at this; simp at this
        | cons p l =>
          rw [hk] at this
          simp only [List.map_cons, List.cons.injEq, Prod.mk.injEq, Option.some.injEq] at this
          obtain ⟨⟨rfl, rfl⟩, _⟩ := this
          exact ⟨l, rfl⟩
      obtain ⟨rest', hkept⟩ := hkept
      have hn : 0 < n := by
        rw [← b2.len, hkept]
        simp
      refine ⟨?_, ⟨b2.inv.evals, ?_⟩, ?_, ?_, ?_, ?_, hist.map (·.map (·.1)), ?_, ?_, ?_, ?_, ?_⟩
      · have hm := b2.inv.pop s' x' (by rw [hpop]; exact List.mem_cons_self)
        obtain ⟨i, hi⟩ := List.getElem?_of_mem hm
        exact ⟨i, by rw [← b2.inv.evals]; exact (List.getElem?_eq_some_iff.1 hi).1, (b2.inv.honest i _ _ hi).symm⟩
      · intro i q hq
        refine ⟨b2.inv.honest i q.1 q.2 hq, fun hin => ?_⟩
        rw [b6, a4, List.getElem?_append_left (by omega)] at hq
        exact a5 q (List.mem_of_getElem? hq)
      · intro h0 q hq
        obtain ⟨p, hp, hle⟩ := b2.cover hn q hq
        cases hl : hist.getLast? with
        | none =>
          rw [List.getLast?_eq_none_iff] at hl
          rw [hl] at b1
          simp at b1
          omega
        | some l =>
          rw [hl] at hkept hp
          change l = _ at hkept
          have := (b3 l (List.mem_of_getLast? hl)).2
          rw [hkept] at this
          change p ∈ l at hp
          rw [hkept] at hp
          rcases List.mem_cons.1 hp with rfl | hp
          · exact hle
          · exact le_trans ((List.pairwise_cons.1 this).1 p hp) hle
      · intro h0
        have : hist = [] := List.eq_nil_of_length_eq_zero (by omega)
        subst this
        change k0 = _ at hkept
        have hm := a5 (s', x') (by rw [hkept]; exact List.mem_cons_self)
        refine ⟨hm, ?_⟩
        have h00 : (gaInit e x0 n ⟨[], 0, 0, 0, [], []⟩).evals[0]? = some (s', x') := by rw [a4, hkept]; rfl
        have := a1.honest 0 s' x' h00
        dsimp only at hm
        rw [← hm]
        exact this
      · rw [b5, a7]
        simp
      · rw [b2.pop, List.length_map, b2.len]
      · simp [b1]
      · rw [b4, a6]
        rfl
      · intro l hl
        obtain ⟨l', hl', rfl⟩ := List.mem_map.1 hl
        refine ⟨by simp [(b3 l' hl').1], ?_⟩
        rw [List.pairwise_map]
        exact (b3 l' hl').2
      · rw [List.pairwise_map]
        refine (List.pairwise_cons.1 (b7 hn)).2.imp ?_
        intro a b hab p hp
        obtain ⟨p', hp', rfl⟩ := List.mem_map.1 hp
        obtain ⟨q, hq, hle⟩ := hab p' hp'
        exact ⟨q.1, List.mem_map.2 ⟨q, hq, rfl⟩, hle⟩
      · intro h0
        cases hl : hist.getLast? with
        | none =>
          rw [List.getLast?_eq_none_iff] at hl
          rw [hl] at b1
          simp at b1
          omega
        | some l =>
          rw [hl] at hkept
          change l = _ at hkept
          exact ⟨l.map (·.1), by rw [List.getLast?_map, hl]; rfl, by rw [hkept]; rfl⟩
    · cases h

/-- **C35.** With a deterministic objective: the score is that of the vector, and not above that of the start. -/
theorem C35_never_worse {e : GaEnv K} {f : List K → K} (hf : ∀ k, e.fn k = f) {x0 : List K} {nGen n : Nat} {rateMut rateCrx : ℚ}
    {x : List K} {s : K} {st : GaSt K} (h : parametersGA e x0 nGen n rateMut rateCrx = .ok (x, s, st)) : s = f x ∧ s ≤ f x0 := by
  obtain ⟨⟨i, _, hi⟩, ⟨h1, h2⟩, h3, h4, h5, h6, _⟩ := C35_ga h
  rw [hf] at hi
  refine ⟨hi.symm, ?_⟩
  rcases Nat.eq_zero_or_pos nGen with h0 | h0
  · rw [(h4 h0).2, hf]
  · have hn : 0 < n := by
      rcases Nat.eq_zero_or_pos n with hz | hn
      · exfalso
        rw [hz] at h6
        unfold parametersGA at h
        split at h
        · cases h
        · split at h
          · next hp =>
            simp only [Except.ok.injEq, Prod.mk.injEq] at h
            obtain ⟨_, _, rfl⟩ := h
            rw [hp] at h6
            simp at h6
          · cases h
      · exact hn
    have hlt : 0 < st.evals.length := by
      rw [h1, h5]
      omega
    have hq : st.evals[0]? = some (st.evals[0]) := List.getElem?_eq_getElem hlt
    obtain ⟨a, b⟩ := h2 0 _ hq
    have := h3 h0 _ (List.getElem_mem hlt)
    rw [a, b hn, hf] at this
    exact this

example : (parametersGA envDemo [0, 0, 0] 3 4 (9/10) (1/2)).map (fun r => (r.1, r.2.1, r.2.2.calls)) =
    .ok ([4, 0, 1], 2, 25) := by decide +kernel

/-- **C35.** Failures: an empty population; a single individual that is to be crossed. -/
theorem C35_errors (e : GaEnv K) (x0 : List K) (nGen : Nat) (rateMut rateCrx : ℚ) :
    parametersGA e x0 nGen 0 rateMut rateCrx = .error .indexError ∧
    (1 ≤ rateCrx → 0 < nGen → parametersGA e x0 nGen 1 rateMut rateCrx = .error .valueError) := by
  constructor
  · have hg : ∀ g, gaGenerations e 0 0 0 g ⟨[], 0, 0, 0, [], []⟩ = .ok ⟨[], 0, 0, 0, [], []⟩ := by
      intro g
      induction g with
      | zero => rfl
      | succ g ih =>
        rw [gaGenerations]
        have : gaGeneration e 0 0 0 ⟨[], 0, 0, 0, [], []⟩ = .ok (⟨[], 0, 0, 0, [], []⟩ : GaSt K) := rfl
        rw [this]
        exact ih
    unfold parametersGA
    simp only [Nat.cast_zero, mul_zero, Int.floor_zero, Int.toNat_zero, gaInit, hg]
  · intro hr h0
    obtain ⟨g, rfl⟩ : ∃ g, nGen = g + 1 := ⟨nGen - 1, by omega⟩
    have hc : ∃ c, ⌊rateCrx * (1 : Nat)⌋.toNat = c + 1 := by
      have : (1 : ℤ) ≤ ⌊rateCrx * (1 : Nat)⌋ := by
        rw [Int.le_floor]
        simpa using hr
      exact ⟨⌊rateCrx * (1 : Nat)⌋.toNat - 1, by omega⟩
    obtain ⟨c, hc⟩ := hc
    unfold parametersGA
    rw [hc, gaGenerations]
    have : gaGeneration e 1 (c + 1) ⌊rateMut * (1 : Nat)⌋.toNat (gaInit e x0 1 ⟨[], 0, 0, 0, [], []⟩) = .error .valueError := rfl
    rw [this]

theorem crossLoop_total {K : Type} {e : GaEnv K} (n : Nat) (st : GaSt K) (h : 2 ≤ st.pop.length) :
    ∃ st', crossLoop e n st = .ok st' ∧ st.pop.length ≤ st'.pop.length := by
  induction n generalizing st with
  | zero => exact ⟨st, rfl, le_refl _⟩
  | succ n ih =>
    have hs : ∃ r, sampleTwo e st.draws st.pop = .ok r := by
      unfold sampleTwo
      dsimp only
      rw [if_neg (by omega)]
      have h1 := Nat.mod_lt (e.raw st.draws) (show 0 < st.pop.length by omega)
      have h2 := Nat.mod_lt (e.raw st.draws % st.pop.length + 1 + e.raw (st.draws + 1) % (st.pop.length - 1)) (show 0 < st.pop.length by omega)
      rw [List.getElem?_eq_getElem h1, List.getElem?_eq_getElem h2]
      exact ⟨_, rfl⟩
    obtain ⟨⟨p1, p2⟩, hs⟩ := hs
    rw [crossLoop, hs]
    obtain ⟨st', h1, h2⟩ := ih { st with pop := st.pop ++ [(none, (crossoverSingle (e.raw (st.draws + 2)) p1 p2).1), (none, (crossoverSingle (e.raw (st.draws + 2)) p1 p2).2)], draws := st.draws + 3 }
      (by simp)
    exact ⟨st', h1, by simp at h2; omega⟩

theorem mutLoop_total {K : Type} {e : GaEnv K} (hg : ∀ k, e.gen k ≠ []) (n : Nat) (st : GaSt K) (h : 0 < st.pop.length) :
    ∃ st', mutLoop e n st = .ok st' := by
  induction n generalizing st with
  | zero => exact ⟨st, rfl⟩
  | succ n ih =>
    rw [mutLoop, if_neg (by omega), List.getElem?_eq_getElem (Nat.mod_lt (e.raw st.draws) h)]
    have hl : (e.gen st.gens).length ≠ 0 := by
      rw [Ne, List.length_eq_zero_iff]
      exact hg _
    unfold mutate
    simp only [if_neg hl]
    exact ih _ (by simp)

/-- **C35.** With at least two individuals and non-empty vectors the algorithm always returns. -/
theorem C35_total {e : GaEnv K} (x0 : List K) (nGen : Nat) {n : Nat} (rateMut rateCrx : ℚ) (hn : 2 ≤ n)
    (hg : ∀ k, e.gen k ≠ []) : ∃ r, parametersGA e x0 nGen n rateMut rateCrx = .ok r := by
  obtain ⟨k0, a1, a2, a3, a4, a5, a6, a7⟩ := gaInit_ok (e := e) (x0 := x0) (n := n) (m := 0) (st := ⟨[], 0, 0, 0, [], []⟩)
    (kept := []) ⟨rfl, by simp, by simp⟩ rfl rfl rfl (by simp)
  have R0 : GaReady e n (gaInit e x0 n ⟨[], 0, 0, 0, [], []⟩) k0 :=
    ⟨a1, a2, by omega, fun _ q hq => ⟨q, a4 ▸ hq, le_refl _⟩⟩
  have all : ∀ (g : Nat) (st : GaSt K) (kept : List (K × List K)), GaReady e n st kept →
      ∃ st', gaGenerations e n ⌊rateCrx * n⌋.toNat ⌊rateMut * n⌋.toNat g st = .ok st' := by
    intro g
    induction g with
    | zero => exact fun st _ _ => ⟨st, rfl⟩
    | succ g ih =>
      intro st kept R
      have hl : st.pop.length = n := by rw [R.pop, List.length_map, R.len]
      obtain ⟨st1, h1, h1'⟩ := crossLoop_total (e := e) ⌊rateCrx * n⌋.toNat st (by omega)
      obtain ⟨st2, h2⟩ := mutLoop_total hg ⌊rateMut * n⌋.toNat st1 (by omega)
      have : ∃ st', gaGeneration e n ⌊rateCrx * n⌋.toNat ⌊rateMut * n⌋.toNat st = .ok st' := by
        unfold gaGeneration
        simp only [h1, h2]
        exact ⟨_, rfl⟩
      obtain ⟨st', h'⟩ := this
      obtain ⟨kept', R', _⟩ := gaGeneration_ok R h'
      rw [gaGenerations, h']
      exact ih st' kept' R'
  obtain ⟨st, hst⟩ := all nGen _ k0 R0
  obtain ⟨hist, _, b2, _⟩ := gaGenerations_ok R0 hst
  unfold parametersGA
  rw [hst]
  have hp := b2.pop
  have hl := b2.len
  cases hk : (hist.getLast?).getD k0 with
  | nil =>
    rw [hk] at hl
    simp at hl
    omega
  | cons p l =>
    rw [hk] at hp
    simp only [hp, List.map_cons]
    exact ⟨_, rfl⟩

omit [LinearOrder K] in
/-- **C36.** One-point crossover: lengths are kept, and at every position the children carry the two genes of the parents. -/
theorem C36_crossover_single (raw : Nat) {p1 p2 : List K} (h : p1.length = p2.length) :
    (crossoverSingle raw p1 p2).1.length = p1.length ∧ (crossoverSingle raw p1 p2).2.length = p1.length ∧
    (∀ (i : Nat), ((crossoverSingle raw p1 p2).1[i]? = p1[i]? ∧ (crossoverSingle raw p1 p2).2[i]? = p2[i]?) ∨
      ((crossoverSingle raw p1 p2).1[i]? = p2[i]? ∧ (crossoverSingle raw p1 p2).2[i]? = p1[i]?)) ∧
    (2 ≤ p1.length → (crossoverSingle raw p1 p2).1[0]? = p1[0]? ∧
      (crossoverSingle raw p1 p2).1[p1.length - 1]? = p2[p1.length - 1]?) := by
  refine ⟨(single_length raw p1 p2 h).1, (single_length raw p1 p2 h).2, single_at raw p1 p2 h, ?_⟩
  intro hl
  have hc := Nat.mod_lt raw (show 0 < p1.length - 1 by omega)
  unfold crossoverSingle
  rw [if_neg (by omega)]
  dsimp only
  constructor
  · rw [List.getElem?_append_left (by simp; omega), List.getElem?_take_of_lt (by omega)]
  · rw [List.getElem?_append_right (by simp; omega), List.getElem?_drop, List.length_take]
    congr 1
    omega

omit [LinearOrder K] in
/-- **C36.** Two-point crossover: the same; vectors with fewer than three entries are refused. -/
theorem C36_crossover_double (raw1 raw2 : Nat) {p1 p2 : List K} (h : p1.length = p2.length) :
    (p1.length ≤ 2 → crossoverDouble raw1 raw2 p1 p2 = .error .valueError) ∧
    (2 < p1.length → ∃ c1 c2, crossoverDouble raw1 raw2 p1 p2 = .ok (c1, c2) ∧ c1.length = p1.length ∧ c2.length = p1.length ∧
      ∀ (i : Nat), (c1[i]? = p1[i]? ∧ c2[i]? = p2[i]?) ∨ (c1[i]? = p2[i]? ∧ c2[i]? = p1[i]?)) := by
  constructor
  · intro hl
    unfold crossoverDouble
    rw [if_pos hl]
  · intro hl
    have h1 := Nat.mod_lt raw1 (show 0 < p1.length - 2 by omega)
    have h2 := Nat.mod_lt raw2 (show 0 < p1.length - 2 by omega)
    unfold crossoverDouble
    rw [if_neg (by omega)]
    dsimp only
    have ha : min (2 + raw1 % (p1.length - 2)) (2 + raw2 % (p1.length - 2)) ≤ max (2 + raw1 % (p1.length - 2)) (2 + raw2 % (p1.length - 2)) :=
      min_le_max
    have hb : max (2 + raw1 % (p1.length - 2)) (2 + raw2 % (p1.length - 2)) ≤ p1.length := by
      rw [max_le_iff]
      omega
    generalize min (2 + raw1 % (p1.length - 2)) (2 + raw2 % (p1.length - 2)) = a at *
    generalize max (2 + raw1 % (p1.length - 2)) (2 + raw2 % (p1.length - 2)) = b at *
    have key : ∀ (u v : List K), u.length = p1.length → v.length = p1.length →
        (u.take a ++ (v.take b).drop a ++ u.drop b).length = p1.length ∧
        ∀ (i : Nat), (u.take a ++ (v.take b).drop a ++ u.drop b)[i]? = if a ≤ i ∧ i < b then v[i]? else u[i]? := by
      intro u v hu hv
      refine ⟨by simp; omega, fun i => ?_⟩
      by_cases hia : i < a
      · rw [List.append_assoc, List.getElem?_append_left (by simp; omega), List.getElem?_take_of_lt hia, if_neg (by omega)]
      · by_cases hib : i < b
        · rw [List.getElem?_append_left (by simp; omega), List.getElem?_append_right (by simp; omega), List.getElem?_drop,
            List.getElem?_take_of_lt (by simp; omega), if_pos (by omega), List.length_take]
          congr 1
          omega
        · rw [List.getElem?_append_right (by simp; omega), List.getElem?_drop, if_neg (by omega)]
          congr 1
          simp
          omega
    obtain ⟨l1, e1⟩ := key p1 p2 rfl h.symm
    obtain ⟨l2, e2⟩ := key p2 p1 h.symm rfl
    refine ⟨_, _, rfl, l1, l2, fun i => ?_⟩
    rw [e1, e2]
    split
    · exact .inr ⟨rfl, rfl⟩
    · exact .inl ⟨rfl, rfl⟩

omit [LinearOrder K] in
/-- **C36.** Mutation replaces exactly the chosen positions. -/
theorem C36_mutation (inds : List Nat) {parent mutant : List K} (h : parent.length = mutant.length) (hne : parent ≠ []) :
    ∃ c, mutate inds parent mutant = .ok c ∧ c.length = parent.length ∧
      ∀ (i : Nat), c[i]? = if i ∈ inds then mutant[i]? else parent[i]? := by
  have hl : mutant.length ≠ 0 := by
    rw [← h, Ne, List.length_eq_zero_iff]
    exact hne
  unfold mutate
  rw [if_neg hl]
  obtain ⟨h1, h2⟩ := mixFrom_at inds 0 parent mutant
  refine ⟨_, rfl, by rw [h1, h]; simp, fun i => ?_⟩
  by_cases hi : i < parent.length
  · rw [h2 i (by omega)]
    simp
  · have hn : (mixFrom inds 0 parent mutant)[i]? = none := by
      rw [List.getElem?_eq_none_iff, h1]
      omega
    rw [hn, List.getElem?_eq_none (by omega), List.getElem?_eq_none (by omega)]
    simp

/-- **C36.** Any position-wise constraint (such as bounds) met by the start vector and by all random vectors is met by the vector
the algorithm returns and by its whole final population. -/
theorem C36_constraints_inherited {e : GaEnv K} {P : Nat → K → Prop} {L : Nat} {x0 : List K} (hx : Fits P L x0)
    (hg : ∀ k, Fits P L (e.gen k)) {nGen n : Nat} {rateMut rateCrx : ℚ} {x : List K} {s : K} {st : GaSt K}
    (h : parametersGA e x0 nGen n rateMut rateCrx = .ok (x, s, st)) : Fits P L x ∧ ∀ p ∈ st.pop, Fits P L p.2 := by
  unfold parametersGA at h
  split at h
  · cases h
  · next st1 hgen =>
    split at h
    · next s' x' rest hpop =>
      simp only [Except.ok.injEq, Prod.mk.injEq] at h
      obtain ⟨rfl, rfl, rfl⟩ := h
      obtain ⟨k0, a1, a2, a3, a4, a5, a6, a7⟩ := gaInit_ok (e := e) (x0 := x0) (n := n) (m := 0) (st := ⟨[], 0, 0, 0, [], []⟩)
        (kept := []) ⟨rfl, by simp, by simp⟩ rfl rfl rfl (by simp)
      have R0 : GaReady e n (gaInit e x0 n ⟨[], 0, 0, 0, [], []⟩) k0 :=
        ⟨a1, a2, by omega, fun _ q hq => ⟨q, a4 ▸ hq, le_refl _⟩⟩
      obtain ⟨_, _, _, _, _, _, _, _, b8⟩ := gaGenerations_ok R0 hgen
      have hf : AllFit P L (gaInit e x0 n ⟨[], 0, 0, 0, [], []⟩).pop := by
        intro p hp
        rw [a2] at hp
        obtain ⟨q, hq, rfl⟩ := List.mem_map.1 hp
        dsimp only
        rw [a5 q hq]
        exact hx
      have := b8 P L hg hf
      exact ⟨this (some s', x') (by rw [hpop]; exact List.mem_cons_self), this⟩
    · cases h

example : crossoverSingle 5 [(1 : ℚ), 2, 3, 4] [5, 6, 7, 8] = ([1, 2, 3, 8], [5, 6, 7, 4]) := by decide +kernel
example : crossoverDouble 0 1 [(1 : ℚ), 2, 3, 4] [5, 6, 7, 8] = .ok ([1, 2, 7, 4], [5, 6, 3, 8]) := by decide +kernel
example : mutate [0, 2] [(1 : ℚ), 2, 3] [5, 6, 7] = .ok [5, 2, 7] := by decide +kernel
/-- The bounds 0..4, 0..2, 0..1 are met by the start and all random vectors of `envDemo`. -/
example : Fits (fun i (x : ℚ) => 0 ≤ x ∧ x ≤ ([4, 2, 1] : List ℚ).getD i 0) 3 [0, 0, 0] ∧
    ∀ k, Fits (fun i (x : ℚ) => 0 ≤ x ∧ x ≤ ([4, 2, 1] : List ℚ).getD i 0) 3 (envDemo.gen k) := by
  constructor
  · refine ⟨rfl, fun i x hx => ?_⟩
    match i, hx with
    | 0, hx => simp at hx; subst hx; simp
    | 1, hx => simp at hx; subst hx; simp
    | 2, hx => simp at hx; subst hx; simp
  · intro k
    refine ⟨rfl, fun i x hx => ?_⟩
    have h5 : ((k % 5 : Nat) : ℚ) ≤ 4 := by
      have := Nat.mod_lt k (show 0 < 5 by norm_num)
      exact_mod_cast (by omega : k % 5 ≤ 4)
    have h3 : ((k % 3 : Nat) : ℚ) ≤ 2 := by
      have := Nat.mod_lt k (show 0 < 3 by norm_num)
      exact_mod_cast (by omega : k % 3 ≤ 2)
    match i, hx with
    | 0, hx => simp [envDemo] at hx; subst hx; simpa using h5
    | 1, hx => simp [envDemo] at hx; subst hx; simpa using h3
    | 2, hx => simp [envDemo] at hx; subst hx; simp

/-! Cases of the other theorems. -/

example (x : List ℚ) (s : ℚ) (st : GaSt ℚ) (h : parametersGA envDemo [0, 0, 0] 3 4 (9 / 10) (1 / 2) = .ok (x, s, st)) :
    s ≤ 7 ∧ ∀ q ∈ st.evals, s ≤ q.1 :=
  ⟨by simpa [envDemo] using (C35_never_worse (f := fun x => |x.sum - 7|) (fun _ => rfl) h).2, (C35_ga h).2.2.1 (by norm_num)⟩
example := C35_errors envDemo [0, 0, 0] 3 (9 / 10) 1
example := C35_total (e := envDemo) [0, 0, 0] 3 (n := 4) (9 / 10) (1 / 2) (by norm_num) (fun _ => by simp [envDemo])
example := C36_crossover_single 5 (p1 := [(1 : ℚ), 2, 3, 4]) (p2 := [5, 6, 7, 8]) rfl
example := C36_crossover_double 0 1 (p1 := [(1 : ℚ), 2, 3, 4]) (p2 := [5, 6, 7, 8]) rfl
example := C36_mutation [0, 2] (parent := [(1 : ℚ), 2, 3]) (mutant := [5, 6, 7]) rfl (by simp)

end Verif
