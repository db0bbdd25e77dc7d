import Verif.Lemmas.Lineage
import Verif.Props.Run
/-! # Properties of descent in a run, and of runs that finish (C102) -/

set_option linter.unusedSectionVars false

namespace Verif
variable {C K : Type} [Field K] [LinearOrder K] [IsStrictOrderedRing K]

/-- **C102.** Everything evaluated in a run descends from the start, generation by generation: what is evaluated in the first generation was made from copies of the
optimised start design, what is evaluated in a later one was made from `n_population` survivors of the one before.  Without species these survivors are the best of it. -/
theorem C102_parents {cfg : TopCfg C K} (hs : Sane cfg) (hpop : 0 < cfg.nPop) {w : Pool C} {start : C} {mgr : Option (Spec Nat K)}
    (hm : ∀ S, mgr = some S → SpecReach cfg.sqrt S) {st : RunSt C K} (h : topologyOptimization cfg w start mgr = .ok st) :
    ∃ s0, cfg.opt w.calls start = .ok s0 ∧ ∀ k gen, st.trace[k]? = some gen → ∃ parents : List (K × C), parents.length = cfg.nPop ∧
      (k = 0 → parents = List.replicate cfg.nPop s0) ∧
      (∀ j prev, k = j + 1 → st.trace[j]? = some prev →
        (∀ p ∈ parents, p ∈ prev) ∧ (cfg.setup = none → mgr = none → BestOf (·.1) cfg.nPop prev parents)) ∧
      ∀ q ∈ gen, ∃ p ∈ parents, NextGen cfg p q := by
  unfold topologyOptimization at h
  split at h
  · cases h
  · next st0 h0 =>
    obtain ⟨s0, e0, J0⟩ := initialState_kin h0
    have J := generations_kin hs hpop (initialState_inv hm h0) J0 h
    refine ⟨s0, e0, fun k gen hk => ?_⟩
    obtain ⟨parents, ⟨p1, p2, p3⟩, p4⟩ := J.kin k gen hk
    exact ⟨parents, p1, p2, fun j prev hj hp => ⟨(p3 j prev hj hp).1, fun a b => (p3 j prev hj hp).2 ⟨a, b⟩⟩, p4⟩

/-- **C102.** Each design evaluated in generation `k` has its `k + 2` ancestors: a chain from the optimised start to it, whose members were evaluated in successive
generations, each made from the one before it and then optimised. -/
theorem C102_chain {cfg : TopCfg C K} (hs : Sane cfg) (hpop : 0 < cfg.nPop) {w : Pool C} {start : C} {mgr : Option (Spec Nat K)}
    (hm : ∀ S, mgr = some S → SpecReach cfg.sqrt S) {st : RunSt C K} (h : topologyOptimization cfg w start mgr = .ok st) :
    ∃ s0, cfg.opt w.calls start = .ok s0 ∧ ∀ k gen q, st.trace[k]? = some gen → q ∈ gen →
      ∃ l : List (K × C), l.length = k + 2 ∧ l[0]? = some s0 ∧ l[k + 1]? = some q ∧
        (∀ i p, l[i + 1]? = some p → ∃ g, st.trace[i]? = some g ∧ p ∈ g) ∧
        ∀ i p r, l[i]? = some p → l[i + 1]? = some r → NextGen cfg p r := by
  obtain ⟨s0, e0, hp⟩ := C102_parents hs hpop hm h
  refine ⟨s0, e0, fun k => ?_⟩
  have snoc : ∀ {l : List (K × C)} {k : Nat} {q : K × C}, l.length = k + 1 → ∀ i p, (l ++ [q])[i]? = some p → (i < k + 1 ∧ l[i]? = some p) ∨ i = k + 1 ∧ p = q := by
    intro l k q hl i p hi
    by_cases hik : i < k + 1
    · rw [List.getElem?_append_left (by omega)] at hi
      exact .inl ⟨hik, hi⟩
    · have := (List.getElem?_eq_some_iff.1 hi).1
      rw [List.length_append, List.length_singleton] at this
      have hik : i = k + 1 := by omega
      rw [hik, ← hl, List.getElem?_concat_length] at hi
      injection hi with hi
      exact .inr ⟨hik, hi.symm⟩
  induction k with
  | zero =>
    intro gen q hg hq
    obtain ⟨parents, -, p2, -, p4⟩ := hp 0 gen hg
    obtain ⟨p, hpm, hn⟩ := p4 q hq
    rw [p2 rfl] at hpm
    rw [List.eq_of_mem_replicate hpm] at hn
    refine ⟨[s0, q], rfl, rfl, rfl, fun i p hi => ?_, fun i p r hi hr => ?_⟩
    · rcases i with _ | i
      · simp only [Nat.zero_add, List.getElem?_cons_succ, List.getElem?_cons_zero, Option.some.injEq] at hi
        subst hi
        exact ⟨gen, hg, hq⟩
      · simp at hi
    · rcases i with _ | i
      · simp only [Nat.zero_add, List.getElem?_cons_succ, List.getElem?_cons_zero, Option.some.injEq] at hi hr
        subst hi hr
        exact hn
      · simp at hr
  | succ k ih =>
    intro gen q hg hq
    obtain ⟨parents, -, -, p3, p4⟩ := hp (k + 1) gen hg
    obtain ⟨p, hpm, hn⟩ := p4 q hq
    have hlt : k < st.trace.length := by
      have := (List.getElem?_eq_some_iff.1 hg).1
      omega
    obtain ⟨l, l1, l2, l3, l4, l5⟩ := ih _ p (List.getElem?_eq_getElem hlt) ((p3 k _ rfl (List.getElem?_eq_getElem hlt)).1 p hpm)
    refine ⟨l ++ [q], by simp [l1], ?_, ?_, fun i r hi => ?_, fun i a b ha hb => ?_⟩
    · rw [List.getElem?_append_left (by omega)]; exact l2
    · rw [← l1, List.getElem?_concat_length]
    · rcases snoc l1 _ _ hi with ⟨-, hi⟩ | ⟨hi, rfl⟩
      · exact l4 i r hi
      · have : i = k + 1 := by omega
        subst this
        exact ⟨gen, hg, hq⟩
    · rcases snoc l1 _ _ hb with ⟨hi, hb⟩ | ⟨hi, rfl⟩
      · rcases snoc l1 _ _ ha with ⟨-, ha⟩ | ⟨hi', -⟩
        · exact l5 i a b ha hb
        · omega
      · have : i = k + 1 := by omega
        subst this
        rcases snoc l1 _ _ ha with ⟨-, ha⟩ | ⟨hi', -⟩
        · rw [l3] at ha
          injection ha with ha
          subst ha
          exact hn
        · omega

theorem KinInv.inherit {cfg : TopCfg C K} {plain : Prop} {s0 : K × C} {st : RunSt C K} (J : KinInv cfg plain s0 st) {P : K × C → Prop} (h0 : P s0)
    (hstep : ∀ p q, P p → NextGen cfg p q → P q) : (∀ (k : Nat) (gen : List (K × C)), st.trace[k]? = some gen → ∀ q ∈ gen, P q) ∧ ∀ p ∈ contents st.w st.pop, P p := by
  have aux : ∀ (k : Nat) (gen : List (K × C)), st.trace[k]? = some gen → ∀ q ∈ gen, P q := by
    intro k
    induction k with
    | zero =>
      intro gen hg q hq
      obtain ⟨parents, ⟨-, p2, -⟩, p4⟩ := J.kin 0 gen hg
      obtain ⟨p, hpm, hn⟩ := p4 q hq
      rw [p2 rfl] at hpm
      rw [List.eq_of_mem_replicate hpm] at hn
      exact hstep _ _ h0 hn
    | succ k ih =>
      intro gen hg q hq
      obtain ⟨parents, ⟨-, -, p3⟩, p4⟩ := J.kin _ gen hg
      obtain ⟨p, hpm, hn⟩ := p4 q hq
      have hlt : k < st.trace.length := by
        have := (List.getElem?_eq_some_iff.1 hg).1
        omega
      exact hstep _ _ (ih _ (List.getElem?_eq_getElem hlt) p ((p3 k _ rfl (List.getElem?_eq_getElem hlt)).1 p hpm)) hn
  refine ⟨aux, fun p hp => ?_⟩
  rcases hl : st.trace.length with _ | n
  · have := J.bred.2.1 hl
    rw [this] at hp
    rw [List.eq_of_mem_replicate hp]
    exact h0
  · have hlt : n < st.trace.length := by omega
    exact aux n _ (List.getElem?_eq_getElem hlt) p ((J.bred.2.2 n _ hl (List.getElem?_eq_getElem hlt)).1 p hp)

/-- **C102.** The hall of fame holds only designs that were evaluated in some generation, with the score they had there. -/
theorem C102_hall {cfg : TopCfg C K} (hs : Sane cfg) (hpop : 0 < cfg.nPop) {w : Pool C} {start : C} {mgr : Option (Spec Nat K)}
    (hm : ∀ S, mgr = some S → SpecReach cfg.sqrt S) {st : RunSt C K} (h : topologyOptimization cfg w start mgr = .ok st) :
    ∀ q, some q ∈ st.hof → ∃ gen ∈ st.trace, q ∈ gen := by
  unfold topologyOptimization at h
  split at h
  · cases h
  · next st1 hi =>
    obtain ⟨gens, I, hl⟩ := generations_inv hs hpop (initialState_inv hm hi) h
    rw [List.nil_append] at I
    intro q hq
    rw [I.hof] at hq
    obtain ⟨-, -, -, b4, -⟩ := runHof_inv (gens := gens) (init_pairwise (α := K) (G := C) cfg.nHof)
    rcases b4 _ hq with hq | ⟨g, hg, q', hq', he⟩
    · simp [initHof] at hq
    · injection he with he
      subst he
      exact ⟨g.2, by rw [I.trace]; exact List.mem_map_of_mem hg, hq'⟩

/-- **C102.** What the optimised start has, and mutation and optimisation keep, is true of every design the run evaluates, of every design in the hall of fame and of
every survivor, with its score. -/
theorem C102_inherited {cfg : TopCfg C K} (hs : Sane cfg) (hpop : 0 < cfg.nPop) {w : Pool C} {start : C} {mgr : Option (Spec Nat K)}
    (hm : ∀ S, mgr = some S → SpecReach cfg.sqrt S) {st : RunSt C K} (h : topologyOptimization cfg w start mgr = .ok st) {P : K × C → Prop}
    (h0 : ∀ s0, cfg.opt w.calls start = .ok s0 → P s0) (hstep : ∀ p q, P p → NextGen cfg p q → P q) :
    (∀ gen ∈ st.trace, ∀ q ∈ gen, P q) ∧ (∀ q, some q ∈ st.hof → P q) ∧ ∀ p ∈ st.pop, ∃ x, p.1 = some x ∧ P (x, st.w.heap p.2) := by
  unfold topologyOptimization at h
  split at h
  · cases h
  · next st1 hi =>
    obtain ⟨s0, e0, J0⟩ := initialState_kin hi
    have I0 := initialState_inv hm hi
    have J := generations_kin hs hpop I0 J0 h
    obtain ⟨gens, I, hl⟩ := generations_inv hs hpop I0 h
    rw [List.nil_append] at I
    obtain ⟨a1, a2⟩ := J.inherit (h0 s0 e0) hstep
    have a1' : ∀ gen ∈ st.trace, ∀ q ∈ gen, P q := by
      intro gen hg
      obtain ⟨k, hk⟩ := List.getElem?_of_mem hg
      exact a1 k gen hk
    refine ⟨a1', fun q hq => ?_, fun p hp => ?_⟩
    · obtain ⟨gen, hg, hq'⟩ := C102_hall hs hpop hm (by unfold topologyOptimization; rw [hi]; exact h) q hq
      exact a1' gen hg q hq'
    · have hsc := I.scored p hp
      cases hx : p.1 with
      | none => exact absurd hx hsc
      | some x =>
        refine ⟨x, rfl, ?_⟩
        have := a2 (p.1.getD 0, st.w.heap p.2) (List.mem_map.2 ⟨p, hp, rfl⟩)
        rw [hx] at this
        exact this

/-! ### Runs finish -/

theorem reproduce_total_of {cfg : TopCfg C K} {P : C → Prop} (hev : ∀ n c, P c → ∃ c', cfg.ev n c = .ok c' ∧ cfg.chk c' = true) {choose : Nat → Nat}
    {pop : List (Indiv K)} (hch : ∀ n, choose n < pop.length) (n : Nat) (w : Pool C) (ha : Alive w pop) (hP : ∀ p ∈ pop, P (w.heap p.2)) :
    ∃ r, reproduce cfg choose pop n w = .ok r := by
  induction n generalizing w with
  | zero => exact ⟨_, rfl⟩
  | succ n ih =>
    rw [reproduce]
    obtain ⟨⟨s, i⟩, hp⟩ : ∃ p, pop[choose w.calls]? = some p := ⟨_, List.getElem?_eq_getElem (hch _)⟩
    have hi := List.mem_of_getElem? hp
    obtain ⟨c, hc, hk⟩ := hev w.calls (w.heap i) (hP _ hi)
    have h1 : child cfg w i = .ok (w.alloc c).tick := by
      unfold child
      rw [hc]
    have hu := untouched_new w c
    obtain ⟨⟨w2, rest⟩, hr⟩ := ih (w.alloc c).tick (fun p hp => lt_of_lt_of_le (ha p hp) hu.1)
      (fun p hp => by rw [hu.2 _ (ha p hp)]; exact hP p hp)
    simp only [hp, h1, new_heap, hk, if_true, hr]
    exact ⟨_, rfl⟩

theorem randomLoop_total_of {cfg : TopCfg C K} {P : C → Prop} (hf : 0 < cfg.fuel)
    (hev : ∀ n c, P c → ∃ c', cfg.ev n c = .ok c' ∧ cfg.chk c' = true ∧ cfg.hasParams c' = true) (pop : List (Indiv K)) (w : Pool C) (hn : (pop.map (·.2)).Nodup)
    (hP : ∀ p ∈ pop, P (w.heap p.2)) : ∃ r, randomLoop cfg w pop = .ok r := by
  induction pop generalizing w with
  | nil => exact ⟨_, rfl⟩
  | cons p pop ih =>
    obtain ⟨s, i⟩ := p
    obtain ⟨f, hf'⟩ : ∃ f, cfg.fuel = f + 1 := ⟨cfg.fuel - 1, by omega⟩
    obtain ⟨c, h1, h2, h3⟩ := hev w.calls (w.heap i) (hP _ List.mem_cons_self)
    simp only [List.map_cons, List.nodup_cons] at hn
    obtain ⟨⟨w2, rest⟩, hr⟩ := ih (w.write i c).tick hn.2 (fun p hp => by
      have hne : p.2 ≠ i := fun e => hn.1 (e ▸ List.mem_map_of_mem hp)
      have : ((w.write i c).tick).heap p.2 = w.heap p.2 := by simp [Pool.write, Pool.tick, hne]
      rw [this]
      exact hP p (List.mem_cons_of_mem _ hp))
    rw [randomLoop, hf', evolveUntil, h1]
    simp only [h2, h3, Bool.and_self, if_true, hr]
    exact ⟨_, rfl⟩

theorem updatePop_total_of {cfg : TopCfg C K} {mgr : Option (Spec Nat K)} {P : C → Prop} (hr : RuleWorks cfg mgr P)
    (hev : ∀ n c, P c → ∃ c', cfg.ev n c = .ok c' ∧ cfg.chk c' = true) {w : Pool C} {pop : List (Indiv K)} (hne : pop ≠ []) (ha : Alive w pop)
    (hn : (pop.map (·.2)).Nodup) (hel : elite cfg pop = []) (hsc : ∀ p ∈ pop, ∃ s, p.1 = some s ∧ ((∃ q, cfg.rule = .roulette q) → 0 < s)) (hP : ∀ p ∈ pop, P (w.heap p.2)) :
    ∃ r, updatePop cfg w pop = .ok r := by
  have hlen : 0 < pop.length := List.length_pos_iff.2 hne
  unfold RuleWorks at hr
  unfold updatePop
  split at hr
  · next d hrule =>
    simp only [hrule]
    unfold updateTournament
    rw [if_neg (by omega), if_neg (by omega)]
    obtain ⟨r, hr⟩ := reproduce_total_of (cfg := cfg) hev (choose := fun n => minIdx (tourneyIdx cfg d pop.length n)) (pop := pop)
      (fun n => by
        have hne : tourneyIdx cfg d pop.length n ≠ [] := by
          unfold tourneyIdx tourneySize
          intro he
          have := congrArg List.length he
          simp only [List.length_map, List.length_range, List.length_nil] at this
          split at this <;> omega
        obtain ⟨j, _, hj⟩ := List.mem_map.1 (minIdx_spec hne).1
        rw [← hj]
        exact Nat.mod_lt _ hlen) pop.length w ha hP
    simp only [hr]
    exact ⟨_, rfl⟩
  · next p hrule =>
    simp only [hrule]
    have hpos : ∀ q ∈ pop, ∃ s, q.1 = some s ∧ 0 < s := fun q hq => let ⟨s, h1, h2⟩ := hsc q hq; ⟨s, h1, h2 ⟨p, hrule⟩⟩
    have aux : ∀ (l : List (Indiv K)), (∀ q ∈ l, ∃ s, q.1 = some s ∧ 0 < s) → ∃ sc, allScores l = .ok sc ∧ sc.length = l.length ∧ ∀ s ∈ sc, 0 < s := by
      intro l
      induction l with
      | nil => exact fun _ => ⟨[], rfl, rfl, by simp⟩
      | cons q l ih =>
        intro h
        obtain ⟨sc, h1, h2, h3⟩ := ih (fun r hr => h r (List.mem_cons_of_mem _ hr))
        obtain ⟨s, hs, hs0⟩ := h q List.mem_cons_self
        obtain ⟨o, i⟩ := q
        dsimp only at hs
        subst hs
        refine ⟨s :: sc, by rw [allScores, h1], by simp [h2], ?_⟩
        intro t ht
        rcases List.mem_cons.1 ht with rfl | ht
        · exact hs0
        · exact h3 t ht
    obtain ⟨sc, s1, s2, s3⟩ := aux pop hpos
    have hscne : sc ≠ [] := fun h0 => by rw [h0] at s2; simp at s2; omega
    obtain ⟨probs, q1, q2, q3, q4, -⟩ := C29_roulette_chances (p := p) hscne s3
    obtain ⟨r, hr'⟩ := reproduce_total_of (cfg := cfg) hev (choose := fun n => cdfPick probs 0 (cfg.u n)) (pop := pop)
      (fun n => by
        have := (C29_roulette_pick (fun x hx => (q3 x hx).le) q4 (hr.1 n).1 (hr.1 n).2).1
        omega) pop.length w ha hP
    unfold updateRoulette
    match pop, hne, hpos, s1, hr' with
    | (none, i) :: pop, _, hpos, _, _ =>
      obtain ⟨s, h1, -⟩ := hpos _ List.mem_cons_self
      cases h1
    | (some x, i) :: pop, _, _, s1, hr' =>
      simp only [s1, q1, hr']
      exact ⟨_, rfl⟩
  · next hrule =>
    simp only [hrule]
    unfold updateRandom
    rw [hel]
    have hev' : ∀ n c, P c → ∃ c', cfg.ev n c = .ok c' ∧ cfg.chk c' = true ∧ cfg.hasParams c' = true := fun n c hc => by
      obtain ⟨c', h1, h2⟩ := hev n c hc
      exact ⟨c', h1, h2, hr.2.2.2 n c c' hc h1⟩
    obtain ⟨r, hr'⟩ := randomLoop_total_of hr.2.2.1 hev' pop w hn hP
    simp only [copyAll, hr']
    exact ⟨_, rfl⟩
  · exact absurd hr id

theorem optimiseAll_total_of {cfg : TopCfg C K} {P : C → Prop} (hopt : ∀ n c, P c → ∃ r, cfg.opt n c = .ok r) (pop : List (Indiv K)) (w : Pool C) (ha : Alive w pop)
    (hun : AllUnscored pop) (hP : ∀ p ∈ pop, P (w.heap p.2)) : ∃ r, optimiseAll cfg w pop = .ok r := by
  induction pop generalizing w with
  | nil => exact ⟨_, rfl⟩
  | cons p pop ih =>
    obtain ⟨s, i⟩ := p
    have hs : s = none := hun _ List.mem_cons_self
    subst hs
    obtain ⟨⟨s, c⟩, hc⟩ := hopt w.calls (w.heap i) (hP _ List.mem_cons_self)
    have hu := untouched_new w c
    obtain ⟨⟨w2, rest⟩, hr⟩ := ih (w.alloc c).tick (fun p hp => lt_of_lt_of_le (ha p (List.mem_cons_of_mem _ hp)) hu.1)
      (fun p hp => hun p (List.mem_cons_of_mem _ hp)) (fun p hp => by rw [hu.2 _ (ha p (List.mem_cons_of_mem _ hp))]; exact hP p (List.mem_cons_of_mem _ hp))
    rw [optimiseAll, hc]
    simp only [hr]
    exact ⟨_, rfl⟩

theorem asInd_of_scored {pop : List (Indiv K)} (h : AllScored pop) : pop = asInd (pop.map (fun p => (p.1.getD 0, p.2))) := by
  induction pop with
  | nil => rfl
  | cons p pop ih =>
    obtain ⟨s, i⟩ := p
    cases s with
    | none => exact absurd rfl (h _ List.mem_cons_self)
    | some x =>
      change _ = (some x, i) :: asInd (pop.map (fun p => (p.1.getD 0, p.2)))
      rw [← ih (fun q hq => h q (List.mem_cons_of_mem _ hq))]

theorem unshare_new {S : Spec Nat K} {decay : Option K} (pop : List (Indiv K)) (h : ∀ p ∈ pop, S.sizeOf p.2 = none) : S.unshare decay true pop = .ok pop := by
  induction pop with
  | nil => rfl
  | cons p pop ih =>
    obtain ⟨s, i⟩ := p
    rw [Spec.unshare, h (s, i) List.mem_cons_self, ih (fun q hq => h q (List.mem_cons_of_mem _ hq))]

theorem elite_nil {cfg : TopCfg C K} (hel : pyRound (cfg.ratio * cfg.nPop) = 0) {pop : List (Indiv K)} (hl : pop.length = cfg.nPop) : elite cfg pop = [] := by
  unfold elite
  rw [hl, hel]
  simp [slice0]

theorem breed_total_of {cfg : TopCfg C K} (hs : Sane cfg) {mgr : Option (Spec Nat K)} {P : C → Prop} (hr : RuleWorks cfg mgr P)
    (hev : ∀ n c, P c → ∃ c', cfg.ev n c = .ok c' ∧ cfg.chk c' = true) (hel : pyRound (cfg.ratio * cfg.nPop) = 0) {gen : Nat} {st : RunSt C K} (hne : st.pop ≠ [])
    (hl : st.pop.length = cfg.nPop) (ha : Alive st.w st.pop) (hn : (st.pop.map (·.2)).Nodup) (hmgr : ∀ S, st.mgr = some S → SpecReach cfg.sqrt S)
    (hnone : cfg.setup = none ∧ mgr = none → st.mgr = none) (hsc : ∀ p ∈ st.pop, ∃ s, p.1 = some s ∧ ((∃ q, cfg.rule = .roulette q) → 0 < s))
    (hP : ∀ p ∈ st.pop, P (st.w.heap p.2)) : ∃ st1, breed cfg gen st = .ok st1 := by
  have hbase : ∃ r, updatePop cfg st.w st.pop = .ok r := updatePop_total_of hr hev hne ha hn (elite_nil hel hl) hsc hP
  unfold breed
  split
  · obtain ⟨⟨w', pop'⟩, h1⟩ := hbase
    rw [h1]
    exact ⟨_, rfl⟩
  · split
    · obtain ⟨⟨w', pop'⟩, h1⟩ := hbase
      rw [h1]
      exact ⟨_, rfl⟩
    · next S hS =>
      obtain ⟨S', hS'⟩ : ∃ S', S' = S.speciate (heapDist cfg st.w) cfg.sqrt (cfg.specRnd (2 * gen)) (st.pop.map (·.2)) := ⟨_, rfl⟩
      simp only [← hS']
      have hall : AllScored st.pop := fun p hp => by
        obtain ⟨s, h1, -⟩ := hsc p hp
        rw [h1]
        simp
      obtain ⟨l, hl'⟩ : ∃ l, l = st.pop.map (fun p => (p.1.getD 0, p.2)) := ⟨_, rfl⟩
      have hasI := asInd_of_scored hall
      rw [← hl'] at hasI
      have hsz : ∀ p ∈ l, ∃ n, S'.sizeOf p.2 = some n ∧ 0 < n := by
        intro p hp
        rw [hl'] at hp
        obtain ⟨q, hq, rfl⟩ := List.mem_map.1 hp
        rw [hS']
        exact speciate_size (hmgr S hS) _ (hs.orders _) _ (List.mem_map.2 ⟨q, hq, rfl⟩)
      have hshare := share_asInd (cfg.decay gen) l (fun p hp => let ⟨n, hn, _⟩ := hsz p hp; ⟨n, hn⟩)
      rw [← hasI] at hshare
      simp only [hshare]
      obtain ⟨sh, hsh⟩ : ∃ sh : List (Indiv K), sh = asInd (l.map (fun p => (p.1 * factor S' (cfg.decay gen) p.2, p.2))) := ⟨_, rfl⟩
      simp only [← hsh]
      rw [← hsh] at hshare
      obtain ⟨g1, -, -⟩ := share_graphs hshare
      have hal : Alive st.w sh := by
        intro p hp
        obtain ⟨r, hr, he⟩ := mem_of_graphs g1 hp
        rw [← he]
        exact ha r hr
      have hlsh : sh.length = st.pop.length := by
        have := congrArg List.length g1
        simpa using this
      have hnesh : sh ≠ [] := fun h0 => by
        rw [h0] at hlsh
        exact hne (List.eq_nil_of_length_eq_zero hlsh.symm)
      obtain ⟨⟨w', out⟩, h1⟩ : ∃ r, updatePop cfg st.w sh = .ok r := by
        refine updatePop_total_of hr hev hnesh hal (by rw [g1]; exact hn) (elite_nil hel (hlsh.trans hl)) (fun p hp => ?_) (fun p hp => ?_)
        · rw [hsh] at hp
          obtain ⟨q, hq, rfl⟩ := List.mem_map.1 hp
          obtain ⟨r, hr, rfl⟩ := List.mem_map.1 hq
          refine ⟨_, rfl, fun hrou => ?_⟩
          obtain ⟨n, n1, n2⟩ := hsz r hr
          rw [hl'] at hr
          obtain ⟨t, ht, rfl⟩ := List.mem_map.1 hr
          obtain ⟨s, t1, t2⟩ := hsc t ht
          dsimp only at n1 ⊢
          rw [t1]
          unfold factor
          rw [n1]
          exact mul_pos (t2 hrou) (lt_of_lt_of_le one_pos (scaling_ge _ n2))
        · obtain ⟨r, hr, he⟩ := mem_of_graphs g1 hp
          rw [← he]
          exact hP r hr
      simp only [h1]
      obtain ⟨new, pass, k1, k2, k3, k4, k5, k6, k7, k8⟩ := updatePop_ok hal h1
      have hunsh : S'.unshare (cfg.decay gen) true out = .ok out := by
        apply unshare_new
        have hpass : pass = [] := by
          rw [elite_nil hel (hlsh.trans hl)] at k3
          exact List.map_eq_nil_iff.1 k3
        intro p hp
        rw [k1, hpass, List.append_nil] at hp
        rcases k8 with ⟨k8, -⟩ | ⟨-, k8, -⟩
        · exfalso
          unfold RuleWorks at hr
          rw [k8] at hr
          have := hnone ⟨hr.1, hr.2.1⟩
          rw [hS] at this
          cases this
        · have hp8 := k8 p hp
          have hnot : p.2 ∉ st.pop.map (·.2) := by
            intro hc
            obtain ⟨q, hq, he⟩ := List.mem_map.1 hc
            have := ha q hq
            omega
          obtain ⟨c1, -, -, -⟩ := C31_partition (d := heapDist cfg st.w) (hmgr S hS) (hs.orders (2 * gen)) (st.pop.map (·.2))
          rw [← hS'] at c1
          cases hz : S'.sizeOf p.2 with
          | none => rfl
          | some n =>
            exfalso
            unfold Spec.sizeOf at hz
            obtain ⟨rep, r1, r2⟩ := Option.bind_eq_some_iff.1 hz
            obtain ⟨c1', c2, -, -⟩ := C31_partition (d := heapDist cfg st.w) (hmgr S hS) (hs.orders (2 * gen)) (st.pop.map (·.2))
            rw [← hS'] at c2
            exact hnot ((c1 p.2).2 ⟨rep, n, r1, (dget_eq c2).1 r2⟩)
      simp only [hunsh]
      exact ⟨_, rfl⟩

theorem generations_total_of {cfg : TopCfg C K} (hs : Sane cfg) (hpop : 0 < cfg.nPop) (hhof : 0 < cfg.nHof) (hgen : cfg.nGen ≠ 1)
    (hel : pyRound (cfg.ratio * cfg.nPop) = 0) {mgr : Option (Spec Nat K)} {P : C → Prop} (hr : RuleWorks cfg mgr P)
    (hev : ∀ n c, P c → ∃ c', cfg.ev n c = .ok c' ∧ cfg.chk c' = true ∧ P c') (hopt : ∀ n c, P c → ∃ s c', cfg.opt n c = .ok (s, c') ∧ P c')
    {s0 : K × C} (h0 : P s0.2) (h0s : (∃ q, cfg.rule = .roulette q) → 0 < s0.1) (m gen : Nat) {st : RunSt C K} {gens : List ((C → C → Bool) × List (K × C))} (I : RunInv cfg st gens)
    (J : KinInv cfg (cfg.setup = none ∧ mgr = none) s0 st) : ∃ st', generations cfg m gen st = .ok st' := by
  induction m generalizing gen st gens with
  | zero => exact ⟨_, rfl⟩
  | succ m ih =>
    have hbeg : ∀ p b, P p → Begets cfg p b → P b := by
      intro p b hp hb
      unfold RuleWorks at hr
      unfold Begets at hb
      split at hr
      · next hrule =>
        rw [hrule] at hb
        obtain ⟨n, h1, -⟩ := hb
        obtain ⟨c, h2, -, h3⟩ := hev n p hp
        rw [h1] at h2; injection h2 with h2; subst h2; exact h3
      · next hrule =>
        rw [hrule] at hb
        obtain ⟨n, h1, -⟩ := hb
        obtain ⟨c, h2, -, h3⟩ := hev n p hp
        rw [h1] at h2; injection h2 with h2; subst h2; exact h3
      · next hrule =>
        rw [hrule] at hb
        dsimp only at hb
        clear hr
        induction hb with
        | last h1 _ _ =>
          obtain ⟨c', h2, -, h3⟩ := hev _ _ hp
          rw [h1] at h2; injection h2 with h2; subst h2; exact h3
        | again h1 _ _ ih =>
          obtain ⟨c'', h2, -, h3⟩ := hev _ _ hp
          rw [h1] at h2; injection h2 with h2; subst h2; exact ih h3
      · exact absurd hr id
    have hinh := (J.inherit (P := fun p => P p.2 ∧ ((∃ q, cfg.rule = .roulette q) → 0 < p.1)) ⟨h0, h0s⟩ (by
      rintro p q hp ⟨b, n, hb, hq⟩
      have hPb := hbeg _ _ hp.1 hb
      obtain ⟨s, c, h1, h2⟩ := hopt n b hPb
      rw [hq] at h1
      injection h1 with h1
      subst h1
      refine ⟨h2, fun hrou => ?_⟩
      obtain ⟨p, hrule⟩ := hrou
      unfold RuleWorks at hr
      rw [hrule] at hr
      exact hr.2 n b _ _ hPb hq)).2
    have hmem : ∀ p ∈ st.pop, P (st.w.heap p.2) ∧ ((∃ q, cfg.rule = .roulette q) → 0 < p.1.getD 0) :=
      fun p hp => hinh (p.1.getD 0, st.w.heap p.2) (List.mem_map.2 ⟨p, hp, rfl⟩)
    have hne : st.pop ≠ [] := by
      intro h0
      have := I.len
      rw [h0] at this
      simp at this
      omega
    have hev' : ∀ n c, P c → ∃ c', cfg.ev n c = .ok c' ∧ cfg.chk c' = true := fun n c hc => let ⟨c', a, b, _⟩ := hev n c hc; ⟨c', a, b⟩
    obtain ⟨st1, hb⟩ := breed_total_of (gen := gen) hs hr hev' hel hne I.len I.alive J.nodup I.mgr J.mgr (fun p hp => by
      have hsc := I.scored p hp
      cases hx : p.1 with
      | none => exact absurd hx hsc
      | some x =>
        refine ⟨x, rfl, fun hrou => ?_⟩
        have := (hmem p hp).2 hrou
        rw [hx] at this
        exact this) (fun p hp => (hmem p hp).1)
    obtain ⟨new, pass, -, -, -, -, b5, -, b7, b8, -, -⟩ := breed_ok I.alive I.scored hb
    have hun := C30_no_elite I.alive I.scored (elite_nil hel I.len) hb
    obtain ⟨n1, -⟩ := breed_begets I.alive J.nodup I.scored hb
    obtain ⟨⟨w2, pop2⟩, ho⟩ := optimiseAll_total_of (fun n c hc => let ⟨s, c', a, _⟩ := hopt n c hc; ⟨_, a⟩) st1.pop st1.w b7 hun (fun p hp => by
      obtain ⟨q, hq, hbq⟩ := n1 p hp (hun p hp)
      exact hbeg _ _ (hmem q hq).1 hbq)
    have hm1 := breed_mgr hs hne I.mgr hb
    have hne2 : pop2 ≠ [] := by
      intro h0
      have h2 := (optimiseAll_ok ho).2.1
      have h3 := breed_ok I.alive I.scored hb
      obtain ⟨new, pass, c1, -, -, -, c5, -⟩ := h3
      rw [h0] at h2
      have := congrArg List.length c1
      rw [List.length_map, List.length_append, ← h2] at this
      have := I.len
      simp at *
      omega
    obtain ⟨mgr', kept, s1, -⟩ := select_ok (gen := gen) (w := w2) hs hm1 hne2
    obtain ⟨best, rest, hh⟩ : ∃ best rest, updateHof (cfg.sim gen) st1.hof (pop2.map (fun p => (p.1, w2.heap p.2))) = best :: rest := by
      apply List.exists_cons_of_ne_nil
      intro hnil
      have hlen := (runHof_inv (gens := gens ++ [(cfg.sim gen, pop2.map (fun p => (p.1, w2.heap p.2)))]) (init_pairwise (α := K) (G := C) cfg.nHof)).2.1
      rw [runHof_snoc, ← I.hof, ← b8, hnil] at hlen
      simp [initHof] at hlen
      omega
    have hg : ∃ st', generation cfg gen st = .ok st' := by
      unfold generation
      rw [if_neg hgen]
      simp only [hb, ho, s1, hh]
      exact ⟨_, rfl⟩
    obtain ⟨st', hg⟩ := hg
    obtain ⟨off, I'⟩ := generation_inv hs hpop I hg
    obtain ⟨st'', h⟩ := ih (gen + 1) I' (generation_kin hs hpop I J hg)
    exact ⟨st'', by rw [generations, hg]; exact h⟩

/-- **C102.** Runs finish: with an elitism ratio that rounds to nobody, any number of generations other than one, and a rule in working order, a run from a design for which
mutation and optimisation do not raise, and whose descendants are again such designs, returns a result.  With or without species, except for the random rule. -/
theorem C102_finishes {cfg : TopCfg C K} (hs : Sane cfg) (hpop : 0 < cfg.nPop) (hhof : 0 < cfg.nHof) (hgen : cfg.nGen ≠ 1)
    (hel : pyRound (cfg.ratio * cfg.nPop) = 0) {mgr : Option (Spec Nat K)} (hm : ∀ S, mgr = some S → SpecReach cfg.sqrt S) {P : C → Prop} (hr : RuleWorks cfg mgr P)
    (hev : ∀ n c, P c → ∃ c', cfg.ev n c = .ok c' ∧ cfg.chk c' = true ∧ P c') (hopt : ∀ n c, P c → ∃ s c', cfg.opt n c = .ok (s, c') ∧ P c')
    (w : Pool C) {start : C} (h0 : P start) : ∃ st, topologyOptimization cfg w start mgr = .ok st := by
  obtain ⟨s, c, h1, h2⟩ := hopt w.calls start h0
  have hi : ∃ st0, initialState cfg w start mgr = .ok st0 := by
    unfold initialState
    rw [h1]
    exact ⟨_, rfl⟩
  obtain ⟨st0, hi⟩ := hi
  obtain ⟨s0, e0, J0⟩ := initialState_kin hi
  rw [h1] at e0
  injection e0 with e0
  subst e0
  obtain ⟨st, h⟩ := generations_total_of hs hpop hhof hgen hel hr hev hopt h2 (fun hrou => by
    obtain ⟨p, hrule⟩ := hrou
    unfold RuleWorks at hr
    rw [hrule] at hr
    exact hr.2 _ _ _ _ h0 h1) cfg.nGen 0 (initialState_inv hm hi) J0
  exact ⟨st, by unfold topologyOptimization; rw [hi]; exact h⟩

/-! Cases: the counting world of `cfgDemo`, where mutation adds one or two; with each rule; with and without species. -/

theorem demo_works (rule : Rule ℚ) (h : rule = .tournament 3 ∨ rule = .roulette 2 ∨ rule = .random) : RuleWorks (cfgDemo rule 0) none (fun c => 2 ≤ c) := by
  rcases h with rfl | rfl | rfl
  · show 0 < 3
    decide
  · refine ⟨fun n => ?_, fun n c s c' _ h => ?_⟩
    · have : n % 3 < 3 := Nat.mod_lt _ (by decide)
      show (0 : ℚ) ≤ ((n % 3 : Nat) : ℚ) / 4 ∧ ((n % 3 : Nat) : ℚ) / 4 < 1
      have h3 : ((n % 3 : Nat) : ℚ) < 3 := by exact_mod_cast this
      exact ⟨by positivity, by linarith⟩
    · injection h with h
      injection h with h1 h2
      rw [← h1]
      positivity
  · refine ⟨rfl, rfl, by decide, fun n c c' hc h => ?_⟩
    injection h with h
    subst h
    simp [cfgDemo]

theorem demo_finishes (rule : Rule ℚ) (h : rule = .tournament 3 ∨ rule = .roulette 2 ∨ rule = .random) :
    ∃ st, topologyOptimization (cfgDemo rule 0) worldDemo 2 none = .ok st :=
  C102_finishes (cfg := cfgDemo rule 0) (P := fun c => 2 ≤ c) (sane_demo _ _) (show 0 < 3 by decide) (show 0 < 2 by decide)
    (show 2 ≠ 1 by decide) (show pyRound ((0 : ℚ) * (3 : Nat)) = 0 by decide +kernel) (fun S hS => by cases hS)
    (demo_works rule h) (fun n c (hc : 2 ≤ c) => ⟨_, rfl, rfl, by show 2 ≤ c + 1 + n % 2; omega⟩) (fun n c hc => ⟨_, c, rfl, hc⟩) worldDemo (show 2 ≤ 2 by decide)

/-- With species: a manager set up by the run itself, in a run by tournaments. -/
example : ∃ st, topologyOptimization { cfgDemo (.tournament 3) 0 with setup := some ⟨none, 2/5, [], fun _ => none⟩ } worldDemo 2 none = .ok st :=
  C102_finishes (cfg := { cfgDemo (.tournament 3) 0 with setup := some ⟨none, 2/5, [], fun _ => none⟩ }) (P := fun c => 2 ≤ c)
    ⟨fun _ => ⟨fun _ => .refl _, fun _ _ => .refl _⟩, by
      intro S h
      injection h with h
      subst h
      exact .init (t := none) (thr := 2/5) (by unfold Spec.init; rw [if_neg (by norm_num)])⟩
    (by decide) (by decide) (by decide) (by decide +kernel) (fun S hS => by cases hS) (show 0 < 3 by decide)
    (fun n c (hc : 2 ≤ c) => ⟨_, rfl, rfl, by show 2 ≤ c + 1 + n % 2; omega⟩) (fun n c hc => ⟨_, c, rfl, hc⟩) worldDemo (show 2 ≤ 2 by decide)

/-- Descent in a run by roulette: three copies of 2, then children 3 or 4, then children of these. -/
example : (topologyOptimization (cfgDemo (.roulette 2) 0) worldDemo 2 none).map (fun st => st.trace) =
    .ok [[(3, 4), (2, 3), (5, 4)], [(1, 5), (5, 4), (3, 5)]] := by decide +kernel
example (st : RunSt Nat ℚ) (h : topologyOptimization (cfgDemo (.roulette 2) 0) worldDemo 2 none = .ok st) :=
  C102_parents (sane_demo _ _) (by decide) (fun S hS => by cases hS) h
example (st : RunSt Nat ℚ) (h : topologyOptimization (cfgDemo (.roulette 2) 0) worldDemo 2 none = .ok st) :=
  C102_hall (sane_demo _ _) (by decide) (fun S hS => by cases hS) h
example (st : RunSt Nat ℚ) (h : topologyOptimization (cfgDemo (.roulette 2) 0) worldDemo 2 none = .ok st) :=
  C102_chain (sane_demo _ _) (by decide) (fun S hS => by cases hS) h

/-- In the counting world every design of a run exceeds the start: an inherited property. -/
example (st : RunSt Nat ℚ) (h : topologyOptimization (cfgDemo .random 0) worldDemo 2 none = .ok st) : ∀ gen ∈ st.trace, ∀ q ∈ gen, 2 ≤ q.2 :=
  (C102_inherited (P := fun q => 2 ≤ q.2) (sane_demo _ _) (by decide) (fun S hS => by cases hS) h (fun s0 h0 => by
      injection h0 with h0
      rw [← h0]) (fun p q hp hn => by
      obtain ⟨b, n, hb, hq⟩ := hn
      injection hq with hq
      rw [← hq]
      have hb : EvolvedUntil (cfgDemo .random 0) p.2 b := hb
      show 2 ≤ b
      have aux : ∀ a b, EvolvedUntil (cfgDemo .random 0) a b → 2 ≤ a → 2 ≤ b := by
        intro a b hab
        induction hab with
        | last hev _ _ =>
          intro ha
          injection hev with hev
          subst hev
          exact Nat.le_trans ha (Nat.le_trans (Nat.le_add_right _ _) (Nat.le_add_right _ _))
        | again hev _ _ ih =>
          intro ha
          injection hev with hev
          subst hev
          exact ih (Nat.le_trans ha (Nat.le_trans (Nat.le_add_right _ _) (Nat.le_add_right _ _)))
      exact aux _ _ hb hp)).1

end Verif
