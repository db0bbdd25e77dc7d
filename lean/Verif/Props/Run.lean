import Verif.Lemmas.Run
/-!
# Properties of whole runs (C48, C49)
-/

set_option linter.unusedSectionVars false

namespace Verif
variable {C K : Type} [Field K] [LinearOrder K] [IsStrictOrderedRing K]

/-- `b` is the smallest score in `l`. -/
def LeastScore (b : K) (l : List (K × C)) : Prop := (∃ p ∈ l, p.1 = b) ∧ ∀ p ∈ l, b ≤ p.1

theorem LeastScore.mono {a b : K} {l m : List (K × C)} (h : LeastScore a l) (h' : LeastScore b m) (hs : ∀ p ∈ l, p ∈ m) :
    b ≤ a := by
  obtain ⟨⟨p, hp, rfl⟩, _⟩ := h
  exact h'.2 p (hs p hp)

theorem headScore_least {n : Nat} (hn : 0 < n) (gens : List ((C → C → Bool) × List (K × C))) (hne : ∃ g ∈ gens, g.2 ≠ []) :
    ∃ (s : K) (c : C), (runHof (initHof n) gens)[0]? = some (some (s, c)) ∧ headScore (runHof (initHof n) gens) = some s ∧
      (s, c) ∈ (gens.map (·.2)).flatten ∧ LeastScore s (gens.map (·.2)).flatten := by
  obtain ⟨⟨s, c, h1, h2⟩, h3⟩ := C26_best_ever hn gens hne
  obtain ⟨g, hg, hm⟩ := h3 (s, c) (List.mem_of_getElem? h1)
  have hmem : (s, c) ∈ (gens.map (·.2)).flatten := by
    simp only [List.mem_flatten, List.mem_map]
    exact ⟨_, ⟨g, hg, rfl⟩, hm⟩
  refine ⟨s, c, h1, ?_, hmem, ⟨_, hmem, rfl⟩, ?_⟩
  · unfold headScore
    rw [h1]
    rfl
  · intro p hp
    simp only [List.mem_flatten, List.mem_map] at hp
    obtain ⟨l, ⟨g, hg, rfl⟩, hp⟩ := hp
    exact h2 g hg p hp

/-- **C48.** A run that returns: every individual offered to the hall of fame is a result of the optimiser; the first entry of
the hall of fame is one of them and has the least score of all; the column `best` holds after each generation the least
score so far, never rises, and ends with the score returned; `n_population` individuals survive, each with the score
the optimiser gave it in the last generation. -/
theorem C48_best_of_run {cfg : TopCfg C K} (hs : Sane cfg) (hpop : 0 < cfg.nPop) (hhof : 0 < cfg.nHof) (hgen : 0 < cfg.nGen)
    {w : Pool C} {start : C} {mgr : Option (Spec Nat K)} (hm : ∀ S, mgr = some S → SpecReach cfg.sqrt S) {st : RunSt C K}
    (h : topologyOptimization cfg w start mgr = .ok st) :
    st.trace.length = cfg.nGen ∧
    (∀ gen ∈ st.trace, cfg.nPop ≤ gen.length ∧ ∀ p ∈ gen, ∃ n c, cfg.opt n c = .ok p) ∧
    (∃ (s : K) (c : C) (bs : List K), st.hof[0]? = some (some (s, c)) ∧ (s, c) ∈ st.trace.flatten ∧ LeastScore s st.trace.flatten ∧
      st.bests = bs.map some ∧ bs.length = cfg.nGen ∧ bs.Pairwise (· ≥ ·) ∧ bs.getLast? = some s ∧
      ∀ (k : Nat) (b : K), bs[k]? = some b → LeastScore b (st.trace.take (k + 1)).flatten) ∧
    st.pop.length = cfg.nPop ∧
    (∀ gen, st.trace.getLast? = some gen → ∀ p ∈ st.pop, ∃ x, p.1 = some x ∧ (x, st.w.heap p.2) ∈ gen) := by
  unfold topologyOptimization at h
  split at h
  · cases h
  · next st0 h0 =>
    obtain ⟨gens, I, hl⟩ := generations_inv hs hpop (initialState_inv hm h0) h
    rw [List.nil_append] at I
    have hfull : ∀ g ∈ gens, g.2 ≠ [] := by
      intro g hg h0
      have := (I.sizes g hg).1
      rw [h0] at this
      simp at this
      omega
    have hprefix : ∀ k, k < gens.length → ∃ (s : K) (c : C), (runHof (initHof cfg.nHof) (gens.take (k + 1)))[0]? = some (some (s, c)) ∧
        headScore (runHof (initHof cfg.nHof) (gens.take (k + 1))) = some s ∧ (s, c) ∈ ((gens.take (k + 1)).map (·.2)).flatten ∧
        LeastScore s ((gens.take (k + 1)).map (·.2)).flatten := by
      intro k hk
      apply headScore_least hhof
      have hk0 : 0 < gens.length := by omega
      have : gens[0] ∈ gens.take (k + 1) := by
        rw [List.mem_take_iff_getElem]
        exact ⟨0, by omega, rfl⟩
      exact ⟨_, this, hfull _ (List.mem_of_mem_take this)⟩
    set bs : List K := (List.range gens.length).map (fun k => (headScore (runHof (initHof cfg.nHof) (gens.take (k + 1)))).getD 0) with hbs
    have hb : ∀ (k : Nat) (b : K), bs[k]? = some b → k < gens.length ∧ LeastScore b (st.trace.take (k + 1)).flatten ∧
        headScore (runHof (initHof cfg.nHof) (gens.take (k + 1))) = some b := by
      intro k b hk
      have hkl : k < gens.length := by
        have := (List.getElem?_eq_some_iff.1 hk).1
        simpa [hbs] using this
      obtain ⟨s, c, _, h2, _, h4⟩ := hprefix k hkl
      rw [hbs, List.getElem?_map, List.getElem?_range hkl, Option.map_some, h2, Option.getD_some, Option.some.injEq] at hk
      subst hk
      refine ⟨hkl, ?_, h2⟩
      rw [I.trace, ← List.map_take]
      exact h4
    obtain ⟨s, c, f1, f2, f3, f4⟩ := headScore_least hhof gens ⟨gens[0]'(by omega), List.getElem_mem _, hfull _ (List.getElem_mem _)⟩
    rw [← I.hof] at f1
    rw [← I.trace] at f3 f4
    refine ⟨by rw [I.trace, List.length_map, hl], ?_, ⟨s, c, bs, f1, f3, f4, ?_, by simp [hbs, hl], ?_, ?_, fun k b hk => (hb k b hk).2.1⟩,
      I.len, ?_⟩
    · intro gen hg
      rw [I.trace] at hg
      obtain ⟨g, hg', rfl⟩ := List.mem_map.1 hg
      exact ⟨(I.sizes g hg').1, I.evaluated g hg'⟩
    · rw [I.bests, hbs, List.map_map]
      apply List.map_congr_left
      intro k hk
      obtain ⟨s, c, _, h2, _⟩ := hprefix k (List.mem_range.1 hk)
      simp [h2]
    · rw [List.pairwise_iff_getElem]
      intro i j hi hj hij
      refine (hb i _ (List.getElem?_eq_getElem hi)).2.1.mono (hb j _ (List.getElem?_eq_getElem hj)).2.1 ?_
      intro p hp
      simp only [List.mem_flatten] at hp ⊢
      obtain ⟨l, hl, hp⟩ := hp
      exact ⟨l, (List.take_sublist_take_left (by omega)).subset hl, hp⟩
    · have hlen : bs.length = gens.length := by simp [hbs]
      rw [List.getLast?_eq_getElem?]
      have hlt : bs.length - 1 < bs.length := by omega
      have hx := hb _ _ (List.getElem?_eq_getElem hlt)
      rw [List.getElem?_eq_getElem hlt, Option.some.injEq]
      have he := hx.2.2
      rw [List.take_of_length_le (by omega), f2] at he
      injection he with he
      exact he.symm
    · intro gen hg p hp
      rw [I.trace, List.getLast?_map] at hg
      cases hgl : gens.getLast? with
      | none => rw [hgl] at hg; cases hg
      | some g =>
        rw [hgl] at hg
        injection hg with hg
        subst hg
        exact I.surv g hgl p hp

theorem sane_demo (rule : Rule ℚ) (ratio : ℚ) : Sane (cfgDemo rule ratio) :=
  ⟨fun _ => ⟨fun _ => .refl _, fun _ _ => .refl _⟩, by intro S h; cases h⟩

/-- Two generations of roulette selection: scores offered, column `best`, score returned. -/
example : (topologyOptimization (cfgDemo (.roulette 2) 0) worldDemo 2 none).map
    (fun st => (st.trace.map (fun g => g.map (·.1)), st.bests, st.hof.map (fun e => e.map (·.1)))) =
    .ok ([[3, 2, 5], [1, 5, 3]], [some 2, some 1], [some 1, some 2]) := by decide +kernel

/-- **C48.** A single generation is refused. -/
theorem C48_single_generation {cfg : TopCfg C K} (h : cfg.nGen = 1) (w : Pool C) (start : C) (mgr : Option (Spec Nat K)) :
    topologyOptimization cfg w start mgr = (cfg.opt w.calls start).bind (fun _ => .error .zeroDivision) := by
  unfold topologyOptimization initialState
  cases cfg.opt w.calls start with
  | error e => rfl
  | ok r =>
    obtain ⟨s, c⟩ := r
    simp only [h, generations, generation, if_true]
    rfl

example : (topologyOptimization { cfgDemo (.tournament 3) 0 with nGen := 1 } worldDemo 4 none).map (fun st => st.bests) =
    .error .zeroDivision := by decide +kernel

/-- **C48.** The start design is not counted: a run may return a design worse than the optimised start. -/
theorem C48_start_not_counted : ∃ (cfg : TopCfg Nat ℚ) (w : Pool Nat) (start : Nat) (r : ℚ × Nat) (best : ℚ),
    Sane cfg ∧ cfg.opt w.calls start = .ok r ∧
    (topologyOptimization cfg w start none).map (fun st => st.hof.head?.map (fun e => e.map (·.1))) = .ok (some (some best)) ∧
    r.1 < best := by
  refine ⟨{ cfgDemo (.tournament 3) 0 with opt := fun _ c => .ok ((c : ℚ), c) }, worldDemo, 4, (4, 4), 5,
    ⟨fun _ => ⟨fun _ => .refl _, fun _ _ => .refl _⟩, by intro S h; cases h⟩, rfl, by decide +kernel, by norm_num⟩

/-- **C49.** With a manager, the `random` rule never gets past a generation other than the first. -/
theorem C49_random_with_speciation {cfg : TopCfg C K} (hs : Sane cfg) (hrule : cfg.rule = .random) {gen : Nat} (hg : gen ≠ 0)
    {st : RunSt C K} {S : Spec Nat K} (hm : st.mgr = some S) (hS : SpecReach cfg.sqrt S) (ha : Alive st.w st.pop)
    (hne : st.pop ≠ []) : ∀ st', generation cfg gen st ≠ .ok st' := by
  intro st' h
  unfold generation at h
  split at h
  · cases h
  · split at h
    · cases h
    · next st1 hb =>
      unfold breed at hb
      rw [if_neg hg] at hb
      simp only [hm] at hb
      split at hb
      · cases hb
      · next shared hsh =>
        split at hb
        · cases hb
        · next w pop hu =>
          split at hb
          · cases hb
          · next pop' hun =>
            obtain ⟨g1, _, _⟩ := share_graphs hsh
            have ha' : Alive st.w shared := by
              intro p hp
              have : p.2 ∈ shared.map (·.2) := List.mem_map.2 ⟨p, hp, rfl⟩
              rw [g1] at this
              obtain ⟨q, hq, he⟩ := List.mem_map.1 this
              rw [← he]
              exact ha q hq
            obtain ⟨new, pass, e1, _, _, _, _, _, _, e8⟩ := updatePop_ok ha' hu
            rcases e8 with ⟨_, e8⟩ | ⟨e8, _⟩
            · obtain ⟨p, hp⟩ := List.exists_mem_of_ne_nil _ hne
              have hp2 : p.2 ∈ shared.map (·.2) := by rw [g1]; exact List.mem_map.2 ⟨p, hp, rfl⟩
              obtain ⟨q, hq, he⟩ := List.mem_map.1 hp2
              have hmem : (none, q.2) ∈ pop := by
                rw [e1, e8]
                exact List.mem_append_left _ (List.mem_map.2 ⟨q, hq, rfl⟩)
              obtain ⟨n, hn, _⟩ := speciate_size hS (heapDist cfg st.w) (hs.orders (2 * gen)) (st.pop.map (·.2))
                (List.mem_map.2 ⟨p, hp, rfl⟩)
              have := (unshare_graphs hun).2.2 _ hmem rfl
              rw [he, hn] at this
              cases this
            · exact e8 hrule

/-- **C49.** It ends in the `TypeError` of `reverse_fitness_sharing` if evolution itself succeeds. -/
theorem C49_type_error {cfg : TopCfg C K} (hs : Sane cfg) (hrule : cfg.rule = .random) (hn : cfg.nGen ≠ 1) {gen : Nat}
    (hg : gen ≠ 0) {st : RunSt C K} {S : Spec Nat K} (hm : st.mgr = some S) (hS : SpecReach cfg.sqrt S) (hsc : AllScored st.pop)
    (hne : st.pop ≠ []) (hf : 0 < cfg.fuel)
    (hev : ∀ n c, ∃ c', cfg.ev n c = .ok c' ∧ cfg.chk c' = true ∧ cfg.hasParams c' = true) :
    generation cfg gen st = .error .typeError := by
  obtain ⟨l, hl⟩ : ∃ l : List (K × Nat), st.pop = asInd l := by
    have aux : ∀ pop : List (Indiv K), AllScored pop → ∃ l : List (K × Nat), pop = asInd l := by
      intro pop
      induction pop with
      | nil => exact fun _ => ⟨[], rfl⟩
      | cons p pop ih =>
        intro h
        obtain ⟨l, rfl⟩ := ih (fun q hq => h q (List.mem_cons_of_mem _ hq))
        obtain ⟨s, i⟩ := p
        cases s with
        | none => exact absurd rfl (h _ List.mem_cons_self)
        | some x => exact ⟨(x, i) :: l, rfl⟩
    exact aux _ hsc
  have hids : st.pop.map (·.2) = l.map (·.2) := by
    rw [hl]
    simp [asInd]
  have hsz : ∀ p ∈ l, ∃ n, (S.speciate (heapDist cfg st.w) cfg.sqrt (cfg.specRnd (2 * gen)) (st.pop.map (·.2))).sizeOf p.2 =
      some n ∧ 0 < n := by
    intro p hp
    refine speciate_size hS _ (hs.orders _) _ ?_
    rw [hids]
    exact List.mem_map.2 ⟨p, hp, rfl⟩
  have hshare := share_asInd (cfg.decay gen) l (fun p hp => let ⟨n, hn, _⟩ := hsz p hp; ⟨n, hn⟩)
  have hloop : ∀ (pop : List (Indiv K)) (w : Pool C), ∃ w', randomLoop cfg w pop = .ok (w', pop.map (fun p => (none, p.2))) := by
    intro pop
    induction pop with
    | nil => exact fun w => ⟨w, rfl⟩
    | cons p pop ih =>
      intro w
      obtain ⟨s, i⟩ := p
      obtain ⟨f, hf'⟩ : ∃ f, cfg.fuel = f + 1 := ⟨cfg.fuel - 1, by omega⟩
      obtain ⟨c, h1, h2, h3⟩ := hev w.calls (w.heap i)
      obtain ⟨w', hw'⟩ := ih (w.write i c).tick
      refine ⟨w', ?_⟩
      rw [randomLoop, hf', evolveUntil, h1]
      simp only [h2, h3, Bool.and_self, if_true, hw', List.map_cons]
  cases l with
  | nil => exact absurd hl hne
  | cons p l =>
    obtain ⟨s, i⟩ := p
    obtain ⟨n, hsz1, _⟩ := hsz (s, i) List.mem_cons_self
    unfold generation
    rw [if_neg hn]
    have hb : breed cfg gen st = .error .typeError := by
      unfold breed
      rw [if_neg hg]
      simp only [hm]
      rw [← hl] at hshare
      simp only [hshare]
      unfold updatePop
      simp only [hrule]
      unfold updateRandom
      obtain ⟨w', hw'⟩ := hloop (asInd (((s, i) :: l).map (fun p => (p.1 * factor (S.speciate (heapDist cfg st.w) cfg.sqrt
        (cfg.specRnd (2 * gen)) (st.pop.map (·.2))) (cfg.decay gen) p.2, p.2)))) (copyAll st.w (elite cfg (asInd (((s, i) :: l).map (fun p => (p.1 * factor (S.speciate (heapDist cfg st.w) cfg.sqrt
        (cfg.specRnd (2 * gen)) (st.pop.map (·.2))) (cfg.decay gen) p.2, p.2)))))).1
      simp only [hw']
      simp only [asInd, List.map_cons, List.cons_append, Spec.unshare, hsz1]
    rw [hb]

/-- The hypotheses of C49 are met by a state that a run reaches: a fresh manager and a scored population. -/
example : Sane (cfgDemo .random 0) ∧ SpecReach (cfgDemo .random 0).sqrt (⟨none, 2/5, [], fun _ => none⟩ : Spec Nat ℚ) ∧
    Alive worldDemo popDemo ∧ AllScored popDemo :=
  ⟨sane_demo _ _, .init (t := none) (thr := 2/5) (by unfold Spec.init; rw [if_neg (by norm_num)]),
    by unfold Alive; decide, by unfold AllScored; decide +kernel⟩
example : (generation (cfgDemo .random 0) 1 ⟨worldDemo, popDemo, initHof 2, some ⟨none, 2/5, [], fun _ => none⟩, [], []⟩).map
    (fun st => st.bests) = .error .typeError := by decide +kernel

/-! Cases of the other theorems. -/

example (st : RunSt Nat ℚ) (h : topologyOptimization (cfgDemo (.roulette 2) 0) worldDemo 2 none = .ok st) :=
  C48_best_of_run (sane_demo _ _) (by decide) (by decide) (by decide) (fun S hS => by cases hS) h
example := C49_random_with_speciation (cfg := cfgDemo .random 0) (sane_demo _ _) rfl (gen := 1) (by decide)
  (st := ⟨worldDemo, popDemo, initHof 2, some ⟨none, 2/5, [], fun _ => none⟩, [], []⟩) rfl
  (.init (t := none) (thr := 2/5) (by unfold Spec.init; rw [if_neg (by norm_num)])) (by unfold Alive; decide) (by decide)

end Verif
