import Verif.Props.Selection
/-!
# Lemmas on whole runs
-/

set_option linter.unusedSectionVars false

namespace Verif
variable {C K : Type} [Field K] [LinearOrder K] [IsStrictOrderedRing K]

/-- Score of the first entry of a hall of fame. -/
def headScore (hof : Hof K C) : Option K := (hof[0]?).bind (fun e => e.map (·.1))

/-- What holds after any number of generations; `gens` lists them. -/
structure RunInv (cfg : TopCfg C K) (st : RunSt C K) (gens : List ((C → C → Bool) × List (K × C))) : Prop where
  trace : st.trace = gens.map (·.2)
  hof : st.hof = runHof (initHof cfg.nHof) gens
  bests : st.bests = (List.range gens.length).map (fun k => headScore (runHof (initHof cfg.nHof) (gens.take (k + 1))))
  len : st.pop.length = cfg.nPop
  scored : AllScored st.pop
  alive : Alive st.w st.pop
  mgr : ∀ S, st.mgr = some S → SpecReach cfg.sqrt S
  surv : ∀ g, gens.getLast? = some g → ∀ p ∈ st.pop, ∃ x, p.1 = some x ∧ (x, st.w.heap p.2) ∈ g.2
  sizes : ∀ g ∈ gens, cfg.nPop ≤ g.2.length ∧ (cfg.rule.oneEach = true → g.2.length = cfg.nPop)
  evaluated : ∀ g ∈ gens, ∀ p ∈ g.2, ∃ n c, cfg.opt n c = .ok p

theorem initialState_inv {cfg : TopCfg C K} {w : Pool C} {start : C} {mgr : Option (Spec Nat K)}
    (hm : ∀ S, mgr = some S → SpecReach cfg.sqrt S) {st : RunSt C K} (h : initialState cfg w start mgr = .ok st) :
    RunInv cfg st [] := by
  unfold initialState at h
  split at h
  · cases h
  · next s c hopt =>
    injection h with h
    subst h
    obtain ⟨c1, c2, c3⟩ := copyAll_spec (w.alloc c).tick (List.replicate cfg.nPop ((some s : Option K), w.next))
    refine ⟨rfl, rfl, rfl, ?_, ?_, fun p hp => (c3 p hp).2, hm, by simp, by simp, by simp⟩
    · have := congrArg List.length c2
      simpa using this
    · intro p hp
      have : p.1 ∈ (List.replicate cfg.nPop ((some s : Option K), w.next)).map (·.1) := by
        rw [← c2]
        exact List.mem_map.2 ⟨p, hp, rfl⟩
      obtain ⟨q, hq, he⟩ := List.mem_map.1 this
      rw [List.eq_of_mem_replicate hq] at he
      rw [← he]
      simp

theorem breed_mgr {cfg : TopCfg C K} (hs : Sane cfg) {gen : Nat} {st st1 : RunSt C K} (hne : st.pop ≠ [])
    (hm : ∀ S, st.mgr = some S → SpecReach cfg.sqrt S) (h : breed cfg gen st = .ok st1) :
    ∀ S, st1.mgr = some S → SpecReach cfg.sqrt S := by
  unfold breed at h
  split at h
  · split at h
    · cases h
    · injection h with h
      subst h
      intro S hS
      dsimp only at hS
      cases hset : cfg.setup with
      | none =>
        rw [hset] at hS
        exact hm S (by simpa using hS)
      | some S0 =>
        rw [hset] at hS
        change some S0 = some S at hS
        injection hS with hS
        subst hS
        exact hs.setup _ hset
  · split at h
    · next hnone =>
      split at h
      · cases h
      · injection h with h
        subst h
        intro S hS
        exact hm S hS
    · next S0 hS0 =>
      simp only at h
      split at h
      · cases h
      · split at h
        · cases h
        · split at h
          · cases h
          · injection h with h
            subst h
            intro S hS
            injection hS with hS
            subst hS
            exact .step (hm S0 hS0) (hs.orders _) (by simpa using hne)

theorem select_ok {cfg : TopCfg C K} (hs : Sane cfg) {gen : Nat} {w : Pool C} {mgr : Option (Spec Nat K)}
    (hm : ∀ S, mgr = some S → SpecReach cfg.sqrt S) {pop : List (K × Nat)} (hne : pop ≠ []) :
    ∃ mgr' kept, select cfg gen w mgr pop = .ok (mgr', asInd kept) ∧ kept.length = min cfg.nPop pop.length ∧
      (∀ p ∈ kept, p ∈ pop) ∧ (∀ S, mgr' = some S → SpecReach cfg.sqrt S) ∧
      (mgr = none → mgr' = none ∧ BestOf (·.1) cfg.nPop pop kept) := by
  cases mgr with
  | none =>
    obtain ⟨kept, h1, h2⟩ := C28_selection_keeps_best cfg gen w pop
    exact ⟨none, kept, h1, h2.1, h2.mem, by simp, fun _ => ⟨rfl, h2⟩⟩
  | some S =>
    have hsz : ∀ p ∈ pop, ∃ n, (S.speciate (heapDist cfg w) cfg.sqrt (cfg.specRnd (2 * gen + 1)) (pop.map (·.2))).sizeOf p.2
        = some n ∧ 0 < n :=
      fun p hp => speciate_size (hm S rfl) _ (hs.orders _) _ (List.mem_map.2 ⟨p, hp, rfl⟩)
    have hb := bestOf_sort (fun p : K × Nat => p.1 * factor (S.speciate (heapDist cfg w) cfg.sqrt
      (cfg.specRnd (2 * gen + 1)) (pop.map (·.2))) (cfg.decay gen) p.2) cfg.nPop pop
    refine ⟨some (S.speciate (heapDist cfg w) cfg.sqrt (cfg.specRnd (2 * gen + 1)) (pop.map (·.2))), _, ?_, hb.1, hb.mem, ?_,
      by simp⟩
    · unfold select
      simp only [selectShared_eq (cfg.decay gen) cfg.nPop pop hsz]
    · intro S' hS'
      injection hS' with hS'
      subst hS'
      exact .step (hm S rfl) (hs.orders _) (by simpa using hne)

theorem runHof_snoc (hof : Hof K C) (gens : List ((C → C → Bool) × List (K × C))) (g : (C → C → Bool) × List (K × C)) :
    runHof hof (gens ++ [g]) = updateHof g.1 (runHof hof gens) g.2 := by
  rw [runHof_append]
  obtain ⟨s, p⟩ := g
  rfl

theorem generation_inv {cfg : TopCfg C K} (hs : Sane cfg) (hpos : 0 < cfg.nPop) {gen : Nat} {st st' : RunSt C K}
    {gens : List ((C → C → Bool) × List (K × C))} (I : RunInv cfg st gens) (h : generation cfg gen st = .ok st') :
    ∃ offered, RunInv cfg st' (gens ++ [(cfg.sim gen, offered)]) := by
  unfold generation at h
  split at h
  · cases h
  · split at h
    · cases h
    · next st1 hb =>
      split at h
      · cases h
      · next w2 pop2 hopt =>
        have hne : st.pop ≠ [] := by
          intro h0
          have := I.len
          rw [h0] at this
          simp at this
          omega
        obtain ⟨new, pass, b1, b2, b3, b4, b5, b6, b7, b8, b9, b10⟩ := breed_ok I.alive I.scored hb
        have hm1 := breed_mgr hs hne I.mgr hb
        obtain ⟨o1, o2, o3, o4⟩ := optimiseAll_ok hopt
        have hpass : pass = [] := by
          by_contra hc
          have hl : st1.pop.length = new.length + pass.length := by
            have := congrArg List.length b1
            simpa using this
          have hpl := List.length_pos_iff.2 hc
          have hdne : st1.pop.drop new.length ≠ [] := by
            intro h0
            have := congrArg List.length h0
            simp at this
            omega
          obtain ⟨p, hp⟩ := List.exists_mem_of_ne_nil _ hdne
          exact b3 p hp (o1 p (List.mem_of_mem_drop hp))
        have hl1 : st1.pop.length = new.length := by
          have := congrArg List.length b1
          simpa [hpass] using this
        have hl2 : cfg.nPop ≤ pop2.length := by
          rw [o2, hl1, ← I.len]
          exact b5
        have hne2 : pop2 ≠ [] := by
          intro h0
          rw [h0] at hl2
          simp at hl2
          omega
        obtain ⟨mgr', kept, s1, s2, s3, s4, _⟩ := select_ok (gen := gen) (w := w2) hs hm1 hne2
        simp only [s1] at h
        split at h
        · cases h
        · next best rest hhof =>
          injection h with h
          subst h
          have hrun : updateHof (cfg.sim gen) st1.hof (pop2.map (fun p => (p.1, w2.heap p.2))) =
              runHof (initHof cfg.nHof) (gens ++ [(cfg.sim gen, pop2.map (fun p => (p.1, w2.heap p.2)))]) := by
            rw [runHof_snoc, b8, I.hof]
          refine ⟨pop2.map (fun p => (p.1, w2.heap p.2)), ?_, ?_, ?_, ?_, ?_, ?_, s4, ?_, ?_, ?_⟩
          · simp [b10, I.trace]
          · exact hrun
          · dsimp only
            rw [b9, I.bests, List.length_append, List.length_singleton, List.range_succ, List.map_append]
            congr 1
            · apply List.map_congr_left
              intro k hk
              rw [List.take_append_of_le_length (by have := List.mem_range.1 hk; omega)]
            · simp only [List.map_cons, List.map_nil]
              rw [List.take_of_length_le (by simp), ← hrun, hhof]
              rfl
          · dsimp only
            unfold asInd
            rw [List.length_map, s2]
            omega
          · intro p hp
            obtain ⟨q, _, rfl⟩ := List.mem_map.1 hp
            simp
          · intro p hp
            obtain ⟨q, hq, rfl⟩ := List.mem_map.1 hp
            exact (o4 q (s3 q hq)).2
          · intro g hg p hp
            rw [List.getLast?_append] at hg
            simp only [List.getLast?_singleton, Option.some_or, Option.some.injEq] at hg
            subst hg
            obtain ⟨q, hq, rfl⟩ := List.mem_map.1 hp
            exact ⟨q.1, rfl, List.mem_map.2 ⟨q, s3 q hq, rfl⟩⟩
          · intro g hg
            rcases List.mem_append.1 hg with hg | hg
            · exact I.sizes g hg
            · rw [List.mem_singleton.1 hg]
              refine ⟨by simpa using hl2, fun ho => ?_⟩
              simp only [List.length_map]
              rw [o2, hl1, b6 ho, I.len]
          · intro g hg p hp
            rcases List.mem_append.1 hg with hg | hg
            · exact I.evaluated g hg p hp
            · rw [List.mem_singleton.1 hg] at hp
              obtain ⟨q, hq, rfl⟩ := List.mem_map.1 hp
              have hf := optimiseAll_results b7 (.refl _) hopt
              obtain ⟨i, hi⟩ := List.getElem?_of_mem hq
              have hil : i < pop2.length := (List.getElem?_eq_some_iff.1 hi).1
              have hq' := (List.forall₂_iff_get.1 hf).2 i (by rw [o2] at hil; exact hil) hil
              obtain ⟨n, hn⟩ := hq'
              have : pop2.get ⟨i, hil⟩ = q := by
                have := (List.getElem?_eq_some_iff.1 hi).2
                simpa using this
              rw [this] at hn
              exact ⟨n, _, hn⟩

theorem generations_inv {cfg : TopCfg C K} (hs : Sane cfg) (hpos : 0 < cfg.nPop) {n gen : Nat} {st st' : RunSt C K}
    {gens : List ((C → C → Bool) × List (K × C))} (I : RunInv cfg st gens) (h : generations cfg n gen st = .ok st') :
    ∃ more, RunInv cfg st' (gens ++ more) ∧ more.length = n := by
  induction n generalizing gen st gens with
  | zero =>
    injection h with h
    subst h
    exact ⟨[], by simpa using I, rfl⟩
  | succ n ih =>
    rw [generations] at h
    split at h
    · cases h
    · next st1 h1 =>
      obtain ⟨off, I1⟩ := generation_inv hs hpos I h1
      obtain ⟨more, I2, hl⟩ := ih I1 h
      exact ⟨(cfg.sim gen, off) :: more, by simpa using I2, by simp [hl]⟩

end Verif
