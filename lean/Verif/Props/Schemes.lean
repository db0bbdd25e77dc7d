import Verif.Lemmas.Schemes
import Verif.Props.Speciation
import Verif.Props.Selection
/-!
# C87: update rules by name, and the schemes of species they bring along
-/

set_option linter.unusedSectionVars false

namespace Verif
variable {C K : Type}

/-! ## Names -/

/-- **C87.** The update rules a user can ask for by name, the rule each runs and the scheme of species it sets up; every other name raises
NotImplementedError. -/
theorem C87_rules (s : String) :
    (∀ b o, ruleByName s = .ok (b, o) ↔ (s, b, o) ∈ [("random", BaseRule.random, none), ("preferential", .preferential, none), ("roulette", .roulette, none),
      ("tournament", .tournament, none), ("roulette edit distance", .roulette, some .editDistance), ("tournament edit distance", .tournament, some .editDistance),
      ("random simple subpop scheme", .random, some .simpleSubpopulation), ("preferential simple subpop scheme", .preferential, some .simpleSubpopulation),
      ("random vectorDIFF", .random, some .vectorDiff), ("preferential vectorDIFF", .preferential, some .vectorDiff),
      ("random photoNEAT", .random, some .photoNeat), ("preferential photoNEAT", .preferential, some .photoNeat)]) ∧
    ((∀ r, ruleByName s ≠ .ok r) → ruleByName s = .error .notImplemented) := by
  constructor
  · intro b o
    constructor
    · intro h
      unfold ruleByName at h
      by_cases h0 : s = "random"
      · rw [if_pos h0] at h; injection h with h; injection h with e1 e2; subst e1 e2; subst h0; decide +kernel
      rw [if_neg h0] at h
      by_cases h1 : s = "preferential"
      · rw [if_pos h1] at h; injection h with h; injection h with e1 e2; subst e1 e2; subst h1; decide +kernel
      rw [if_neg h1] at h
      by_cases h2 : s = "roulette"
      · rw [if_pos h2] at h; injection h with h; injection h with e1 e2; subst e1 e2; subst h2; decide +kernel
      rw [if_neg h2] at h
      by_cases h3 : s = "tournament"
      · rw [if_pos h3] at h; injection h with h; injection h with e1 e2; subst e1 e2; subst h3; decide +kernel
      rw [if_neg h3] at h
      by_cases h4 : s = "roulette edit distance"
      · rw [if_pos h4] at h; injection h with h; injection h with e1 e2; subst e1 e2; subst h4; decide +kernel
      rw [if_neg h4] at h
      by_cases h5 : s = "tournament edit distance"
      · rw [if_pos h5] at h; injection h with h; injection h with e1 e2; subst e1 e2; subst h5; decide +kernel
      rw [if_neg h5] at h
      by_cases h6 : s = "random simple subpop scheme"
      · rw [if_pos h6] at h; injection h with h; injection h with e1 e2; subst e1 e2; subst h6; decide +kernel
      rw [if_neg h6] at h
      by_cases h7 : s = "preferential simple subpop scheme"
      · rw [if_pos h7] at h; injection h with h; injection h with e1 e2; subst e1 e2; subst h7; decide +kernel
      rw [if_neg h7] at h
      by_cases h8 : s = "random vectorDIFF"
      · rw [if_pos h8] at h; injection h with h; injection h with e1 e2; subst e1 e2; subst h8; decide +kernel
      rw [if_neg h8] at h
      by_cases h9 : s = "preferential vectorDIFF"
      · rw [if_pos h9] at h; injection h with h; injection h with e1 e2; subst e1 e2; subst h9; decide +kernel
      rw [if_neg h9] at h
      by_cases h10 : s = "random photoNEAT"
      · rw [if_pos h10] at h; injection h with h; injection h with e1 e2; subst e1 e2; subst h10; decide +kernel
      rw [if_neg h10] at h
      by_cases h11 : s = "preferential photoNEAT"
      · rw [if_pos h11] at h; injection h with h; injection h with e1 e2; subst e1 e2; subst h11; decide +kernel
      rw [if_neg h11] at h
      cases h
    · intro h
      simp only [List.mem_cons, Prod.mk.injEq, List.not_mem_nil, or_false] at h
      rcases h with ⟨rfl, rfl, rfl⟩ | ⟨rfl, rfl, rfl⟩ | ⟨rfl, rfl, rfl⟩ | ⟨rfl, rfl, rfl⟩ | ⟨rfl, rfl, rfl⟩ | ⟨rfl, rfl, rfl⟩ | ⟨rfl, rfl, rfl⟩ |
        ⟨rfl, rfl, rfl⟩ | ⟨rfl, rfl, rfl⟩ | ⟨rfl, rfl, rfl⟩ | ⟨rfl, rfl, rfl⟩ | ⟨rfl, rfl, rfl⟩ <;> decide +kernel
  · intro h
    by_cases h0 : s = "random"
    · subst h0; exact absurd rfl (h _)
    by_cases h1 : s = "preferential"
    · subst h1; exact absurd rfl (h _)
    by_cases h2 : s = "roulette"
    · subst h2; exact absurd rfl (h _)
    by_cases h3 : s = "tournament"
    · subst h3; exact absurd rfl (h _)
    by_cases h4 : s = "roulette edit distance"
    · subst h4; exact absurd rfl (h _)
    by_cases h5 : s = "tournament edit distance"
    · subst h5; exact absurd rfl (h _)
    by_cases h6 : s = "random simple subpop scheme"
    · subst h6; exact absurd rfl (h _)
    by_cases h7 : s = "preferential simple subpop scheme"
    · subst h7; exact absurd rfl (h _)
    by_cases h8 : s = "random vectorDIFF"
    · subst h8; exact absurd rfl (h _)
    by_cases h9 : s = "preferential vectorDIFF"
    · subst h9; exact absurd rfl (h _)
    by_cases h10 : s = "random photoNEAT"
    · subst h10; exact absurd rfl (h _)
    by_cases h11 : s = "preferential photoNEAT"
    · subst h11; exact absurd rfl (h _)
    unfold ruleByName
    rw [if_neg h0, if_neg h1, if_neg h2, if_neg h3, if_neg h4, if_neg h5, if_neg h6, if_neg h7, if_neg h8, if_neg h9, if_neg h10, if_neg h11]

/-- The name one would expect for `update_population_topology_preferential_editDistance`, which no name selects. -/
example : ruleByName "preferential edit distance" = .error .notImplemented ∧
    ruleByName "random simple subpop scheme" = .ok (.random, some .simpleSubpopulation) := by decide +kernel

/-! ## The setup -/

section
variable [Field K] [LinearOrder K]

/-- **C87.** What the setup does to a population of different objects whose first is unmarked: individual number `i` is marked with the scheme (and with subpopulation
`i % target`), nothing else about the objects changes, no other object changes, and a fresh manager with threshold 0.4 replaces the old one. -/
theorem C87_setup {s : SpecName} (hs : s ≠ .photoNeat) {target : Nat} (ht : s = .simpleSubpopulation → target ≠ 0) {w : Pool (C × Option Descriptor)}
    {x : Option K} {g : Nat} {rest : List (Indiv K)} (hn : (((x, g) :: rest).map (·.2)).Nodup) (hu : (w.heap g).2 = none) (mgr : Option (Spec Nat K)) :
    ∃ w' S, setupScheme (some s) target w ((x, g) :: rest) mgr = .ok (w', some S) ∧ w'.next = w.next ∧ (∀ j, (w'.heap j).1 = (w.heap j).1) ∧
      (∀ j, j ∉ ((x, g) :: rest).map (·.2) → w'.heap j = w.heap j) ∧
      (∀ (n : Nat) p, ((x, g) :: rest)[n]? = some p → ∃ d, (w'.heap p.2).2 = some d ∧ d.name = s ∧ d.label = if s = .simpleSubpopulation then some (n % target) else none) ∧
      S.thr = 2 / 5 ∧ S.species = [] ∧ S.target = if s = .editDistance then none else some target := by
  obtain ⟨h1, h2, h3, h4⟩ := markFrom_spec s target hn 0 w
  refine ⟨markFrom s target 0 w ((x, g) :: rest), setupManager s target, ?_, h1, h2, h3, fun n p hp => ⟨_, h4 n p hp, ?_, ?_⟩, rfl, rfl, ?_⟩
  · unfold setupScheme
    dsimp only
    rw [hu]
    dsimp only
    rw [if_neg hs, if_neg (fun h => ht h.1 h.2)]
  · cases s <;> rfl
  · cases s <;> simp [setupMark]
  · cases s <;> rfl

/-- **C87.** When the setup refuses: `photoNEAT` cannot be set up, no subpopulations means a division by zero, an empty population has no first individual; and
when it does nothing: a marked first individual, or a rule without scheme. -/
theorem C87_setup_else (target : Nat) (w : Pool (C × Option Descriptor)) (mgr : Option (Spec Nat K)) (x : Option K) (g : Nat) (rest : List (Indiv K)) :
    (∀ s, setupScheme (some s) target w ([] : List (Indiv K)) mgr = .error .indexError) ∧
    ((w.heap g).2 = none → setupScheme (some .photoNeat) target w ((x, g) :: rest) mgr = .error .valueError) ∧
    ((w.heap g).2 = none → setupScheme (some .simpleSubpopulation) 0 w ((x, g) :: rest) mgr = .error .zeroDivision) ∧
    ((w.heap g).2 ≠ none → ∀ s, setupScheme (some s) target w ((x, g) :: rest) mgr = .ok (w, mgr)) ∧
    ∀ pop, setupScheme none target w pop mgr = .ok (w, mgr) := by
  refine ⟨fun s => rfl, fun h => ?_, fun h => ?_, fun h s => ?_, fun _ => rfl⟩
  · unfold setupScheme; dsimp only; rw [h]; rfl
  · unfold setupScheme; dsimp only; rw [h]; rfl
  · obtain ⟨d, hd⟩ := Option.ne_none_iff_exists'.1 h
    unfold setupScheme; dsimp only; rw [hd]

/-! ## Runs -/

theorem Keeps.noSetup {T : Type} {tag : C → T} {cfg : TopCfg C K} (h : Keeps tag cfg) : Keeps tag { cfg with setup := none } := ⟨h.ev, h.opt, h.over⟩

theorem generationsOf_marked {cfg : TopCfg (C × Option Descriptor) K} (hk : Keeps (·.2) cfg) (ho : ∀ n, (cfg.specRnd n).Honest) {s : Option SpecName} {target : Nat}
    {Q : Option Descriptor → Prop} (n : Nat) {gen : Nat} (hg : gen ≠ 0) {st st' : RunSt (C × Option Descriptor) K} (hi : AllMarked (·.2) Q st)
    (h : generationsOf cfg s target n gen st = .ok st') : AllMarked (·.2) Q st' ∧ (st'.mgr = none ↔ st.mgr = none) := by
  induction n generalizing gen st with
  | zero =>
    simp only [generationsOf, Except.ok.injEq] at h
    subst h
    exact ⟨hi, Iff.rfl⟩
  | succ n ih =>
    rw [generationsOf] at h
    split at h
    · cases h
    · next st1 h1 =>
      unfold generationOf at h1
      rw [if_neg hg] at h1
      obtain ⟨a, b⟩ := generation_marked hk.noSetup ho rfl hi h1
      obtain ⟨c, d⟩ := ih (by omega) a h
      exact ⟨c, d.trans b⟩

theorem initialState_spec {cfg : TopCfg (C × Option Descriptor) K} (hk : Keeps (·.2) cfg) {w : Pool (C × Option Descriptor)} {start : C × Option Descriptor}
    {mgr : Option (Spec Nat K)} {st : RunSt (C × Option Descriptor) K} (h : initialState cfg w start mgr = .ok st) :
    Alive st.w st.pop ∧ (st.pop.map (·.2)).Nodup ∧ st.pop.length = cfg.nPop ∧ st.mgr = mgr ∧ w.next ≤ st.w.next ∧ (∀ i < w.next, st.w.heap i = w.heap i) ∧
      ∀ p ∈ st.pop, (st.w.heap p.2).2 = start.2 := by
  unfold initialState at h
  split at h
  · cases h
  · next s c hc =>
    dsimp only at h
    injection h with h
    subst h
    dsimp only
    have ha : Alive (w.alloc c).tick (List.replicate cfg.nPop (some s, w.next)) := by
      intro p hp
      rw [List.eq_of_mem_replicate hp]
      exact Nat.lt_succ_self _
    obtain ⟨u, hl, _⟩ := copyAll_spec (w.alloc c).tick (List.replicate cfg.nPop ((some s : Option K), w.next))
    obtain ⟨_, hin⟩ := copyAll_tag (tag := Prod.snd) ha
    refine ⟨fun p hp => (hin p hp).1, copyAll_nodup _ _, ?_, rfl, le_trans (Nat.le_succ _) u.1, fun i hi => ?_, fun p hp => ?_⟩
    · have := congrArg List.length hl
      simpa using this
    · rw [u.2 i (Nat.lt_succ_of_lt hi)]
      simp only [Pool.alloc, Pool.tick]
      rw [if_neg (by omega)]
    · obtain ⟨_, q, hq, e⟩ := hin p hp
      rw [e, List.eq_of_mem_replicate hq]
      simp only [Pool.alloc, Pool.tick, if_true]
      exact hk.opt _ _ _ _ hc

/-- **C87.** A run with a scheme from an unmarked design: at the end every individual, and every representative of a species, carries the descriptor of the scheme, with one of the
`target` subpopulations under the simple scheme; and the run was managed, whatever the process had used before. -/
theorem C87_marked {cfg : TopCfg (C × Option Descriptor) K} (hk : Keeps (·.2) cfg) (ho : ∀ n, (cfg.specRnd n).Honest) {s : SpecName} {target : Nat}
    {w : Pool (C × Option Descriptor)} {c : C} {mgr : Option (Spec Nat K)} (hgen : 0 < cfg.nGen) {st : RunSt (C × Option Descriptor) K}
    (h : runOf cfg (some s) target w (c, none) mgr = .ok st) :
    (∀ p ∈ st.pop, BelongsTo s target (st.w.heap p.2).2) ∧
    ∃ S, st.mgr = some S ∧ ∀ k ∈ S.species.map (·.1), BelongsTo s target (st.w.heap k).2 := by
  unfold runOf at h
  split at h
  · cases h
  next st0 h0 =>
  obtain ⟨h1, h2, h3, h4, h5, _, h6⟩ := initialState_spec hk h0
  obtain ⟨n, hn⟩ : ∃ n, cfg.nGen = n + 1 := ⟨cfg.nGen - 1, by omega⟩
  rw [hn, generationsOf] at h
  split at h
  · cases h
  next st1 hst1 =>
  unfold generationOf at hst1
  rw [if_pos rfl] at hst1
  split at hst1
  · cases hst1
  next w1 mgr1 hset =>
  cases hpop : st0.pop with
  | nil => rw [hpop] at hset; cases hset
  | cons p rest =>
    obtain ⟨x, g⟩ := p
    have hu : (st0.w.heap g).2 = none := h6 (x, g) (by rw [hpop]; simp)
    rw [hpop] at hset h2
    by_cases hs : s = .photoNeat
    · subst hs
      rw [(C87_setup_else target st0.w st0.mgr x g rest).2.1 hu] at hset
      cases hset
    · by_cases ht : s = .simpleSubpopulation → target ≠ 0
      · obtain ⟨w', S, e, a1, a2, a3, a4, a5, a6, a7⟩ := C87_setup hs ht h2 hu st0.mgr
        rw [e] at hset
        injection hset with hset
        injection hset with e1 e2
        subst e1 e2
        have hi : AllMarked (·.2) (BelongsTo s target) { st0 with w := w', mgr := some S } := by
          refine ⟨fun q hq => ?_, fun q hq => ?_, fun S' hS => ?_, fun S' hS k hkk => ?_⟩
          · dsimp only at hq ⊢
            rw [a1]
            exact h1 q hq
          · dsimp only at hq ⊢
            rw [hpop] at hq
            obtain ⟨i, hi⟩ := List.mem_iff_getElem?.1 hq
            obtain ⟨d, d1, d2, d3⟩ := a4 i q hi
            refine ⟨d, d1, d2, ?_⟩
            split
            · next hs' =>
              rw [if_pos hs'] at d3
              exact ⟨_, Nat.mod_lt _ (Nat.pos_of_ne_zero (ht hs')), d3⟩
            · next hs' => rw [if_neg hs'] at d3; exact d3
          · injection hS with hS; subst hS; rw [a6]; simp
          · injection hS with hS; subst hS; rw [a6] at hkk; simp at hkk
        obtain ⟨b1, b2⟩ := generation_marked hk.noSetup ho rfl hi hst1
        obtain ⟨c1, c2⟩ := generationsOf_marked hk ho n (by omega) b1 h
        refine ⟨c1.pop, ?_⟩
        have hm : st.mgr ≠ none := by rw [Ne, c2, b2]; simp
        obtain ⟨S', hS'⟩ := Option.ne_none_iff_exists'.1 hm
        exact ⟨S', hS', fun k hk' => (c1.keys S' hS' k hk').2⟩
      · exfalso
        apply ht
        rintro rfl rfl
        rw [(C87_setup_else 0 st0.w st0.mgr x g rest).2.2.1 hu] at hset
        cases hset

/-- **C87.** Descriptors are only inherited: after any number of further generations every individual carries the descriptor of one of the individuals now, so a subpopulation
that has died out never returns. -/
theorem C87_inherited {cfg : TopCfg (C × Option Descriptor) K} (hk : Keeps (·.2) cfg) {s : Option SpecName} {target n gen : Nat} (hg : gen ≠ 0)
    {st st' : RunSt (C × Option Descriptor) K} (ha : Alive st.w st.pop) (h : generationsOf cfg s target n gen st = .ok st') :
    ∀ p ∈ st'.pop, ∃ q ∈ st.pop, (st'.w.heap p.2).2 = (st.w.heap q.2).2 := by
  suffices hsuf : Alive st'.w st'.pop ∧ ∀ p ∈ st'.pop, ∃ q ∈ st.pop, (st'.w.heap p.2).2 = (st.w.heap q.2).2 from hsuf.2
  induction n generalizing gen st with
  | zero =>
    simp only [generationsOf, Except.ok.injEq] at h
    subst h
    exact ⟨ha, fun p hp => ⟨p, hp, rfl⟩⟩
  | succ n ih =>
    rw [generationsOf] at h
    split at h
    · cases h
    · next st1 h1 =>
      unfold generationOf at h1
      rw [if_neg hg] at h1
      have hin := (generation_tag hk.noSetup ha h1).1
      obtain ⟨b, c⟩ := ih (gen := gen + 1) (by omega) (fun p hp => (hin p hp).1) h
      refine ⟨b, fun p hp => ?_⟩
      obtain ⟨q, hq, e⟩ := c p hp
      obtain ⟨_, q2, hq2, e2⟩ := hin q hq
      exact ⟨q2, hq2, e.trans e2⟩

/-- **C87.** A run from a design that carries a descriptor already (a result of an earlier run, say): nothing is set up.  In a process without manager the run is not speciated
though the rule asks for a scheme, and all individuals keep the one descriptor. -/
theorem C87_marked_start {cfg : TopCfg (C × Option Descriptor) K} (hk : Keeps (·.2) cfg) (ho : ∀ n, (cfg.specRnd n).Honest) {s : Option SpecName} {target : Nat}
    {w : Pool (C × Option Descriptor)} {c : C} {d : Descriptor} {st : RunSt (C × Option Descriptor) K}
    (h : runOf cfg s target w (c, some d) none = .ok st) : st.mgr = none ∧ ∀ p ∈ st.pop, (st.w.heap p.2).2 = some d := by
  unfold runOf at h
  split at h
  · cases h
  next st0 h0 =>
  obtain ⟨h1, h2, h3, h4, h5, _, h6⟩ := initialState_spec hk h0
  have hi : AllMarked (·.2) (· = some d) st0 :=
    ⟨h1, h6, (fun S hS => by rw [h4] at hS; cases hS), (fun S hS => by rw [h4] at hS; cases hS)⟩
  cases hn : cfg.nGen with
  | zero =>
    rw [hn] at h
    simp only [generationsOf, Except.ok.injEq] at h
    subst h
    exact ⟨h4, h6⟩
  | succ n =>
    rw [hn, generationsOf] at h
    split at h
    · cases h
    next st1 hst1 =>
    unfold generationOf at hst1
    rw [if_pos rfl] at hst1
    split at hst1
    · cases hst1
    next w1 mgr1 hset =>
    have hset' : w1 = st0.w ∧ mgr1 = st0.mgr := by
      cases s with
      | none =>
        injection hset with hset
        injection hset with e1 e2
        exact ⟨e1.symm, e2.symm⟩
      | some s =>
        cases hpop : st0.pop with
        | nil => rw [hpop] at hset; cases hset
        | cons p rest =>
          obtain ⟨x, g⟩ := p
          have hu : (st0.w.heap g).2 ≠ none := by rw [h6 (x, g) (by rw [hpop]; simp)]; simp
          rw [hpop, (C87_setup_else target st0.w st0.mgr x g rest).2.2.2.1 hu s] at hset
          injection hset with hset
          injection hset with e1 e2
          exact ⟨e1.symm, e2.symm⟩
    obtain ⟨rfl, rfl⟩ := hset'
    obtain ⟨b1, b2⟩ := generation_marked hk.noSetup ho rfl hi hst1
    obtain ⟨c1, c2⟩ := generationsOf_marked hk ho n (by omega) b1 h
    exact ⟨c2.2 (b2.2 h4), c1.pop⟩

end

/-! ## The species -/

/-- A pool of objects with label descriptors, as seen by the distance. -/
def labelD [Field K] (heap : Nat → Tagged) (a b : Nat) : Except Err K := (labelDist (heap a) (heap b)).map (fun n : Nat => (n : K))

/-- **C87.** Under the simple scheme the species are the subpopulations, whatever the threshold has become: no distance raises, two individuals share a species exactly when their
labels agree, and there are as many species as labels left in the population. -/
theorem C87_species_are_labels [Field K] [LinearOrder K] [IsStrictOrderedRing K] {sqrt : Nat → K} {S : Spec Nat K} (h : SpecReach sqrt S) {r : SpecRnd Nat} (hr : r.Honest)
    {heap : Nat → Tagged} {lab : Nat → Nat} {pop : List Nat}
    (hm : ∀ g, (g ∈ pop ∨ g ∈ S.species.map (·.1)) → (heap g).desc = some ⟨.simpleSubpopulation, some (lab g)⟩) :
    ∃ S', S.speciateE (labelD heap) sqrt r pop = .ok S' ∧ (∀ a ∈ pop, ∀ b ∈ pop, (S'.imap a = S'.imap b ↔ lab a = lab b)) ∧
      S'.species.length = (pop.map lab).dedup.length := by
  obtain ⟨d, hd⟩ : ∃ d : Nat → Nat → K, d = fun a b => if lab a = lab b then 0 else 1 := ⟨_, rfl⟩
  have hsym : Symm d := by
    intro a b
    rw [hd]
    simp only [eq_comm]
  refine ⟨_, speciateE_ok (d := d) sqrt hr (reach_nodup h) (fun a b ha hb => ?_), ?_, ?_⟩
  · unfold labelD labelDist checkNames labelOf
    rw [hm a ha, hm b hb, hd]
    dsimp only
    by_cases e : lab a = lab b
    · simp [e, Except.map, bind, Except.bind, pure, Except.pure]
    · simp [e, Except.map, bind, Except.bind, pure, Except.pure]
  · obtain ⟨p1, p2, p3, p4⟩ := C31_partition (d := d) h hr pop
    obtain ⟨q1, q2, q3⟩ := C32_species_radius h hsym hr pop
    obtain ⟨t0, t1⟩ := (C33_threshold_range h).1
    have hlab : ∀ g rep, (S.speciate d sqrt r pop).imap g = some rep → lab g = lab rep := by
      intro g rep hg
      rcases q1 g rep hg with rfl | hlt
      · rfl
      · by_contra hne
        rw [hd] at hlt
        simp only [Ne.symm hne, if_false] at hlt
        exact absurd hlt (not_lt.2 t1.le)
    intro a ha b hb
    obtain ⟨ra, na, ea, ma⟩ := (p1 a).1 ha
    obtain ⟨rb, nb, eb, mb⟩ := (p1 b).1 hb
    constructor
    · intro e
      rw [ea, eb] at e
      injection e with e
      rw [hlab a ra ea, hlab b rb eb, e]
    · intro e
      rw [ea, eb]
      by_contra hne
      have hne' : ra ≠ rb := fun h => hne (by rw [h])
      have := q3 ra na rb nb ma mb hne'
      rw [hd] at this
      simp only [← hlab a ra ea, ← hlab b rb eb, e, if_true] at this
      exact absurd this (not_le.2 t0)
  · obtain ⟨p1, p2, p3, p4⟩ := C31_partition (d := d) h hr pop
    obtain ⟨q1, q2, q3⟩ := C32_species_radius h hsym hr pop
    obtain ⟨t0, t1⟩ := (C33_threshold_range h).1
    obtain ⟨S', hS'⟩ : ∃ u, u = S.speciate d sqrt r pop := ⟨_, rfl⟩
    rw [← hS'] at p1 p2 p3 p4 q1 q2 q3 ⊢
    have hn : ((S'.species.map (·.1)).map lab).Nodup := by
      refine (List.nodup_map_iff_inj_on p2).2 (fun a ha b hb e => ?_)
      obtain ⟨⟨a', m⟩, hm1, rfl⟩ := List.mem_map.1 ha
      obtain ⟨⟨b', n⟩, hm2, rfl⟩ := List.mem_map.1 hb
      by_contra hne
      have := q3 a' m b' n hm1 hm2 hne
      rw [hd] at this
      dsimp only at e this
      rw [if_pos e] at this
      exact absurd this (not_le.2 t0)
    have hsame : ∀ l, l ∈ (S'.species.map (·.1)).map lab ↔ l ∈ (pop.map lab).dedup := by
      intro l
      rw [List.mem_dedup]
      constructor
      · intro hl
        obtain ⟨k, hk, rfl⟩ := List.mem_map.1 hl
        obtain ⟨⟨k', n⟩, hk', rfl⟩ := List.mem_map.1 hk
        exact List.mem_map_of_mem (q2 k' n hk').1
      · intro hl
        obtain ⟨g, hg, rfl⟩ := List.mem_map.1 hl
        obtain ⟨rep, n, e, hmem⟩ := (p1 g).1 hg
        refine List.mem_map.2 ⟨rep, List.mem_map.2 ⟨_, hmem, rfl⟩, ?_⟩
        rcases q1 g rep e with rfl | hlt
        · rfl
        · by_contra hne
          rw [hd] at hlt
          simp only [hne, if_false] at hlt
          exact absurd hlt (not_lt.2 t1.le)
    have := ((List.perm_ext_iff_of_nodup hn (List.nodup_dedup _)).2 hsame).length_eq
    simpa using this

/-- **C87.** A manager left over from an earlier run in the same process, and a population it cannot compare: unmarked graphs (a run without scheme) raise TypeError, graphs marked by
another scheme ValueError, at the first speciation of a population with two different individuals. -/
theorem C87_leftover_manager [Field K] [LinearOrder K] {sqrt : Nat → K} {S : Spec Nat K} {r : SpecRnd Nat} (hr : r.Honest) {heap : Nat → Tagged} {s : SpecName}
    {dist : Tagged → Tagged → Except Err K} (hd : ∀ a b e, checkNames s a b = .error e → dist a b = .error e)
    {a b : Nat} {rest : List Nat} (hab : a ≠ b) (hnew : ∀ g ∈ a :: b :: rest, g ∉ S.species.map (·.1))
    (hold : ∀ k ∈ S.species.map (·.1), ∃ d, (heap k).desc = some d ∧ d.name = s) :
    ((∀ g ∈ a :: b :: rest, (heap g).desc = none) → S.speciateE (fun x y => dist (heap x) (heap y)) sqrt r (a :: b :: rest) = .error .typeError) ∧
    ((∀ g ∈ a :: b :: rest, ∃ d, (heap g).desc = some d ∧ d.name ≠ s) →
      S.speciateE (fun x y => dist (heap x) (heap y)) sqrt r (a :: b :: rest) = .error .valueError) := by
  constructor
  · intro hp
    refine speciateE_error sqrt hr hab hnew (fun x y hx hy => hd _ _ _ ?_)
    unfold checkNames
    rcases hx with hx | hx
    · rw [hp x hx]
    · obtain ⟨d, e, en⟩ := hold x hx
      rw [e]
      dsimp only
      rw [if_neg (not_not.2 en), hp y hy]
  · intro hp
    refine speciateE_error sqrt hr hab hnew (fun x y hx hy => hd _ _ _ ?_)
    obtain ⟨dy, ey, ny⟩ := hp y hy
    unfold checkNames
    rcases hx with hx | hx
    · obtain ⟨d, e, en⟩ := hp x hx
      rw [e]
      dsimp only
      rw [if_pos en]
    · obtain ⟨d, e, en⟩ := hold x hx
      rw [e]
      dsimp only
      rw [if_neg (not_not.2 en), ey]
      dsimp only
      rw [if_pos ny]

/-- The distances of all three schemes begin with that check. -/
theorem C87_checked (a b : Tagged) (e : Err) :
    (checkNames .simpleSubpopulation a b = .error e → labelDist a b = .error e) ∧
    (∀ cl, checkNames .vectorDiff a b = .error e → vectorDist cl a b = .error e) ∧
    ∀ o x, checkNames .editDistance a b = .error e → editDist o x a b = .error e := by
  refine ⟨fun h => ?_, fun cl h => ?_, fun o x h => ?_⟩
  · unfold labelDist; rw [h]; rfl
  · unfold vectorDist; rw [h]; rfl
  · unfold editDist; rw [h]; rfl

/-! ## Worked cases -/

/-- A run over numbers with descriptors: distance 0 or 1 by label. -/
def cfgLab : TopCfg (Nat × Option Descriptor) ℚ where
  nPop := 4
  nGen := 3
  nHof := 2
  rule := .preferential some
  ratio := 0
  ev := fun n c => .ok (c.1 + 1 + n % 2, c.2)
  chk := fun _ => true
  hasParams := fun c => c.1 ≠ 0
  over := fun p c => (100 * p.1 + c.1, c.2)
  opt := fun n c => .ok ((((7 * c.1 + n) % 5 + 1 : Nat) : ℚ), c)
  sim := fun _ a b => a.1 = b.1
  u := fun n => ((n % 3 : Nat) : ℚ) / 4
  draw := fun n j => 3 * n + 5 * j + 2
  dist := fun a b => if a.2 = b.2 then 0 else 1
  sqrt := fun _ => 2
  specRnd := fun _ => ⟨fun l => l, fun _ l => l⟩
  decay := fun _ => none
  setup := none
  fuel := 50

def worldLab : Pool (Nat × Option Descriptor) := ⟨fun i => (10 * i + 3, none), 3, 0⟩

theorem cfgLab_keeps : Keeps (·.2) cfgLab := by
  refine ⟨fun n c c' h => ?_, fun n c s c' h => ?_, fun _ _ => rfl⟩
  · injection h with h; subst h; rfl
  · injection h with h; injection h with h1 h2; subst h2; rfl

theorem cfgLab_honest : ∀ n, (cfgLab.specRnd n).Honest := fun _ => ⟨fun _ => .refl _, fun _ _ => .refl _⟩

/-- Three generations of four individuals in two subpopulations. -/
theorem cfgLab_run : (runOf cfgLab (some .simpleSubpopulation) 2 worldLab (2, none) none).map
    (fun st => (st.pop.map (fun p => (st.w.heap p.2).2.map (·.label)), st.mgr.map (fun S => S.species.length))) =
    .ok ([some (some 0), some (some 1), some (some 0), some (some 1)], some 2) := by decide +kernel

/-- The same rule from a marked design in a fresh process: no manager. -/
theorem cfgLab_rerun : (runOf cfgLab (some .simpleSubpopulation) 2 worldLab (2, some ⟨.simpleSubpopulation, some 1⟩) none).map
    (fun st => (st.pop.map (fun p => (st.w.heap p.2).2.map (·.label)), st.mgr.map (fun S => S.species.length))) =
    .ok ([some (some 1), some (some 1), some (some 1), some (some 1)], none) := by decide +kernel

example : (setupScheme (some .simpleSubpopulation) 2 worldLab [((none : Option ℚ), 0), (none, 2), (none, 1)] none).map
    (fun r => ([0, 1, 2].map r.1.heap, r.2.map (·.thr))) =
    .ok ([(3, some ⟨.simpleSubpopulation, some 0⟩), (13, some ⟨.simpleSubpopulation, some 0⟩), (23, some ⟨.simpleSubpopulation, some 1⟩)], some (2 / 5)) := by
  decide +kernel

/-- Five graphs in three subpopulations. -/
def heapLab : Nat → Tagged := fun g => ⟨⟨[], []⟩, some ⟨.simpleSubpopulation, some (g % 3)⟩⟩

example := C87_species_are_labels (K := ℚ) spec0_reach specRnd_honest (heap := heapLab) (lab := (· % 3)) (pop := [1, 4, 2, 3, 7]) (fun _ _ => rfl)

example : (spec0.speciateE (labelD heapLab) (fun _ => 3) specRnd [1, 4, 2, 3, 7]).map (fun S => (S.species, S.thr)) =
    .ok ([(1, 3), (2, 1), (3, 1)], 13 / 30) := by decide +kernel

/-- A manager of the simple scheme with one species, then the unmarked graphs 5 and 6, or the same marked by another scheme. -/
example : let S : Spec Nat ℚ := ⟨some 2, 2 / 5, [(1, 3)], fun _ => none⟩
    let heap (o : Option Descriptor) : Nat → Tagged := fun g => ⟨⟨[], []⟩, if g = 1 then some ⟨.simpleSubpopulation, some 0⟩ else o⟩
    (S.speciateE (labelD (heap none)) (fun _ => 3) specRnd [5, 6]).map (·.species) = .error .typeError ∧
    (S.speciateE (labelD (heap (some ⟨.vectorDiff, none⟩))) (fun _ => 3) specRnd [5, 6]).map (·.species) = .error .valueError ∧
    (S.speciateE (labelD (heap (some ⟨.simpleSubpopulation, some 1⟩))) (fun _ => 3) specRnd [5, 6]).map (·.species) = .ok [(5, 2)] := by
  decide +kernel

example : ∃ st S, runOf cfgLab (some .simpleSubpopulation) 2 worldLab (2, none) none = .ok st ∧ st.mgr = some S ∧
    (∀ p ∈ st.pop, BelongsTo .simpleSubpopulation 2 (st.w.heap p.2).2) ∧ S.species.length = 2 := by
  have h := cfgLab_run
  cases hr : runOf cfgLab (some .simpleSubpopulation) 2 worldLab (2, none) none with
  | error e => rw [hr] at h; cases h
  | ok st =>
    obtain ⟨h1, S, h2, _⟩ := C87_marked cfgLab_keeps cfgLab_honest (by decide) hr
    rw [hr] at h
    injection h with h
    injection h with _ h
    rw [h2] at h
    injection h with h
    exact ⟨st, S, rfl, h2, h1, h⟩

example : ∃ st, runOf cfgLab (some .simpleSubpopulation) 2 worldLab (2, some ⟨.simpleSubpopulation, some 1⟩) none = .ok st ∧ st.mgr = none := by
  have h := cfgLab_rerun
  cases hr : runOf cfgLab (some .simpleSubpopulation) 2 worldLab (2, some ⟨.simpleSubpopulation, some 1⟩) none with
  | error e => rw [hr] at h; cases h
  | ok st => exact ⟨st, rfl, (C87_marked_start cfgLab_keeps cfgLab_honest hr).1⟩

/-- Two more generations of the marked population of graphs 0, 1 and 2. -/
theorem cfgLab_more : (generationsOf cfgLab none 2 2 1 ⟨⟨fun i => (10 * i + 3, some ⟨.simpleSubpopulation, some (i % 2)⟩), 3, 0⟩, [(some 1, 0), (some 2, 2), (some 5, 1)],
    initHof 2, some (setupManager .simpleSubpopulation 2), [], []⟩).map (fun st => st.pop.map (fun p => (st.w.heap p.2).2.map (·.label))) =
    .ok [some (some 1), some (some 0), some (some 0)] := by decide +kernel

example : ∃ st, generationsOf cfgLab none 2 2 1 ⟨⟨fun i => (10 * i + 3, some ⟨.simpleSubpopulation, some (i % 2)⟩), 3, 0⟩, [(some 1, 0), (some 2, 2), (some 5, 1)],
    initHof 2, some (setupManager .simpleSubpopulation 2), [], []⟩ = .ok st ∧ st.pop.length = 3 ∧
    ∀ p ∈ st.pop, ∃ g ∈ [0, 2, 1], (st.w.heap p.2).2 = some ⟨.simpleSubpopulation, some (g % 2)⟩ := by
  have h := cfgLab_more
  cases hr : generationsOf cfgLab none 2 2 1 ⟨⟨fun i => (10 * i + 3, some ⟨.simpleSubpopulation, some (i % 2)⟩), 3, 0⟩, [(some 1, 0), (some 2, 2), (some 5, 1)],
      initHof 2, some (setupManager .simpleSubpopulation 2), [], []⟩ with
  | error e => rw [hr] at h; cases h
  | ok st =>
    refine ⟨st, rfl, ?_, fun p hp => ?_⟩
    · rw [hr] at h
      injection h with h
      simpa using congrArg List.length h
    · obtain ⟨q, hq, e⟩ := C87_inherited cfgLab_keeps (by decide) (fun p hp => by simp at hp; rcases hp with rfl | rfl | rfl <;> decide) hr p hp
      simp at hq
      rcases hq with rfl | rfl | rfl
      · exact ⟨0, by simp, e⟩
      · exact ⟨2, by simp, e⟩
      · exact ⟨1, by simp, e⟩

example := C87_setup (K := ℚ) (s := .simpleSubpopulation) (by decide) (target := 2) (by decide) (w := worldLab) (x := none) (g := 0) (rest := [(none, 2), (none, 1)]) (by decide) rfl none
example := C87_setup_else (K := ℚ) 2 worldLab none none 0 []
example := C87_leftover_manager (K := ℚ) (sqrt := fun _ => 3) (S := ⟨some 2, 2 / 5, [(1, 3)], fun _ => none⟩) specRnd_honest
  (heap := fun g => ⟨⟨[], []⟩, if g = 1 then some ⟨.simpleSubpopulation, some 0⟩ else none⟩) (s := .simpleSubpopulation)
  (dist := fun a b => (labelDist a b).map (fun n : Nat => (n : ℚ))) (fun a b e h => by rw [(C87_checked a b e).1 h]; rfl) (a := 5) (b := 6) (rest := [7]) (by decide) (by decide)
  (fun k hk => by simp at hk; subst hk; exact ⟨_, rfl, rfl⟩)

end Verif
