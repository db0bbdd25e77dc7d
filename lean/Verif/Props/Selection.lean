import Verif.Lemmas.Roulette
import Verif.Lemmas.Params
/-!
# Properties of selection and reproduction (C28, C29, C30)
-/

set_option linter.unusedSectionVars false

namespace Verif
variable {C K : Type} [Field K] [LinearOrder K] [IsStrictOrderedRing K]

/-- A small setting: contents are numbers, evolving adds one (two on odd calls), optimising halves. -/
def cfgDemo (rule : Rule ℚ) (ratio : ℚ) : TopCfg Nat ℚ where
  nPop := 3
  nGen := 2
  nHof := 2
  rule := rule
  ratio := ratio
  ev := fun n c => .ok (c + 1 + n % 2)
  chk := fun _ => true
  hasParams := fun c => c ≠ 0
  over := fun p c => 100 * p + c
  opt := fun n c => .ok ((((7 * c + n) % 5 + 1 : Nat) : ℚ), c)
  sim := fun _ a b => a = b
  u := fun n => ((n % 3 : Nat) : ℚ) / 4
  draw := fun n j => 3 * n + 5 * j + 2
  dist := fun a b => |(a : ℚ) - b| / 10
  sqrt := fun _ => 2
  specRnd := fun _ => ⟨fun l => l, fun _ l => l⟩
  decay := fun _ => none
  setup := none
  fuel := 50

def worldDemo : Pool Nat := ⟨fun i => 10 * i + 3, 3, 0⟩
def popDemo : List (Indiv ℚ) := [(some 1, 0), (some 2, 2), (some 5, 1)]

/-- **C28.** Survivors without speciation: the `n` best, in ascending order of score. -/
theorem C28_selection_keeps_best (cfg : TopCfg C K) (gen : Nat) (w : Pool C) (pop : List (K × Nat)) :
    ∃ kept, select cfg gen w none pop = .ok (none, asInd kept) ∧ BestOf (·.1) cfg.nPop pop kept :=
  ⟨_, rfl, bestOf_sort _ _ _⟩

/-- **C28.** Survivors under speciation: the `n` best by score times the factor of the individual's species (the number of its
members when there is no half-life), handed on with their original scores. -/
theorem C28_selection_shared {cfg : TopCfg C K} (hs : Sane cfg) (gen : Nat) (w : Pool C) {S : Spec Nat K}
    (h : SpecReach cfg.sqrt S) (pop : List (K × Nat)) :
    ∃ (S' : Spec Nat K) (kept : List (K × Nat)) (f : Nat → K), select cfg gen w (some S) pop = .ok (some S', asInd kept) ∧
      BestOf (fun p => p.1 * f p.2) cfg.nPop pop kept ∧
      (∀ p ∈ pop, 1 ≤ f p.2) ∧
      (cfg.decay gen = none → ∀ p ∈ pop, f p.2 = ((pop.map (·.2)).countP (fun g => S'.imap g = S'.imap p.2) : Nat)) := by
  have hsz : ∀ p ∈ pop, ∃ n, (S.speciate (heapDist cfg w) cfg.sqrt (cfg.specRnd (2 * gen + 1)) (pop.map (·.2))).sizeOf p.2
      = some n ∧ 0 < n :=
    fun p hp => speciate_size h _ (hs.orders _) _ (List.mem_map.2 ⟨p, hp, rfl⟩)
  refine ⟨S.speciate (heapDist cfg w) cfg.sqrt (cfg.specRnd (2 * gen + 1)) (pop.map (·.2)), _,
    factor (S.speciate (heapDist cfg w) cfg.sqrt (cfg.specRnd (2 * gen + 1)) (pop.map (·.2))) (cfg.decay gen),
    ?_, bestOf_sort _ _ _, ?_, ?_⟩
  · unfold select
    simp only [selectShared_eq (cfg.decay gen) cfg.nPop pop hsz]
  · intro p hp
    obtain ⟨n, hn, hpos⟩ := hsz p hp
    unfold factor
    rw [hn]
    exact scaling_ge _ hpos
  · intro hd p hp
    obtain ⟨c1, c2, c3, _⟩ := C31_partition (d := heapDist cfg w) h (hs.orders (2 * gen + 1)) (pop.map (·.2))
    obtain ⟨rep, n, h1, h2⟩ := (c1 p.2).1 (List.mem_map.2 ⟨p, hp, rfl⟩)
    unfold factor Spec.sizeOf
    rw [h1, hd, ← (c3 rep n h2).1]
    change scaling none ((dget _ rep).getD 1) = _
    rw [(dget_eq c2).2 h2]
    rfl

example : BestOf (A := ℚ × Nat) (·.1) 2 [(5, 0), (1, 1), (3, 2)] [(1, 1), (3, 2)] :=
  ⟨rfl, by simp, [(5, 0)], by decide, by simp; norm_num⟩

example : ∃ S : Spec Nat ℚ, SpecReach (fun _ => 2) S ∧
    (∃ kept, (select (cfgDemo .random 0) 1 worldDemo (some S) [(3, 0), (1, 1), (2, 2), (4, 5)]) = kept) ∧
    (S.speciate (heapDist (cfgDemo .random 0) worldDemo) (fun _ => 2) ⟨fun l => l, fun _ l => l⟩ [0, 1, 2]).species =
      [(0, 1), (1, 1), (2, 1)] :=
  ⟨⟨none, 2/5, [], fun _ => none⟩, .init (t := none) (thr := 2/5) (by unfold Spec.init; rw [if_neg (by norm_num)]),
    ⟨_, rfl⟩, by decide +kernel⟩

/-- **C29.** Tournament: one child per individual, each a checked evolution of a copy of a member of the population, followed by
the elite; nothing that existed is altered.  The parent is one of the sampled individuals, and if the population is
sorted, the fittest of them. -/
theorem C29_tournament {cfg : TopCfg C K} {d : Nat} {w w' : Pool C} {pop out : List (Indiv K)} (ha : Alive w pop)
    (h : updateTournament cfg d w pop = .ok (w', out)) :
    ∃ children, out = children ++ elite cfg pop ∧ children.length = pop.length ∧ (children.map (·.2)).Nodup ∧
      Untouched w w' ∧
      ∀ c ∈ children, ∃ call parent, ChildOf cfg w w' call parent.2 c ∧
        ∃ sampled : List Nat, sampled = (List.range (max 1 (pop.length / d))).map (fun j => cfg.draw call j % pop.length) ∧
          (∃ i ∈ sampled, pop[i]? = some parent) ∧
          ((∀ (i j : Nat) (a b : Indiv K), i < j → pop[i]? = some a → pop[j]? = some b → ∃ x y, a.1 = some x ∧ b.1 = some y ∧ x ≤ y) →
            ∀ i ∈ sampled, ∀ q, pop[i]? = some q → parent = q ∨ ∃ x y, parent.1 = some x ∧ q.1 = some y ∧ x ≤ y) := by
  unfold updateTournament at h
  split at h
  · cases h
  · next hlen =>
    split at h
    · cases h
    · next hd =>
      split at h
      · cases h
      · next hr =>
        simp only [Except.ok.injEq, Prod.mk.injEq] at h
        obtain ⟨rfl, rfl⟩ := h
        obtain ⟨b1, b2, b3, b4⟩ := reproduce_ok ha hr
        refine ⟨_, rfl, b2, b3, b1, fun c hc => ?_⟩
        obtain ⟨call, parent, e1, e2⟩ := b4 c hc
        have hsize : tourneySize d pop.length = max 1 (pop.length / d) := by
          unfold tourneySize
          generalize pop.length / d = q
          split <;> omega
        have hne : tourneyIdx cfg d pop.length call ≠ [] := by
          unfold tourneyIdx
          rw [hsize]
          intro he
          have := congrArg List.length he
          simp at this
        obtain ⟨m1, m2⟩ := minIdx_spec hne
        refine ⟨call, parent, e2, tourneyIdx cfg d pop.length call, by unfold tourneyIdx; rw [hsize], ⟨_, m1, e1⟩, ?_⟩
        intro hsorted i hi q hq
        rcases lt_or_eq_of_le (m2 i hi) with hlt | heq
        · exact .inr (hsorted _ _ _ _ hlt e1 hq)
        · rw [heq, hq] at e1
          injection e1 with e1
          exact .inl e1.symm

/-- **C29.** The tournament goes through whenever the evolver does. -/
theorem C29_tournament_total {cfg : TopCfg C K} {d : Nat} (hd : 0 < d) (w : Pool C) {pop : List (Indiv K)} (hne : pop ≠ [])
    (hev : ∀ n c, ∃ c', cfg.ev n c = .ok c' ∧ cfg.chk c' = true) : ∃ r, updateTournament cfg d w pop = .ok r := by
  have hlen : 0 < pop.length := List.length_pos_iff.2 hne
  unfold updateTournament
  rw [if_neg (by omega), if_neg (by omega)]
  obtain ⟨r, hr⟩ := reproduce_total (cfg := cfg) (choose := fun n => minIdx (tourneyIdx cfg d pop.length n)) (pop := pop)
    (fun n => by
      have hne : tourneyIdx cfg d pop.length n ≠ [] := by
        unfold tourneyIdx tourneySize
        intro he
        have := congrArg List.length he
        simp only [List.length_map, List.length_range, List.length_nil] at this
        split at this <;> omega
      obtain ⟨j, _, hj⟩ := List.mem_map.1 (minIdx_spec hne).1
      rw [← hj]
      exact Nat.mod_lt _ hlen) hev pop.length w
  rw [hr]
  exact ⟨_, rfl⟩

example : (updateTournament (cfgDemo (.tournament 3) 0) 3 worldDemo popDemo).map (fun r => r.2) =
    .ok [(none, 3), (none, 4), (none, 5)] ∧
    (updateTournament (cfgDemo (.tournament 3) 0) 3 worldDemo popDemo).map (fun r => [r.1.heap 3, r.1.heap 4, r.1.heap 5]) =
    .ok [14, 15, 14] := by decide +kernel

/-- **C29.** Roulette: one child per individual, each a checked evolution of a copy of a member of the population, followed by
the elite; nothing that existed is altered. -/
theorem C29_roulette {cfg : TopCfg C K} {p : Nat} {w w' : Pool C} {pop out : List (Indiv K)} (ha : Alive w pop)
    (h : updateRoulette cfg p w pop = .ok (w', out)) :
    ∃ children, out = children ++ elite cfg pop ∧ children.length = pop.length ∧ (children.map (·.2)).Nodup ∧
      Untouched w w' ∧
      ∃ scores probs, pop.map (·.1) = scores.map some ∧ rouletteProbs p scores = .ok probs ∧
        ∀ c ∈ children, ∃ call parent, ChildOf cfg w w' call parent.2 c ∧ pop[cdfPick probs 0 (cfg.u call)]? = some parent := by
  unfold updateRoulette at h
  split at h
  · cases h
  · cases h
  · split at h
    · cases h
    · next scores hsc =>
      split at h
      · cases h
      · next probs hpr =>
        split at h
        · cases h
        · next hr =>
          simp only [Except.ok.injEq, Prod.mk.injEq] at h
          obtain ⟨rfl, rfl⟩ := h
          obtain ⟨b1, b2, b3, b4⟩ := reproduce_ok ha hr
          refine ⟨_, rfl, b2, b3, b1, scores, probs, ?_, hpr, fun c hc => ?_⟩
          · have aux : ∀ (l : List (Indiv K)) sc, allScores l = .ok sc → l.map (·.1) = sc.map some := by
              intro l
              induction l with
              | nil => intro sc h; injection h with h; subst h; rfl
              | cons q l ih =>
                obtain ⟨s, i⟩ := q
                intro sc h
                cases s with
                | none => cases h
                | some x =>
                  rw [allScores] at h
                  split at h
                  · cases h
                  · next l' hl =>
                    injection h with h
                    subst h
                    simp [ih _ hl]
            exact aux _ _ hsc
          · obtain ⟨call, parent, e1, e2⟩ := b4 c hc
            exact ⟨call, parent, e2, e1⟩

/-- **C29.** The wheel: for positive scores the chances exist, are positive, sum to one, and a lower score has the larger chance
(for a positive exponent). -/
theorem C29_roulette_chances {p : Nat} {scores : List K} (hne : scores ≠ []) (hpos : ∀ s ∈ scores, 0 < s) :
    ∃ probs, rouletteProbs p scores = .ok probs ∧ probs.length = scores.length ∧ (∀ x ∈ probs, 0 < x) ∧ probs.sum = 1 ∧
      (0 < p → ∀ (i j : Nat) (s t x y : K), scores[i]? = some s → scores[j]? = some t → probs[i]? = some x →
        probs[j]? = some y → s < t → y < x) := by
  have hraw : ∀ x ∈ scores.map (fun s => 1 / s ^ p), 0 < x := by
    intro x hx
    obtain ⟨s, hs, rfl⟩ := List.mem_map.1 hx
    exact raw_pos (hpos s hs)
  have htot : 0 < (scores.map (fun s => 1 / s ^ p)).sum := sum_pos' (by simpa using hne) hraw
  refine ⟨_, rouletteProbs_ok hne hpos, by simp, ?_, ?_, ?_⟩
  · intro x hx
    obtain ⟨y, hy, rfl⟩ := List.mem_map.1 hx
    exact div_pos (hraw y hy) htot
  · rw [sum_map_div, div_self (ne_of_gt htot)]
  · intro hp i j s t x y hs ht hx hy hst
    rw [List.map_map, List.getElem?_map, hs] at hx
    rw [List.map_map, List.getElem?_map, ht] at hy
    simp only [Option.map_some, Function.comp, Option.some.injEq] at hx hy
    subst hx hy
    have h0 : 0 < s := hpos s (List.mem_of_getElem? hs)
    apply div_lt_div_of_pos_right _ htot
    exact one_div_lt_one_div_of_lt (pow_pos h0 p) (pow_lt_pow_left₀ hst (le_of_lt h0) (by omega))

/-- **C29.** A uniform draw picks an individual with exactly its chance: individual `i` on a half-open interval of length
`probs[i]`. -/
theorem C29_roulette_pick {probs : List K} (hnn : ∀ x ∈ probs, 0 ≤ x) (hsum : probs.sum = 1) {u : K} (h0 : 0 ≤ u) (h1 : u < 1) :
    cdfPick probs 0 u < probs.length ∧
    ∀ (i : Nat) x, probs[i]? = some x →
      (cdfPick probs 0 u = i ↔ (probs.take i).sum ≤ u ∧ u < (probs.take i).sum + x) := by
  refine ⟨cdfPick_lt _ _ _ (by rw [hsum]; linarith) ?_, fun i x hx => ?_⟩
  · rintro rfl
    simp at hsum
  · rw [cdfPick_iff probs 0 u hnn h0 (by rw [hsum]; linarith)]
    have : (probs.take (i + 1)).sum = (probs.take i).sum + x := by
      rw [List.take_add_one, hx]
      simp
    rw [this]
    simp

example : rouletteProbs 2 [(1 : ℚ), 2] = .ok [4/5, 1/5] := by decide +kernel
example : cdfPick [(4 : ℚ)/5, 1/5] 0 (9/10) = 1 := by decide +kernel

/-- **C29.** On a scored population with positive scores and uniform draws in [0,1) the roulette goes through whenever the evolver
does. -/
theorem C29_roulette_total {cfg : TopCfg C K} {p : Nat} (w : Pool C) {pop : List (Indiv K)} (hne : pop ≠ [])
    (hsc : ∀ q ∈ pop, ∃ s, q.1 = some s ∧ 0 < s) (hu : ∀ n, 0 ≤ cfg.u n ∧ cfg.u n < 1)
    (hev : ∀ n c, ∃ c', cfg.ev n c = .ok c' ∧ cfg.chk c' = true) : ∃ r, updateRoulette cfg p w pop = .ok r := by
  have aux : ∀ (l : List (Indiv K)), (∀ q ∈ l, ∃ s, q.1 = some s ∧ 0 < s) →
      ∃ sc, allScores l = .ok sc ∧ sc.length = l.length ∧ ∀ s ∈ sc, 0 < s := by
    intro l
    induction l with
    | nil => exact fun _ => ⟨[], rfl, rfl, by simp⟩
    | cons q l ih =>
      intro h
      obtain ⟨sc, h1, h2, h3⟩ := ih (fun r hr => h r (List.mem_cons_of_mem _ hr))
      obtain ⟨s, hs, hs0⟩ := h q List.mem_cons_self
      obtain ⟨o, i⟩ := q
      dsimp only at hs
      subst hs
      refine ⟨s :: sc, by rw [allScores, h1], by simp [h2], ?_⟩
      intro t ht
      rcases List.mem_cons.1 ht with rfl | ht
      · exact hs0
      · exact h3 t ht
  obtain ⟨sc, h1, h2, h3⟩ := aux pop hsc
  have hlen : 0 < pop.length := List.length_pos_iff.2 hne
  have hscne : sc ≠ [] := by
    rintro rfl
    simp at h2
    omega
  obtain ⟨probs, p1, p2, p3, p4, _⟩ := C29_roulette_chances (p := p) hscne h3
  have hpick : ∀ n, cdfPick probs 0 (cfg.u n) < pop.length := by
    intro n
    have := (C29_roulette_pick (fun x hx => le_of_lt (p3 x hx)) p4 (hu n).1 (hu n).2).1
    omega
  obtain ⟨r, hr⟩ := reproduce_total (cfg := cfg) (choose := fun n => cdfPick probs 0 (cfg.u n)) hpick hev pop.length w
  unfold updateRoulette
  split
  · exact absurd rfl hne
  · next i rest =>
    obtain ⟨s, hs, _⟩ := hsc _ List.mem_cons_self
    cases hs
  · simp only [h1, p1, hr]
    exact ⟨_, rfl⟩

example : (updateRoulette (cfgDemo (.roulette 1) (2/5)) 1 worldDemo popDemo).map (fun r => r.2) =
    .ok [(none, 3), (none, 4), (none, 5), (some 1, 0)] := by decide +kernel

/-- **C29.** The elite of a ratio in [0, 1]: the first individuals, their number within a half of ratio times size. -/
theorem C29_elite {cfg : TopCfg C K} (h0 : 0 ≤ cfg.ratio) (h1 : cfg.ratio ≤ 1) (pop : List (Indiv K)) :
    ∃ k : Nat, elite cfg pop = pop.take k ∧ (elite cfg pop).length = k ∧ |(k : ℚ) - cfg.ratio * pop.length| ≤ 1 / 2 := by
  obtain ⟨ha, hb⟩ := pyRound_near (cfg.ratio * pop.length)
  have hl : (0 : ℚ) ≤ pop.length := Nat.cast_nonneg _
  have hm : cfg.ratio * pop.length ≤ pop.length := by nlinarith
  have hm0 : 0 ≤ cfg.ratio * pop.length := mul_nonneg h0 hl
  have hr0 : 0 ≤ pyRound (cfg.ratio * pop.length) := by
    by_contra hc
    have : pyRound (cfg.ratio * pop.length) ≤ -1 := by omega
    have : (pyRound (cfg.ratio * pop.length) : ℚ) ≤ -1 := by exact_mod_cast this
    linarith
  obtain ⟨k, hk⟩ := Int.eq_ofNat_of_zero_le hr0
  have hkl : k ≤ pop.length := by
    by_contra hc
    have : pop.length + 1 ≤ k := by omega
    have h3 : ((pop.length : ℚ) + 1) ≤ (k : ℚ) := by exact_mod_cast this
    rw [hk] at hb
    simp only [Int.cast_natCast] at hb
    linarith
  refine ⟨k, ?_, ?_, ?_⟩
  · unfold elite slice0
    rw [if_pos hr0, hk]
    rfl
  · unfold elite slice0
    rw [if_pos hr0, hk]
    simp [hkl]
  · rw [hk] at ha hb
    simp only [Int.cast_natCast] at ha hb
    rw [abs_le]
    constructor <;> linarith

example : elite (cfgDemo .random (1/2)) popDemo = [(some 1, 0), (some 2, 2)] := by decide +kernel

theorem slice0_length {α : Type} (l : List α) (k : ℤ) :
    (slice0 l k).length = if 0 ≤ k then min k.toNat l.length else l.length - k.natAbs := by
  unfold slice0
  split
  · simp
  · simp

theorem elite_length (cfg : TopCfg C K) {a b : List (Indiv K)} (h : a.length = b.length) :
    (elite cfg a).length = (elite cfg b).length := by
  unfold elite
  rw [slice0_length, slice0_length, h]

/-- How `breed` relates the population before and after, for any rule and manager. -/
theorem breed_ok {cfg : TopCfg C K} {gen : Nat} {st st1 : RunSt C K} (ha : Alive st.w st.pop) (hsc : AllScored st.pop)
    (h : breed cfg gen st = .ok st1) :
    ∃ new pass, st1.pop.map (·.2) = new ++ pass ∧ pass.length = (elite cfg st.pop).length ∧
      (∀ p ∈ st1.pop.drop new.length, p.1 ≠ none) ∧ (∀ p ∈ st1.pop.take new.length, p.1 = none) ∧
      st.pop.length ≤ new.length ∧ (cfg.rule.oneEach = true → new.length = st.pop.length) ∧ Alive st1.w st1.pop ∧
      st1.hof = st.hof ∧ st1.bests = st.bests ∧ st1.trace = st.trace := by
  have hscE : ∀ pop : List (Indiv K), AllScored pop → AllScored (elite cfg pop) := fun pop hp q hq => hp q (elite_mem q hq)
  have fin : ∀ (w' : Pool C) (pop0 out fin : List (Indiv K)), Alive st.w pop0 → pop0.length = st.pop.length → AllScored pop0 →
      updatePop cfg st.w pop0 = .ok (w', out) → fin.map (·.2) = out.map (·.2) →
      fin.map (·.1.isSome) = out.map (·.1.isSome) →
      ∃ new pass, fin.map (·.2) = new ++ pass ∧ pass.length = (elite cfg st.pop).length ∧
        (∀ p ∈ fin.drop new.length, p.1 ≠ none) ∧ (∀ p ∈ fin.take new.length, p.1 = none) ∧
        st.pop.length ≤ new.length ∧ (cfg.rule.oneEach = true → new.length = st.pop.length) ∧ Alive w' fin := by
    intro w' pop0 out fin ha0 hl hs0 hu h2 h1
    obtain ⟨new, pass, e1, e2, e3, e4, e5, e6, _, _⟩ := updatePop_ok ha0 hu
    have hal : Alive w' fin := by
      intro p hp
      have : p.2 ∈ fin.map (·.2) := List.mem_map.2 ⟨p, hp, rfl⟩
      rw [h2] at this
      obtain ⟨q, hq, he⟩ := List.mem_map.1 this
      rw [← he]
      exact e6 q hq
    have hpl : pass.length = (elite cfg pop0).length := by
      have := congrArg List.length e3
      simpa using this
    have hiso : ∀ (i : Nat) (p : Indiv K), fin[i]? = some p → ∃ q, out[i]? = some q ∧ p.1.isSome = q.1.isSome := by
      intro i p hp
      have := congrArg (fun l : List Bool => l[i]?) h1
      simp only [List.getElem?_map, hp, Option.map_some] at this
      cases hq : out[i]? with
      | none => rw [hq] at this; cases this
      | some q =>
        rw [hq] at this
        simp only [Option.map_some, Option.some.injEq] at this
        exact ⟨q, rfl, this⟩
    refine ⟨new.map (·.2), pass.map (·.2), by rw [h2, e1, List.map_append], ?_, ?_, ?_, ?_, ?_, hal⟩
    · rw [List.length_map, hpl, elite_length cfg hl]
    · intro p hp
      obtain ⟨i, hi⟩ := List.getElem?_of_mem hp
      rw [List.getElem?_drop, List.length_map] at hi
      obtain ⟨q, hq, hs⟩ := hiso _ _ hi
      rw [e1, List.getElem?_append_right (by omega)] at hq
      have hq' : q ∈ pass := List.mem_of_getElem? hq
      have : q.1 ∈ (elite cfg pop0).map (·.1) := by
        rw [← e3]
        exact List.mem_map.2 ⟨q, hq', rfl⟩
      obtain ⟨r, hr, he⟩ := List.mem_map.1 this
      have hne := hscE pop0 hs0 r hr
      rw [he] at hne
      intro hn
      rw [hn] at hs
      cases hq1 : q.1 with
      | none => exact hne hq1
      | some x => rw [hq1] at hs; cases hs
    · intro p hp
      obtain ⟨i, hi⟩ := List.getElem?_of_mem hp
      have hlt : i < new.length := by
        have := (List.getElem?_eq_some_iff.1 hi).1
        simp only [List.length_take, List.length_map] at this
        omega
      rw [List.getElem?_take_of_lt (by simpa using hlt)] at hi
      obtain ⟨q, hq, hs⟩ := hiso _ _ hi
      rw [e1, List.getElem?_append_left hlt] at hq
      have := e2 q (List.mem_of_getElem? hq)
      rw [this] at hs
      cases hp1 : p.1 with
      | none => rfl
      | some x => rw [hp1] at hs; cases hs
    · simpa [hl] using e4
    · intro ho
      simpa [hl] using e5 ho
  unfold breed at h
  split at h
  · split at h
    · cases h
    · next w pop hu =>
      injection h with h
      subst h
      obtain ⟨new, pass, r⟩ := fin w st.pop pop pop ha rfl hsc hu rfl rfl
      exact ⟨new, pass, r.1, r.2.1, r.2.2.1, r.2.2.2.1, r.2.2.2.2.1, r.2.2.2.2.2.1, r.2.2.2.2.2.2, rfl, rfl, rfl⟩
  · split at h
    · split at h
      · cases h
      · next w pop hu =>
        injection h with h
        subst h
        obtain ⟨new, pass, r⟩ := fin w st.pop pop pop ha rfl hsc hu rfl rfl
        exact ⟨new, pass, r.1, r.2.1, r.2.2.1, r.2.2.2.1, r.2.2.2.2.1, r.2.2.2.2.2.1, r.2.2.2.2.2.2, rfl, rfl, rfl⟩
    · simp only at h
      split at h
      · cases h
      · next shared hsh =>
        obtain ⟨g1, g2, _⟩ := share_graphs hsh
        split at h
        · cases h
        · next w pop hu =>
          split at h
          · cases h
          · next pop' hun =>
            injection h with h
            subst h
            obtain ⟨u1, u2, _⟩ := unshare_graphs hun
            have hl : shared.length = st.pop.length := by
              have := congrArg List.length g1
              simpa using this
            have ha' : Alive st.w shared := by
              intro p hp
              have : p.2 ∈ shared.map (·.2) := List.mem_map.2 ⟨p, hp, rfl⟩
              rw [g1] at this
              obtain ⟨q, hq, he⟩ := List.mem_map.1 this
              rw [← he]
              exact ha q hq
            obtain ⟨new, pass, r⟩ := fin w shared pop pop' ha' hl g2 hu u1 u2
            exact ⟨new, pass, r.1, r.2.1, r.2.2.1, r.2.2.2.1, r.2.2.2.2.1, r.2.2.2.2.2.1, r.2.2.2.2.2.2, rfl, rfl, rfl⟩

/-- **C30.** With an empty elite every individual handed to parameter optimisation is unscored. -/
theorem C30_no_elite {cfg : TopCfg C K} {gen : Nat} {st st1 : RunSt C K} (ha : Alive st.w st.pop) (hsc : AllScored st.pop)
    (he : elite cfg st.pop = []) (h : breed cfg gen st = .ok st1) : AllUnscored st1.pop := by
  obtain ⟨new, pass, h1, h2, _, h4, _⟩ := breed_ok ha hsc h
  rw [he] at h2
  have hp : pass = [] := List.eq_nil_of_length_eq_zero h2
  have hl : st1.pop.length = new.length := by
    have := congrArg List.length h1
    simpa [hp] using this
  rw [← hl, List.take_length] at h4
  exact h4

/-- **C30.** With a non-empty elite no generation of a scored population ever completes, whatever the rule and the manager. -/
theorem C30_elite_aborts {cfg : TopCfg C K} {gen : Nat} {st : RunSt C K} (ha : Alive st.w st.pop) (hsc : AllScored st.pop)
    (he : elite cfg st.pop ≠ []) : ∀ st', generation cfg gen st ≠ .ok st' := by
  intro st' h
  unfold generation at h
  split at h
  · cases h
  · split at h
    · cases h
    · next st1 hb =>
      split at h
      · cases h
      · next w2 pop2 hopt =>
        obtain ⟨new, pass, h1, h2, h3, _⟩ := breed_ok ha hsc hb
        have hpl : 0 < pass.length := by
          rw [h2]
          exact List.length_pos_iff.2 he
        have hl : st1.pop.length = new.length + pass.length := by
          have := congrArg List.length h1
          simpa using this
        have hne : st1.pop.drop new.length ≠ [] := by
          intro h0
          have := congrArg List.length h0
          simp at this
          omega
        obtain ⟨p, hp⟩ := List.exists_mem_of_ne_nil _ hne
        exact h3 p hp ((optimiseAll_ok hopt).1 p (List.mem_of_mem_drop hp))

/-- **C30.** Without manager and with an evolver and optimiser that work, the abort is the `RuntimeError` of
`parameters_optimize_complete` (tournament shown). -/
theorem C30_elite_runtime_error {cfg : TopCfg C K} {gen d : Nat} {st : RunSt C K} (hg : cfg.nGen ≠ 1)
    (hrule : cfg.rule = .tournament d) (hd : 0 < d) (hm : st.mgr = none) (hset : cfg.setup = none) (ha : Alive st.w st.pop)
    (hsc : AllScored st.pop) (he : elite cfg st.pop ≠ [])
    (hev : ∀ n c, ∃ c', cfg.ev n c = .ok c' ∧ cfg.chk c' = true) (hopt : ∀ n c, ∃ r, cfg.opt n c = .ok r) :
    generation cfg gen st = .error .runtimeError := by
  have hne : st.pop ≠ [] := by
    rintro h0
    apply he
    have := (slice0_sublist st.pop (pyRound (cfg.ratio * st.pop.length)))
    unfold elite
    rw [h0] at this ⊢
    exact List.sublist_nil.1 this
  obtain ⟨⟨w', out⟩, hu⟩ := C29_tournament_total hd st.w hne hev
  have hu' : updatePop cfg st.w st.pop = .ok (w', out) := by
    unfold updatePop
    rw [hrule]
    exact hu
  obtain ⟨new, pass, e1, e2, e3, _⟩ := updatePop_ok ha hu'
  have hbreed : breed cfg gen st = .ok { st with w := w', pop := out } := by
    unfold breed
    split
    · rw [hu', hset, hm]
      simp
    · simp only [hm, hu']
  have hoptAll : ∀ (l m : List (Indiv K)) (w : Pool C), AllUnscored l → m ≠ [] → AllScored m →
      optimiseAll cfg w (l ++ m) = .error .runtimeError := by
    intro l m
    induction l with
    | nil =>
      intro w _ hm hs
      cases m with
      | nil => exact absurd rfl hm
      | cons q m =>
        obtain ⟨s, i⟩ := q
        cases s with
        | none => exact absurd rfl (hs _ List.mem_cons_self)
        | some x => rfl
    | cons q l ih =>
      intro w hl hm hs
      obtain ⟨s, i⟩ := q
      have : s = none := hl _ List.mem_cons_self
      subst this
      obtain ⟨⟨x, c⟩, hx⟩ := hopt w.calls (w.heap i)
      rw [List.cons_append, optimiseAll, hx]
      simp only [ih (w.alloc c).tick (fun r hr => hl r (List.mem_cons_of_mem _ hr)) hm hs]
  have hpass : pass ≠ [] := by
    rintro rfl
    apply he
    have := congrArg List.length e3
    simp only [List.map_nil, List.length_nil, List.length_map] at this
    exact List.eq_nil_of_length_eq_zero this.symm
  have hps : AllScored pass := by
    intro q hq
    have : q.1 ∈ (elite cfg st.pop).map (·.1) := by
      rw [← e3]
      exact List.mem_map.2 ⟨q, hq, rfl⟩
    obtain ⟨r, hr, he'⟩ := List.mem_map.1 this
    rw [← he']
    exact hsc r (elite_mem r hr)
  unfold generation
  rw [if_neg hg]
  simp only [hbreed, e1, hoptAll new pass w' e2 hpass hps]

/-- The default-like case: three individuals, ratio 0.4, so one elite individual. -/
example : elite (cfgDemo (.tournament 3) (2/5)) popDemo ≠ [] ∧ Alive worldDemo popDemo ∧ AllScored popDemo :=
  ⟨by decide +kernel, by unfold Alive; decide, by unfold AllScored; decide +kernel⟩
example : elite (cfgDemo (.tournament 3) (1/10)) popDemo = [] := by decide +kernel

/-! Cases of the other theorems. -/

example := C28_selection_keeps_best (cfgDemo .random 0) 1 worldDemo [(3, 0), (1, 1), (2, 2), (4, 5)]
example (w' : Pool Nat) (out : List (Indiv ℚ)) (h : updateTournament (cfgDemo (.tournament 3) 0) 3 worldDemo popDemo = .ok (w', out)) :=
  C29_tournament (by unfold Alive; decide) h
example (w' : Pool Nat) (out : List (Indiv ℚ)) (h : updateRoulette (cfgDemo (.roulette 1) (2/5)) 1 worldDemo popDemo = .ok (w', out)) :=
  C29_roulette (by unfold Alive; decide) h
example := C29_roulette_chances (p := 2) (scores := [(1 : ℚ), 2, 5]) (by simp) (by simp)
example (st : RunSt Nat ℚ) (h : breed (cfgDemo (.tournament 3) (1/10)) 1 ⟨worldDemo, popDemo, initHof 2, none, [], []⟩ = .ok st) :=
  C30_no_elite (by unfold Alive; decide) (by unfold AllScored; decide +kernel) (by decide +kernel) h
example := C30_elite_aborts (cfg := cfgDemo (.tournament 3) (2/5)) (gen := 1) (st := ⟨worldDemo, popDemo, initHof 2, none, [], []⟩)
  (by unfold Alive; decide) (by unfold AllScored; decide +kernel) (by decide +kernel)

end Verif
