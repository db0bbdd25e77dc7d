import Verif.Spec.ScheduledRun
import Verif.Props.Lineage
/-! # Lemmas on the numbers of the calls in a run -/

set_option linter.unusedSectionVars false

namespace Verif
variable {C K : Type} [Field K] [LinearOrder K] [IsStrictOrderedRing K]

theorem reproduce_calls {cfg : TopCfg C K} {choose : Nat → Nat} {pop : List (Indiv K)} {n : Nat} {w w' : Pool C} {cs : List (Indiv K)} (ha : Alive w pop)
    (h : reproduce cfg choose pop n w = .ok (w', cs)) :
    w'.calls = w.calls + n ∧ ∀ q ∈ cs, ∃ p ∈ pop, MadeAt cfg w.calls n (w.heap p.2) (w'.heap q.2) := by
  induction n generalizing w cs with
  | zero =>
    simp only [reproduce, Except.ok.injEq, Prod.mk.injEq] at h
    obtain ⟨rfl, rfl⟩ := h
    exact ⟨rfl, by simp⟩
  | succ n ih =>
    rw [reproduce] at h
    split at h
    · cases h
    · next s i hp =>
      have hi : i < w.next := ha _ (List.mem_of_getElem? hp)
      split at h
      · cases h
      · next w1 hc =>
        obtain ⟨c, hev, rfl⟩ := child_ok hc
        split at h
        · next hk =>
          split at h
          · cases h
          · next w2 rest hr =>
            simp only [Except.ok.injEq, Prod.mk.injEq] at h
            obtain ⟨rfl, rfl⟩ := h
            have hu := untouched_new w c
            have ha' : Alive (w.alloc c).tick pop := fun q hq => lt_of_lt_of_le (ha q hq) hu.1
            obtain ⟨r1, r2⟩ := ih ha' hr
            have hcalls : ((w.alloc c).tick).calls = w.calls + 1 := rfl
            rw [hcalls] at r1 r2
            have hnew : w2.heap w.next = c := by
              rw [(reproduce_ok ha' hr).1.2 _ (Nat.lt_succ_self _), new_heap]
            rw [new_heap] at hk
            refine ⟨by omega, fun q hq => ?_⟩
            rcases List.mem_cons.1 hq with rfl | hq
            · refine ⟨_, List.mem_of_getElem? hp, w.calls, le_refl _, by omega, ?_⟩
              dsimp only
              rw [hnew]
              exact ⟨hev, hk⟩
            · obtain ⟨p, hpm, m, m1, m2, m3⟩ := r2 q hq
              rw [hu.2 _ (ha p hpm)] at m3
              exact ⟨p, hpm, m, by omega, by omega, m3⟩
        · cases h

theorem updatePop_calls {cfg : TopCfg C K} (hr : cfg.rule.Single) {w w' : Pool C} {pop out : List (Indiv K)} (ha : Alive w pop)
    (hel : elite cfg pop = []) (h : updatePop cfg w pop = .ok (w', out)) :
    w'.calls = w.calls + pop.length ∧ ∀ q ∈ out, ∃ p ∈ pop, MadeAt cfg w.calls pop.length (w.heap p.2) (w'.heap q.2) := by
  unfold updatePop at h
  rcases hr with ⟨d, hr⟩ | ⟨d, hr⟩
  · rw [hr] at h
    dsimp only at h
    unfold updateTournament at h
    split at h
    · cases h
    · split at h
      · cases h
      · split at h
        · cases h
        · next w1 new hrep =>
          rw [hel, List.append_nil] at h
          simp only [Except.ok.injEq, Prod.mk.injEq] at h
          obtain ⟨rfl, rfl⟩ := h
          exact reproduce_calls ha hrep
  · rw [hr] at h
    dsimp only at h
    unfold updateRoulette at h
    split at h
    · cases h
    · cases h
    · split at h
      · cases h
      · split at h
        · cases h
        · split at h
          · cases h
          · next w1 new hrep =>
            rw [hel, List.append_nil] at h
            simp only [Except.ok.injEq, Prod.mk.injEq] at h
            obtain ⟨rfl, rfl⟩ := h
            exact reproduce_calls ha hrep

theorem breed_calls {cfg : TopCfg C K} (hr : cfg.rule.Single) (hel : pyRound (cfg.ratio * cfg.nPop) = 0) {gen : Nat} {st st1 : RunSt C K} (ha : Alive st.w st.pop)
    (hl : st.pop.length = cfg.nPop) (h : breed cfg gen st = .ok st1) :
    st1.w.calls = st.w.calls + cfg.nPop ∧ ∀ q ∈ st1.pop, ∃ p ∈ st.pop, MadeAt cfg st.w.calls cfg.nPop (st.w.heap p.2) (st1.w.heap q.2) := by
  have base : ∀ w pop, updatePop cfg st.w st.pop = .ok (w, pop) →
      w.calls = st.w.calls + cfg.nPop ∧ ∀ q ∈ pop, ∃ p ∈ st.pop, MadeAt cfg st.w.calls cfg.nPop (st.w.heap p.2) (w.heap q.2) := by
    intro w pop hu
    have := updatePop_calls hr ha (elite_nil hel hl) hu
    rwa [hl] at this
  unfold breed at h
  split at h
  · split at h
    · cases h
    · next w pop hu =>
      injection h with h
      subst h
      exact base w pop hu
  · split at h
    · split at h
      · cases h
      · next w pop hu =>
        injection h with h
        subst h
        exact base w pop hu
    · next S hS =>
      simp only at h
      split at h
      · cases h
      · next shared hsh =>
        obtain ⟨g1, g2, _⟩ := share_graphs hsh
        split at h
        · cases h
        · next w pop hu =>
          split at h
          · cases h
          · next pop' hun =>
            injection h with h
            subst h
            obtain ⟨u1, -, _⟩ := unshare_graphs hun
            have hl' : shared.length = cfg.nPop := by
              have := congrArg List.length g1
              simp only [List.length_map] at this
              rw [this, hl]
            have ha' : Alive st.w shared := by
              intro p hp
              obtain ⟨r, hr, he⟩ := mem_of_graphs g1 hp
              rw [← he]
              exact ha r hr
            obtain ⟨c1, c2⟩ := updatePop_calls hr ha' (elite_nil hel hl') hu
            rw [hl'] at c1 c2
            refine ⟨c1, fun q hq => ?_⟩
            obtain ⟨q', hq', he⟩ := mem_of_graphs u1 hq
            obtain ⟨p, hp, hm⟩ := c2 q' hq'
            obtain ⟨p', hp', he'⟩ := mem_of_graphs g1 hp
            rw [← he', he] at hm
            exact ⟨p', hp', hm⟩

theorem optimiseAll_calls {cfg : TopCfg C K} {pop : List (Indiv K)} {w w' : Pool C} {out : List (K × Nat)} (h : optimiseAll cfg w pop = .ok (w', out)) :
    w'.calls = w.calls + pop.length := by
  induction pop generalizing w out with
  | nil =>
    simp only [optimiseAll, Except.ok.injEq, Prod.mk.injEq] at h
    obtain ⟨rfl, rfl⟩ := h
    rfl
  | cons p pop ih =>
    obtain ⟨s, i⟩ := p
    cases s with
    | some x => cases h
    | none =>
      rw [optimiseAll] at h
      split at h
      · cases h
      · next s c hc =>
        split at h
        · cases h
        · next w2 rest hr =>
          simp only [Except.ok.injEq, Prod.mk.injEq] at h
          obtain ⟨rfl, rfl⟩ := h
          rw [ih hr]
          show w.calls + 1 + pop.length = _
          rw [List.length_cons]
          omega

theorem copyAll_calls (w : Pool C) (pop : List (Indiv K)) : (copyAll w pop).1.calls = w.calls := by
  induction pop generalizing w with
  | nil => rfl
  | cons p pop ih =>
    obtain ⟨s, i⟩ := p
    rw [copyAll]
    exact ih _

theorem initialState_calls {cfg : TopCfg C K} {w : Pool C} {start : C} {mgr : Option (Spec Nat K)} {st : RunSt C K} (h : initialState cfg w start mgr = .ok st) :
    st.w.calls = w.calls + 1 ∧ st.trace = [] := by
  unfold initialState at h
  split at h
  · cases h
  · injection h with h
    subst h
    exact ⟨copyAll_calls _ _, rfl⟩

/-- After a generation: `2 * nPop` more calls, one more entry in the record. -/
theorem generation_calls {cfg : TopCfg C K} (hr : cfg.rule.Single) (hel : pyRound (cfg.ratio * cfg.nPop) = 0) {gen : Nat} {st st' : RunSt C K}
    {gens : List ((C → C → Bool) × List (K × C))} (I : RunInv cfg st gens) (h : generation cfg gen st = .ok st') :
    st'.w.calls = st.w.calls + 2 * cfg.nPop ∧ st'.trace.length = st.trace.length + 1 := by
  unfold generation at h
  split at h
  · cases h
  · split at h
    · cases h
    · next st1 hb =>
      split at h
      · cases h
      · next w2 pop2 hopt =>
        obtain ⟨new, pass, b1, b2, -, -, -, b6, -, -, -, b10⟩ := breed_ok I.alive I.scored hb
        have hl1 : st1.pop.length = cfg.nPop := by
          have hnil := elite_nil hel I.len
          rw [hnil] at b2
          have hone : cfg.rule.oneEach = true := by
            rcases hr with ⟨d, hr⟩ | ⟨d, hr⟩ <;> rw [hr] <;> rfl
          have := congrArg List.length b1
          rw [List.length_map, List.length_append, b6 hone, b2, I.len] at this
          simpa using this
        have c1 := (breed_calls hr hel I.alive I.len hb).1
        have c2 := optimiseAll_calls hopt
        simp only at h
        split at h
        · cases h
        · split at h
          · cases h
          · injection h with h
            subst h
            dsimp only
            rw [List.length_append, List.length_singleton, b10]
            exact ⟨by omega, rfl⟩

/-- The run up to a point, with the calls counted. -/
structure Counted (cfg : TopCfg C K) (c0 : Nat) (plain : Prop) (s0 : K × C) (st : RunSt C K) : Prop where
  kin : KinBy cfg (fun k => MadeAt cfg (c0 + 2 * cfg.nPop * k) cfg.nPop) plain s0 st
  calls : st.w.calls = c0 + 2 * cfg.nPop * st.trace.length

theorem generation_counted {cfg : TopCfg C K} (hs : Sane cfg) (hpos : 0 < cfg.nPop) (hr : cfg.rule.Single) (hel : pyRound (cfg.ratio * cfg.nPop) = 0) {c0 : Nat}
    {mgr0 : Option (Spec Nat K)} {s0 : K × C} {gen : Nat} {st st' : RunSt C K} {gens : List ((C → C → Bool) × List (K × C))} (I : RunInv cfg st gens)
    (J : Counted cfg c0 (cfg.setup = none ∧ mgr0 = none) s0 st) (h : generation cfg gen st = .ok st') : Counted cfg c0 (cfg.setup = none ∧ mgr0 = none) s0 st' := by
  obtain ⟨c1, c2⟩ := generation_calls hr hel I h
  refine ⟨generation_kinBy hs hpos I J.kin (fun st1 hb q hq _ => ?_) h, ?_⟩
  · rw [← J.calls]
    exact (breed_calls hr hel I.alive I.len hb).2 q hq
  · rw [c1, c2, J.calls]
    ring

theorem generations_counted {cfg : TopCfg C K} (hs : Sane cfg) (hpos : 0 < cfg.nPop) (hr : cfg.rule.Single) (hel : pyRound (cfg.ratio * cfg.nPop) = 0) {c0 : Nat}
    {mgr0 : Option (Spec Nat K)} {s0 : K × C} {n gen : Nat} {st st' : RunSt C K} {gens : List ((C → C → Bool) × List (K × C))} (I : RunInv cfg st gens)
    (J : Counted cfg c0 (cfg.setup = none ∧ mgr0 = none) s0 st) (h : generations cfg n gen st = .ok st') :
    Counted cfg c0 (cfg.setup = none ∧ mgr0 = none) s0 st' ∧ st'.trace.length = st.trace.length + n := by
  induction n generalizing gen st gens with
  | zero =>
    injection h with h
    subst h
    exact ⟨J, rfl⟩
  | succ n ih =>
    rw [generations] at h
    split at h
    · cases h
    · next st1 h1 =>
      obtain ⟨off, I1⟩ := generation_inv hs hpos I h1
      obtain ⟨a, b⟩ := ih I1 (generation_counted hs hpos hr hel I J h1) h
      refine ⟨a, ?_⟩
      rw [b, (generation_calls hr hel I h1).2]
      omega

end Verif
