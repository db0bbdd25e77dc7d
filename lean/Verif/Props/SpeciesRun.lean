import Verif.Props.Run
import Verif.Props.Preferential
import Verif.Props.Speciation
/-!
# Species at the end of a run, and runs the manager breaks (C32, C49, C50)
-/

set_option linter.unusedSectionVars false

namespace Verif
variable {C K : Type} [Field K] [LinearOrder K] [IsStrictOrderedRing K]

/-! ### C32 over a whole run -/

/-- `S` splits the designs `pop` of the objects `w` into species of radius `thr`: each design belongs to the species of one of the
designs, and is that design or closer to it than `thr`; the representatives of two species are at least `thr` apart. -/
def SplitInto (cfg : TopCfg C K) (w : Pool C) (thr : K) (S : Spec Nat K) (objs : List Nat) : Prop :=
  (∀ i ∈ objs, ∃ rep, S.imap i = some rep ∧ S.imap rep = some rep ∧ (i = rep ∨ cfg.dist (w.heap rep) (w.heap i) < thr)) ∧
  ∀ i ∈ objs, ∀ j ∈ objs, ∀ a b, S.imap i = some a → S.imap j = some b → a ≠ b → thr ≤ cfg.dist (w.heap a) (w.heap b)

theorem generation_species {cfg : TopCfg C K} (hs : Sane cfg) (hpos : 0 < cfg.nPop) (hd : ∀ a b, cfg.dist a b = cfg.dist b a)
    {gen : Nat} {st st' : RunSt C K} {gens : List ((C → C → Bool) × List (K × C))} (I : RunInv cfg st gens)
    (h : generation cfg gen st = .ok st') {S' : Spec Nat K} (hm : st'.mgr = some S') :
    ∃ thr, SplitInto cfg st'.w thr S' (st'.pop.map (·.2)) := by
  have hne : st.pop ≠ [] := by
    intro h0
    have := I.len
    rw [h0] at this
    simp at this
    omega
  obtain ⟨_, I'⟩ := generation_inv hs hpos I h
  unfold generation at h
  split at h
  · cases h
  split at h
  · cases h
  next st1 hb =>
  split at h
  · cases h
  next w2 pop2 hopt =>
  have hm1 := breed_mgr hs hne I.mgr hb
  have hne2 : pop2 ≠ [] := by
    intro h0
    subst h0
    obtain ⟨new, pass, b1, _, _, _, b5, _⟩ := breed_ok I.alive I.scored hb
    have o2 := (optimiseAll_ok hopt).2.1
    have := congrArg List.length b1
    have hl := I.len
    rw [List.length_map, List.length_append, ← o2, List.length_nil] at this
    omega
  dsimp only at h
  split at h
  · cases h
  next mgr kept hsel =>
  split at h
  · cases h
  next best rest hhof =>
  injection h with h
  subst h
  dsimp only at hm ⊢
  obtain ⟨mgr', kept', s1, s2, s3, s4, s5⟩ := select_ok (gen := gen) (w := w2) hs hm1 hne2
  rw [hsel] at s1
  injection s1 with s1
  injection s1 with s1 s1'
  subst s1 s1' hm
  cases hS : st1.mgr with
  | none =>
    have := (s5 hS).1
    cases this
  | some S =>
    rw [hS] at hsel hm1
    unfold select at hsel
    simp only at hsel
    split at hsel
    · cases hsel
    · injection hsel with hsel
      injection hsel with hS' _
      injection hS' with hS'
      have R := C32_species_radius (hm1 S rfl) (d := heapDist cfg w2) (fun a b => hd _ _) (hs.orders (2 * gen + 1)) (pop2.map (·.2))
      have P := C31_partition (d := heapDist cfg w2) (hm1 S rfl) (hs.orders (2 * gen + 1)) (pop2.map (·.2))
      dsimp only at R P
      rw [hS'] at R P
      have hin : ∀ i ∈ (asInd kept').map (·.2), ∃ rep size, S'.imap i = some rep ∧ (rep, size) ∈ S'.species := by
        intro i hi
        refine (P.1 i).1 ?_
        obtain ⟨p, hp, rfl⟩ := List.mem_map.1 hi
        obtain ⟨q, hq, rfl⟩ := List.mem_map.1 hp
        exact List.mem_map.2 ⟨q, s3 q hq, rfl⟩
      refine ⟨S.thr, ?_, ?_⟩
      · intro i hi
        obtain ⟨rep, size, h1, h2⟩ := hin i hi
        exact ⟨rep, h1, (R.2.1 _ _ h2).2, R.1 i rep h1⟩
      · intro i hi j hj a b ha hb hab
        obtain ⟨a', m, h1, h2⟩ := hin i hi
        obtain ⟨b', n, h3, h4⟩ := hin j hj
        rw [ha] at h1
        rw [hb] at h3
        injection h1 with h1
        injection h3 with h3
        subst h1 h3
        exact R.2.2 _ _ _ _ h2 h4 hab

/-- **C32.** At the end of a run under a speciation manager the survivors, with the contents they have then, are split into species:
every survivor is within the radius of its representative, representatives are at least the radius apart. -/
theorem C32_end_of_run {cfg : TopCfg C K} (hs : Sane cfg) (hpos : 0 < cfg.nPop) (hgen : 0 < cfg.nGen)
    (hd : ∀ a b, cfg.dist a b = cfg.dist b a) {w : Pool C} {start : C} {mgr : Option (Spec Nat K)}
    (hm : ∀ S, mgr = some S → SpecReach cfg.sqrt S) {st : RunSt C K} (h : topologyOptimization cfg w start mgr = .ok st)
    {S : Spec Nat K} (hS : st.mgr = some S) : ∃ thr, SplitInto cfg st.w thr S (st.pop.map (·.2)) := by
  unfold topologyOptimization at h
  split at h
  · cases h
  · next st0 h0 =>
    have I0 := initialState_inv hm h0
    have aux : ∀ (n gen : Nat) (s : RunSt C K) (gens : List ((C → C → Bool) × List (K × C))), RunInv cfg s gens → 0 < n →
        generations cfg n gen s = .ok st → ∃ thr, SplitInto cfg st.w thr S (st.pop.map (·.2)) := by
      intro n
      induction n with
      | zero => intro _ _ _ _ h; omega
      | succ n ih =>
        intro gen s gens I _ hg
        rw [generations] at hg
        split at hg
        · cases hg
        · next s1 h1 =>
          rcases Nat.eq_zero_or_pos n with rfl | hn
          · injection hg with hg
            subst hg
            exact generation_species hs hpos hd I h1 hS
          · obtain ⟨_, I1⟩ := generation_inv hs hpos I h1
            exact ih _ _ _ I1 hn hg
    exact aux _ _ _ _ I0 hgen h

/-! ### C49 over a whole run -/

theorem generation_mgr {cfg : TopCfg C K} {gen : Nat} {st st' : RunSt C K} (h : generation cfg gen st = .ok st')
    (hm : st.mgr ≠ none ∨ gen = 0 ∧ cfg.setup ≠ none) : st'.mgr ≠ none := by
  unfold generation at h
  split at h
  · cases h
  split at h
  · cases h
  next st1 hb =>
  have hb1 : st1.mgr ≠ none := by
    unfold breed at hb
    split at hb
    · split at hb
      · cases hb
      · injection hb with hb
        subst hb
        dsimp only
        rcases hm with hm | ⟨_, hm⟩ <;> cases hx : cfg.setup <;> simp_all
    · next hg =>
      split at hb
      · next hnone => rcases hm with hm | ⟨h0, _⟩ <;> contradiction
      · dsimp only at hb
        split at hb
        · cases hb
        split at hb
        · cases hb
        split at hb
        · cases hb
        injection hb with hb
        subst hb
        simp
  split at h
  · cases h
  dsimp only at h
  split at h
  · cases h
  next mgr kept hsel =>
  split at h
  · cases h
  injection h with h
  subst h
  dsimp only
  unfold select at hsel
  split at hsel
  · next hnone => exact absurd hnone hb1
  · dsimp only at hsel
    split at hsel
    · cases hsel
    · injection hsel with hsel
      injection hsel with h1 _
      rw [← h1]
      simp

/-- **C49.** A run with the `random` rule and a speciation manager, be it one installed by the setup of the rule or one left by an
earlier run, never returns a result. -/
theorem C49_random_run {cfg : TopCfg C K} (hs : Sane cfg) (hrule : cfg.rule = .random) (hpos : 0 < cfg.nPop) (hgen : 2 ≤ cfg.nGen)
    (w : Pool C) (start : C) {mgr : Option (Spec Nat K)} (hm : ∀ S, mgr = some S → SpecReach cfg.sqrt S)
    (hset : cfg.setup ≠ none ∨ mgr ≠ none) : ∀ st, topologyOptimization cfg w start mgr ≠ .ok st := by
  intro st h
  unfold topologyOptimization at h
  split at h
  · cases h
  · next st0 h0 =>
    have I0 := initialState_inv hm h0
    have hmgr : st0.mgr = mgr := by
      unfold initialState at h0
      split at h0
      · cases h0
      · injection h0 with h0
        subst h0
        rfl
    obtain ⟨n, hn⟩ : ∃ n, cfg.nGen = n + 2 := ⟨cfg.nGen - 2, by omega⟩
    rw [hn, generations] at h
    split at h
    · cases h
    · next st1 h1 =>
      obtain ⟨_, I1⟩ := generation_inv hs hpos I0 h1
      have hm1 : st1.mgr ≠ none := generation_mgr h1 (by rcases hset with h | h <;> simp_all)
      obtain ⟨S, hS⟩ := Option.ne_none_iff_exists'.1 hm1
      rw [generations] at h
      split at h
      · cases h
      · next st2 h2 =>
        refine C49_random_with_speciation hs hrule (by omega) hS (I1.mgr S hS) I1.alive ?_ _ h2
        intro e
        have := I1.len
        rw [e] at this
        simp at this
        omega

/-- A manager with target and threshold as a setup function makes it. -/
def mgrDemo : Spec Nat ℚ := ⟨none, 1/10, [], fun _ => none⟩

theorem mgrDemo_reach (sqrt : Nat → ℚ) : SpecReach sqrt mgrDemo :=
  .init (t := none) (thr := 1/10) (by unfold Spec.init; rw [if_neg (by norm_num)]; rfl)

theorem sane_mgr (rule : Rule ℚ) : Sane { cfgDemo rule 0 with setup := some mgrDemo } := by
  refine ⟨fun _ => ⟨fun _ => .refl _, fun _ _ => .refl _⟩, ?_⟩
  intro S h
  injection h with h
  subst h
  exact mgrDemo_reach _

/-- The run of the example in Props/Run with a manager set up: `random` fails, `roulette` returns three
survivors in two species. -/
example : (topologyOptimization { cfgDemo .random 0 with setup := some mgrDemo } worldDemo 2 none).map (fun st => st.bests) =
    .error .typeError := by decide +kernel
example : (topologyOptimization { cfgDemo (.roulette 2) 0 with setup := some mgrDemo } worldDemo 2 none).map
    (fun st => (st.bests, st.pop.map (·.2), st.pop.map (fun p => st.mgr.bind (fun S => S.imap p.2)))) =
    .ok ([some 2, some 1], [16, 17, 18], [some 16, some 17, some 16]) := by decide +kernel

/-! ### C50: an unscored population -/

/-- **C50.** A population without scores, on any draws below one: every individual gets exactly one child. -/
theorem C50_unscored {cfg : TopCfg C K} {root : K → Option K} (hu : ∀ n, cfg.u n < 1) {w w' : Pool C} {pop out : List (Indiv K)}
    (ha : Alive w pop) (hun : AllUnscored pop) (h : updatePreferential cfg root w pop = .ok (w', out)) :
    ∃ new, out = new ++ elite cfg pop ∧ List.Forall₂ (fun p c => Family cfg w w' p.2 [c]) pop new := by
  have one : ∀ (f parent : Nat) (w w' : Pool C) (prev : Option Nat) (cs : List (Indiv K)),
      prefInner cfg (fun u => decide (u < 1)) parent f w prev = .ok (w', cs) → cs.length = 1 := by
    intro f
    induction f with
    | zero => intro _ _ _ _ _ h; cases h
    | succ f ih =>
      intro parent w w' prev cs h
      rw [prefInner_eq] at h
      split at h
      · cases h
      · split at h
        · rw [if_pos (by simpa using hu _)] at h
          injection h with h
          injection h with _ h
          rw [← h]
          rfl
        · exact ih _ _ _ _ _ h
  have loop : ∀ (pop : List (Indiv K)) (w w' : Pool C) (cs : List (Indiv K)), Alive w pop →
      prefLoop cfg (fun _ u => decide (u < 1)) w pop = .ok (w', cs) → Untouched w w' ∧
      List.Forall₂ (fun p c => Family cfg w w' p.2 [c]) pop cs := by
    intro pop
    induction pop with
    | nil =>
      intro w w' cs _ h
      simp only [prefLoop, Except.ok.injEq, Prod.mk.injEq] at h
      obtain ⟨rfl, rfl⟩ := h
      exact ⟨.refl _, .nil⟩
    | cons p pop ih =>
      intro w w' cs ha h
      obtain ⟨s, i⟩ := p
      rw [prefLoop] at h
      split at h
      · cases h
      · next w1 c1 hi =>
        split at h
        · cases h
        · next w2 rest hr =>
          simp only [Except.ok.injEq, Prod.mk.injEq] at h
          obtain ⟨rfl, rfl⟩ := h
          have hi0 : i < w.next := ha _ List.mem_cons_self
          obtain ⟨f1, g1, _, _, g3, _⟩ := prefInner_family hi0 (le_refl _) rfl (by simp) hi
          have hu1 : Untouched w w1 := ⟨g1, fun j hj => g3 j hj (by simp)⟩
          have ha0 : Alive w pop := fun q hq => ha q (List.mem_cons_of_mem _ hq)
          obtain ⟨b2, b5⟩ := ih _ _ _ (fun q hq => lt_of_lt_of_le (ha0 q hq) g1) hr
          obtain ⟨c, rfl⟩ := List.length_eq_one_iff.1 (one _ _ _ _ _ _ hi)
          refine ⟨hu1.trans b2, .cons (f1.weaken hi0 (.refl _) b2) ?_⟩
          clear ih hr ha
          induction b5 with
          | nil => exact .nil
          | cons hd _ ih' =>
            refine .cons (hd.weaken (ha0 _ List.mem_cons_self) hu1 (.refl _)) (ih' ?_)
            exact fun q hq => ha0 q (List.mem_cons_of_mem _ hq)
  unfold updatePreferential at h
  split at h
  · cases h
  · split at h
    · cases h
    · next hp =>
      simp only [Except.ok.injEq, Prod.mk.injEq] at h
      obtain ⟨rfl, rfl⟩ := h
      exact ⟨_, rfl, (loop _ _ _ _ ha hp).2⟩
  · exact absurd (hun _ List.mem_cons_self) (by simp)

/-- Three unscored parents, one child each. -/
example : AllUnscored (popDemo.map (fun p => ((none : Option ℚ), p.2))) ∧ (∀ n, (cfgPref some).u n < 1) ∧
    (updatePreferential (cfgPref some) some worldDemo (popDemo.map (fun p => (none, p.2)))).map (fun r => r.2) =
      .ok [(none, 3), (none, 4), (none, 5)] := by
  refine ⟨by unfold AllUnscored; decide +kernel, ?_, by decide +kernel⟩
  intro n
  change (if n = 1 then (3 : ℚ) / 4 else 1 / 4) < 1
  split <;> norm_num


example : ∃ st S thr, topologyOptimization { cfgDemo (.roulette 2) 0 with setup := some mgrDemo } worldDemo 2 none = .ok st ∧ st.mgr = some S ∧
    SplitInto { cfgDemo (.roulette 2) 0 with setup := some mgrDemo } st.w thr S (st.pop.map (·.2)) := by
  have h : (topologyOptimization { cfgDemo (.roulette 2) 0 with setup := some mgrDemo } worldDemo 2 none).map (fun st => st.mgr.isSome) = .ok true := by
    decide +kernel
  cases hr : topologyOptimization { cfgDemo (.roulette 2) 0 with setup := some mgrDemo } worldDemo 2 none with
  | error e => rw [hr] at h; cases h
  | ok st =>
    rw [hr] at h
    injection h with h
    obtain ⟨S, hS⟩ := Option.isSome_iff_exists.1 h
    have hi : SpecReach (fun _ => (2 : ℚ)) mgrDemo := .init (t := none) (thr := 1 / 10) (by unfold Spec.init; rw [if_neg (by norm_num)]; rfl)
    obtain ⟨thr, ht⟩ := C32_end_of_run ⟨fun _ => ⟨fun _ => .refl _, fun _ _ => .refl _⟩, fun S hS => by injection hS with hS; subst hS; exact hi⟩ (by decide) (by decide)
      (fun a b => by change |(a : ℚ) - b| / 10 = |(b : ℚ) - a| / 10; rw [abs_sub_comm]) (fun S hS => by cases hS) hr hS
    exact ⟨st, S, thr, rfl, hS, ht⟩

end Verif
