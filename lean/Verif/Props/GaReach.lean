import Verif.Props.Ga
import Verif.Spec.GaReach
import Mathlib.Data.Set.Card
/-! # What the parameter genetic algorithm can find, and what its evaluations are spent on (C133) -/

namespace Verif
variable {K : Type}

theorem fits_more {gen : Nat → List K} {x0 : List K} {N M L : Nat} (h : N ≤ M) {x : List K} (hx : Fits (DrawnValue gen x0 N) L x) : Fits (DrawnValue gen x0 M) L x :=
  ⟨hx.1, fun i v hv => (hx.2 i v hv).imp id fun ⟨k, h1, h2⟩ => ⟨k, h1.trans_le h, h2⟩⟩

theorem fits_gen {gen : Nat → List K} {x0 : List K} {N L k : Nat} (hg : ∀ k, (gen k).length = L) (hk : k < N) : Fits (DrawnValue gen x0 N) L (gen k) :=
  ⟨hg k, fun _ _ hv => .inr ⟨k, hk, hv⟩⟩

theorem cross_gens {e : GaEnv K} {n : Nat} {st st' : GaSt K} (h : crossLoop e n st = .ok st') : st'.gens = st.gens := by
  induction n generalizing st with
  | zero =>
    injection h with h
    rw [h]
  | succ n ih =>
    rw [crossLoop] at h
    split at h
    · cases h
    · exact (ih (st := { st with pop := _, draws := st.draws + 3 }) h)

theorem mut_gens {e : GaEnv K} {x0 : List K} {L n : Nat} (hg : ∀ k, (e.gen k).length = L) {st st' : GaSt K} (h : mutLoop e n st = .ok st') :
    st'.gens = st.gens + n ∧ (AllFit (DrawnValue e.gen x0 st.gens) L st.pop → AllFit (DrawnValue e.gen x0 st'.gens) L st'.pop) := by
  induction n generalizing st with
  | zero =>
    injection h with h
    subst h
    exact ⟨rfl, id⟩
  | succ n ih =>
    rw [mutLoop] at h
    split at h
    · cases h
    · split at h
      · cases h
      · next p hp =>
        dsimp only at h
        split at h
        · cases h
        · next c hc =>
          obtain ⟨h1, h2⟩ := ih h
          refine ⟨by rw [h1]; change st.gens + 1 + n = _; omega, fun hf => h2 fun q hq => ?_⟩
          rcases List.mem_append.1 hq with hq | hq
          · exact fits_more (Nat.le_succ _) (hf q hq)
          · rw [List.mem_singleton] at hq
            subst hq
            exact mutate_fits (fits_more (Nat.le_succ _) (hf p (List.mem_of_getElem? hp))) (fits_gen hg (Nat.lt_succ_self _)) hc

/-- All vectors evaluated so far are made of values drawn so far. -/
def EvFit (e : GaEnv K) (x0 : List K) (L : Nat) (st : GaSt K) : Prop := ∀ q ∈ st.evals, Fits (DrawnValue e.gen x0 st.gens) L q.2

theorem new_gens {e : GaEnv K} {x0 : List K} {L n : Nat} (hg : ∀ k, (e.gen k).length = L) {st : GaSt K} :
    (newLoop e n st).gens = st.gens + n ∧ (newLoop e n st).evals.map (·.2) = st.evals.map (·.2) ++ (List.range n).map (fun k => e.gen (st.gens + k)) ∧
      (∃ new, (newLoop e n st).pop = st.pop ++ new ∧ ∀ p ∈ new, p.1 ≠ none) ∧
      (AllFit (DrawnValue e.gen x0 st.gens) L st.pop → EvFit e x0 L st → AllFit (DrawnValue e.gen x0 (newLoop e n st).gens) L (newLoop e n st).pop ∧ EvFit e x0 L (newLoop e n st)) := by
  induction n generalizing st with
  | zero => exact ⟨rfl, by simp [newLoop], ⟨[], by simp [newLoop]⟩, fun h1 h2 => ⟨h1, h2⟩⟩
  | succ n ih =>
    obtain ⟨h1, h2, ⟨new, h3, h3'⟩, h4⟩ := ih (st := ⟨st.pop ++ [(some (e.fn st.calls (e.gen st.gens)), e.gen st.gens)], st.calls + 1, st.gens + 1, st.draws,
        st.evals ++ [(e.fn st.calls (e.gen st.gens), e.gen st.gens)], st.log⟩)
    have hs : newLoop e (n + 1) st = newLoop e n ⟨st.pop ++ [(some (e.fn st.calls (e.gen st.gens)), e.gen st.gens)], st.calls + 1, st.gens + 1, st.draws,
        st.evals ++ [(e.fn st.calls (e.gen st.gens), e.gen st.gens)], st.log⟩ := rfl
    rw [hs]
    refine ⟨by rw [h1]; change st.gens + 1 + n = _; omega, ?_, ⟨[(some (e.fn st.calls (e.gen st.gens)), e.gen st.gens)] ++ new, by rw [h3, List.append_assoc], ?_⟩, fun hf he => h4 ?_ ?_⟩
    · rw [h2, List.range_succ_eq_map, List.map_cons, List.map_map, List.map_append, List.append_assoc]
      congr 1
      simp only [List.map_cons, List.map_nil, List.singleton_append, Nat.add_zero]
      congr 1
      refine List.map_congr_left fun k _ => ?_
      change e.gen (st.gens + 1 + k) = e.gen (st.gens + (k + 1))
      congr 1
      omega
    · intro p hp
      rcases List.mem_cons.1 (by simpa using hp) with rfl | hp
      · simp
      · exact h3' p hp
    · intro q hq
      rcases List.mem_append.1 hq with hq | hq
      · exact fits_more (Nat.le_succ _) (hf q hq)
      · rw [List.mem_singleton] at hq
        subst hq
        exact fits_gen hg (Nat.lt_succ_self _)
    · intro q hq
      rcases List.mem_append.1 hq with hq | hq
      · exact fits_more (Nat.le_succ _) (he q hq)
      · rw [List.mem_singleton] at hq
        subst hq
        exact fits_gen hg (Nat.lt_succ_self _)

theorem score_evals {e : GaEnv K} (pop : List (Option K × List K)) (st : GaSt K) :
    (scoreLoop e pop st).1.gens = st.gens ∧ (scoreLoop e pop st).1.evals.map (·.2) = st.evals.map (·.2) ++ (pop.filter (fun p => p.1.isNone)).map (·.2) ∧
      (scoreLoop e pop st).2.map (·.2) = pop.map (·.2) := by
  induction pop generalizing st with
  | nil => simp [scoreLoop]
  | cons p pop ih =>
    obtain ⟨o, x⟩ := p
    cases o with
    | some s =>
      obtain ⟨h1, h2, h3⟩ := ih st
      refine ⟨h1, ?_, by simp only [scoreLoop, List.map_cons, h3]⟩
      exact h2.trans (by simp)
    | none =>
      obtain ⟨h1, h2, h3⟩ := ih (st.eval e x).1
      refine ⟨h1, ?_, by simp only [scoreLoop, List.map_cons, h3]⟩
      exact h2.trans (by simp [GaSt.eval])

theorem init_evals {e : GaEnv K} {x0 : List K} (n : Nat) (st : GaSt K) :
    (gaInit e x0 n st).gens = st.gens ∧ (gaInit e x0 n st).evals.map (·.2) = st.evals.map (·.2) ++ List.replicate n x0 ∧
      ∃ new, (gaInit e x0 n st).pop = st.pop ++ new ∧ ∀ p ∈ new, p.1 ≠ none ∧ p.2 = x0 := by
  induction n generalizing st with
  | zero => exact ⟨rfl, by simp [gaInit], [], by simp [gaInit]⟩
  | succ n ih =>
    obtain ⟨h1, h2, new, h3, h4⟩ := ih { (st.eval e x0).1 with pop := (st.eval e x0).1.pop ++ [(some (st.eval e x0).2, x0)] }
    refine ⟨h1, ?_, (some (st.eval e x0).2, x0) :: new, ?_, ?_⟩
    · refine h2.trans ?_
      simp [GaSt.eval, List.replicate_succ]
    · refine h3.trans ?_
      simp [GaSt.eval]
    · intro p hp
      rcases List.mem_cons.1 hp with rfl | hp
      · simp
      · exact h4 p hp

/-- Crossing a vector with itself changes nothing. -/
theorem cross_same (raw : Nat) (x : List K) : crossoverSingle raw x x = (x, x) := by
  unfold crossoverSingle
  split
  · rfl
  · simp

theorem crossLoop_same {e : GaEnv K} {x0 : List K} {n : Nat} {st st' : GaSt K} (h : crossLoop e n st = .ok st') (hp : ∀ p ∈ st.pop, p.2 = x0) :
    st'.pop = st.pop ++ List.replicate (2 * n) (none, x0) ∧ st'.evals = st.evals ∧ st'.gens = st.gens := by
  induction n generalizing st with
  | zero =>
    injection h with h
    subst h
    simp
  | succ n ih =>
    rw [crossLoop] at h
    split at h
    · cases h
    · next p1 p2 hs =>
      obtain ⟨⟨a, ha, rfl⟩, b, hb, rfl⟩ := sampleTwo_mem hs
      rw [hp a ha, hp b hb, cross_same] at h
      dsimp only at h
      obtain ⟨h1, h2, h3⟩ := ih h (by
        intro p hp'
        rcases List.mem_append.1 hp' with hp' | hp'
        · exact hp p hp'
        · simp only [List.mem_cons, List.not_mem_nil, or_false, or_self] at hp'
          rw [hp'])
      refine ⟨?_, h2, h3⟩
      rw [h1, show 2 * (n + 1) = 2 * n + 1 + 1 by ring, List.replicate_succ, List.replicate_succ]
      simp

section
variable [LinearOrder K]

theorem survive_mem {n : Nat} {pop : List (K × List K)} {p : K × List K} (h : p ∈ survive n pop) : p ∈ pop := by
  have hperm := List.perm_insertionSort (fun a b : K × List K => tupleLe a b = true) pop
  unfold survive at h
  dsimp only at h
  split at h
  · exact hperm.mem_iff.1 h
  · exact hperm.mem_iff.1 (List.mem_of_mem_take h)

theorem generation_fits {e : GaEnv K} {x0 : List K} {L n crx mu : Nat} (hg : ∀ k, (e.gen k).length = L) {st st' : GaSt K} (h : gaGeneration e n crx mu st = .ok st') :
    st'.gens = st.gens + (mu + n / 20) ∧ (∃ more, st'.evals.map (·.2) = st.evals.map (·.2) ++ more) ∧
      (AllFit (DrawnValue e.gen x0 st.gens) L st.pop → EvFit e x0 L st → AllFit (DrawnValue e.gen x0 st'.gens) L st'.pop ∧ EvFit e x0 L st') := by
  unfold gaGeneration at h
  split at h
  · cases h
  · next st1 h1 =>
    split at h
    · cases h
    · next st2 h2 =>
      dsimp only at h
      injection h with h
      subst h
      obtain ⟨-, -, c1, -, c2⟩ := crossLoop_ok (P := DrawnValue e.gen x0 st.gens) (L := L) h1
      obtain ⟨-, -, m1, -, -⟩ := mutLoop_ok (P := DrawnValue e.gen x0 st.gens) (L := L) h2
      have g1 := cross_gens h1
      obtain ⟨g2, m2⟩ := mut_gens (x0 := x0) hg h2
      obtain ⟨g3, n1, -, n2⟩ := new_gens (x0 := x0) (n := n / 20) hg (st := st2)
      obtain ⟨g4, s1, s2⟩ := score_evals (e := e) (newLoop e (n / 20) st2).pop (newLoop e (n / 20) st2)
      refine ⟨?_, ⟨(List.range (n / 20)).map (fun k => e.gen (st2.gens + k)) ++ ((newLoop e (n / 20) st2).pop.filter (fun p => p.1.isNone)).map (·.2), ?_⟩, fun hf he => ?_⟩
      · change (scoreLoop e _ _).1.gens = _
        rw [g4, g3, g2, g1]
        omega
      · change (scoreLoop e _ _).1.evals.map _ = _
        rw [s1, n1, m1, c1, List.append_assoc]
      · have hev : EvFit e x0 L st2 := by
          intro q hq
          rw [m1, c1] at hq
          exact fits_more (by omega) (he q hq)
        obtain ⟨p1, p2⟩ := n2 (m2 (by rw [g1]; exact c2 hf)) hev
        have hgen : ((scoreLoop e (newLoop e (n / 20) st2).pop (newLoop e (n / 20) st2)).1).gens = (newLoop e (n / 20) st2).gens := g4
        constructor
        · intro p hp
          change Fits (DrawnValue e.gen x0 (scoreLoop e _ _).1.gens) L p.2
          rw [g4]
          obtain ⟨q, hq, rfl⟩ := List.mem_map.1 hp
          have : q.2 ∈ (newLoop e (n / 20) st2).pop.map (·.2) := by
            rw [← s2]
            exact List.mem_map_of_mem (survive_mem hq)
          obtain ⟨r, hr, hrq⟩ := List.mem_map.1 this
          change Fits _ L q.2
          rw [← hrq]
          exact p1 r hr
        · intro q hq
          change Fits (DrawnValue e.gen x0 (scoreLoop e _ _).1.gens) L q.2
          rw [g4]
          have : q.2 ∈ (scoreLoop e (newLoop e (n / 20) st2).pop (newLoop e (n / 20) st2)).1.evals.map (·.2) := List.mem_map_of_mem hq
          rw [s1] at this
          rcases List.mem_append.1 this with h' | h'
          · obtain ⟨r, hr, hrq⟩ := List.mem_map.1 h'
            rw [← hrq]
            exact p2 r hr
          · obtain ⟨r, hr, hrq⟩ := List.mem_map.1 h'
            rw [← hrq]
            exact p1 r (List.mem_of_mem_filter hr)

theorem generations_fits {e : GaEnv K} {x0 : List K} {L n crx mu : Nat} (hg : ∀ k, (e.gen k).length = L) (G : Nat) {st st' : GaSt K} (h : gaGenerations e n crx mu G st = .ok st') :
    st'.gens = st.gens + G * (mu + n / 20) ∧ (∃ more, st'.evals.map (·.2) = st.evals.map (·.2) ++ more) ∧
      (AllFit (DrawnValue e.gen x0 st.gens) L st.pop → EvFit e x0 L st → AllFit (DrawnValue e.gen x0 st'.gens) L st'.pop ∧ EvFit e x0 L st') := by
  induction G generalizing st with
  | zero =>
    injection h with h
    subst h
    exact ⟨by simp, ⟨[], by simp⟩, fun h1 h2 => ⟨h1, h2⟩⟩
  | succ G ih =>
    rw [gaGenerations] at h
    split at h
    · cases h
    · next st1 h1 =>
      obtain ⟨a1, ⟨m, a2⟩, a3⟩ := generation_fits (x0 := x0) hg h1
      obtain ⟨b1, ⟨m', b2⟩, b3⟩ := ih h
      exact ⟨by rw [b1, a1]; ring, ⟨m ++ m', by rw [b2, a2, List.append_assoc]⟩, fun hf he => b3 (a3 hf he).1 (a3 hf he).2⟩

/-- **C133.** No value is ever adjusted: in each vector the algorithm evaluates, and in the one it returns, every parameter has its value at the start or the one it has in a random vector.  The number of random vectors
is that of the mutations and newcomers, fixed beforehand. -/
theorem C133_values {e : GaEnv K} {x0 : List K} (hg : ∀ k, (e.gen k).length = x0.length) {nGen n : Nat} {rateMut rateCrx : ℚ} {x : List K} {s : K} {st : GaSt K}
    (h : parametersGA e x0 nGen n rateMut rateCrx = .ok (x, s, st)) {y : List K} (hy : y = x ∨ y ∈ st.evals.map (·.2)) :
    y.length = x0.length ∧ ∀ i v, y[i]? = some v → DrawnValue e.gen x0 (nGen * (⌊rateMut * n⌋.toNat + n / 20)) i v := by
  unfold parametersGA at h
  split at h
  · cases h
  · next st1 hgen =>
    split at h
    · next s' x' rest hpop =>
      simp only [Except.ok.injEq, Prod.mk.injEq] at h
      obtain ⟨rfl, rfl, rfl⟩ := h
      obtain ⟨i1, i2, new, i3, i4⟩ := init_evals (e := e) (x0 := x0) n ⟨[], 0, 0, 0, [], []⟩
      obtain ⟨a1, -, a2⟩ := generations_fits (x0 := x0) hg nGen hgen
      have f0 : ∀ N, Fits (DrawnValue e.gen x0 N) x0.length x0 := fun N => ⟨rfl, fun i v hv => .inl hv⟩
      obtain ⟨b1, b2⟩ := a2 (by
        intro p hp
        rw [i3] at hp
        rw [(i4 p (by simpa using hp)).2]
        exact f0 _) (by
        intro q hq
        have := List.mem_map_of_mem (f := (·.2)) hq
        rw [i2] at this
        simp only [List.map_nil, List.nil_append] at this
        rw [(List.mem_replicate.1 this).2]
        exact f0 _)
      have hN : st1.gens = nGen * (⌊rateMut * n⌋.toNat + n / 20) := by rw [a1, i1]; simp
      rw [hN] at b1
      have key : Fits (DrawnValue e.gen x0 (nGen * (⌊rateMut * n⌋.toNat + n / 20))) x0.length y := by
        rcases hy with rfl | hy
        · exact b1 (some s', y) (by rw [hpop]; exact List.mem_cons_self)
        · obtain ⟨q, hq, rfl⟩ := List.mem_map.1 hy
          rw [← hN]
          exact b2 q hq
      exact key
    · cases h

/-- **C133.** So of each parameter no more values are tried in a run than there are random vectors, and that of the start. -/
theorem C133_few {e : GaEnv K} {x0 : List K} (hg : ∀ k, (e.gen k).length = x0.length) {nGen n : Nat} {rateMut rateCrx : ℚ} {x : List K} {s : K} {st : GaSt K}
    (h : parametersGA e x0 nGen n rateMut rateCrx = .ok (x, s, st)) (i : Nat) :
    {v | ∃ y ∈ st.evals.map (·.2), y[i]? = some v}.ncard ≤ nGen * (⌊rateMut * n⌋.toNat + n / 20) + 1 := by
  classical
  set N := nGen * (⌊rateMut * n⌋.toNat + n / 20)
  have hsub : {v | ∃ y ∈ st.evals.map (·.2), y[i]? = some v} ⊆ ↑((x0[i]?.toList ++ (List.range N).flatMap fun k => (e.gen k)[i]?.toList).toFinset) := by
    rintro v ⟨y, hy, hv⟩
    rw [List.coe_toFinset]
    rw [Set.mem_ofPred_eq]
    rw [List.mem_append, List.mem_flatMap]
    rcases (C133_values hg h (.inr hy)).2 i v hv with h1 | ⟨k, h1, h2⟩
    · exact .inl (by rw [h1]; simp)
    · exact .inr ⟨k, List.mem_range.2 h1, by rw [h2]; simp⟩
  refine (Set.ncard_le_ncard hsub (Finset.finite_toSet _)).trans ?_
  rw [Set.ncard_coe_finset]
  refine (List.toFinset_card_le _).trans ?_
  rw [List.length_append]
  have l1 : ∀ o : Option K, o.toList.length ≤ 1 := fun o => by cases o <;> simp
  have l2 : ∀ l : List Nat, (l.flatMap fun k => (e.gen k)[i]?.toList).length ≤ l.length := by
    intro l
    induction l with
    | nil => simp
    | cons k l ih =>
      rw [List.flatMap_cons, List.length_append, List.length_cons]
      have := l1 (e.gen k)[i]?
      omega
  have := l1 x0[i]?
  have := l2 (List.range N)
  rw [List.length_range] at this
  omega

/-- **C133.** The first generation crosses copies of the start: of the first evaluations all are of the start vector, but for the newcomers. -/
theorem C133_copies {e : GaEnv K} {x0 : List K} (hg : ∀ k, (e.gen k).length = x0.length) {nGen n : Nat} (hG : 0 < nGen) {rateMut rateCrx : ℚ} {x : List K} {s : K} {st : GaSt K}
    (h : parametersGA e x0 nGen n rateMut rateCrx = .ok (x, s, st)) :
    ∃ rest, st.evals.map (·.2) = List.replicate n x0 ++ (List.range (n / 20)).map (fun k => e.gen (⌊rateMut * n⌋.toNat + k)) ++ List.replicate (2 * ⌊rateCrx * n⌋.toNat) x0 ++ rest := by
  unfold parametersGA at h
  split at h
  · cases h
  · next st1 hgen =>
    split at h
    · next s' x' rest hpop =>
      simp only [Except.ok.injEq, Prod.mk.injEq] at h
      obtain ⟨rfl, rfl, rfl⟩ := h
      obtain ⟨i1, i2, new, i3, i4⟩ := init_evals (e := e) (x0 := x0) n ⟨[], 0, 0, 0, [], []⟩
      obtain ⟨G, rfl⟩ : ∃ G, nGen = G + 1 := ⟨nGen - 1, by omega⟩
      rw [gaGenerations] at hgen
      split at hgen
      · cases hgen
      · next stA hA =>
        obtain ⟨-, ⟨more, hmore⟩, -⟩ := generations_fits (x0 := x0) hg G hgen
        unfold gaGeneration at hA
        split at hA
        · cases hA
        · next st1' h1 =>
          split at hA
          · cases hA
          · next st2 h2 =>
            dsimp only at hA
            injection hA with hA
            obtain ⟨c1, c2, c3⟩ := crossLoop_same h1 (by
              intro p hp
              rw [i3] at hp
              exact (i4 p (by simpa using hp)).2)
            obtain ⟨⟨mnew, m0, -, m0'⟩, -, m1, -, -⟩ := mutLoop_ok (P := fun _ _ => True) (L := 0) h2
            obtain ⟨n0, n1, ⟨nnew, n2, n3⟩, -⟩ := new_gens (x0 := x0) (n := n / 20) hg (st := st2)
            obtain ⟨-, s1, -⟩ := score_evals (e := e) (newLoop e (n / 20) st2).pop (newLoop e (n / 20) st2)
            have g0 : mutLoop e ⌊rateMut * n⌋.toNat st1' = .ok st2 := h2
            have g2 := (mut_gens (x0 := x0) hg h2).1
            rw [c3, i1, Nat.zero_add] at g2
            have hev : stA.evals.map (·.2) = (scoreLoop e (newLoop e (n / 20) st2).pop (newLoop e (n / 20) st2)).1.evals.map (·.2) := by rw [← hA]
            have none_some : ∀ l : List (Option K × List K), (∀ p ∈ l, p.1 ≠ none) → l.filter (fun p => p.1.isNone) = [] := by
              intro l hl
              rw [List.filter_eq_nil_iff]
              intro p hp
              have := hl p hp
              cases hq : p.1 <;> simp_all
            have all_none : ∀ l : List (Option K × List K), (∀ p ∈ l, p.1 = none) → l.filter (fun p => p.1.isNone) = l := by
              intro l hl
              rw [List.filter_eq_self]
              intro p hp
              simp [hl p hp]
            refine ⟨mnew.map (·.2) ++ more, ?_⟩
            rw [hmore, hev, s1, n1, m1, c2, i2, n2, m0, c1, i3, g2]
            simp only [List.map_nil, List.nil_append, List.filter_append]
            rw [none_some new fun p hp => (i4 p hp).1, none_some nnew n3, all_none mnew m0', all_none (List.replicate _ _) (fun p hp => by rw [(List.mem_replicate.1 hp).2])]
            simp [List.append_assoc]
    · cases h

/-- Thirty individuals and three tenths of crossovers as in `GA` (`parameter_optimization.py:248-251`). -/
example {e : GaEnv ℚ} {x0 : List ℚ} (hg : ∀ k, (e.gen k).length = x0.length) {x : List ℚ} {s : ℚ} {st : GaSt ℚ} (h : parametersGA e x0 40 30 (9 / 10) (30 / 100) = .ok (x, s, st)) (i : Nat) :
    {v | ∃ y ∈ st.evals.map (·.2), y[i]? = some v}.ncard ≤ 1121 ∧ ∃ rest, st.evals.map (·.2) = List.replicate 30 x0 ++ [e.gen 27] ++ List.replicate 18 x0 ++ rest := by
  have f1 : ⌊(9 / 10 : ℚ) * (30 : Nat)⌋.toNat = 27 := by norm_num; rfl
  have f2 : ⌊(30 / 100 : ℚ) * (30 : Nat)⌋.toNat = 9 := by norm_num; rfl
  have h1 := C133_few hg h i
  have h2 := C133_copies hg (by norm_num) h
  rw [f1] at h1 h2
  rw [f2] at h2
  exact ⟨h1, h2⟩

/-- A run meeting the hypotheses. -/
example : (∀ k, (envDemo.gen k).length = [(0 : ℚ), 0, 0].length) ∧ ∃ r, parametersGA envDemo [0, 0, 0] 3 4 (9 / 10) (1 / 2) = .ok r :=
  ⟨fun _ => rfl, C35_total (e := envDemo) [0, 0, 0] 3 (n := 4) (9 / 10) (1 / 2) (by norm_num) (fun _ => by simp [envDemo])⟩

end

end Verif
