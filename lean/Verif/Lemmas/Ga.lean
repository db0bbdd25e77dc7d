import Verif.Spec.Ga
/-! # Lemmas on the parameter genetic algorithm -/

namespace Verif
variable {K : Type}

/-! ### what the loops add -/

/-- A member that fits, whether scored or not. -/
def AllFit (P : Nat → K → Prop) (n : Nat) (pop : List (Option K × List K)) : Prop := ∀ p ∈ pop, Fits P n p.2

theorem single_length (raw : Nat) (p1 p2 : List K) (h : p1.length = p2.length) :
    (crossoverSingle raw p1 p2).1.length = p1.length ∧ (crossoverSingle raw p1 p2).2.length = p1.length := by
  unfold crossoverSingle
  split
  · exact ⟨rfl, h.symm⟩
  · next hl =>
    have := Nat.mod_lt raw (show 0 < p1.length - 1 by omega)
    constructor <;> simp <;> omega

theorem single_at (raw : Nat) (p1 p2 : List K) (h : p1.length = p2.length) (i : Nat) :
    ((crossoverSingle raw p1 p2).1[i]? = p1[i]? ∧ (crossoverSingle raw p1 p2).2[i]? = p2[i]?) ∨
    ((crossoverSingle raw p1 p2).1[i]? = p2[i]? ∧ (crossoverSingle raw p1 p2).2[i]? = p1[i]?) := by
  unfold crossoverSingle
  split
  · exact .inl ⟨rfl, rfl⟩
  · next hl =>
    have hc := Nat.mod_lt raw (show 0 < p1.length - 1 by omega)
    dsimp only
    have hc' : 1 + raw % (p1.length - 1) ≤ p1.length := by omega
    generalize 1 + raw % (p1.length - 1) = c at *
    by_cases hi : i < c
    · left
      rw [List.getElem?_append_left (by simp; omega), List.getElem?_append_left (by simp; omega),
        List.getElem?_take_of_lt hi, List.getElem?_take_of_lt hi]
      exact ⟨rfl, rfl⟩
    · right
      rw [List.getElem?_append_right (by simp; omega), List.getElem?_append_right (by simp; omega),
        List.getElem?_drop, List.getElem?_drop, List.length_take, List.length_take]
      have e1 : c + (i - min c p1.length) = i := by omega
      have e2 : c + (i - min c p2.length) = i := by omega
      rw [e1, e2]
      exact ⟨rfl, rfl⟩

theorem single_fits {P : Nat → K → Prop} {n : Nat} {raw : Nat} {p1 p2 : List K} (h1 : Fits P n p1) (h2 : Fits P n p2) :
    Fits P n (crossoverSingle raw p1 p2).1 ∧ Fits P n (crossoverSingle raw p1 p2).2 := by
  have hl : p1.length = p2.length := h1.1.trans h2.1.symm
  obtain ⟨l1, l2⟩ := single_length raw p1 p2 hl
  refine ⟨⟨l1.trans h1.1, fun i x hx => ?_⟩, ⟨l2.trans h1.1, fun i x hx => ?_⟩⟩
  · rcases single_at raw p1 p2 hl i with ⟨a, b⟩ | ⟨a, b⟩
    · exact h1.2 i x (a ▸ hx)
    · exact h2.2 i x (a ▸ hx)
  · rcases single_at raw p1 p2 hl i with ⟨a, b⟩ | ⟨a, b⟩
    · exact h2.2 i x (b ▸ hx)
    · exact h1.2 i x (b ▸ hx)

theorem mixFrom_at (inds : List Nat) : ∀ (k : Nat) (p m : List K),
    (mixFrom inds k p m).length = min p.length m.length ∧
    ∀ (i : Nat), i < min p.length m.length → (mixFrom inds k p m)[i]? = if k + i ∈ inds then m[i]? else p[i]?
  | _, [], m => by simp [mixFrom]
  | _, p :: ps, [] => by simp [mixFrom]
  | k, p :: ps, m :: ms => by
    obtain ⟨h1, h2⟩ := mixFrom_at inds (k + 1) ps ms
    rw [mixFrom]
    refine ⟨by simp [h1], ?_⟩
    intro i hi
    cases i with
    | zero => simp only [List.getElem?_cons_zero, Nat.add_zero]; split <;> rfl
    | succ i =>
      simp only [List.getElem?_cons_succ]
      rw [h2 i (by simp only [List.length_cons] at hi; omega)]
      have : k + (i + 1) = k + 1 + i := by omega
      rw [this]

theorem mutate_fits {P : Nat → K → Prop} {n : Nat} {inds : List Nat} {p m c : List K} (hp : Fits P n p) (hm : Fits P n m)
    (h : mutate inds p m = .ok c) : Fits P n c := by
  unfold mutate at h
  split at h
  · cases h
  · injection h with h
    subst h
    obtain ⟨h1, h2⟩ := mixFrom_at inds 0 p m
    have hn : (mixFrom inds 0 p m).length = n := by rw [h1, hp.1, hm.1]; simp
    refine ⟨hn, fun i x hx => ?_⟩
    have hi : i < (mixFrom inds 0 p m).length := (List.getElem?_eq_some_iff.1 hx).1
    rw [h1] at hi
    rw [h2 i hi] at hx
    split at hx
    · exact hm.2 i x hx
    · exact hp.2 i x hx

/-- What the evaluation log and the population owe each other while scores are missing. -/
structure GaInv (e : GaEnv K) (st : GaSt K) : Prop where
  evals : st.evals.length = st.calls
  honest : ∀ (i : Nat) (s : K) (x : List K), st.evals[i]? = some (s, x) → s = e.fn i x
  pop : ∀ s x, (some s, x) ∈ st.pop → (s, x) ∈ st.evals

/-- `st'` has the population of `st` and more behind it. -/
def GaExt (st st' : GaSt K) (k : Nat) : Prop :=
  (∃ new, st'.pop = st.pop ++ new ∧ new.length = k)

theorem eval_inv {e : GaEnv K} {st : GaSt K} (I : GaInv e st) (x : List K) (P : List (Option K × List K))
    (hP : ∀ s y, (some s, y) ∈ P → (s, y) ∈ (st.eval e x).1.evals) : GaInv e { (st.eval e x).1 with pop := P } := by
  refine ⟨?_, ?_, hP⟩
  · simp [GaSt.eval, I.evals]
  · intro i s y hi
    simp only [GaSt.eval] at hi
    by_cases hlt : i < st.evals.length
    · rw [List.getElem?_append_left hlt] at hi
      exact I.honest i s y hi
    · rw [List.getElem?_append_right (by omega)] at hi
      have : i - st.evals.length = 0 := by
        have := (List.getElem?_eq_some_iff.1 hi).1
        simp at this
        omega
      rw [this] at hi
      simp only [List.getElem?_cons_zero, Option.some.injEq, Prod.mk.injEq] at hi
      obtain ⟨rfl, rfl⟩ := hi
      have hic : i = st.calls := by rw [← I.evals]; omega
      rw [hic]

theorem sampleTwo_mem {e : GaEnv K} {d : Nat} {pop : List (Option K × List K)} {a b : List K}
    (h : sampleTwo e d pop = .ok (a, b)) : (∃ p ∈ pop, p.2 = a) ∧ ∃ q ∈ pop, q.2 = b := by
  unfold sampleTwo at h
  dsimp only at h
  split at h
  · cases h
  · split at h
    · next p q hp hq =>
      simp only [Except.ok.injEq, Prod.mk.injEq] at h
      exact ⟨⟨p, List.mem_of_getElem? hp, h.1⟩, q, List.mem_of_getElem? hq, h.2⟩
    · cases h

theorem crossLoop_ok {e : GaEnv K} {P : Nat → K → Prop} {L n : Nat} {st st' : GaSt K} (h : crossLoop e n st = .ok st') :
    (∃ new, st'.pop = st.pop ++ new ∧ new.length = 2 * n ∧ ∀ p ∈ new, p.1 = none) ∧ st'.calls = st.calls ∧ st'.evals = st.evals ∧
      st'.log = st.log ∧ (AllFit P L st.pop → AllFit P L st'.pop) := by
  induction n generalizing st with
  | zero =>
    injection h with h
    subst h
    exact ⟨⟨[], by simp⟩, rfl, rfl, rfl, id⟩
  | succ n ih =>
    rw [crossLoop] at h
    split at h
    · cases h
    · next p1 p2 hs =>
      obtain ⟨⟨a, ha, rfl⟩, b, hb, rfl⟩ := sampleTwo_mem hs
      obtain ⟨⟨new, h1, h2, h3⟩, h4, h5, h6, h7⟩ := ih h
      refine ⟨⟨_, by rw [h1]; exact List.append_assoc _ _ _, by simp [h2]; omega, ?_⟩, h4, h5, h6, ?_⟩
      · intro p hp
        rcases List.mem_append.1 hp with hp | hp
        · simp only [List.mem_cons, List.not_mem_nil, or_false] at hp
          rcases hp with rfl | rfl <;> rfl
        · exact h3 p hp
      · intro hf
        apply h7
        intro p hp
        have hc := single_fits (raw := e.raw (st.draws + 2)) (hf a ha) (hf b hb)
        rcases List.mem_append.1 hp with hp | hp
        · exact hf p hp
        · simp only [List.mem_cons, List.not_mem_nil, or_false] at hp
          rcases hp with rfl | rfl
          · exact hc.1
          · exact hc.2

theorem mutLoop_ok {e : GaEnv K} {P : Nat → K → Prop} {L n : Nat} {st st' : GaSt K} (h : mutLoop e n st = .ok st') :
    (∃ new, st'.pop = st.pop ++ new ∧ new.length = n ∧ ∀ p ∈ new, p.1 = none) ∧ st'.calls = st.calls ∧ st'.evals = st.evals ∧
      st'.log = st.log ∧ ((∀ k, Fits P L (e.gen k)) → AllFit P L st.pop → AllFit P L st'.pop) := by
  induction n generalizing st with
  | zero =>
    injection h with h
    subst h
    exact ⟨⟨[], by simp⟩, rfl, rfl, rfl, fun _ => id⟩
  | succ n ih =>
    rw [mutLoop] at h
    split at h
    · cases h
    · split at h
      · cases h
      · next p hp =>
        dsimp only at h
        split at h
        · cases h
        · next c hc =>
          obtain ⟨⟨new, h1, h2, h3⟩, h4, h5, h6, h7⟩ := ih h
          refine ⟨⟨_, by rw [h1]; exact List.append_assoc _ _ _, by simp [h2], ?_⟩, h4, h5, h6, ?_⟩
          · intro q hq
            rcases List.mem_append.1 hq with hq | hq
            · rw [List.mem_singleton.1 hq]
            · exact h3 q hq
          · intro hg hf
            apply h7 hg
            intro q hq
            rcases List.mem_append.1 hq with hq | hq
            · exact hf q hq
            · rw [List.mem_singleton.1 hq]
              exact mutate_fits (hf p (List.mem_of_getElem? hp)) (hg _) hc

theorem newLoop_ok {e : GaEnv K} {P : Nat → K → Prop} {L n : Nat} {st : GaSt K} (I : GaInv e st) :
    GaInv e (newLoop e n st) ∧ (∃ new, (newLoop e n st).pop = st.pop ++ new ∧ new.length = n ∧ ∀ p ∈ new, p.1 ≠ none) ∧
      (newLoop e n st).calls = st.calls + n ∧
      (∃ more, (newLoop e n st).evals = st.evals ++ more ∧ ∀ q ∈ more, (some q.1, q.2) ∈ (newLoop e n st).pop) ∧
      (newLoop e n st).log = st.log ∧ ((∀ k, Fits P L (e.gen k)) → AllFit P L st.pop → AllFit P L (newLoop e n st).pop) := by
  induction n generalizing st with
  | zero => exact ⟨I, ⟨[], by simp [newLoop]⟩, rfl, ⟨[], by simp [newLoop]⟩, rfl, fun _ => id⟩
  | succ n ih =>
    have I' : GaInv e ⟨st.pop ++ [(some (e.fn st.calls (e.gen st.gens)), e.gen st.gens)], st.calls + 1, st.gens + 1, st.draws,
        st.evals ++ [(e.fn st.calls (e.gen st.gens), e.gen st.gens)], st.log⟩ := by
      have := eval_inv I (e.gen st.gens) (st.pop ++ [(some (st.eval e (e.gen st.gens)).2, e.gen st.gens)]) (by
        intro s y hy
        rcases List.mem_append.1 hy with hy | hy
        · exact List.mem_append_left _ (I.pop s y hy)
        · simp only [List.mem_singleton, Prod.mk.injEq, Option.some.injEq] at hy
          obtain ⟨rfl, rfl⟩ := hy
          exact List.mem_append_right _ (by simp [GaSt.eval]))
      exact ⟨this.evals, this.honest, this.pop⟩
    have hstep : newLoop e (n + 1) st = newLoop e n ⟨st.pop ++ [(some (e.fn st.calls (e.gen st.gens)), e.gen st.gens)], st.calls + 1,
        st.gens + 1, st.draws, st.evals ++ [(e.fn st.calls (e.gen st.gens), e.gen st.gens)], st.log⟩ := rfl
    obtain ⟨h1, ⟨new, h2, h3, h3'⟩, h4, ⟨more, h5, h6⟩, h7, h8⟩ := ih I'
    rw [hstep]
    refine ⟨h1, ⟨_, by rw [h2]; exact List.append_assoc _ _ _, by simp [h3], ?_⟩, ?_, ⟨_, by rw [h5]; exact List.append_assoc _ _ _, ?_⟩,
      h7, ?_⟩
    · intro p hp
      rcases List.mem_append.1 hp with hp | hp
      · rw [List.mem_singleton.1 hp]
        simp
      · exact h3' p hp
    · rw [h4]
      dsimp only
      omega
    · intro q hq
      rcases List.mem_append.1 hq with hq | hq
      · rw [h2]
        rw [List.mem_singleton.1 hq]
        exact List.mem_append_left _ (List.mem_append_right _ (by simp))
      · exact h6 q hq
    · intro hg hf
      apply h8 hg
      intro q hq
      rcases List.mem_append.1 hq with hq | hq
      · exact hf q hq
      · rw [List.mem_singleton.1 hq]
        exact hg _

theorem scoreLoop_ok {e : GaEnv K} {pop : List (Option K × List K)} {st : GaSt K} (I : GaInv e st)
    (hp : ∀ s x, (some s, x) ∈ pop → (s, x) ∈ st.evals) :
    (scoreLoop e pop st).1.evals.length = (scoreLoop e pop st).1.calls ∧
    (∀ (i : Nat) (s : K) (x : List K), (scoreLoop e pop st).1.evals[i]? = some (s, x) → s = e.fn i x) ∧
    (scoreLoop e pop st).1.calls = st.calls + pop.countP (fun p => p.1.isNone) ∧
    (scoreLoop e pop st).1.log = st.log ∧
    (scoreLoop e pop st).2.map (·.2) = pop.map (·.2) ∧
    (∀ q ∈ (scoreLoop e pop st).2, q ∈ (scoreLoop e pop st).1.evals) ∧
    (∀ s x, (some s, x) ∈ pop → (s, x) ∈ (scoreLoop e pop st).2) ∧
    (∃ more, (scoreLoop e pop st).1.evals = st.evals ++ more ∧ ∀ q ∈ more, q ∈ (scoreLoop e pop st).2) := by
  induction pop generalizing st with
  | nil => exact ⟨I.evals, I.honest, rfl, rfl, rfl, by simp [scoreLoop], by simp, ⟨[], by simp [scoreLoop]⟩⟩
  | cons p pop ih =>
    obtain ⟨o, x⟩ := p
    cases o with
    | some s =>
      obtain ⟨h1, h2, h3, h4, h5, h6, h7, more, h8, h9⟩ := ih I (fun s x h => hp s x (List.mem_cons_of_mem _ h))
      rw [scoreLoop]
      refine ⟨h1, h2, by rw [h3]; simp, h4, by simp [h5], ?_, ?_, more, h8, fun q hq => List.mem_cons_of_mem _ (h9 q hq)⟩
      · intro q hq
        rcases List.mem_cons.1 hq with rfl | hq
        · dsimp only
          rw [h8]
          exact List.mem_append_left _ (hp s x List.mem_cons_self)
        · exact h6 q hq
      · intro s' x' h
        rcases List.mem_cons.1 h with h | h
        · simp only [Prod.mk.injEq, Option.some.injEq] at h
          obtain ⟨rfl, rfl⟩ := h
          exact List.mem_cons_self
        · exact List.mem_cons_of_mem _ (h7 s' x' h)
    | none =>
      have I' : GaInv e (st.eval e x).1 := by
        have := eval_inv I x st.pop (fun s y h => List.mem_append_left _ (I.pop s y h))
        exact this
      obtain ⟨h1, h2, h3, h4, h5, h6, h7, more, h8, h9⟩ := ih I' (fun s y h =>
        List.mem_append_left _ (hp s y (List.mem_cons_of_mem _ h)))
      rw [scoreLoop]
      refine ⟨h1, h2, ?_, h4, by simp [h5], ?_, ?_, (st.eval e x).2 |> fun s => (s, x) :: more, ?_, ?_⟩
      · dsimp only
        rw [h3]
        change st.calls + 1 + _ = _
        simp
        omega
      · intro q hq
        rcases List.mem_cons.1 hq with rfl | hq
        · dsimp only
          rw [h8]
          exact List.mem_append_left _ (List.mem_append_right _ (by simp [GaSt.eval]))
        · exact h6 q hq
      · intro s' x' h
        rcases List.mem_cons.1 h with h | h
        · cases h
        · exact List.mem_cons_of_mem _ (h7 s' x' h)
      · dsimp only
        rw [h8]
        simp [GaSt.eval]
      · intro q hq
        rcases List.mem_cons.1 hq with rfl | hq
        · exact List.mem_cons_self
        · exact List.mem_cons_of_mem _ (h9 q hq)

/-! ### sorting -/

section
variable [LinearOrder K]

theorem listLe_total : ∀ a b : List K, listLe a b = true ∨ listLe b a = true
  | [], _ => .inl (by cases ‹List K› <;> rfl)
  | _ :: _, [] => .inr rfl
  | a :: as, b :: bs => by
    rw [listLe, listLe]
    by_cases h : a = b
    · simp only [h, if_true]
      exact listLe_total as bs
    · simp only [h, Ne.symm h, if_false, decide_eq_true_eq]
      exact lt_or_gt_of_ne h

theorem listLe_trans : ∀ a b c : List K, listLe a b = true → listLe b c = true → listLe a c = true
  | [], _, c, _, _ => by cases c <;> rfl
  | _ :: _, [], _, h, _ => by cases h
  | _ :: _, _ :: _, [], _, h => by cases h
  | a :: as, b :: bs, c :: cs, h1, h2 => by
    rw [listLe] at h1 h2 ⊢
    by_cases hab : a = b
    · subst hab
      by_cases hbc : a = c
      · simp only [hbc, if_true] at h1 h2 ⊢
        exact listLe_trans as bs cs h1 h2
      · simp only [hbc, if_false] at h2 ⊢
        exact h2
    · by_cases hbc : b = c
      · subst hbc
        simp only [hab, if_false] at h1 ⊢
        exact h1
      · simp only [hab, hbc, if_false, decide_eq_true_eq] at h1 h2
        have := lt_trans h1 h2
        rw [if_neg (ne_of_lt this)]
        exact decide_eq_true this

theorem sort_tuples (l : List (K × List K)) :
    (l.insertionSort (fun a b => tupleLe a b = true)).Pairwise (fun a b => a.1 ≤ b.1) := by
  have : Std.Total (fun a b : K × List K => tupleLe a b = true) := ⟨fun a b => by
    unfold tupleLe
    by_cases h : a.1 = b.1
    · simp only [h, if_true]
      exact listLe_total _ _
    · simp only [h, Ne.symm h, if_false, decide_eq_true_eq]
      exact lt_or_gt_of_ne h⟩
  have : IsTrans (K × List K) (fun a b => tupleLe a b = true) := ⟨fun a b c h1 h2 => by
    unfold tupleLe at *
    by_cases hab : a.1 = b.1
    · rw [hab] at h1 ⊢
      by_cases hbc : b.1 = c.1
      · simp only [hbc, if_true] at h1 h2 ⊢
        exact listLe_trans _ _ _ h1 h2
      · simp only [hbc, if_false] at h2 ⊢
        exact h2
    · by_cases hbc : b.1 = c.1
      · rw [← hbc]
        simp only [hab, if_false] at h1 ⊢
        exact h1
      · simp only [hab, hbc, if_false, decide_eq_true_eq] at h1 h2
        have := lt_trans h1 h2
        rw [if_neg (ne_of_lt this)]
        exact decide_eq_true this⟩
  refine (List.pairwise_insertionSort (fun a b => tupleLe a b = true) l).imp ?_
  intro a b h
  unfold tupleLe at h
  split at h
  · next he => exact le_of_eq he
  · exact le_of_lt (of_decide_eq_true h)

theorem survive_eq {n : Nat} {pop : List (K × List K)} (h : n ≤ pop.length) :
    survive n pop = (pop.insertionSort (fun a b => tupleLe a b = true)).take n := by
  unfold survive
  have hl : (pop.insertionSort (fun a b => tupleLe a b = true)).length = pop.length := List.length_insertionSort _ _
  dsimp only
  rw [hl]
  split
  · rw [List.take_of_length_le]
    omega
  · congr 1
    omega

theorem survive_ok {n : Nat} {pop : List (K × List K)} (h : n ≤ pop.length) :
    (survive n pop).length = n ∧ (survive n pop).Pairwise (fun a b => a.1 ≤ b.1) ∧ (∀ p ∈ survive n pop, p ∈ pop) ∧
      (0 < n → ∀ q ∈ pop, ∃ p ∈ survive n pop, p.1 ≤ q.1) := by
  rw [survive_eq h]
  have hperm := List.perm_insertionSort (fun a b : K × List K => tupleLe a b = true) pop
  have hsort := sort_tuples pop
  generalize pop.insertionSort (fun a b => tupleLe a b = true) = l at *
  refine ⟨by rw [List.length_take, hperm.length_eq]; omega, hsort.sublist (List.take_sublist _ _),
    fun p hp => hperm.mem_iff.1 (List.mem_of_mem_take hp), ?_⟩
  intro hn q hq
  have hq' := hperm.mem_iff.2 hq
  cases l with
  | nil => simp at hq'
  | cons a l =>
    refine ⟨a, ?_, ?_⟩
    · cases n with
      | zero => omega
      | succ n => simp
    · rcases List.mem_cons.1 hq' with rfl | hm
      · exact le_refl _
      · exact (List.pairwise_cons.1 hsort).1 q hm

/-- What holds between generations. -/
structure GaReady (e : GaEnv K) (n : Nat) (st : GaSt K) (kept : List (K × List K)) : Prop where
  inv : GaInv e st
  pop : st.pop = kept.map (fun p => (some p.1, p.2))
  len : kept.length = n
  cover : 0 < n → ∀ q ∈ st.evals, ∃ p ∈ kept, p.1 ≤ q.1

omit [LinearOrder K] in
theorem countP_none (l : List (Option K × List K)) (h : ∀ p ∈ l, p.1 = none) : l.countP (fun p => p.1.isNone) = l.length :=
  List.countP_eq_length.2 (fun p hp => by simp [h p hp])

omit [LinearOrder K] in
theorem countP_some (l : List (Option K × List K)) (h : ∀ p ∈ l, p.1 ≠ none) : l.countP (fun p => p.1.isNone) = 0 := by
  rw [List.countP_eq_zero]
  intro p hp
  cases hs : p.1 with
  | none => exact absurd hs (h p hp)
  | some x => simp

theorem gaGeneration_ok {e : GaEnv K} {n crx mu : Nat} {st st' : GaSt K} {kept : List (K × List K)} (R : GaReady e n st kept)
    (h : gaGeneration e n crx mu st = .ok st') :
    ∃ kept', GaReady e n st' kept' ∧ kept'.Pairwise (fun a b => a.1 ≤ b.1) ∧ st'.log = st.log ++ kept'.map (·.1) ∧
      st'.calls = st.calls + (2 * crx + mu + n / 20) ∧ (∃ more, st'.evals = st.evals ++ more) ∧
      (∀ p ∈ kept, 0 < n → ∃ p' ∈ kept', p'.1 ≤ p.1) ∧
      ∀ (P : Nat → K → Prop) L, (∀ k, Fits P L (e.gen k)) → AllFit P L st.pop → AllFit P L st'.pop := by
  unfold gaGeneration at h
  split at h
  · cases h
  · next st1 h1 =>
    split at h
    · cases h
    · next st2 h2 =>
      obtain ⟨⟨new1, a1, a2, a3⟩, a4, a5, a6, _⟩ := crossLoop_ok (P := fun _ _ => True) (L := 0) h1
      obtain ⟨⟨new2, b1, b2, b3⟩, b4, b5, b6, _⟩ := mutLoop_ok (P := fun _ _ => True) (L := 0) h2
      have I2 : GaInv e st2 := by
        refine ⟨by rw [b5, a5, b4, a4]; exact R.inv.evals, by rw [b5, a5]; exact R.inv.honest, ?_⟩
        intro s x hs
        rw [b5, a5]
        rw [b1, a1] at hs
        rcases List.mem_append.1 hs with hs | hs
        · rcases List.mem_append.1 hs with hs | hs
          · exact R.inv.pop s x hs
          · have := a3 _ hs
            cases this
        · have := b3 _ hs
          cases this
      obtain ⟨I3, ⟨new3, c1, c2, c3⟩, c4, ⟨more3, c5, c5'⟩, c6, _⟩ := newLoop_ok (P := fun _ _ => True) (L := 0) (n := n / 20) I2
      obtain ⟨d1, d2, d3, d4, d5, d6, d7, more4, d8, d9⟩ := scoreLoop_ok (pop := (newLoop e (n / 20) st2).pop) I3 I3.pop
      simp only [Except.ok.injEq] at h
      subst h
      have hlen : (scoreLoop e (newLoop e (n / 20) st2).pop (newLoop e (n / 20) st2)).2.length =
          n + 2 * crx + mu + n / 20 := by
        have := congrArg List.length d5
        rw [List.length_map, List.length_map] at this
        rw [this, c1, b1, a1, R.pop]
        simp only [List.length_append, List.length_map, R.len, a2, b2, c2]
      obtain ⟨s1, s2, s3, s4⟩ := survive_ok (n := n)
        (pop := (scoreLoop e (newLoop e (n / 20) st2).pop (newLoop e (n / 20) st2)).2) (by omega)
      refine ⟨survive n (scoreLoop e (newLoop e (n / 20) st2).pop (newLoop e (n / 20) st2)).2, ⟨⟨d1, d2, ?_⟩, rfl, s1, ?_⟩, s2, ?_, ?_, ?_, ?_, ?_⟩
      · intro s x hs
        obtain ⟨q, hq, he⟩ := List.mem_map.1 hs
        simp only [Prod.mk.injEq, Option.some.injEq] at he
        obtain ⟨rfl, rfl⟩ := he
        exact d6 q (s3 q hq)
      · intro hn q hq
        dsimp only at hq
        rw [d8, c5, b5, a5] at hq
        rcases List.mem_append.1 hq with hq | hq
        · rcases List.mem_append.1 hq with hq | hq
          · obtain ⟨p, hp, hle⟩ := R.cover hn q hq
            have : (some p.1, p.2) ∈ (newLoop e (n / 20) st2).pop := by
              rw [c1, b1, a1, R.pop]
              exact List.mem_append_left _ (List.mem_append_left _ (List.mem_append_left _ (List.mem_map.2 ⟨p, hp, rfl⟩)))
            obtain ⟨p', hp', hle'⟩ := s4 hn _ (d7 _ _ this)
            exact ⟨p', hp', le_trans hle' hle⟩
          · exact s4 hn _ (d7 _ _ (c5' q hq))
        · exact s4 hn _ (d9 q hq)
      · dsimp only
        rw [d4, c6, b6, a6]
      · dsimp only
        rw [d3, c4, b4, a4, c1, b1, a1, R.pop, List.countP_append, List.countP_append, List.countP_append,
          countP_none new1 a3, countP_none new2 b3, countP_some new3 c3, countP_some (kept.map (fun p => (some p.1, p.2))) (by
            intro p hp
            obtain ⟨q, _, rfl⟩ := List.mem_map.1 hp
            simp), a2, b2]
        omega
      · dsimp only
        rw [d8, c5, b5, a5]
        exact ⟨_, List.append_assoc _ _ _⟩
      · intro p hp hn
        have : (some p.1, p.2) ∈ (newLoop e (n / 20) st2).pop := by
          rw [c1, b1, a1, R.pop]
          exact List.mem_append_left _ (List.mem_append_left _ (List.mem_append_left _ (List.mem_map.2 ⟨p, hp, rfl⟩)))
        exact s4 hn _ (d7 _ _ this)
      · intro P L hg hf
        have f1 := (crossLoop_ok (P := P) (L := L) h1).2.2.2.2 hf
        have f2 := (mutLoop_ok (P := P) (L := L) h2).2.2.2.2 hg f1
        have f3 := (newLoop_ok (P := P) (L := L) (n := n / 20) I2).2.2.2.2.2 hg f2
        intro p hp
        obtain ⟨q, hq, rfl⟩ := List.mem_map.1 hp
        have hq2 : q.2 ∈ (newLoop e (n / 20) st2).pop.map (·.2) := by
          rw [← d5]
          exact List.mem_map.2 ⟨q, s3 q hq, rfl⟩
        obtain ⟨r, hr, he⟩ := List.mem_map.1 hq2
        dsimp only
        rw [← he]
        exact f3 r hr

omit [LinearOrder K] in
theorem gaInit_ok {e : GaEnv K} {x0 : List K} {n m : Nat} {st : GaSt K} {kept : List (K × List K)} (I : GaInv e st)
    (hp : st.pop = kept.map (fun p => (some p.1, p.2))) (hm : kept.length = m) (he : st.evals = kept) (hx : ∀ p ∈ kept, p.2 = x0) :
    ∃ kept', GaInv e (gaInit e x0 n st) ∧ (gaInit e x0 n st).pop = kept'.map (fun p => (some p.1, p.2)) ∧ kept'.length = m + n ∧
      (gaInit e x0 n st).evals = kept' ∧ (∀ p ∈ kept', p.2 = x0) ∧ (gaInit e x0 n st).log = st.log ∧
      (gaInit e x0 n st).calls = st.calls + n := by
  induction n generalizing st kept m with
  | zero => exact ⟨kept, I, hp, hm, he, hx, rfl, rfl⟩
  | succ n ih =>
    have hstep : gaInit e x0 (n + 1) st = gaInit e x0 n { (st.eval e x0).1 with pop := st.pop ++ [(some (e.fn st.calls x0), x0)] } := rfl
    have I' := eval_inv I x0 (st.pop ++ [(some (e.fn st.calls x0), x0)]) (by
      intro s y hy
      rcases List.mem_append.1 hy with hy | hy
      · exact List.mem_append_left _ (I.pop s y hy)
      · simp only [List.mem_singleton, Prod.mk.injEq, Option.some.injEq] at hy
        obtain ⟨rfl, rfl⟩ := hy
        exact List.mem_append_right _ (by simp))
    obtain ⟨kept', k1, k2, k3, k4, k5, k6, k7⟩ := ih (m := m + 1) (kept := kept ++ [(e.fn st.calls x0, x0)]) I' (by simp [hp]) (by simp [hm])
      (by simp [GaSt.eval, he]) (by
        intro p hp
        rcases List.mem_append.1 hp with hp | hp
        · exact hx p hp
        · rw [List.mem_singleton.1 hp])
    rw [hstep]
    refine ⟨kept', k1, k2, by omega, k4, k5, k6, ?_⟩
    rw [k7]
    change st.calls + 1 + n = _
    omega

/-- All generations: `hist` are the survivors of each, in order. -/
theorem gaGenerations_ok {e : GaEnv K} {n crx mu g : Nat} {st st' : GaSt K} {kept : List (K × List K)} (R : GaReady e n st kept)
    (h : gaGenerations e n crx mu g st = .ok st') :
    ∃ hist : List (List (K × List K)), hist.length = g ∧ GaReady e n st' ((hist.getLast?).getD kept) ∧
      (∀ l ∈ hist, l.length = n ∧ l.Pairwise (fun a b => a.1 ≤ b.1)) ∧ st'.log = st.log ++ (hist.map (·.map (·.1))).flatten ∧
      st'.calls = st.calls + g * (2 * crx + mu + n / 20) ∧ (∃ more, st'.evals = st.evals ++ more) ∧
      (0 < n → (kept :: hist).Pairwise (fun a b => ∀ p ∈ a, ∃ q ∈ b, q.1 ≤ p.1)) ∧
      ∀ (P : Nat → K → Prop) L, (∀ k, Fits P L (e.gen k)) → AllFit P L st.pop → AllFit P L st'.pop := by
  induction g generalizing st kept with
  | zero =>
    injection h with h
    subst h
    exact ⟨[], rfl, R, by simp, by simp, by simp, ⟨[], by simp⟩, by simp, fun _ _ _ => id⟩
  | succ g ih =>
    rw [gaGenerations] at h
    split at h
    · cases h
    · next st1 h1 =>
      obtain ⟨kept', R', a1, a2, a3, ⟨m1, a4⟩, a5, a6⟩ := gaGeneration_ok R h1
      obtain ⟨hist, b1, b2, b3, b4, b5, ⟨m2, b6⟩, b7, b8⟩ := ih R' h
      refine ⟨kept' :: hist, by simp [b1], ?_, ?_, ?_, ?_, ⟨m1 ++ m2, by rw [b6, a4, List.append_assoc]⟩, ?_,
        fun P L hg hf => b8 P L hg (a6 P L hg hf)⟩
      · cases hist with
        | nil => exact b2
        | cons x hist =>
          rw [List.getLast?_cons_cons]
          rw [List.getLast?_eq_some_getLast (by simp)] at b2 ⊢
          exact b2
      · intro l hl
        rcases List.mem_cons.1 hl with rfl | hl
        · exact ⟨R'.len, a1⟩
        · exact b3 l hl
      · rw [b4, a2]
        simp
      · rw [b5, a3, Nat.add_assoc, Nat.add_mul, Nat.one_mul, Nat.add_comm (2 * crx + mu + n / 20)]
      · intro hn
        refine List.pairwise_cons.2 ⟨?_, b7 hn⟩
        intro l hl p hp
        obtain ⟨p', hp', hle⟩ := a5 p hp hn
        rcases List.mem_cons.1 hl with rfl | hl
        · exact ⟨p', hp', hle⟩
        · obtain ⟨q, hq, hle'⟩ := (List.pairwise_cons.1 (b7 hn)).1 l hl p' hp'
          exact ⟨q, hq, le_trans hle' hle⟩

end

end Verif
