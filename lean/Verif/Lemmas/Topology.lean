import Verif.Spec.Topology
import Verif.Props.Speciation
import Verif.Props.Hof
/-!
# Lemmas on population updates and runs
-/

namespace Verif
variable {C K : Type}

/-! ### worlds -/

theorem Untouched.refl (w : Pool C) : Untouched w w := ⟨le_refl _, fun _ _ => rfl⟩

theorem Untouched.trans {a b c : Pool C} (h : Untouched a b) (h' : Untouched b c) : Untouched a c :=
  ⟨le_trans h.1 h'.1, fun i hi => by rw [h'.2 i (lt_of_lt_of_le hi h.1), h.2 i hi]⟩

theorem untouched_alloc (w : Pool C) (c : C) : Untouched w (w.alloc c) :=
  ⟨Nat.le_succ _, fun i hi => by simp [Pool.alloc, ne_of_lt hi]⟩

theorem untouched_tick (w : Pool C) : Untouched w w.tick := ⟨le_refl _, fun _ _ => rfl⟩

theorem untouched_new (w : Pool C) (c : C) : Untouched w (w.alloc c).tick :=
  (untouched_alloc w c).trans (untouched_tick _)

theorem child_ok {cfg : TopCfg C K} {w w' : Pool C} {i : Nat} (h : child cfg w i = .ok w') :
    ∃ c, cfg.ev w.calls (w.heap i) = .ok c ∧ w' = (w.alloc c).tick := by
  unfold child at h
  split at h
  · cases h
  · next c hc => exact ⟨c, hc, by injection h with h; exact h.symm⟩

theorem new_heap (w : Pool C) (c : C) : ((w.alloc c).tick).heap w.next = c := by simp [Pool.alloc, Pool.tick]

theorem new_next (w : Pool C) (c : C) : ((w.alloc c).tick).next = w.next + 1 := rfl

theorem reproduce_ok {cfg : TopCfg C K} {choose : Nat → Nat} {pop : List (Indiv K)} {n : Nat} {w w' : Pool C}
    {cs : List (Indiv K)} (ha : Alive w pop) (h : reproduce cfg choose pop n w = .ok (w', cs)) :
    Untouched w w' ∧ cs.length = n ∧ (cs.map (·.2)).Nodup ∧
      ∀ c ∈ cs, ∃ call parent, pop[choose call]? = some parent ∧ ChildOf cfg w w' call parent.2 c := by
  induction n generalizing w cs with
  | zero =>
    simp only [reproduce, Except.ok.injEq, Prod.mk.injEq] at h
    obtain ⟨rfl, rfl⟩ := h
    exact ⟨.refl _, rfl, by simp, by simp⟩
  | succ n ih =>
    rw [reproduce] at h
    split at h
    · cases h
    · next s i hp =>
      split at h
      · cases h
      · next w1 hc =>
        obtain ⟨c, hev, rfl⟩ := child_ok hc
        split at h
        · next hchk =>
          split at h
          · cases h
          · next w2 rest hr =>
            simp only [Except.ok.injEq, Prod.mk.injEq] at h
            obtain ⟨rfl, rfl⟩ := h
            have hu := untouched_new w c
            have ha' : Alive (w.alloc c).tick pop := fun p hp => lt_of_lt_of_le (ha p hp) hu.1
            obtain ⟨h1, h2, h3, h4⟩ := ih ha' hr
            have hnext : w.next < ((w.alloc c).tick).next := Nat.lt_succ_self _
            have hheap := new_heap w c
            have hlow : ∀ x ∈ rest, w.next + 1 ≤ x.2 := by
              intro x hx
              obtain ⟨_, _, _, hc⟩ := h4 x hx
              exact hc.2.1
            refine ⟨hu.trans h1, by simp [h2], ?_, ?_⟩
            · simp only [List.map_cons, List.nodup_cons]
              refine ⟨fun hm => ?_, h3⟩
              obtain ⟨x, hx, he⟩ := List.mem_map.1 hm
              have := hlow x hx
              omega
            · intro x hx
              rcases List.mem_cons.1 hx with rfl | hx
              · refine ⟨w.calls, (s, i), hp, rfl, le_refl _, lt_of_lt_of_le hnext h1.1, ?_, ?_⟩
                · dsimp only
                  rw [h1.2 _ hnext, hheap]
                  exact hev
                · dsimp only
                  rw [h1.2 _ hnext]
                  exact hchk
              · obtain ⟨call, parent, e1, e2, e3, e4, e5, e6⟩ := h4 x hx
                have hpar : parent.2 < w.next := ha parent (List.mem_of_getElem? e1)
                rw [hu.2 _ hpar] at e5
                exact ⟨call, parent, e1, e2, le_trans hu.1 e3, e4, e5, e6⟩
        · cases h

/-! ### selection -/

section
variable [LinearOrder K]

theorem bestOf_sort {A : Type} (key : A → K) (n : Nat) (pop : List A) :
    BestOf key n pop ((pop.insertionSort (fun a b => key a ≤ key b)).take n) := by
  have hp' := pairwise_sort_key key pop
  have hperm := List.perm_insertionSort (fun a b => key a ≤ key b) pop
  refine ⟨?_, hp'.sublist (List.take_sublist _ _), (pop.insertionSort (fun a b => key a ≤ key b)).drop n, ?_, ?_⟩
  · rw [List.length_take, hperm.length_eq]
  · rw [List.take_append_drop]
    exact hperm
  · have h := hp'
    rw [← List.take_append_drop n (pop.insertionSort (fun a b => key a ≤ key b))] at h
    exact (List.pairwise_append.1 h).2.2

theorem BestOf.mem {A : Type} {key : A → K} {n : Nat} {pop kept : List A} (h : BestOf key n pop kept) :
    ∀ a ∈ kept, a ∈ pop := by
  obtain ⟨_, _, d, hp, _⟩ := h
  exact fun a ha => hp.mem_iff.1 (List.mem_append_left _ ha)

omit [LinearOrder K] in
theorem scored_asInd {G : Type} (l : List (K × G)) : scored (asInd l) = .ok l := by
  induction l with
  | nil => rfl
  | cons p l ih =>
    change scored ((some p.1, p.2) :: asInd l) = _
    rw [scored, ih]

end

/-- The factor by which `S` scales the score of `g`. -/
noncomputable def factor [Field K] [LinearOrder K] (S : Spec Nat K) (decay : Option K) (g : Nat) : K :=
  scaling decay ((S.sizeOf g).getD 1)

theorem share_asInd [Field K] [LinearOrder K] {S : Spec Nat K} (decay : Option K) (l : List (K × Nat))
    (h : ∀ p ∈ l, ∃ n, S.sizeOf p.2 = some n) :
    S.share decay true (asInd l) = .ok (asInd (l.map (fun p => (p.1 * factor S decay p.2, p.2)))) := by
  induction l with
  | nil => rfl
  | cons p l ih =>
    obtain ⟨n, hn⟩ := h p List.mem_cons_self
    change S.share decay true ((some p.1, p.2) :: asInd l) = _
    rw [Spec.share, hn, ih (fun q hq => h q (List.mem_cons_of_mem _ hq))]
    simp [asInd, factor, hn]

theorem unshare_asInd [Field K] [LinearOrder K] [IsStrictOrderedRing K] {S : Spec Nat K} (decay : Option K) (l : List (K × Nat))
    (h : ∀ p ∈ l, ∃ n, S.sizeOf p.2 = some n ∧ 0 < n) :
    S.unshare decay true (asInd (l.map (fun p => (p.1 * factor S decay p.2, p.2)))) = .ok (asInd l) := by
  induction l with
  | nil => rfl
  | cons p l ih =>
    obtain ⟨n, hn, hpos⟩ := h p List.mem_cons_self
    change S.unshare decay true ((some (p.1 * factor S decay p.2), p.2) :: asInd (l.map (fun p => (p.1 * factor S decay p.2, p.2)))) = _
    rw [Spec.unshare, hn, ih (fun q hq => h q (List.mem_cons_of_mem _ hq))]
    have hp : scaling decay n ≠ 0 := ne_of_gt (lt_of_lt_of_le one_pos (scaling_ge decay hpos))
    simp [asInd, factor, hn, mul_div_cancel_right₀ _ hp]

theorem selectShared_eq [Field K] [LinearOrder K] [IsStrictOrderedRing K] {S : Spec Nat K} (decay : Option K) (n : Nat)
    (l : List (K × Nat)) (h : ∀ p ∈ l, ∃ n, S.sizeOf p.2 = some n ∧ 0 < n) :
    selectShared S decay n l =
      .ok (asInd ((l.insertionSort (fun a b => a.1 * factor S decay a.2 ≤ b.1 * factor S decay b.2)).take n)) := by
  unfold selectShared
  rw [share_asInd decay l (fun p hp => let ⟨n, hn, _⟩ := h p hp; ⟨n, hn⟩)]
  simp only [scored_asInd]
  unfold selectBest
  have hm := List.map_insertionSort (fun a b : K × Nat => a.1 * factor S decay a.2 ≤ b.1 * factor S decay b.2)
    (fun a b : K × Nat => a.1 ≤ b.1) (fun p : K × Nat => (p.1 * factor S decay p.2, p.2)) l (fun a _ b _ => Iff.rfl)
  rw [← hm, ← List.map_take]
  apply unshare_asInd
  intro p hp
  exact h p ((List.perm_insertionSort _ _).mem_iff.1 (List.mem_of_mem_take hp))

/-- After `speciate`, every member has a positive species size. -/
theorem speciate_size [Field K] [LinearOrder K] {sqrt : Nat → K} {S : Spec Nat K} (h : SpecReach sqrt S)
    (d : Nat → Nat → K) {r : SpecRnd Nat} (hr : r.Honest) (pop : List Nat) {g : Nat} (hg : g ∈ pop) :
    ∃ n, (S.speciate d sqrt r pop).sizeOf g = some n ∧ 0 < n := by
  obtain ⟨c1, c2, c3, _⟩ := C31_partition (d := d) h hr pop
  obtain ⟨rep, n, h1, h2⟩ := (c1 g).1 hg
  refine ⟨n, ?_, (c3 rep n h2).2⟩
  unfold Spec.sizeOf
  rw [h1]
  exact (dget_eq c2).2 h2

/-! ### elite -/

theorem slice0_sublist {α : Type} (l : List α) (k : ℤ) : (slice0 l k).Sublist l := by
  unfold slice0
  split <;> exact List.take_sublist _ _

theorem elite_mem {cfg : TopCfg C K} {pop : List (Indiv K)} : ∀ p ∈ elite cfg pop, p ∈ pop :=
  fun _ hp => (slice0_sublist _ _).subset hp

/-! ### copies -/

theorem copyAll_spec (w : Pool C) (pop : List (Indiv K)) :
    Untouched w (copyAll w pop).1 ∧ (copyAll w pop).2.map (·.1) = pop.map (·.1) ∧
      ∀ p ∈ (copyAll w pop).2, w.next ≤ p.2 ∧ p.2 < (copyAll w pop).1.next := by
  induction pop generalizing w with
  | nil => exact ⟨.refl _, rfl, by simp [copyAll]⟩
  | cons p pop ih =>
    obtain ⟨s, i⟩ := p
    obtain ⟨h1, h2, h3⟩ := ih (w.alloc (w.heap i))
    rw [copyAll]
    have hu := untouched_alloc w (w.heap i)
    refine ⟨hu.trans h1, by simp [h2], ?_⟩
    intro q hq
    rcases List.mem_cons.1 hq with rfl | hq
    · exact ⟨le_refl _, lt_of_lt_of_le (Nat.lt_succ_self _) h1.1⟩
    · exact ⟨le_trans hu.1 (h3 q hq).1, (h3 q hq).2⟩

/-! ### random -/

theorem evolveUntil_next {cfg : TopCfg C K} {f : Nat} {w w' : Pool C} {i : Nat} (h : evolveUntil cfg f w i = .ok w') :
    w'.next = w.next := by
  induction f generalizing w with
  | zero => cases h
  | succ f ih =>
    rw [evolveUntil] at h
    split at h
    · cases h
    · split at h
      · injection h with h
        subst h
        rfl
      · exact (ih h).trans rfl

theorem randomLoop_ok {cfg : TopCfg C K} {pop : List (Indiv K)} {w w' : Pool C} {pop' : List (Indiv K)}
    (h : randomLoop cfg w pop = .ok (w', pop')) : pop' = pop.map (fun p => (none, p.2)) ∧ w'.next = w.next := by
  induction pop generalizing w pop' with
  | nil =>
    simp only [randomLoop, Except.ok.injEq, Prod.mk.injEq] at h
    obtain ⟨rfl, rfl⟩ := h
    exact ⟨rfl, rfl⟩
  | cons p pop ih =>
    obtain ⟨s, i⟩ := p
    rw [randomLoop] at h
    split at h
    · cases h
    · next w1 h1 =>
      split at h
      · cases h
      · next w2 rest h2 =>
        simp only [Except.ok.injEq, Prod.mk.injEq] at h
        obtain ⟨rfl, rfl⟩ := h
        obtain ⟨e1, e2⟩ := ih h2
        exact ⟨by rw [e1]; rfl, by rw [e2, evolveUntil_next h1]⟩

/-! ### preferential -/

section
variable [Field K] [LinearOrder K]

omit [Field K] [LinearOrder K] in
theorem prefInner_ok {cfg : TopCfg C K} {stop : K → Bool} {parent f : Nat} {w w' : Pool C} {prev : Option Nat}
    {cs : List (Indiv K)} (h : prefInner cfg stop parent f w prev = .ok (w', cs)) :
    1 ≤ cs.length ∧ AllUnscored cs ∧ w.next ≤ w'.next ∧ ∀ c ∈ cs, w.next ≤ c.2 ∧ c.2 < w'.next := by
  induction f generalizing w prev cs with
  | zero => cases h
  | succ f ih =>
    rw [prefInner] at h
    split at h
    · cases h
    · next w1 hc =>
      obtain ⟨c, hev, rfl⟩ := child_ok hc
      dsimp only at h
      have key : ∀ (w2 : Pool C), w2.next = w.next + 1 →
          (if (cfg.chk (w2.heap w.next) && cfg.hasParams (w2.heap w.next)) = true then
            if stop (cfg.u w2.calls) = true then Except.ok (w2.tick, [((none : Option K), w.next)])
            else
              match prefInner cfg stop parent f w2.tick (some w.next) with
              | .error e => .error e
              | .ok (w3, rest) => .ok (w3, (none, w.next) :: rest)
          else prefInner cfg stop parent f w2 (some w.next)) = .ok (w', cs) →
          1 ≤ cs.length ∧ AllUnscored cs ∧ w.next ≤ w'.next ∧ ∀ c ∈ cs, w.next ≤ c.2 ∧ c.2 < w'.next := by
        intro w2 hn h
        split at h
        · split at h
          · simp only [Except.ok.injEq, Prod.mk.injEq] at h
            obtain ⟨rfl, rfl⟩ := h
            refine ⟨by simp, by simp [AllUnscored], ?_, ?_⟩
            · change w.next ≤ w2.next
              omega
            · simp only [List.mem_singleton]
              rintro c rfl
              change w.next ≤ w.next ∧ w.next < w2.next
              omega
          · split at h
            · cases h
            · next w3 rest hr =>
              simp only [Except.ok.injEq, Prod.mk.injEq] at h
              obtain ⟨rfl, rfl⟩ := h
              obtain ⟨_, h2, h3, h4⟩ := ih hr
              have e : w2.tick.next = w.next + 1 := hn
              rw [e] at h3 h4
              refine ⟨by simp, ?_, by omega, ?_⟩
              · intro p hp
                rcases List.mem_cons.1 hp with rfl | hp
                · rfl
                · exact h2 p hp
              · intro p hp
                rcases List.mem_cons.1 hp with rfl | hp
                · dsimp only; omega
                · have := h4 p hp
                  omega
        · obtain ⟨h1, h2, h3, h4⟩ := ih h
          rw [hn] at h3 h4
          exact ⟨h1, h2, by omega, fun c hc => by have := h4 c hc; omega⟩
      cases prev with
      | none => exact key _ (by rfl) h
      | some s => exact key _ (by rfl) h

omit [Field K] [LinearOrder K] in
theorem prefLoop_ok {cfg : TopCfg C K} {stop : Option K → K → Bool} {pop : List (Indiv K)} {w w' : Pool C}
    {cs : List (Indiv K)} (h : prefLoop cfg stop w pop = .ok (w', cs)) :
    pop.length ≤ cs.length ∧ AllUnscored cs ∧ w.next ≤ w'.next ∧ ∀ c ∈ cs, w.next ≤ c.2 ∧ c.2 < w'.next := by
  induction pop generalizing w cs with
  | nil =>
    simp only [prefLoop, Except.ok.injEq, Prod.mk.injEq] at h
    obtain ⟨rfl, rfl⟩ := h
    simp [AllUnscored]
  | cons p pop ih =>
    obtain ⟨s, i⟩ := p
    rw [prefLoop] at h
    split at h
    · cases h
    · next w1 c1 hi =>
      split at h
      · cases h
      · next w2 rest hr =>
        simp only [Except.ok.injEq, Prod.mk.injEq] at h
        obtain ⟨rfl, rfl⟩ := h
        obtain ⟨a1, a2, a3, a4⟩ := prefInner_ok hi
        obtain ⟨b1, b2, b3, b4⟩ := ih hr
        refine ⟨by simp; omega, ?_, by omega, ?_⟩
        · intro p hp
          rcases List.mem_append.1 hp with hp | hp
          · exact a2 p hp
          · exact b2 p hp
        · intro p hp
          rcases List.mem_append.1 hp with hp | hp
          · have := a4 p hp; omega
          · have := b4 p hp; omega

/-! ### all rules -/

/-- Is this rule one that returns exactly one child per individual? -/
def Rule.oneEach : Rule K → Bool
  | .preferential _ => false
  | _ => true

theorem updatePop_ok {cfg : TopCfg C K} {w w' : Pool C} {pop out : List (Indiv K)} (ha : Alive w pop)
    (h : updatePop cfg w pop = .ok (w', out)) :
    ∃ new pass, out = new ++ pass ∧ AllUnscored new ∧ pass.map (·.1) = (elite cfg pop).map (·.1) ∧
      pop.length ≤ new.length ∧ (cfg.rule.oneEach = true → new.length = pop.length) ∧ Alive w' out ∧ w.next ≤ w'.next ∧
      (cfg.rule = .random ∧ new = pop.map (fun p => (none, p.2)) ∨
        cfg.rule ≠ .random ∧ (∀ c ∈ new, w.next ≤ c.2) ∧ pass = elite cfg pop) := by
  have hel : ∀ w' : Pool C, w.next ≤ w'.next → ∀ p ∈ elite cfg pop, p.2 < w'.next :=
    fun w' hw p hp => lt_of_lt_of_le (ha p (elite_mem p hp)) hw
  unfold updatePop at h
  split at h
  · next hrule =>
    unfold updateRandom at h
    obtain ⟨c1, c2, c3⟩ := copyAll_spec w (elite cfg pop)
    simp only at h
    split at h
    · cases h
    · next w2 pop' hr =>
      simp only [Except.ok.injEq, Prod.mk.injEq] at h
      obtain ⟨rfl, rfl⟩ := h
      obtain ⟨e1, e2⟩ := randomLoop_ok hr
      refine ⟨pop', (copyAll w (elite cfg pop)).2, rfl, ?_, c2, ?_, ?_, ?_, ?_, .inl ⟨hrule, e1⟩⟩
      · rw [e1]
        intro p hp
        obtain ⟨q, _, rfl⟩ := List.mem_map.1 hp
        rfl
      · simp [e1]
      · simp [e1]
      · intro p hp
        rw [e2]
        rcases List.mem_append.1 hp with hp | hp
        · rw [e1] at hp
          obtain ⟨q, hq, rfl⟩ := List.mem_map.1 hp
          exact lt_of_lt_of_le (ha q hq) c1.1
        · exact (c3 p hp).2
      · rw [e2]
        exact c1.1
  · next root hrule =>
    have fin : ∀ stop new, prefLoop cfg stop w pop = .ok (w', new) → out = new ++ elite cfg pop →
        ∃ new pass, out = new ++ pass ∧ AllUnscored new ∧ pass.map (·.1) = (elite cfg pop).map (·.1) ∧
          pop.length ≤ new.length ∧ (cfg.rule.oneEach = true → new.length = pop.length) ∧ Alive w' out ∧ w.next ≤ w'.next ∧
          (cfg.rule = .random ∧ new = pop.map (fun p => (none, p.2)) ∨
            cfg.rule ≠ .random ∧ (∀ c ∈ new, w.next ≤ c.2) ∧ pass = elite cfg pop) := by
      intro stop new hp ho
      subst ho
      obtain ⟨b1, b2, b3, b4⟩ := prefLoop_ok hp
      refine ⟨new, elite cfg pop, rfl, b2, rfl, b1, ?_, ?_, b3, .inr ⟨by simp [hrule], fun c hc => (b4 c hc).1, rfl⟩⟩
      · intro h
        rw [hrule] at h
        cases h
      · intro p hp
        rcases List.mem_append.1 hp with hp | hp
        · exact (b4 p hp).2
        · exact hel _ b3 p hp
    unfold updatePreferential at h
    split at h
    · cases h
    · split at h
      · cases h
      · next hp =>
        simp only [Except.ok.injEq, Prod.mk.injEq] at h
        obtain ⟨rfl, rfl⟩ := h
        exact fin _ _ hp rfl
    · split at h
      · cases h
      · simp only at h
        split at h
        · cases h
        · next hp =>
          simp only [Except.ok.injEq, Prod.mk.injEq] at h
          obtain ⟨rfl, rfl⟩ := h
          exact fin _ _ hp rfl
  · next p hrule =>
    unfold updateRoulette at h
    split at h
    · cases h
    · cases h
    · split at h
      · cases h
      · split at h
        · cases h
        · split at h
          · cases h
          · next hr =>
            simp only [Except.ok.injEq, Prod.mk.injEq] at h
            obtain ⟨rfl, rfl⟩ := h
            obtain ⟨b1, b2, _, b4⟩ := reproduce_ok ha hr
            refine ⟨_, _, rfl, fun c hc => ?_, rfl, le_of_eq b2.symm, fun _ => b2, ?_, b1.1, .inr ⟨by simp [hrule], fun c hc => ?_, rfl⟩⟩
            · obtain ⟨_, _, _, hch⟩ := b4 c hc
              exact hch.1
            · intro q hq
              rcases List.mem_append.1 hq with hq | hq
              · obtain ⟨_, _, _, hch⟩ := b4 q hq
                exact hch.2.2.1
              · exact hel _ b1.1 q hq
            · obtain ⟨_, _, _, hch⟩ := b4 c hc
              exact hch.2.1
  · next d hrule =>
    unfold updateTournament at h
    split at h
    · cases h
    · split at h
      · cases h
      · split at h
        · cases h
        · next hr =>
          simp only [Except.ok.injEq, Prod.mk.injEq] at h
          obtain ⟨rfl, rfl⟩ := h
          obtain ⟨b1, b2, _, b4⟩ := reproduce_ok ha hr
          refine ⟨_, _, rfl, fun c hc => ?_, rfl, le_of_eq b2.symm, fun _ => b2, ?_, b1.1, .inr ⟨by simp [hrule], fun c hc => ?_, rfl⟩⟩
          · obtain ⟨_, _, _, hch⟩ := b4 c hc
            exact hch.1
          · intro q hq
            rcases List.mem_append.1 hq with hq | hq
            · obtain ⟨_, _, _, hch⟩ := b4 q hq
              exact hch.2.2.1
            · exact hel _ b1.1 q hq
          · obtain ⟨_, _, _, hch⟩ := b4 c hc
            exact hch.2.1

omit [Field K] [LinearOrder K] in
theorem optimiseAll_ok {cfg : TopCfg C K} {pop : List (Indiv K)} {w w' : Pool C} {out : List (K × Nat)}
    (h : optimiseAll cfg w pop = .ok (w', out)) :
    AllUnscored pop ∧ out.length = pop.length ∧ Untouched w w' ∧ ∀ p ∈ out, w.next ≤ p.2 ∧ p.2 < w'.next := by
  induction pop generalizing w out with
  | nil =>
    simp only [optimiseAll, Except.ok.injEq, Prod.mk.injEq] at h
    obtain ⟨rfl, rfl⟩ := h
    exact ⟨by simp [AllUnscored], rfl, .refl _, by simp⟩
  | cons p pop ih =>
    obtain ⟨s, i⟩ := p
    cases s with
    | some x => simp [optimiseAll] at h
    | none =>
      rw [optimiseAll] at h
      split at h
      · cases h
      · next s c hopt =>
        split at h
        · cases h
        · next w2 rest hr =>
          simp only [Except.ok.injEq, Prod.mk.injEq] at h
          obtain ⟨rfl, rfl⟩ := h
          obtain ⟨h1, h2, h3, h4⟩ := ih hr
          have hu := untouched_new w c
          refine ⟨?_, by simp [h2], hu.trans h3, ?_⟩
          · intro p hp
            rcases List.mem_cons.1 hp with rfl | hp
            · rfl
            · exact h1 p hp
          · intro p hp
            rcases List.mem_cons.1 hp with rfl | hp
            · exact ⟨le_refl _, lt_of_lt_of_le (Nat.lt_succ_self _) h3.1⟩
            · exact ⟨le_trans hu.1 (h4 p hp).1, (h4 p hp).2⟩

omit [Field K] [LinearOrder K] in
/-- Individual by individual, the result is what the optimiser made of the graph handed to it. -/
theorem optimiseAll_results {cfg : TopCfg C K} {pop : List (Indiv K)} {w0 w w' : Pool C} {out : List (K × Nat)}
    (ha : Alive w0 pop) (hu0 : Untouched w0 w) (h : optimiseAll cfg w pop = .ok (w', out)) :
    List.Forall₂ (fun (p : Indiv K) q => ∃ n, cfg.opt n (w0.heap p.2) = .ok (q.1, w'.heap q.2)) pop out := by
  induction pop generalizing w out with
  | nil =>
    simp only [optimiseAll, Except.ok.injEq, Prod.mk.injEq] at h
    obtain ⟨rfl, rfl⟩ := h
    exact .nil
  | cons p pop ih =>
    obtain ⟨s, i⟩ := p
    cases s with
    | some x => simp [optimiseAll] at h
    | none =>
      rw [optimiseAll] at h
      split at h
      · cases h
      · next s c hopt =>
        split at h
        · cases h
        · next w2 rest hr =>
          simp only [Except.ok.injEq, Prod.mk.injEq] at h
          obtain ⟨rfl, rfl⟩ := h
          have hu := untouched_new w c
          obtain ⟨_, _, h3, _⟩ := optimiseAll_ok hr
          refine .cons ⟨w.calls, ?_⟩ (ih (fun p hp => ha p (List.mem_cons_of_mem _ hp)) (hu0.trans hu) hr)
          dsimp only
          rw [h3.2 w.next (Nat.lt_succ_self _), new_heap, ← hu0.2 i (ha _ List.mem_cons_self)]
          exact hopt

omit [Field K] [LinearOrder K] in
theorem optimiseAll_scored {cfg : TopCfg C K} {pop : List (Indiv K)} {w : Pool C} {p : Indiv K} (hp : p ∈ pop) (hs : p.1 ≠ none) :
    ∀ r, optimiseAll cfg w pop ≠ .ok r := by
  rintro ⟨w', out⟩ h
  exact hs ((optimiseAll_ok h).1 p hp)

theorem share_graphs {S : Spec Nat K} {decay : Option K} {minim : Bool} {pop shared : List (Indiv K)}
    (h : S.share decay minim pop = .ok shared) : shared.map (·.2) = pop.map (·.2) ∧ AllScored shared ∧ AllScored pop := by
  induction pop generalizing shared with
  | nil =>
    simp only [Spec.share, Except.ok.injEq] at h
    subst h
    simp [AllScored]
  | cons p pop ih =>
    obtain ⟨s, g⟩ := p
    rw [Spec.share] at h
    split at h
    · cases h
    · split at h
      · cases h
      · split at h
        · cases h
        · next rest hr =>
          simp only [Except.ok.injEq] at h
          subst h
          obtain ⟨h1, h2, h3⟩ := ih hr
          refine ⟨by simp [h1], ?_, ?_⟩
          · intro q hq
            rcases List.mem_cons.1 hq with rfl | hq
            · simp
            · exact h2 q hq
          · intro q hq
            rcases List.mem_cons.1 hq with rfl | hq
            · simp
            · exact h3 q hq

theorem unshare_graphs {S : Spec Nat K} {decay : Option K} {minim : Bool} {pop out : List (Indiv K)}
    (h : S.unshare decay minim pop = .ok out) :
    out.map (·.2) = pop.map (·.2) ∧ out.map (·.1.isSome) = pop.map (·.1.isSome) ∧
      ∀ p ∈ pop, p.1 = none → S.sizeOf p.2 = none := by
  induction pop generalizing out with
  | nil =>
    simp only [Spec.unshare, Except.ok.injEq] at h
    subst h
    simp
  | cons p pop ih =>
    obtain ⟨s, g⟩ := p
    rw [Spec.unshare] at h
    split at h
    · next hsz =>
      split at h
      · cases h
      · next rest hr =>
        simp only [Except.ok.injEq] at h
        subst h
        obtain ⟨h1, h2, h3⟩ := ih hr
        refine ⟨by simp [h1], by simp [h2], ?_⟩
        intro q hq hn
        rcases List.mem_cons.1 hq with rfl | hq
        · exact hsz
        · exact h3 q hq hn
    · split at h
      · cases h
      · split at h
        · cases h
        · next rest hr =>
          simp only [Except.ok.injEq] at h
          subst h
          obtain ⟨h1, h2, h3⟩ := ih hr
          refine ⟨by simp [h1], by simp [h2], ?_⟩
          intro q hq hn
          rcases List.mem_cons.1 hq with rfl | hq
          · cases hn
          · exact h3 q hq hn

end

end Verif
