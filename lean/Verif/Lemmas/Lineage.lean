import Verif.Spec.Lineage
import Verif.Lemmas.Run
import Verif.Props.Preferential
/-! # Lemmas on descent in a run -/

set_option linter.unusedSectionVars false

namespace Verif
variable {C K : Type} [Field K] [LinearOrder K] [IsStrictOrderedRing K]

theorem evolveUntil_spec {cfg : TopCfg C K} {f : Nat} {w w' : Pool C} {i : Nat} (h : evolveUntil cfg f w i = .ok w') :
    EvolvedUntil cfg (w.heap i) (w'.heap i) ∧ ∀ j, j ≠ i → w'.heap j = w.heap j := by
  induction f generalizing w with
  | zero => cases h
  | succ f ih =>
    rw [evolveUntil] at h
    split at h
    · cases h
    · next c hc =>
      have hi : ((w.write i c).tick).heap i = c := by simp [Pool.write, Pool.tick]
      have ho : ∀ j, j ≠ i → ((w.write i c).tick).heap j = w.heap j := fun j hj => by simp [Pool.write, Pool.tick, hj]
      split at h
      · next hk =>
        rw [Bool.and_eq_true] at hk
        injection h with h
        subst h
        rw [hi]
        exact ⟨.last hc hk.1 hk.2, ho⟩
      · next hk =>
        obtain ⟨h1, h2⟩ := ih h
        rw [hi] at h1
        refine ⟨.again hc ?_ h1, fun j hj => (h2 j hj).trans (ho j hj)⟩
        by_cases hq : cfg.chk c = true
        · right
          simpa [hq] using hk
        · exact .inl (by simpa using hq)

theorem randomLoop_spec {cfg : TopCfg C K} {pop : List (Indiv K)} {w w' : Pool C} {pop' : List (Indiv K)} (hn : (pop.map (·.2)).Nodup)
    (h : randomLoop cfg w pop = .ok (w', pop')) :
    (∀ p ∈ pop, EvolvedUntil cfg (w.heap p.2) (w'.heap p.2)) ∧ ∀ j, j ∉ pop.map (·.2) → w'.heap j = w.heap j := by
  induction pop generalizing w pop' with
  | nil =>
    simp only [randomLoop, Except.ok.injEq, Prod.mk.injEq] at h
    obtain ⟨rfl, rfl⟩ := h
    simp
  | cons p pop ih =>
    obtain ⟨s, i⟩ := p
    rw [randomLoop] at h
    split at h
    · cases h
    · next w1 h1 =>
      split at h
      · cases h
      · next w2 rest h2 =>
        simp only [Except.ok.injEq, Prod.mk.injEq] at h
        obtain ⟨rfl, rfl⟩ := h
        simp only [List.map_cons, List.nodup_cons] at hn
        obtain ⟨a1, a2⟩ := evolveUntil_spec h1
        obtain ⟨b1, b2⟩ := ih hn.2 h2
        refine ⟨fun p hp => ?_, fun j hj => ?_⟩
        · rcases List.mem_cons.1 hp with rfl | hp
          · dsimp only
            rw [b2 _ hn.1]
            exact a1
          · have hne : p.2 ≠ i := fun e => hn.1 (e ▸ List.mem_map_of_mem hp)
            rw [← a2 _ hne]
            exact b1 p hp
        · simp only [List.map_cons, List.mem_cons, not_or] at hj
          rw [b2 _ hj.2, a2 _ hj.1]

theorem copyAll_contents (w : Pool C) (pop : List (Indiv K)) (ha : Alive w pop) :
    ((copyAll w pop).2.map (·.2)).Pairwise (· < ·) ∧ (∀ q ∈ (copyAll w pop).2, w.next ≤ q.2) ∧
      (copyAll w pop).2.map (fun p => (copyAll w pop).1.heap p.2) = pop.map (fun p => w.heap p.2) := by
  induction pop generalizing w with
  | nil => exact ⟨by simp [copyAll], by simp [copyAll], by simp [copyAll]⟩
  | cons p pop ih =>
    obtain ⟨s, i⟩ := p
    have hu := untouched_alloc w (w.heap i)
    have ha' : Alive (w.alloc (w.heap i)) pop := fun q hq => lt_of_lt_of_le (ha q (List.mem_cons_of_mem _ hq)) hu.1
    obtain ⟨h1, h2, h3⟩ := ih (w.alloc (w.heap i)) ha'
    obtain ⟨c1, -, -⟩ := copyAll_spec (w.alloc (w.heap i)) pop
    rw [copyAll]
    have hn : (w.alloc (w.heap i)).next = w.next + 1 := rfl
    rw [hn] at h2
    refine ⟨?_, ?_, ?_⟩
    · simp only [List.map_cons, List.pairwise_cons]
      refine ⟨fun j hj => ?_, h1⟩
      obtain ⟨q, hq, rfl⟩ := List.mem_map.1 hj
      exact h2 q hq
    · intro q hq
      rcases List.mem_cons.1 hq with rfl | hq
      · exact le_refl _
      · have := h2 q hq
        omega
    · simp only [List.map_cons]
      rw [h3, c1.2 _ (by rw [hn]; omega)]
      congr 1
      · simp [Pool.alloc]
      · apply List.map_congr_left
        intro q hq
        exact hu.2 _ (ha q (List.mem_cons_of_mem _ hq))

/-- What every update rule does, from the point of view of one child. -/
theorem updatePop_begets {cfg : TopCfg C K} {w w' : Pool C} {pop out : List (Indiv K)} (ha : Alive w pop) (hn : (pop.map (·.2)).Nodup)
    (hsc : AllScored pop) (h : updatePop cfg w pop = .ok (w', out)) :
    ∀ q ∈ out, q.1 = none → ∃ p ∈ pop, Begets cfg (w.heap p.2) (w'.heap q.2) := by
  intro q hq hq0
  have hne : ∀ p ∈ elite cfg pop, p.1 ≠ none := fun p hp => hsc p (elite_mem p hp)
  unfold updatePop at h
  split at h
  · next hrule =>
    have hB : ∀ p c, EvolvedUntil cfg p c → Begets cfg p c := fun p c hc => by unfold Begets; rw [hrule]; exact hc
    unfold updateRandom at h
    obtain ⟨c1, c2, c3⟩ := copyAll_spec w (elite cfg pop)
    simp only at h
    split at h
    · cases h
    · next w2 pop' hr =>
      simp only [Except.ok.injEq, Prod.mk.injEq] at h
      obtain ⟨rfl, rfl⟩ := h
      obtain ⟨e1, -⟩ := randomLoop_ok hr
      rcases List.mem_append.1 hq with hq | hq
      · rw [e1] at hq
        obtain ⟨p, hp, rfl⟩ := List.mem_map.1 hq
        have := (randomLoop_spec hn hr).1 p hp
        rw [c1.2 _ (ha p hp)] at this
        exact ⟨p, hp, hB _ _ this⟩
      · have : q.1 ∈ (elite cfg pop).map (·.1) := by
          rw [← c2]
          exact List.mem_map.2 ⟨q, hq, rfl⟩
        obtain ⟨r, hr, he⟩ := List.mem_map.1 this
        exact absurd (he.trans hq0) (hne r hr)
  · next root hrule =>
    obtain ⟨fams, rfl, -, -, h4⟩ := C50_preferential ha h
    unfold Begets
    rw [hrule]
    dsimp only
    rcases List.mem_append.1 hq with hq | hq
    · obtain ⟨f, hf, hqf⟩ := List.mem_flatten.1 hq
      obtain ⟨i, hi⟩ := List.getElem?_of_mem hf
      have hil : i < fams.length := (List.getElem?_eq_some_iff.1 hi).1
      have hip : i < pop.length := by rw [h4.length_eq]; exact hil
      have hF := (List.forall₂_iff_get.1 h4).2 i hip hil
      have he : fams.get ⟨i, hil⟩ = f := by
        have := (List.getElem?_eq_some_iff.1 hi).2
        simpa using this
      rw [he] at hF
      refine ⟨pop.get ⟨i, hip⟩, List.get_mem _ _, ?_⟩
      obtain ⟨init, last, rfl, -, -, ⟨n, g1, g2, g3⟩, g4⟩ := hF
      rcases List.mem_append.1 hqf with hqf | hqf
      · obtain ⟨n, made, k1, k2, k3, k4⟩ := g4 q hqf
        exact ⟨n, made, k1, k2, k3, .inr k4⟩
      · rw [List.mem_singleton.1 hqf]
        exact ⟨n, _, g1, g2, g3, .inl rfl⟩
    · exact absurd hq0 (hne q hq)
  · next hrule =>
    unfold Begets
    rw [hrule]
    dsimp only
    obtain ⟨ch, rfl, -, -, -, scores, probs, -, -, h5⟩ := C29_roulette ha h
    rcases List.mem_append.1 hq with hq | hq
    · obtain ⟨call, parent, h6, h7⟩ := h5 q hq
      exact ⟨parent, List.mem_of_getElem? h7, call, h6.2.2.2.1, h6.2.2.2.2⟩
    · exact absurd hq0 (hne q hq)
  · next hrule =>
    unfold Begets
    rw [hrule]
    dsimp only
    obtain ⟨ch, rfl, -, -, -, h5⟩ := C29_tournament ha h
    rcases List.mem_append.1 hq with hq | hq
    · obtain ⟨call, parent, h6, sampled, -, ⟨i, -, h7⟩, -⟩ := h5 q hq
      exact ⟨parent, List.mem_of_getElem? h7, call, h6.2.2.2.1, h6.2.2.2.2⟩
    · exact absurd hq0 (hne q hq)

theorem mem_of_graphs {a b : List (Indiv K)} (h : a.map (·.2) = b.map (·.2)) {p : Indiv K} (hp : p ∈ a) : ∃ q ∈ b, q.2 = p.2 := by
  have : p.2 ∈ a.map (·.2) := List.mem_map.2 ⟨p, hp, rfl⟩
  rw [h] at this
  obtain ⟨q, hq, he⟩ := List.mem_map.1 this
  exact ⟨q, hq, he⟩

theorem breed_begets {cfg : TopCfg C K} {gen : Nat} {st st1 : RunSt C K} (ha : Alive st.w st.pop) (hn : (st.pop.map (·.2)).Nodup)
    (hsc : AllScored st.pop) (h : breed cfg gen st = .ok st1) :
    (∀ q ∈ st1.pop, q.1 = none → ∃ p ∈ st.pop, Begets cfg (st.w.heap p.2) (st1.w.heap q.2)) ∧
      (cfg.setup = none → st.mgr = none → st1.mgr = none) := by
  unfold breed at h
  split at h
  · split at h
    · cases h
    · next w pop hu =>
      injection h with h
      subst h
      exact ⟨updatePop_begets ha hn hsc hu, fun h1 h2 => by simp [h1, h2]⟩
  · split at h
    · split at h
      · cases h
      · next w pop hu =>
        injection h with h
        subst h
        exact ⟨updatePop_begets ha hn hsc hu, fun _ h2 => h2⟩
    · next S hS =>
      simp only at h
      split at h
      · cases h
      · next shared hsh =>
        obtain ⟨g1, g2, _⟩ := share_graphs hsh
        split at h
        · cases h
        · next w pop hu =>
          split at h
          · cases h
          · next pop' hun =>
            injection h with h
            subst h
            refine ⟨fun q hq hq0 => ?_, fun _ h2 => by rw [hS] at h2; cases h2⟩
            obtain ⟨u1, u2, _⟩ := unshare_graphs hun
            have ha' : Alive st.w shared := by
              intro p hp
              obtain ⟨r, hr, he⟩ := mem_of_graphs g1 hp
              rw [← he]
              exact ha r hr
            obtain ⟨i, hi⟩ := List.getElem?_of_mem hq
            have e1 := congrArg (fun l : List Nat => l[i]?) u1
            have e2 := congrArg (fun l : List Bool => l[i]?) u2
            simp only [List.getElem?_map, hi, Option.map_some] at e1 e2
            cases hr : pop[i]? with
            | none => rw [hr] at e1; cases e1
            | some r =>
              rw [hr] at e1 e2
              simp only [Option.map_some, Option.some.injEq] at e1 e2
              have hr0 : r.1 = none := by
                rw [hq0] at e2
                cases h1 : r.1 with
                | none => rfl
                | some x => rw [h1] at e2; cases e2
              obtain ⟨p, hp, hb⟩ := updatePop_begets ha' (by rw [g1]; exact hn) g2 hu r (List.mem_of_getElem? hr) hr0
              obtain ⟨p', hp', he⟩ := mem_of_graphs g1 hp
              rw [← he] at hb
              rw [← e1] at hb
              exact ⟨p', hp', hb⟩

theorem optimiseAll_nodup {cfg : TopCfg C K} {pop : List (Indiv K)} {w w' : Pool C} {out : List (K × Nat)}
    (h : optimiseAll cfg w pop = .ok (w', out)) : (out.map (·.2)).Nodup := by
  induction pop generalizing w out with
  | nil =>
    simp only [optimiseAll, Except.ok.injEq, Prod.mk.injEq] at h
    obtain ⟨rfl, rfl⟩ := h
    simp
  | cons p pop ih =>
    obtain ⟨s, i⟩ := p
    cases s with
    | some x => cases h
    | none =>
      rw [optimiseAll] at h
      split at h
      · cases h
      · next s c hc =>
        split at h
        · cases h
        · next w2 rest hr =>
          simp only [Except.ok.injEq, Prod.mk.injEq] at h
          obtain ⟨rfl, rfl⟩ := h
          simp only [List.map_cons, List.nodup_cons]
          refine ⟨fun hm => ?_, ih hr⟩
          obtain ⟨x, hx, he⟩ := List.mem_map.1 hm
          have : w.next + 1 ≤ x.2 := ((optimiseAll_ok hr).2.2.2 x hx).1
          omega

theorem BestOf.map {A B : Type} {key : B → K} {n : Nat} {pop kept : List A} (f : A → B) (h : BestOf (fun a => key (f a)) n pop kept) :
    BestOf key n (pop.map f) (kept.map f) := by
  obtain ⟨h1, h2, d, h3, h4⟩ := h
  refine ⟨by simpa using h1, List.pairwise_map.2 h2, d.map f, by rw [← List.map_append]; exact h3.map f, ?_⟩
  intro a ha b hb
  obtain ⟨x, hx, rfl⟩ := List.mem_map.1 ha
  obtain ⟨y, hy, rfl⟩ := List.mem_map.1 hb
  exact h4 x hx y hy

theorem BestOf.perm {A : Type} {key : A → K} {n : Nat} {pop kept : List A} (h : BestOf key n pop kept) : ∃ d, (kept ++ d).Perm pop := by
  obtain ⟨_, _, d, h3, _⟩ := h
  exact ⟨d, h3⟩

/-- Survivors of selection are parts of the population, under any manager. -/
theorem select_perm {cfg : TopCfg C K} (hs : Sane cfg) {gen : Nat} {w : Pool C} {mgr : Option (Spec Nat K)}
    (hm : ∀ S, mgr = some S → SpecReach cfg.sqrt S) {pop : List (K × Nat)} {mgr' : Option (Spec Nat K)} {kept : List (Indiv K)}
    (h : select cfg gen w mgr pop = .ok (mgr', kept)) :
    ∃ k d : List (K × Nat), kept = asInd k ∧ (k ++ d).Perm pop ∧ k.length = min cfg.nPop pop.length ∧ (mgr = none → mgr' = none ∧ BestOf (·.1) cfg.nPop pop k) := by
  cases mgr with
  | none =>
    obtain ⟨k, h1, h2⟩ := C28_selection_keeps_best cfg gen w pop
    rw [h1] at h
    simp only [Except.ok.injEq, Prod.mk.injEq] at h
    obtain ⟨rfl, rfl⟩ := h
    obtain ⟨d, hd⟩ := h2.perm
    exact ⟨k, d, rfl, hd, h2.1, fun _ => ⟨rfl, h2⟩⟩
  | some S =>
    obtain ⟨S', k, f, h1, h2, -⟩ := C28_selection_shared hs gen w (hm S rfl) pop
    rw [h1] at h
    simp only [Except.ok.injEq, Prod.mk.injEq] at h
    obtain ⟨rfl, rfl⟩ := h
    obtain ⟨d, hd⟩ := h2.perm
    exact ⟨k, d, rfl, hd, h2.1, by simp⟩

/-- The individuals of a population with their contents. -/
def contents (w : Pool C) (pop : List (Indiv K)) : List (K × C) := pop.map (fun p => (p.1.getD 0, w.heap p.2))

/-- Designs of generation `k` come from `parents`: the survivors of the generation before, or copies of the start. -/
def Bred (cfg : TopCfg C K) (plain : Prop) (s0 : K × C) (tr : List (List (K × C))) (k : Nat) (parents : List (K × C)) : Prop :=
  parents.length = cfg.nPop ∧ (k = 0 → parents = List.replicate cfg.nPop s0) ∧
    ∀ j prev, k = j + 1 → tr[j]? = some prev → (∀ p ∈ parents, p ∈ prev) ∧ (plain → BestOf (·.1) cfg.nPop prev parents)

/-- One generation on, where children are made as `R` says. -/
def NextBy (cfg : TopCfg C K) (R : C → C → Prop) (p q : K × C) : Prop := ∃ b n, R p.2 b ∧ cfg.opt n b = .ok q

/-- Who descends from whom, when children of generation `k` are made as `R k` says. -/
structure KinBy (cfg : TopCfg C K) (R : Nat → C → C → Prop) (plain : Prop) (s0 : K × C) (st : RunSt C K) : Prop where
  nodup : (st.pop.map (·.2)).Nodup
  mgr : plain → st.mgr = none
  bred : Bred cfg plain s0 st.trace st.trace.length (contents st.w st.pop)
  kin : ∀ k gen, st.trace[k]? = some gen → ∃ parents, Bred cfg plain s0 st.trace k parents ∧ ∀ q ∈ gen, ∃ p ∈ parents, NextBy cfg (R k) p q

abbrev KinInv (cfg : TopCfg C K) (plain : Prop) (s0 : K × C) (st : RunSt C K) : Prop := KinBy cfg (fun _ => Begets cfg) plain s0 st

theorem Bred.append {cfg : TopCfg C K} {plain : Prop} {s0 : K × C} {tr more : List (List (K × C))} {k : Nat} {parents : List (K × C)}
    (h : Bred cfg plain s0 tr k parents) (hk : k ≤ tr.length) : Bred cfg plain s0 (tr ++ more) k parents := by
  refine ⟨h.1, h.2.1, fun j prev hj hp => h.2.2 j prev hj ?_⟩
  rw [List.getElem?_append_left (by omega)] at hp
  exact hp

theorem initialState_kinBy {cfg : TopCfg C K} {R : Nat → C → C → Prop} {w : Pool C} {start : C} {mgr : Option (Spec Nat K)} {st : RunSt C K}
    (h : initialState cfg w start mgr = .ok st) :
    ∃ s0, cfg.opt w.calls start = .ok s0 ∧ KinBy cfg R (cfg.setup = none ∧ mgr = none) s0 st := by
  unfold initialState at h
  split at h
  · cases h
  · next s c hopt =>
    injection h with h
    subst h
    refine ⟨(s, c), hopt, ?_⟩
    have hal : Alive (w.alloc c).tick (List.replicate cfg.nPop ((some s : Option K), w.next)) := by
      intro p hp
      rw [List.eq_of_mem_replicate hp]
      exact Nat.lt_succ_self _
    obtain ⟨c1, c2, c3⟩ := copyAll_spec (w.alloc c).tick (List.replicate cfg.nPop ((some s : Option K), w.next))
    obtain ⟨d1, d2, d3⟩ := copyAll_contents (w.alloc c).tick (List.replicate cfg.nPop ((some s : Option K), w.next)) hal
    refine ⟨d1.imp (fun h => ne_of_lt h), fun hp => hp.2, ?_, by simp⟩
    have hlen : (copyAll (w.alloc c).tick (List.replicate cfg.nPop ((some s : Option K), w.next))).2.length = cfg.nPop := by
      have := congrArg List.length c2
      simpa using this
    refine ⟨by simpa [contents] using hlen, fun _ => ?_, fun j prev hj => by simp at hj⟩
    refine List.eq_replicate_iff.2 ⟨by simpa [contents] using hlen, fun b hb => ?_⟩
    unfold contents at hb
    obtain ⟨p, hp, rfl⟩ := List.mem_map.1 hb
    have e1 : p.1 ∈ (List.replicate cfg.nPop ((some s : Option K), w.next)).map (·.1) := by
      rw [← c2]
      exact List.mem_map.2 ⟨p, hp, rfl⟩
    obtain ⟨q, hq, he⟩ := List.mem_map.1 e1
    rw [List.eq_of_mem_replicate hq] at he
    have e2 : (copyAll (w.alloc c).tick (List.replicate cfg.nPop ((some s : Option K), w.next))).1.heap p.2 ∈
        (List.replicate cfg.nPop ((some s : Option K), w.next)).map (fun p => ((w.alloc c).tick).heap p.2) := by
      rw [← d3]
      exact List.mem_map.2 ⟨p, hp, rfl⟩
    obtain ⟨q', hq', he'⟩ := List.mem_map.1 e2
    rw [List.eq_of_mem_replicate hq', new_heap] at he'
    rw [← he, ← he']
    rfl

theorem initialState_kin {cfg : TopCfg C K} {w : Pool C} {start : C} {mgr : Option (Spec Nat K)} {st : RunSt C K}
    (h : initialState cfg w start mgr = .ok st) :
    ∃ s0, cfg.opt w.calls start = .ok s0 ∧ KinInv cfg (cfg.setup = none ∧ mgr = none) s0 st := initialState_kinBy h

theorem generation_kinBy {cfg : TopCfg C K} {R : Nat → C → C → Prop} (hs : Sane cfg) (hpos : 0 < cfg.nPop) {mgr0 : Option (Spec Nat K)} {s0 : K × C} {gen : Nat} {st st' : RunSt C K}
    {gens : List ((C → C → Bool) × List (K × C))} (I : RunInv cfg st gens) (J : KinBy cfg R (cfg.setup = none ∧ mgr0 = none) s0 st)
    (hR : ∀ st1, breed cfg gen st = .ok st1 → ∀ q ∈ st1.pop, q.1 = none → ∃ p ∈ st.pop, R st.trace.length (st.w.heap p.2) (st1.w.heap q.2))
    (h : generation cfg gen st = .ok st') : KinBy cfg R (cfg.setup = none ∧ mgr0 = none) s0 st' := by
  obtain ⟨off, I'⟩ := generation_inv hs hpos I h
  unfold generation at h
  split at h
  · cases h
  · split at h
    · cases h
    · next st1 hb =>
      split at h
      · cases h
      · next w2 pop2 hopt =>
        have hne : st.pop ≠ [] := by
          intro h0
          have := I.len
          rw [h0] at this
          simp at this
          omega
        obtain ⟨new, pass, -, -, -, -, -, -, b7, -, -, b10⟩ := breed_ok I.alive I.scored hb
        have n1 := hR st1 hb
        have n2 := (breed_begets I.alive J.nodup I.scored hb).2
        have hm1 := breed_mgr hs hne I.mgr hb
        obtain ⟨o1, o2, o3, o4⟩ := optimiseAll_ok hopt
        have hf := optimiseAll_results b7 (.refl _) hopt
        have hnd := optimiseAll_nodup hopt
        simp only at h
        split at h
        · cases h
        · next mgr' kept hsel =>
          obtain ⟨k, d, rfl, hperm, hlen, hbest⟩ := select_perm hs hm1 hsel
          split at h
          · cases h
          · injection h with h
            subst h
            have hcont : contents w2 (asInd k) = k.map (fun p => (p.1, w2.heap p.2)) := by
              unfold contents asInd
              rw [List.map_map]
              rfl
            refine ⟨?_, fun hp => (hbest (n2 hp.1 (J.mgr hp))).1, ⟨?_, ?_, ?_⟩, ?_⟩
            · have : (asInd k).map (·.2) = k.map (·.2) := by
                unfold asInd
                rw [List.map_map]
                rfl
              dsimp only
              rw [this]
              have h2 : ((k ++ d).map (·.2)).Nodup := (hperm.map (·.2)).nodup_iff.2 hnd
              rw [List.map_append] at h2
              exact (List.nodup_append.1 h2).1
            · have := I'.len
              simpa [contents] using this
            · intro h0
              simp at h0
            · intro j prev hj hp
              rw [List.length_append, List.length_singleton] at hj
              have hjl : j = st1.trace.length := by omega
              rw [hjl, List.getElem?_append_right (le_refl _)] at hp
              simp only [Nat.sub_self, List.getElem?_cons_zero, Option.some.injEq] at hp
              subst hp
              dsimp only
              rw [hcont]
              refine ⟨fun p hp => ?_, fun hp => ?_⟩
              · obtain ⟨q, hq, rfl⟩ := List.mem_map.1 hp
                exact List.mem_map.2 ⟨q, hperm.mem_iff.1 (List.mem_append_left _ hq), rfl⟩
              · exact BestOf.map (key := fun p : K × C => p.1) (fun p : K × Nat => (p.1, w2.heap p.2)) (hbest (n2 hp.1 (J.mgr hp))).2
            · intro i g hg
              dsimp only at hg
              rw [b10] at hg ⊢
              by_cases hi : i < st.trace.length
              · rw [List.getElem?_append_left hi] at hg
                obtain ⟨parents, p1, p2⟩ := J.kin i g hg
                exact ⟨parents, p1.append hi.le, p2⟩
              · have hil : i = st.trace.length := by
                  have := (List.getElem?_eq_some_iff.1 hg).1
                  rw [List.length_append, List.length_singleton] at this
                  omega
                rw [hil, List.getElem?_append_right (le_refl _)] at hg
                simp only [Nat.sub_self, List.getElem?_cons_zero, Option.some.injEq] at hg
                subst hg
                rw [hil]
                refine ⟨contents st.w st.pop, J.bred.append (le_refl _), fun q hq => ?_⟩
                obtain ⟨r, hr, rfl⟩ := List.mem_map.1 hq
                obtain ⟨a, ha⟩ := List.getElem?_of_mem hr
                have hal : a < pop2.length := (List.getElem?_eq_some_iff.1 ha).1
                have hal' : a < st1.pop.length := by rw [← o2]; exact hal
                obtain ⟨n, hn⟩ := (List.forall₂_iff_get.1 hf).2 a hal' hal
                have he : pop2.get ⟨a, hal⟩ = r := by
                  have := (List.getElem?_eq_some_iff.1 ha).2
                  simpa using this
                rw [he] at hn
                have hm : st1.pop.get ⟨a, hal'⟩ ∈ st1.pop := List.get_mem _ _
                obtain ⟨p, hp, hbeg⟩ := n1 _ hm (o1 _ hm)
                exact ⟨_, List.mem_map.2 ⟨p, hp, rfl⟩, _, n, hbeg, hn⟩

theorem generation_kin {cfg : TopCfg C K} (hs : Sane cfg) (hpos : 0 < cfg.nPop) {mgr0 : Option (Spec Nat K)} {s0 : K × C} {gen : Nat} {st st' : RunSt C K}
    {gens : List ((C → C → Bool) × List (K × C))} (I : RunInv cfg st gens) (J : KinInv cfg (cfg.setup = none ∧ mgr0 = none) s0 st)
    (h : generation cfg gen st = .ok st') : KinInv cfg (cfg.setup = none ∧ mgr0 = none) s0 st' :=
  generation_kinBy hs hpos I J (fun _ hb => (breed_begets I.alive J.nodup I.scored hb).1) h

theorem generations_kin {cfg : TopCfg C K} (hs : Sane cfg) (hpos : 0 < cfg.nPop) {mgr0 : Option (Spec Nat K)} {s0 : K × C} {n gen : Nat} {st st' : RunSt C K}
    {gens : List ((C → C → Bool) × List (K × C))} (I : RunInv cfg st gens) (J : KinInv cfg (cfg.setup = none ∧ mgr0 = none) s0 st)
    (h : generations cfg n gen st = .ok st') : KinInv cfg (cfg.setup = none ∧ mgr0 = none) s0 st' := by
  induction n generalizing gen st gens with
  | zero =>
    injection h with h
    subst h
    exact J
  | succ n ih =>
    rw [generations] at h
    split at h
    · cases h
    · next st1 h1 =>
      obtain ⟨off, I1⟩ := generation_inv hs hpos I h1
      exact ih I1 (generation_kin hs hpos I J h1) h

end Verif
