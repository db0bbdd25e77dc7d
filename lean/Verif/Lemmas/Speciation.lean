import Verif.Spec.Speciation
import Mathlib.Data.List.Nodup
import Mathlib.Tactic.Linarith
import Mathlib.Tactic.Positivity
import Mathlib.Tactic.FieldSimp
import Mathlib.Tactic.Ring
import Mathlib.Tactic.NormNum
/-!
# Lemmas on speciation
-/

namespace Verif
variable {G K : Type} [DecidableEq G]

/-! ### sorting -/

omit [DecidableEq G] in
theorem pairwise_sort_key {A K : Type} [LinearOrder K] (key : A → K) (l : List A) :
    (l.insertionSort (fun a b => key a ≤ key b)).Pairwise (fun a b => key a ≤ key b) :=
  haveI : Std.Total (fun a b : A => key a ≤ key b) := ⟨fun a b => le_total (key a) (key b)⟩
  haveI : IsTrans A (fun a b : A => key a ≤ key b) := ⟨fun _ _ _ => le_trans⟩
  List.pairwise_insertionSort _ _

/-! ### dictionaries -/

theorem keys_dset (s : List (G × Nat)) (k : G) (v : Nat) :
    (dset s k v).map (·.1) = if k ∈ s.map (·.1) then s.map (·.1) else s.map (·.1) ++ [k] := by
  unfold dset
  split
  · rw [List.map_map]
    apply List.map_congr_left
    intro p _
    simp only [Function.comp]
    split
    · next h => exact h.symm
    · rfl
  · simp

theorem nodup_dset {s : List (G × Nat)} {k : G} {v : Nat} (h : (s.map (·.1)).Nodup) : ((dset s k v).map (·.1)).Nodup := by
  rw [keys_dset]
  split
  · exact h
  · next hk => exact List.nodup_append.2 ⟨h, by simp, by simp only [List.mem_singleton]; rintro a ha b rfl rfl; exact hk ha⟩

theorem mem_dset {s : List (G × Nat)} {k : G} {v : Nat} {p : G × Nat} (h : p ∈ dset s k v) :
    p = (k, v) ∨ (p ∈ s ∧ p.1 ≠ k) := by
  unfold dset at h
  split at h
  · obtain ⟨q, hq, he⟩ := List.mem_map.1 h
    split at he
    · exact .inl he.symm
    · next hne => exact .inr ⟨he ▸ hq, he ▸ hne⟩
  · next hk =>
    rcases List.mem_append.1 h with h | h
    · exact .inr ⟨h, fun e => hk (e ▸ List.mem_map.2 ⟨p, h, rfl⟩)⟩
    · exact .inl (List.mem_singleton.1 h)

theorem keys_dinc (s : List (G × Nat)) (k : G) : (dinc s k).map (·.1) = s.map (·.1) := by
  unfold dinc
  rw [List.map_map]
  apply List.map_congr_left
  intro p _
  simp only [Function.comp]
  split <;> rfl

theorem mem_dinc {s : List (G × Nat)} {k : G} {p : G × Nat} (h : p ∈ dinc s k) :
    ∃ q ∈ s, p.1 = q.1 ∧ p.2 = q.2 + if q.1 = k then 1 else 0 := by
  obtain ⟨q, hq, he⟩ := List.mem_map.1 h
  refine ⟨q, hq, ?_⟩
  split at he <;> next hk => subst he; simp [hk]

theorem keys_dpop (s : List (G × Nat)) (k : G) : (dpop s k).map (·.1) = (s.map (·.1)).filter (· ≠ k) := by
  unfold dpop
  rw [List.filter_map]
  rfl

theorem nodup_dpop {s : List (G × Nat)} {k : G} (h : (s.map (·.1)).Nodup) : ((dpop s k).map (·.1)).Nodup := by
  rw [keys_dpop]
  exact h.filter _

theorem mem_dpop {s : List (G × Nat)} {k : G} {p : G × Nat} : p ∈ dpop s k ↔ p ∈ s ∧ p.1 ≠ k := by
  simp [dpop]

theorem dget_eq {s : List (G × Nat)} (hn : (s.map (·.1)).Nodup) {k : G} {n : Nat} : dget s k = some n ↔ (k, n) ∈ s := by
  unfold dget
  induction s with
  | nil => simp
  | cons p s ih =>
    obtain ⟨a, m⟩ := p
    simp only [List.map_cons, List.nodup_cons] at hn
    by_cases h : a = k
    · subst h
      simp only [List.find?_cons, decide_true, Option.map_some, Option.some.injEq, List.mem_cons, Prod.mk.injEq, true_and]
      constructor
      · intro h
        exact .inl h.symm
      · rintro (h | h)
        · exact h.symm
        · exact absurd (List.mem_map.2 ⟨_, h, rfl⟩) hn.1
    · simp only [List.find?_cons, h, decide_false, List.mem_cons, Prod.mk.injEq]
      rw [ih hn.2]
      constructor
      · exact .inr
      · rintro (⟨h', _⟩ | h')
        · exact absurd h'.symm h
        · exact h'

theorem dget_none {s : List (G × Nat)} {k : G} : dget s k = none ↔ k ∉ s.map (·.1) := by
  unfold dget
  simp only [Option.map_eq_none_iff, List.find?_eq_none, decide_eq_true_eq, List.mem_map, not_exists, not_and]

/-! ### representatives -/

theorem bestRep_mem [LinearOrder K] (d : G → G → K) (thr : K) (keys : List G) (rep : G) (gs : List G)
    (acc : Option G × K) (b : G) (h : (bestRep d thr keys rep gs acc).1 = some b) :
    acc.1 = some b ∨ (b ∈ gs ∧ b ∉ keys ∧ d rep b < thr) := by
  induction gs generalizing acc with
  | nil => exact .inl h
  | cons g gs ih =>
    rw [bestRep] at h
    split at h
    · next hk =>
      dsimp only at h
      split at h
      · next hc =>
        rcases ih _ h with h | h
        · injection h with h
          subst h
          exact .inr ⟨List.mem_cons_self, hk, hc.2⟩
        · exact .inr ⟨List.mem_cons_of_mem _ h.1, h.2⟩
      · rcases ih _ h with h | h
        · exact .inl h
        · exact .inr ⟨List.mem_cons_of_mem _ h.1, h.2⟩
    · rcases ih _ h with h | h
      · exact .inl h
      · exact .inr ⟨List.mem_cons_of_mem _ h.1, h.2⟩

theorem repLoop_inv [LinearOrder K] [OfNat K 5] (d : G → G → K) (thr : K) (shuf : Nat → List G → List G)
    (hs : ∀ n l, (shuf n l).Perm l) (pop : List G) (n : Nat) (reps gs : List G) (sp : List (G × Nat))
    (hn : (sp.map (·.1)).Nodup) (hgs : ∀ g ∈ gs, g ∈ pop)
    (hI : ∀ p ∈ sp, p.1 ∈ reps ∨ (p.1 ∈ pop ∧ p.2 = 0)) :
    ((repLoop d thr shuf n reps gs sp).map (·.1)).Nodup ∧
      ∀ p ∈ repLoop d thr shuf n reps gs sp, p.1 ∈ pop ∧ p.2 = 0 := by
  induction reps generalizing n gs sp with
  | nil => exact ⟨hn, fun p hp => (hI p hp).resolve_left (by simp)⟩
  | cons rep reps ih =>
    rw [repLoop]
    split
    · next hr =>
      apply ih _ _ _ (nodup_dset hn) (fun g hg => hgs g (List.mem_of_mem_erase hg))
      intro p hp
      rcases mem_dset hp with h | ⟨h, hne⟩
      · subst h
        exact .inr ⟨hgs _ hr, rfl⟩
      · rcases hI p h with h' | h'
        · exact .inl ((List.mem_cons.1 h').resolve_left hne)
        · exact .inr h'
    · have hpop : ∀ p ∈ dpop sp rep, p.1 ∈ reps ∨ (p.1 ∈ pop ∧ p.2 = 0) := by
        intro p hp
        obtain ⟨h, hne⟩ := mem_dpop.1 hp
        rcases hI p h with h' | h'
        · exact .inl ((List.mem_cons.1 h').resolve_left hne)
        · exact .inr h'
      split
      · exact ih _ _ _ (nodup_dpop hn) hgs hpop
      · next b hb =>
        have hb' : b ∈ gs := by
          rcases bestRep_mem _ _ _ _ _ _ _ hb with h | h
          · cases h
          · exact (hs n gs).mem_iff.1 h.1
        apply ih _ _ _ (nodup_dset (nodup_dpop hn)) (fun g hg => hgs g (List.mem_of_mem_erase hg))
        intro p hp
        rcases mem_dset hp with h | ⟨h, _⟩
        · subst h
          exact .inr ⟨hgs _ hb', rfl⟩
        · exact hpop p h

/-! ### redundancy -/

theorem redInner_mono [LinearOrder K] (d : G → G → K) (thr : K) (s0 : G) (ss red : List G) :
    ∀ x ∈ red, x ∈ redInner d thr s0 ss red := by
  induction ss generalizing red with
  | nil => exact fun x h => h
  | cons s1 ss ih =>
    intro x hx
    rw [redInner]
    split
    · exact ih _ x (List.mem_cons_of_mem _ hx)
    · exact ih _ x hx

theorem redInner_far [LinearOrder K] (d : G → G → K) (thr : K) (s0 : G) (ss red : List G)
    (h0 : s0 ∉ redInner d thr s0 ss red) (s1 : G) (hs : s1 ∈ ss) (hne : s0 ≠ s1)
    (h1 : s1 ∉ redInner d thr s0 ss red) : ¬ d s0 s1 < thr := by
  induction ss generalizing red with
  | nil => cases hs
  | cons a ss ih =>
    rw [redInner] at h0 h1
    split at h0
    · next hc =>
      rw [if_pos hc] at h1
      rcases List.mem_cons.1 hs with h | h
      · subst h
        exact absurd (redInner_mono d thr s0 ss _ _ List.mem_cons_self) h1
      · exact ih _ h0 h h1
    · next hc =>
      rw [if_neg hc] at h1
      rcases List.mem_cons.1 hs with h | h
      · subst h
        intro hlt
        exact hc ⟨hne, fun h => h0 (redInner_mono _ _ _ _ _ _ h), fun h => h1 (redInner_mono _ _ _ _ _ _ h), hlt⟩
      · exact ih _ h0 h h1

theorem redOuter_mono [LinearOrder K] (d : G → G → K) (thr : K) (keys ss red : List G) :
    ∀ x ∈ red, x ∈ redOuter d thr keys ss red := by
  induction ss generalizing red with
  | nil => exact fun x h => h
  | cons s0 ss ih => exact fun x hx => ih _ x (redInner_mono d thr s0 keys red x hx)

theorem redOuter_far [LinearOrder K] (d : G → G → K) (thr : K) (keys ss red : List G) (s0 s1 : G)
    (hs : s0 ∈ ss) (h1 : s1 ∈ keys) (hne : s0 ≠ s1)
    (hr0 : s0 ∉ redOuter d thr keys ss red) (hr1 : s1 ∉ redOuter d thr keys ss red) : ¬ d s0 s1 < thr := by
  induction ss generalizing red with
  | nil => cases hs
  | cons a ss ih =>
    rw [redOuter] at hr0 hr1
    rcases List.mem_cons.1 hs with h | h
    · subst h
      exact redInner_far d thr s0 keys red (fun h => hr0 (redOuter_mono _ _ _ _ _ _ h)) s1 h1 hne
        (fun h => hr1 (redOuter_mono _ _ _ _ _ _ h))
    · exact ih _ h hr0 hr1

theorem mem_foldl_dpop {red : List G} {sp : List (G × Nat)} {p : G × Nat} :
    p ∈ red.foldl dpop sp ↔ p ∈ sp ∧ p.1 ∉ red := by
  induction red generalizing sp with
  | nil => simp
  | cons a red ih =>
    rw [List.foldl_cons, ih, mem_dpop, List.mem_cons, not_or, and_assoc]

theorem nodup_foldl_dpop {red : List G} {sp : List (G × Nat)} (h : (sp.map (·.1)).Nodup) :
    ((red.foldl dpop sp).map (·.1)).Nodup := by
  induction red generalizing sp with
  | nil => exact h
  | cons a red ih => exact ih (nodup_dpop h)

omit [DecidableEq G] in
theorem pairwise_of_mem {R : G → G → Prop} {l : List G} (hn : l.Nodup) (h : ∀ a ∈ l, ∀ b ∈ l, a ≠ b → R a b) :
    l.Pairwise R := by
  induction l with
  | nil => exact .nil
  | cons a l ih =>
    have hn' := List.nodup_cons.1 hn
    refine List.pairwise_cons.2 ⟨fun b hb => h a List.mem_cons_self b (List.mem_cons_of_mem _ hb) ?_, ih hn'.2 ?_⟩
    · rintro rfl
      exact hn'.1 hb
    · exact fun x hx y hy => h x (List.mem_cons_of_mem _ hx) y (List.mem_cons_of_mem _ hy)

theorem dropRedundant_inv [LinearOrder K] (d : G → G → K) (thr : K) (sp : List (G × Nat)) (hn : (sp.map (·.1)).Nodup) :
    ((dropRedundant d thr sp).map (·.1)).Nodup ∧ (∀ p ∈ dropRedundant d thr sp, p ∈ sp) ∧
      ((dropRedundant d thr sp).map (·.1)).Pairwise (fun a b => ¬ d a b < thr) := by
  have hn' : ((dropRedundant d thr sp).map (·.1)).Nodup := nodup_foldl_dpop hn
  refine ⟨hn', fun p hp => (mem_foldl_dpop.1 hp).1, pairwise_of_mem hn' ?_⟩
  intro a ha b hb hne
  obtain ⟨p, hp, rfl⟩ := List.mem_map.1 ha
  obtain ⟨q, hq, rfl⟩ := List.mem_map.1 hb
  have hp' := mem_foldl_dpop.1 hp
  have hq' := mem_foldl_dpop.1 hq
  exact redOuter_far d thr _ _ [] _ _ (List.mem_map.2 ⟨_, hp'.1, rfl⟩) (List.mem_map.2 ⟨_, hq'.1, rfl⟩) hne hp'.2 hq'.2

/-! ### assignment -/

/-- State of the assignment loop after the individuals `done`. -/
structure AssignInv [LinearOrder K] (d : G → G → K) (thr : K) (pop done : List G)
    (st : List (G × Nat) × (G → Option G)) : Prop where
  nodup : (st.1.map (·.1)).Nodup
  sub : ∀ r ∈ st.1.map (·.1), r ∈ pop
  far : (st.1.map (·.1)).Pairwise (fun a b => ¬ d a b < thr)
  self : ∀ g ∈ done, g ∈ st.1.map (·.1) → st.2 g = some g
  other : ∀ g ∈ done, g ∉ st.1.map (·.1) → ∃ r, (st.1.map (·.1)).find? (fun r => d r g < thr) = some r ∧ st.2 g = some r
  out : ∀ g, g ∉ done → st.2 g = none
  count : ∀ p ∈ st.1, p.2 = done.countP (fun g => st.2 g = some p.1)

theorem AssignInv.some_mem [LinearOrder K] {d : G → G → K} {thr : K} {pop done : List G}
    {st : List (G × Nat) × (G → Option G)} (h : AssignInv d thr pop done st) {g r : G} (hg : st.2 g = some r) :
    r ∈ st.1.map (·.1) ∧ (g = r ∨ d r g < thr) := by
  by_cases hd : g ∈ done
  · by_cases hk : g ∈ st.1.map (·.1)
    · rw [h.self g hd hk] at hg
      injection hg with hg
      subst hg
      exact ⟨hk, .inl rfl⟩
    · obtain ⟨r', h1, h2⟩ := h.other g hd hk
      rw [h2] at hg
      injection hg with hg
      subst hg
      exact ⟨List.mem_of_find?_eq_some h1, .inr (by simpa using List.find?_some h1)⟩
  · rw [h.out g hd] at hg
    cases hg

theorem countP_upd {done : List G} {f : G → Option G} {g r k : G} (hsame : g ∈ done → f g = some r) :
    (done ++ [g]).countP (fun x => (if x = g then some r else f x) = some k) =
      done.countP (fun x => f x = some k) + if r = k then 1 else 0 := by
  rw [List.countP_append]
  congr 1
  · apply List.countP_congr
    intro x hx
    by_cases hxg : x = g
    · subst hxg
      simp [hsame hx]
    · simp [hxg]
  · simp [List.countP_cons]

theorem assign1_inv [LinearOrder K] {d : G → G → K} {thr : K} {pop done : List G}
    {st : List (G × Nat) × (G → Option G)} (h : AssignInv d thr pop done st) {g : G} (hg : g ∈ pop) :
    AssignInv d thr pop (done ++ [g]) (assign1 d thr st g) := by
  unfold assign1
  split
  · next hk =>
    have hsame : g ∈ done → st.2 g = some g := fun hd => h.self g hd hk
    refine ⟨?_, ?_, ?_, ?_, ?_, ?_, ?_⟩
    · simpa only [keys_dinc] using h.nodup
    · simpa only [keys_dinc] using h.sub
    · simpa only [keys_dinc] using h.far
    · simp only [keys_dinc]
      intro x hx hxk
      by_cases hxg : x = g
      · simp [hxg]
      · simp only [hxg, if_false]
        exact h.self x (by simpa [hxg] using hx) hxk
    · simp only [keys_dinc]
      intro x hx hxk
      by_cases hxg : x = g
      · exact absurd (hxg ▸ hk) hxk
      · simp only [hxg, if_false]
        exact h.other x (by simpa [hxg] using hx) hxk
    · intro x hx
      simp only [List.mem_append, List.mem_singleton, not_or] at hx
      simp only [hx.2, if_false]
      exact h.out x hx.1
    · intro p hp
      obtain ⟨q, hq, h1, h2⟩ := mem_dinc hp
      dsimp only
      rw [countP_upd hsame, h2, h.count q hq, h1]
      congr 1
      simp only [eq_comm]
  · next hk =>
    split
    · next r hr =>
      have hsame : g ∈ done → st.2 g = some r := by
        intro hd
        obtain ⟨r', h1, h2⟩ := h.other g hd hk
        rw [hr] at h1
        injection h1 with h1
        rw [h2, h1]
      refine ⟨?_, ?_, ?_, ?_, ?_, ?_, ?_⟩
      · simpa only [keys_dinc] using h.nodup
      · simpa only [keys_dinc] using h.sub
      · simpa only [keys_dinc] using h.far
      · simp only [keys_dinc]
        intro x hx hxk
        by_cases hxg : x = g
        · exact absurd (hxg ▸ hxk) hk
        · simp only [hxg, if_false]
          exact h.self x (by simpa [hxg] using hx) hxk
      · simp only [keys_dinc]
        intro x hx hxk
        by_cases hxg : x = g
        · subst hxg
          exact ⟨r, hr, by simp⟩
        · simp only [hxg, if_false]
          exact h.other x (by simpa [hxg] using hx) hxk
      · intro x hx
        simp only [List.mem_append, List.mem_singleton, not_or] at hx
        simp only [hx.2, if_false]
        exact h.out x hx.1
      · intro p hp
        obtain ⟨q, hq, h1, h2⟩ := mem_dinc hp
        dsimp only
        rw [countP_upd hsame, h2, h.count q hq, h1]
        congr 1
        simp only [eq_comm]
    · next hnone =>
      have hnd : g ∉ done := by
        intro hd
        obtain ⟨r', h1, _⟩ := h.other g hd hk
        rw [hnone] at h1
        cases h1
      rw [if_pos (h.out g hnd)]
      have hkeys : (dset st.1 g 1).map (·.1) = st.1.map (·.1) ++ [g] := by rw [keys_dset, if_neg hk]
      refine ⟨nodup_dset h.nodup, ?_, ?_, ?_, ?_, ?_, ?_⟩
      · simp only [hkeys]
        intro r hr
        rcases List.mem_append.1 hr with hr | hr
        · exact h.sub r hr
        · exact List.mem_singleton.1 hr ▸ hg
      · simp only [hkeys]
        refine List.pairwise_append.2 ⟨h.far, List.pairwise_singleton _ _, ?_⟩
        intro a ha b hb
        rw [List.mem_singleton.1 hb]
        have := List.find?_eq_none.1 hnone a ha
        simpa using this
      · simp only [hkeys]
        intro x hx hxk
        by_cases hxg : x = g
        · simp [hxg]
        · simp only [hxg, if_false]
          exact h.self x (by simpa [hxg] using hx) (by simpa [hxg] using hxk)
      · simp only [hkeys]
        intro x hx hxk
        simp only [List.mem_append, List.mem_singleton, not_or] at hxk
        simp only [hxk.2, if_false]
        obtain ⟨r, h1, h2⟩ := h.other x (by simpa [hxk.2] using hx) hxk.1
        exact ⟨r, by rw [List.find?_append, h1]; rfl, h2⟩
      · intro x hx
        simp only [List.mem_append, List.mem_singleton, not_or] at hx
        simp only [hx.2, if_false]
        exact h.out x hx.1
      · intro p hp
        dsimp only
        rw [countP_upd (fun hd => absurd hd hnd)]
        rcases mem_dset hp with e | ⟨hp, hne⟩
        · subst e
          have : done.countP (fun x => decide (st.2 x = some g)) = 0 := by
            rw [List.countP_eq_zero]
            intro x hx hc
            exact hk (h.some_mem (of_decide_eq_true hc)).1
          simp [this]
        · rw [h.count p hp, if_neg (Ne.symm hne)]
          rfl

theorem assign_inv [LinearOrder K] {d : G → G → K} {thr : K} {pop : List G} (todo done : List G)
    {st : List (G × Nat) × (G → Option G)} (h : AssignInv d thr pop done st) (hsub : ∀ g ∈ todo, g ∈ pop) :
    AssignInv d thr pop (done ++ todo) (todo.foldl (assign1 d thr) st) := by
  induction todo generalizing done st with
  | nil => simpa using h
  | cons g todo ih =>
    have := ih (done ++ [g]) (assign1_inv h (hsub g List.mem_cons_self)) (fun x hx => hsub x (List.mem_cons_of_mem _ hx))
    simpa using this

/-- What one call of `speciate` establishes. -/
theorem speciate_inv [Field K] [LinearOrder K] (d : G → G → K) (sqrt : Nat → K) {r : SpecRnd G}
    (hr : r.Honest) {S : Spec G K} (hn : (S.species.map (·.1)).Nodup) (pop : List G) :
    AssignInv d S.thr pop pop ((S.speciate d sqrt r pop).species, (S.speciate d sqrt r pop).imap) := by
  obtain ⟨h1, h2⟩ := repLoop_inv d S.thr r.graphOrder hr.2 pop 0 (r.repOrder (S.species.map (·.1))) pop.dedup S.species hn
    (fun g hg => List.mem_dedup.1 hg) (fun p hp => .inl ((hr.1 _).mem_iff.2 (List.mem_map.2 ⟨p, hp, rfl⟩)))
  obtain ⟨h3, h4, h5⟩ := dropRedundant_inv d S.thr _ h1
  have h0 : AssignInv d S.thr pop []
      (dropRedundant d S.thr (repLoop d S.thr r.graphOrder 0 (r.repOrder (S.species.map (·.1))) pop.dedup S.species),
        fun _ => none) := by
    refine ⟨h3, ?_, h5, by simp, by simp, by simp, ?_⟩
    · intro k hk
      obtain ⟨p, hp, rfl⟩ := List.mem_map.1 hk
      exact (h2 p (h4 p hp)).1
    · intro p hp
      simpa using (h2 p (h4 p hp)).2
  exact assign_inv pop [] h0 (fun g hg => hg)

theorem reach_nodup [Field K] [LinearOrder K] {sqrt : Nat → K} {S : Spec G K}
    (h : SpecReach sqrt S) : (S.species.map (·.1)).Nodup := by
  induction h with
  | init h =>
    unfold Spec.init at h
    split at h
    · cases h
    · injection h with h
      subst h
      simp
  | step _ hr _ ih => exact (speciate_inv _ sqrt hr ih _).nodup

theorem sum_indicator {keys : List G} (hn : keys.Nodup) {r : G} (hr : r ∈ keys) :
    (keys.map (fun k => if k = r then 1 else 0)).sum = 1 := by
  induction keys with
  | nil => cases hr
  | cons a keys ih =>
    have hn' := List.nodup_cons.1 hn
    rw [List.map_cons, List.sum_cons]
    by_cases ha : a = r
    · subst ha
      rw [if_pos rfl]
      have : keys.map (fun k => if k = a then 1 else 0) = keys.map (fun _ => 0) := by
        apply List.map_congr_left
        intro k hk
        rw [if_neg]
        rintro rfl
        exact hn'.1 hk
      rw [this]
      simp
    · rw [if_neg ha, ih hn'.2 ((List.mem_cons.1 hr).resolve_left (Ne.symm ha))]

theorem sum_countP {keys : List G} (hn : keys.Nodup) (l : List G) (f : G → Option G)
    (h : ∀ g ∈ l, ∃ r ∈ keys, f g = some r) :
    (keys.map (fun r => l.countP (fun g => f g = some r))).sum = l.length := by
  induction l with
  | nil => simp
  | cons g l ih =>
    obtain ⟨r, hr, hf⟩ := h g List.mem_cons_self
    have h1 : (keys.map (fun k => (g :: l).countP (fun g => f g = some k))) =
        keys.map (fun k => l.countP (fun g => f g = some k) + if k = r then 1 else 0) := by
      apply List.map_congr_left
      intro k _
      rw [List.countP_cons, hf]
      congr 1
      by_cases hk : k = r
      · simp [hk]
      · simp [hk, Ne.symm hk]
    have h2 := sum_indicator hn hr
    rw [h1, List.sum_map_add, h2, ih (fun x hx => h x (List.mem_cons_of_mem _ hx)), List.length_cons]

/-! ### threshold -/

section
variable [Field K] [LinearOrder K] [IsStrictOrderedRing K]

omit [DecidableEq G]

omit [Field K] [IsStrictOrderedRing K] in
theorem clip_mem {x lo hi : K} (h : lo ≤ hi) : lo ≤ clip x lo hi ∧ clip x lo hi ≤ hi :=
  ⟨le_min h (le_max_left _ _), min_le_left _ _⟩

theorem adjust_range (thr : K) (t n : Nat) (sq : K) : 1 / 20 ≤ adjust thr t n sq ∧ adjust thr t n sq ≤ 19 / 20 := by
  constructor
  · exact le_max_left _ _
  · exact max_le (by norm_num) (min_le_right _ _)

theorem clamp_near {thr δ : K} (h0 : 0 ≤ thr) (h1 : thr ≤ 1) (hd : -(3 / 10) ≤ δ ∧ δ ≤ 3 / 10) :
    |max (1 / 20) (min (δ + thr) (19 / 20)) - thr| ≤ 3 / 10 := by
  rw [abs_le]
  rcases le_total (δ + thr) (19 / 20) with h | h
  · rw [min_eq_left h]
    rcases le_total (1 / 20) (δ + thr) with h' | h'
    · rw [max_eq_right h']
      constructor <;> linarith [hd.1, hd.2]
    · rw [max_eq_left h']
      constructor <;> linarith [hd.1, hd.2]
  · rw [min_eq_right h, max_eq_right (by norm_num)]
    constructor <;> linarith [hd.1, hd.2]

theorem adjust_near {thr : K} (h0 : 0 ≤ thr) (h1 : thr ≤ 1) (t n : Nat) (sq : K) : |adjust thr t n sq - thr| ≤ 3 / 10 := by
  unfold adjust
  apply clamp_near h0 h1
  have := clip_mem (x := -1 * ((t : K) - n) * (1 / 10 / sq)) (lo := -1 * (3 / 10)) (hi := 3 / 10) (by norm_num)
  constructor
  · linarith [this.1]
  · exact this.2

theorem clip_nonneg {x : K} (hx : 0 ≤ x) : 0 ≤ clip x (-1 * (3 / 10)) (3 / 10) :=
  le_min (by norm_num) (le_trans hx (le_max_right _ _))

theorem clip_nonpos {x : K} (hx : x ≤ 0) : clip x (-1 * (3 / 10)) (3 / 10) ≤ 0 :=
  le_trans (min_le_right _ _) (max_le (by norm_num) hx)

theorem clip_pos {x : K} (hx : 0 < x) : 0 < clip x (-1 * (3 / 10)) (3 / 10) :=
  lt_min (by norm_num) (lt_of_lt_of_le hx (le_max_right _ _))

theorem clip_neg {x : K} (hx : x < 0) : clip x (-1 * (3 / 10)) (3 / 10) < 0 :=
  lt_of_le_of_lt (min_le_right _ _) (max_lt (by norm_num) hx)

end

end Verif
