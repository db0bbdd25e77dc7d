import Verif.Lemmas.Speciation
import Mathlib.Data.List.Sort
import Mathlib.Data.Rat.Lemmas
import Mathlib.Algebra.Order.Ring.Rat
import Mathlib.Algebra.Field.Rat
/-!
# Properties of speciation (C31, C32, C33, C34, C47)

`K` is any ordered field; the square root is any function positive on positive arguments where that matters.
-/

namespace Verif
variable {G K : Type} [DecidableEq G] [Field K] [LinearOrder K]

/-- A run of two `speciate` calls used in the examples: graphs are numbers, their distance is the tenth of the difference. -/
def specDist (a b : Nat) : ℚ := |(a : ℚ) - b| / 10
def specRnd : SpecRnd Nat := ⟨fun l => l.reverse, fun _ l => l⟩
def spec0 : Spec Nat ℚ := ⟨some 2, 2/5, [], fun _ => none⟩
def spec1 : Spec Nat ℚ := spec0.speciate specDist (fun _ => 3) specRnd [1, 2, 9, 2, 5]
def spec2 : Spec Nat ℚ := spec1.speciate specDist (fun _ => 3) specRnd [2, 11, 5, 7, 3]

theorem specRnd_honest : specRnd.Honest := ⟨fun l => List.reverse_perm l, fun _ _ => List.Perm.refl _⟩
theorem spec0_reach : SpecReach (fun _ => 3) spec0 := .init (t := some 2) (thr := 2/5) (by
  unfold Spec.init
  rw [if_neg (by norm_num)]
  rfl)
theorem spec1_reach : SpecReach (fun _ => 3) spec1 := .step spec0_reach specRnd_honest (by simp)
theorem spec2_reach : SpecReach (fun _ => 3) spec2 := .step spec1_reach specRnd_honest (by simp)

/-- **C31.** After any history, `speciate` partitions the population: exactly its members are assigned, each to one of the
species; the recorded size of a species is the number of its members and is positive; the sizes add up to the
population size. -/
theorem C31_partition {d : G → G → K} {sqrt : Nat → K} {S : Spec G K} (h : SpecReach sqrt S) {r : SpecRnd G}
    (hr : r.Honest) (pop : List G) :
    let S' := S.speciate d sqrt r pop
    (∀ g, g ∈ pop ↔ ∃ rep size, S'.imap g = some rep ∧ (rep, size) ∈ S'.species) ∧
    (S'.species.map (·.1)).Nodup ∧
    (∀ rep size, (rep, size) ∈ S'.species → size = pop.countP (fun g => S'.imap g = some rep) ∧ 0 < size) ∧
    (S'.species.map (·.2)).sum = pop.length := by
  intro S'
  have I := speciate_inv d sqrt hr (reach_nodup h) pop
  have hsome : ∀ g ∈ pop, ∃ rep ∈ S'.species.map (·.1), S'.imap g = some rep := by
    intro g hg
    by_cases hk : g ∈ S'.species.map (·.1)
    · exact ⟨g, hk, I.self g hg hk⟩
    · obtain ⟨rep, h1, h2⟩ := I.other g hg hk
      exact ⟨rep, List.mem_of_find?_eq_some h1, h2⟩
  refine ⟨?_, I.nodup, ?_, ?_⟩
  · intro g
    constructor
    · intro hg
      obtain ⟨rep, h1, h2⟩ := hsome g hg
      obtain ⟨⟨_, n⟩, hp, rfl⟩ := List.mem_map.1 h1
      exact ⟨_, n, h2, hp⟩
    · rintro ⟨rep, n, h1, _⟩
      by_contra hg
      have := I.out g hg
      dsimp only at this
      rw [h1] at this
      cases this
  · intro rep size hp
    have hc := I.count _ hp
    refine ⟨hc, ?_⟩
    have hk : rep ∈ S'.species.map (·.1) := List.mem_map.2 ⟨_, hp, rfl⟩
    have hrep := I.sub rep hk
    dsimp only at hc
    rw [hc]
    exact List.countP_pos_iff.2 ⟨rep, hrep, by simpa using I.self rep hrep hk⟩
  · rw [← sum_countP I.nodup pop S'.imap hsome, List.map_map]
    congr 1
    apply List.map_congr_left
    intro p hp
    exact I.count p hp

/-- A population with a repeated individual, and a second round in which one representative has vanished. -/
example : spec1.species = [(1, 3), (9, 1), (5, 1)] ∧ spec1.imap 2 = some 1 ∧ spec1.thr = 13/30 := by decide +kernel
example : spec2.species = [(5, 4), (11, 1)] ∧ spec2.imap 3 = some 5 ∧ spec2.imap 9 = none := by decide +kernel

/-- **C32.** Every individual is its species' representative or closer to it than the threshold in force during the round;
every representative belongs to the population and to its own species; two representatives are at least the threshold
apart. -/
theorem C32_species_radius [IsStrictOrderedRing K] {d : G → G → K} {sqrt : Nat → K} {S : Spec G K}
    (h : SpecReach sqrt S) (hd : Symm d) {r : SpecRnd G} (hr : r.Honest) (pop : List G) :
    let S' := S.speciate d sqrt r pop
    (∀ g rep, S'.imap g = some rep → g = rep ∨ d rep g < S.thr) ∧
    (∀ rep size, (rep, size) ∈ S'.species → rep ∈ pop ∧ S'.imap rep = some rep) ∧
    ∀ a m b n, (a, m) ∈ S'.species → (b, n) ∈ S'.species → a ≠ b → S.thr ≤ d a b := by
  intro S'
  have I := speciate_inv d sqrt hr (reach_nodup h) pop
  refine ⟨fun g rep hg => (I.some_mem hg).2, ?_, ?_⟩
  · intro rep size hp
    have hk : rep ∈ S'.species.map (·.1) := List.mem_map.2 ⟨_, hp, rfl⟩
    exact ⟨I.sub rep hk, I.self rep (I.sub rep hk) hk⟩
  · intro a m b n ha hb hne
    have hs : ∀ x ∈ S'.species.map (·.1), ∀ y ∈ S'.species.map (·.1), x ≠ y → ¬ d x y < S.thr := by
      intro x hx y hy hxy
      have := List.Pairwise.forall_of_forall_of_flip (R := fun x y => x ≠ y → ¬ d x y < S.thr)
        (l := S'.species.map (·.1)) (fun _ _ e => absurd rfl e)
        (List.Pairwise.imp (R := fun a b => ¬ d a b < S.thr) (S := fun x y => x ≠ y → ¬ d x y < S.thr) (fun {_ _} h _ => h) I.far)
        (List.Pairwise.imp (R := fun a b => ¬ d a b < S.thr) (S := fun x y => y ≠ x → ¬ d y x < S.thr)
          (fun {_ _} h _ => by rw [hd]; exact h) I.far)
      exact this hx hy hxy
    exact not_lt.1 (hs a (List.mem_map.2 ⟨_, ha, rfl⟩) b (List.mem_map.2 ⟨_, hb, rfl⟩) hne)

example : Symm specDist := by
  intro a b
  unfold specDist
  rw [abs_sub_comm]

/-- **C33.** With no target the threshold never changes; with a target it is at every moment strictly between 0 and 1, and
after a `speciate` between 0.05 and 0.95. -/
theorem C33_threshold_range [IsStrictOrderedRing K] {sqrt : Nat → K} {S : Spec G K}
    (h : SpecReach sqrt S) :
    (0 < S.thr ∧ S.thr < 1) ∧
    ∀ (d : G → G → K) (r : SpecRnd G) pop, r.Honest → pop ≠ [] →
      (S.target = none → (S.speciate d sqrt r pop).thr = S.thr) ∧
      (S.target ≠ none → 1 / 20 ≤ (S.speciate d sqrt r pop).thr ∧ (S.speciate d sqrt r pop).thr ≤ 19 / 20) := by
  have key : ∀ (S : Spec G K) d (r : SpecRnd G) pop,
      (S.target = none → (S.speciate d sqrt r pop).thr = S.thr) ∧
      (S.target ≠ none → 1 / 20 ≤ (S.speciate d sqrt r pop).thr ∧ (S.speciate d sqrt r pop).thr ≤ 19 / 20) := by
    intro S d r pop
    unfold Spec.speciate
    constructor
    · intro ht
      simp only [ht]
    · intro ht
      cases hS : S.target with
      | none => exact absurd hS ht
      | some t => exact adjust_range _ _ _ _
  refine ⟨?_, fun d r pop _ _ => key S d r pop⟩
  induction h with
  | init h =>
    unfold Spec.init at h
    split at h
    · cases h
    · next hc =>
      injection h with h
      subst h
      push Not at hc
      exact hc
  | @step S d r pop _ _ _ ih =>
    by_cases ht : S.target = none
    · rw [(key S d r pop).1 ht]
      exact ih
    · obtain ⟨h1, h2⟩ := (key S d r pop).2 ht
      exact ⟨lt_of_lt_of_le (by norm_num) h1, lt_of_le_of_lt h2 (by norm_num)⟩

/-- **C33.** One round moves the threshold by at most 0.3, and in the right direction: strictly up when there are more
species than the target (unless already at 0.95), strictly down when there are fewer (unless already at 0.05), not at
all when the target is met.  Away from the limits the step is `0.1 * (species - target) / sqrt(population)`. -/
theorem C33_threshold_moves [IsStrictOrderedRing K] {d : G → G → K} {sqrt : Nat → K} (hsq : ∀ n, 0 < n → 0 < sqrt n)
    {S : Spec G K} (h : SpecReach sqrt S) (r : SpecRnd G) {pop : List G} (hpop : pop ≠ []) {t : Nat}
    (ht : S.target = some t) :
    let S' := S.speciate d sqrt r pop
    |S'.thr - S.thr| ≤ 3 / 10 ∧
    (t < S'.species.length → S.thr < 19 / 20 → S.thr < S'.thr) ∧
    (S'.species.length < t → 1 / 20 < S.thr → S'.thr < S.thr) ∧
    (S'.species.length = t → 1 / 20 ≤ S.thr → S.thr ≤ 19 / 20 → S'.thr = S.thr) ∧
    (∀ δ, δ = ((S'.species.length : K) - t) / (10 * sqrt pop.length) → |δ| ≤ 3 / 10 →
      1 / 20 ≤ S.thr + δ → S.thr + δ ≤ 19 / 20 → S'.thr = S.thr + δ) := by
  intro S'
  obtain ⟨⟨h0, h1⟩, _⟩ := C33_threshold_range h
  have hS' : S'.thr = adjust S.thr t S'.species.length (sqrt pop.length) := by
    change (S.speciate d sqrt r pop).thr = adjust S.thr t (S.speciate d sqrt r pop).species.length (sqrt pop.length)
    unfold Spec.speciate
    simp only [ht]
  have hp : 0 < sqrt pop.length := hsq _ (List.length_pos_iff.2 hpop)
  have hprop : 0 < 1 / 10 / sqrt pop.length := by positivity
  rw [hS']
  generalize S'.species.length = n
  refine ⟨adjust_near (le_of_lt h0) (le_of_lt h1) _ _ _, ?_, ?_, ?_, ?_⟩
  · intro hlt hthr
    have hx : 0 < -1 * ((t : K) - n) * (1 / 10 / sqrt pop.length) := by
      apply mul_pos _ hprop
      have : (t : K) < n := by exact_mod_cast hlt
      linarith
    have := clip_pos hx
    unfold adjust
    exact lt_max_of_lt_right (lt_min (by linarith) hthr)
  · intro hlt hthr
    have hx : -1 * ((t : K) - n) * (1 / 10 / sqrt pop.length) < 0 := by
      apply mul_neg_of_neg_of_pos _ hprop
      have : (n : K) < t := by exact_mod_cast hlt
      linarith
    have := clip_neg hx
    unfold adjust
    exact max_lt hthr (min_lt_of_left_lt (by linarith))
  · intro he hlo hhi
    subst he
    unfold adjust
    simp only [sub_self, mul_zero, zero_mul]
    have : clip (0 : K) (-1 * (3 / 10)) (3 / 10) = 0 :=
      le_antisymm (clip_nonpos (le_refl _)) (clip_nonneg (le_refl _))
    rw [this, zero_add, min_eq_left hhi, max_eq_right hlo]
  · intro δ hδ hab hlo hhi
    have hx : -1 * ((t : K) - n) * (1 / 10 / sqrt pop.length) = δ := by
      rw [hδ]
      field_simp
      ring
    obtain ⟨ha, hb⟩ := abs_le.1 hab
    unfold adjust
    simp only [hx]
    have : clip δ (-1 * (3 / 10)) (3 / 10) = δ := by
      unfold clip
      rw [max_eq_right (by linarith), min_eq_right hb]
    rw [this, add_comm, min_eq_left hhi, max_eq_right hlo]

/-- Three species against a target of two: the threshold rises. -/
example : ((spec0.speciate specDist (fun _ => 3) specRnd [1, 20, 9, 2]).species.length = 3) ∧
    (spec0.speciate specDist (fun _ => 3) specRnd [1, 20, 9, 2]).thr = 13/30 := by decide +kernel

omit [Field K] [LinearOrder K] in
theorem sizeOf_none {S : Spec G K} {g : G} (h : S.imap g = none) : S.sizeOf g = none := by
  unfold Spec.sizeOf
  rw [h]
  rfl

omit [DecidableEq G] in
theorem scaling_ge [IsStrictOrderedRing K] (decay : Option K) {n : Nat} (hn : 0 < n) : 1 ≤ scaling decay n := by
  unfold scaling
  cases decay with
  | none =>
    have : 1 ≤ n := hn
    change (1 : K) ≤ (n : K)
    exact_mod_cast this
  | some x => exact le_max_left _ _

theorem share_ok {S : Spec G K} (decay : Option K) (minim : Bool) (pop : List (Option K × G))
    (h : ∀ p ∈ pop, (∃ x, p.1 = some x) ∧ ∃ n, S.sizeOf p.2 = some n) :
    ∃ shared, S.share decay minim pop = .ok shared ∧ List.Forall₂ (fun a b => ∃ x n, a.1 = some x ∧ S.sizeOf a.2 = some n ∧
      b = (some (if minim then x * scaling decay n else x / scaling decay n), a.2)) pop shared := by
  induction pop with
  | nil => exact ⟨[], rfl, .nil⟩
  | cons p pop ih =>
    obtain ⟨⟨x, hx⟩, n, hn⟩ := h p List.mem_cons_self
    obtain ⟨s, g⟩ := p
    dsimp only at hx hn
    subst hx
    obtain ⟨rest, h1, h2⟩ := ih (fun q hq => h q (List.mem_cons_of_mem _ hq))
    refine ⟨_ :: rest, ?_, .cons ⟨x, n, rfl, hn, rfl⟩ h2⟩
    rw [Spec.share, hn, h1]

theorem unshare_ok [IsStrictOrderedRing K] {S : Spec G K} (decay : Option K) (minim : Bool) (l l' : List (Option K × G))
    (hpos : ∀ g n, S.sizeOf g = some n → 0 < n)
    (h : List.Forall₂ (fun a b => (S.imap a.2 = none ∧ b = a) ∨ ∃ x n, b.1 = some x ∧ S.sizeOf b.2 = some n ∧
      a = (some (if minim then x * scaling decay n else x / scaling decay n), b.2)) l l') :
    S.unshare decay minim l = .ok l' := by
  induction h with
  | nil => rfl
  | @cons a b l l' hab _ ih =>
    rcases hab with ⟨h1, h2⟩ | ⟨x, n, h1, h2, h3⟩
    · subst h2
      obtain ⟨s, g⟩ := b
      rw [Spec.unshare, sizeOf_none h1, ih]
    · obtain ⟨s, g⟩ := b
      dsimp only at h1 h2 h3
      subst h1 h3
      have hp : scaling decay n ≠ 0 := ne_of_gt (lt_of_lt_of_le one_pos (scaling_ge decay (hpos _ _ h2)))
      rw [Spec.unshare, h2, ih]
      cases minim
      · simp [div_mul_cancel₀ _ hp]
      · simp [mul_div_cancel_right₀ _ hp]

theorem forall₂_get {α β : Type} {R : α → β → Prop} {l : List α} {l' : List β} (h : List.Forall₂ R l l') (i : Nat) (b : β)
    (hb : l'[i]? = some b) : ∃ a, l[i]? = some a ∧ R a b := by
  induction h generalizing i with
  | nil => simp at hb
  | @cons a b' l l' hab _ ih =>
    cases i with
    | zero =>
      simp only [List.getElem?_cons_zero, Option.some.injEq] at hb
      exact ⟨a, by simp, hb ▸ hab⟩
    | succ i =>
      simp only [List.getElem?_cons_succ] at hb
      simpa using ih i hb

/-- **C34.** On a scored population just speciated, fitness sharing succeeds, keeps the graphs, and multiplies (minimisation)
or divides each score by a factor at least one, which without half-life is the number of members of the individual's
species.  Reversing it on any list made of shared individuals (in any order, any number of times, some left out) and of
individuals never speciated gives the former their original scores back exactly and leaves the latter alone. -/
theorem C34_share_reversed [IsStrictOrderedRing K] {d : G → G → K} {sqrt : Nat → K} {S : Spec G K} (h : SpecReach sqrt S)
    {r : SpecRnd G} (hr : r.Honest) (pop : List (Option K × G)) (hscored : ∀ p ∈ pop, p.1 ≠ none) (decay : Option K)
    (minim : Bool) :
    let S' := S.speciate d sqrt r (pop.map (·.2))
    ∃ shared, S'.share decay minim pop = .ok shared ∧
      List.Forall₂ (fun a b => b.2 = a.2 ∧ ∃ x y c : K, a.1 = some x ∧ b.1 = some y ∧ 1 ≤ c ∧
        y = (if minim then x * c else x / c) ∧
        (decay = none → c = ((pop.map (·.2)).countP (fun g => S'.imap g = S'.imap a.2) : Nat))) pop shared ∧
      ∀ l l', List.Forall₂ (fun a b => (a.2 ∉ pop.map (·.2) ∧ b = a) ∨
          ∃ i : Nat, shared[i]? = some a ∧ pop[i]? = some b) l l' →
        S'.unshare decay minim l = .ok l' := by
  intro S'
  obtain ⟨c1, c2, c3, _⟩ := C31_partition h hr (pop.map (·.2))
  have hsize : ∀ g ∈ pop.map (·.2), ∃ rep n, S'.imap g = some rep ∧ (rep, n) ∈ S'.species ∧ S'.sizeOf g = some n := by
    intro g hg
    obtain ⟨rep, n, h1, h2⟩ := (c1 g).1 hg
    refine ⟨rep, n, h1, h2, ?_⟩
    unfold Spec.sizeOf
    rw [h1]
    exact (dget_eq c2).2 h2
  have hpos : ∀ g n, S'.sizeOf g = some n → 0 < n := by
    intro g n hn
    unfold Spec.sizeOf at hn
    cases hg : S'.imap g with
    | none => rw [hg] at hn; cases hn
    | some rep =>
      rw [hg] at hn
      exact (c3 rep n ((dget_eq c2).1 hn)).2
  obtain ⟨shared, hs, hf⟩ := share_ok (S := S') decay minim pop (by
    intro p hp
    refine ⟨Option.ne_none_iff_exists'.1 (hscored p hp), ?_⟩
    obtain ⟨_, n, _, _, hn⟩ := hsize p.2 (List.mem_map.2 ⟨p, hp, rfl⟩)
    exact ⟨n, hn⟩)
  refine ⟨shared, hs, ?_, ?_⟩
  · have hmem : ∀ p ∈ pop, p.2 ∈ pop.map (·.2) := fun p hp => List.mem_map.2 ⟨p, hp, rfl⟩
    have aux : ∀ (q : List (Option K × G)) sh, (∀ p ∈ q, p.2 ∈ pop.map (·.2)) →
        List.Forall₂ (fun a b => ∃ x n, a.1 = some x ∧ S'.sizeOf a.2 = some n ∧
          b = (some (if minim then x * scaling decay n else x / scaling decay n), a.2)) q sh →
        List.Forall₂ (fun a b => b.2 = a.2 ∧ ∃ x y c : K, a.1 = some x ∧ b.1 = some y ∧ 1 ≤ c ∧
          y = (if minim then x * c else x / c) ∧
          (decay = none → c = ((pop.map (·.2)).countP (fun g => S'.imap g = S'.imap a.2) : Nat))) q sh := by
      intro q sh hq hqs
      induction hqs with
      | nil => exact .nil
      | @cons a b q sh hab _ ih =>
        refine .cons ?_ (ih (fun p hp => hq p (List.mem_cons_of_mem _ hp)))
        obtain ⟨x, n, h1, h2, h3⟩ := hab
        subst h3
        refine ⟨rfl, x, _, scaling decay n, h1, rfl, scaling_ge decay (hpos _ _ h2), rfl, ?_⟩
        rintro rfl
        obtain ⟨rep, m, e1, e2, e3⟩ := hsize a.2 (hq a List.mem_cons_self)
        rw [h2] at e3
        injection e3 with e3
        subst e3
        rw [e1, ← (c3 rep n e2).1]
        rfl
    exact aux pop shared hmem hf
  · intro l l' hl
    apply unshare_ok decay minim l l' hpos
    refine hl.imp ?_
    rintro a b (⟨h1, h2⟩ | ⟨i, h1, h2⟩)
    · refine .inl ⟨?_, h2⟩
      cases hg : S'.imap a.2 with
      | none => rfl
      | some rep =>
        exfalso
        have I := speciate_inv d sqrt hr (reach_nodup h) (pop.map (·.2))
        have := I.out a.2 h1
        change S'.imap a.2 = none at this
        rw [hg] at this
        cases this
    · obtain ⟨a', e1, x, n, e2, e3, e4⟩ := forall₂_get hf i a h1
      rw [h2] at e1
      injection e1 with e1
      subst e1
      exact .inr ⟨x, n, e2, e3, e4⟩

/-- Sharing a population of two species and reversing it on a reordered part of it plus a newcomer. -/
example : (spec0.speciate specDist (fun _ => 3) specRnd [1, 2, 9]).share none true [(some 5, 1), (some 7, 2), (some 4, 9)]
      = .ok [(some 10, 1), (some 14, 2), (some 4, 9)] ∧
    (spec0.speciate specDist (fun _ => 3) specRnd [1, 2, 9]).unshare none true [(some 4, 9), (none, 33), (some 14, 2)]
      = .ok [(some 4, 9), (none, 33), (some 7, 2)] := by decide +kernel

/-- **C34** (limit of the reversal).  An unscored individual that was speciated makes the reversal raise `TypeError`. -/
theorem C34_unscored_member_raises {S : Spec G K} (decay : Option K) (minim : Bool) (before after : List (Option K × G)) (g : G)
    {n : Nat} (hg : S.sizeOf g = some n)
    (hb : ∀ p ∈ before, p.1 ≠ none) :
    S.unshare decay minim (before ++ (none, g) :: after) = .error .typeError := by
  induction before with
  | nil => rw [List.nil_append, Spec.unshare, hg]
  | cons p before ih =>
    obtain ⟨s, g'⟩ := p
    have := ih (fun q hq => hb q (List.mem_cons_of_mem _ hq))
    rw [List.cons_append, Spec.unshare]
    cases hs : S.sizeOf g' with
    | none => simp only [this]
    | some m =>
      cases s with
      | none => exact absurd rfl (hb _ List.mem_cons_self)
      | some x => simp only [this]

example : (spec0.speciate specDist (fun _ => 3) specRnd [1, 2, 9]).sizeOf 2 = some 2 := by decide +kernel

omit [Field K] [LinearOrder K] in
theorem candidatesLoop_ok {S : Spec G K} {g : G} {rep : G} (hg : S.imap g = some rep) (pop : List (K × G))
    (h : ∀ p ∈ pop, S.imap p.2 ≠ none) :
    S.candidatesLoop g pop = .ok (pop.filter (fun p => S.imap p.2 = S.imap g ∧ p.2 ≠ g)) := by
  induction pop with
  | nil => rfl
  | cons p pop ih =>
    obtain ⟨s, c⟩ := p
    obtain ⟨a, ha⟩ := Option.ne_none_iff_exists'.1 (h _ List.mem_cons_self)
    dsimp only at ha
    rw [Spec.candidatesLoop, ha, hg, ih (fun q hq => h q (List.mem_cons_of_mem _ hq)), List.filter_cons]
    simp only [ha, hg, Option.some.injEq]
    by_cases hc : a = rep ∧ c ≠ g
    · simp [hc]
    · rw [if_neg hc, if_neg (by simpa using hc)]

omit [Field K] [LinearOrder K] in
theorem candidatesLoop_err {S : Spec G K} {g : G} (pop : List (K × G)) (hne : pop ≠ [])
    (h : S.imap g = none ∨ ∃ p ∈ pop, S.imap p.2 = none) :
    S.candidatesLoop g pop = .error .keyError := by
  induction pop with
  | nil => exact absurd rfl hne
  | cons p pop ih =>
    obtain ⟨s, c⟩ := p
    rw [Spec.candidatesLoop]
    cases hc : S.imap c with
    | none => rfl
    | some a =>
      cases hg : S.imap g with
      | none => rfl
      | some b =>
        rcases h with h | ⟨q, hq, hq'⟩
        · rw [hg] at h; cases h
        · rcases List.mem_cons.1 hq with e | hq
          · subst e
            rw [hc] at hq'
            cases hq'
          · simp only [ih (List.ne_nil_of_mem hq) (.inr ⟨q, hq, hq'⟩)]

/-- **C47.** Crossover candidates: exactly the other members of the species, in ascending order of score. -/
theorem C47_candidates {d : G → G → K} {sqrt : Nat → K} {S : Spec G K} (h : SpecReach sqrt S) {r : SpecRnd G}
    (hr : r.Honest) (pop : List G) {g : G} (hg : g ∈ pop) (sub : List (K × G)) (hsub : ∀ p ∈ sub, p.2 ∈ pop) :
    let S' := S.speciate d sqrt r pop
    (S'.candidates g sub).Perm (sub.filter (fun p => S'.imap p.2 = S'.imap g ∧ p.2 ≠ g)) ∧
    (S'.candidates g sub).Pairwise (fun a b => a.1 ≤ b.1) := by
  intro S'
  obtain ⟨c1, _⟩ := C31_partition h hr pop
  have hsome : ∀ x ∈ pop, S'.imap x ≠ none := by
    intro x hx
    obtain ⟨rep, _, h1, _⟩ := (c1 x).1 hx
    change S'.imap x = some rep at h1
    rw [h1]
    simp
  obtain ⟨rep, hrep⟩ := Option.ne_none_iff_exists'.1 (hsome g hg)
  have := candidatesLoop_ok hrep sub (fun p hp => hsome _ (hsub p hp))
  unfold Spec.candidates
  rw [this]
  dsimp only
  exact ⟨List.perm_insertionSort _ _, pairwise_sort_key (fun p : K × G => p.1) _⟩

omit [Field K] in
/-- **C47.** Someone outside the last speciation: no candidates, no exception. -/
theorem C47_unknown {S : Spec G K} {g : G} (pop : List (K × G))
    (h : S.imap g = none ∨ ∃ p ∈ pop, S.imap p.2 = none) : S.candidates g pop = [] := by
  unfold Spec.candidates
  by_cases hne : pop = []
  · subst hne
    simp [Spec.candidatesLoop]
  · rw [candidatesLoop_err pop hne h]

example : spec2.candidates 2 [(7, 5), (3, 2), (4, 3), (1, 11)] = [(4, 3), (7, 5)] := by decide +kernel

/-! Cases of the theorems above. -/

example := C31_partition (d := specDist) spec0_reach specRnd_honest [1, 2, 9, 2, 5]
example := C33_threshold_range (K := ℚ) spec0_reach
example := C47_candidates (d := specDist) spec0_reach specRnd_honest [1, 2, 9, 2, 5] (g := 2) (by simp) [(7, 5), (3, 2), (4, 1)] (by simp)

end Verif
