import Verif.Lemmas.Topology
import Mathlib.Algebra.Order.BigOperators.Group.List
import Mathlib.Algebra.BigOperators.Group.List.Lemmas
/-!
# Lemmas on the roulette wheel
-/

set_option linter.unusedSectionVars false

namespace Verif
variable {C K : Type} [Field K] [LinearOrder K] [IsStrictOrderedRing K]

theorem sum_map_div (l : List K) (t : K) : (l.map (fun x => x / t)).sum = l.sum / t := by
  induction l with
  | nil => simp
  | cons a l ih => simp [ih, add_div]

theorem sum_pos' {l : List K} (hne : l ≠ []) (h : ∀ x ∈ l, 0 < x) : 0 < l.sum := List.sum_pos l h hne

theorem raw_pos {p : Nat} {s : K} (hs : 0 < s) : 0 < 1 / s ^ p := by positivity

theorem rouletteProbs_ok {p : Nat} {scores : List K} (hne : scores ≠ []) (hpos : ∀ s ∈ scores, 0 < s) :
    rouletteProbs p scores = .ok ((scores.map (fun s => 1 / s ^ p)).map (fun x => x / (scores.map (fun s => 1 / s ^ p)).sum)) := by
  have hraw : ∀ x ∈ scores.map (fun s => 1 / s ^ p), 0 < x := by
    intro x hx
    obtain ⟨s, hs, rfl⟩ := List.mem_map.1 hx
    exact raw_pos (hpos s hs)
  have htot : 0 < (scores.map (fun s => 1 / s ^ p)).sum := sum_pos' (by simpa using hne) hraw
  unfold rouletteProbs
  simp only
  rw [if_neg, if_neg]
  · rintro ⟨x, hx, hlt⟩
    obtain ⟨y, hy, rfl⟩ := List.mem_map.1 hx
    exact absurd hlt (not_lt.2 (le_of_lt (div_pos (hraw y hy) htot)))
  · rintro (⟨s, hs, h0⟩ | h0)
    · exact absurd h0 (ne_of_gt (pow_pos (hpos s hs) p))
    · exact absurd h0 (ne_of_gt htot)

/-- The index picked is the one whose stretch of the unit interval contains the draw. -/
theorem cdfPick_iff (probs : List K) (acc u : K) (hnn : ∀ x ∈ probs, 0 ≤ x) (hu : acc ≤ u) (hu' : u < acc + probs.sum)
    (i : Nat) : cdfPick probs acc u = i ↔ acc + (probs.take i).sum ≤ u ∧ u < acc + (probs.take (i + 1)).sum := by
  induction probs generalizing acc i with
  | nil =>
    simp only [List.sum_nil, add_zero] at hu'
    exact absurd hu' (not_lt.2 hu)
  | cons p ps ih =>
    have hnn' : ∀ x ∈ ps, 0 ≤ x := fun x hx => hnn x (List.mem_cons_of_mem _ hx)
    rw [cdfPick]
    split
    · next h =>
      cases i with
      | zero => simp [hu, h]
      | succ i =>
        simp only [List.take_succ_cons, List.sum_cons]
        constructor
        · intro h; cases h
        · rintro ⟨h1, _⟩
          have : 0 ≤ (ps.take i).sum := List.sum_nonneg (fun x hx => hnn' x (List.mem_of_mem_take hx))
          linarith
    · next h =>
      push Not at h
      cases i with
      | zero =>
        simp only [List.take_zero, List.sum_nil, List.take_succ_cons, List.sum_cons]
        constructor
        · intro h; cases h
        · rintro ⟨_, h2⟩
          linarith
      | succ i =>
        have := ih (acc + p) hnn' h (by simpa [add_assoc] using hu') i
        simp only [List.take_succ_cons, List.sum_cons, Nat.add_right_cancel_iff]
        rw [this]
        simp only [add_assoc]

theorem cdfPick_lt (probs : List K) (acc u : K) (hu' : u < acc + probs.sum) (hne : probs ≠ []) :
    cdfPick probs acc u < probs.length := by
  induction probs generalizing acc with
  | nil => exact absurd rfl hne
  | cons p ps ih =>
    rw [cdfPick]
    split
    · simp
    · next h =>
      by_cases hps : ps = []
      · subst hps
        simp only [List.sum_cons, List.sum_nil, add_zero] at hu'
        exact absurd hu' h
      · have := ih (acc + p) (by simpa [add_assoc] using hu') hps
        simp
        omega

theorem reproduce_total {cfg : TopCfg C K} {choose : Nat → Nat} {pop : List (Indiv K)} (hch : ∀ n, choose n < pop.length)
    (hev : ∀ n c, ∃ c', cfg.ev n c = .ok c' ∧ cfg.chk c' = true) (n : Nat) (w : Pool C) :
    ∃ r, reproduce cfg choose pop n w = .ok r := by
  induction n generalizing w with
  | zero => exact ⟨_, rfl⟩
  | succ n ih =>
    rw [reproduce]
    obtain ⟨⟨s, i⟩, hp⟩ : ∃ p, pop[choose w.calls]? = some p := ⟨_, List.getElem?_eq_getElem (hch _)⟩
    obtain ⟨c, hc, hk⟩ := hev w.calls (w.heap i)
    have h1 : child cfg w i = .ok (w.alloc c).tick := by
      unfold child
      rw [hc]
    obtain ⟨⟨w2, rest⟩, hr⟩ := ih (w.alloc c).tick
    simp only [hp, h1, new_heap, hk, if_true, hr]
    exact ⟨_, rfl⟩

omit [Field K] [LinearOrder K] [IsStrictOrderedRing K]

theorem foldl_min_le (l : List Nat) (a : Nat) : l.foldl min a ≤ a ∧ ∀ x ∈ l, l.foldl min a ≤ x := by
  induction l generalizing a with
  | nil => simp
  | cons b l ih =>
    obtain ⟨h1, h2⟩ := ih (min a b)
    refine ⟨le_trans h1 (min_le_left _ _), ?_⟩
    intro x hx
    rcases List.mem_cons.1 hx with rfl | hx
    · exact le_trans h1 (min_le_right _ _)
    · exact h2 x hx

theorem foldl_min_mem (l : List Nat) (a : Nat) : l.foldl min a = a ∨ l.foldl min a ∈ l := by
  induction l generalizing a with
  | nil => simp
  | cons b l ih =>
    rw [List.foldl_cons]
    rcases ih (min a b) with h | h
    · rcases le_total a b with hab | hab
      · rw [min_eq_left hab] at h
        exact .inl (by rw [min_eq_left hab]; exact h)
      · rw [min_eq_right hab] at h
        right
        rw [min_eq_right hab, h]
        exact List.mem_cons_self
    · exact .inr (List.mem_cons_of_mem _ h)

theorem minIdx_spec {l : List Nat} (h : l ≠ []) : minIdx l ∈ l ∧ ∀ x ∈ l, minIdx l ≤ x := by
  cases l with
  | nil => exact absurd rfl h
  | cons a l =>
    obtain ⟨h1, h2⟩ := foldl_min_le l a
    constructor
    · rcases foldl_min_mem l a with h | h
      · exact List.mem_cons.2 (.inl h)
      · exact List.mem_cons_of_mem _ h
    · intro x hx
      rcases List.mem_cons.1 hx with rfl | hx
      · exact h1
      · exact h2 x hx

end Verif
