import Verif.Spec.Condense
import Mathlib.Tactic.FieldSimp
import Mathlib.Tactic.Ring
import Mathlib.Tactic.Linarith
import Mathlib.Tactic.LinearCombination
import Mathlib.Tactic.Positivity
import Mathlib.Algebra.Order.Ring.Rat
import Mathlib.Algebra.Field.Rat
/-!
# C114: the condensed figure of the comparison of methods
-/

namespace Verif

section
variable {K : Type} [Field K] [LinearOrder K]

omit [Field K] in
theorem sorted_proper {l : TimedLog K} (h : l.Pairwise (fun a b => a.1 < b.1)) : l.insertionSort (fun a b => a.1 ≤ b.1) = l :=
  List.Pairwise.insertionSort_eq (h.imp (fun h => le_of_lt h))

theorem interpSorted_before {l : TimedLog K} {x y t : K} (ht : t < x) : interpSorted t ((x, y) :: l) = none := by
  cases l with
  | nil => rfl
  | cons r l => obtain ⟨x1, y1⟩ := r; rw [interpSorted, if_pos ht]

theorem interpSorted_after {l : TimedLog K} {t : K} (ht : ∀ r ∈ l, r.1 < t) : interpSorted t l = none := by
  induction l with
  | nil => rfl
  | cons r l ih =>
    obtain ⟨x0, y0⟩ := r
    cases l with
    | nil => rfl
    | cons r l =>
      obtain ⟨x1, y1⟩ := r
      have h0 := ht (x0, y0) (by simp)
      have h1 := ht (x1, y1) (by simp)
      rw [interpSorted, if_neg (not_lt.2 (le_of_lt h0)), if_neg (not_le.2 h1)]
      exact ih (fun r hr => ht r (List.mem_cons_of_mem _ hr))

theorem interpSorted_in {before after : TimedLog K} {x0 y0 x1 y1 t : K} (h : (before ++ (x0, y0) :: (x1, y1) :: after).Pairwise (fun a b => a.1 < b.1)) (h0 : x0 ≤ t) (h1 : t ≤ x1) :
    interpSorted t (before ++ (x0, y0) :: (x1, y1) :: after) = some ((y1 - y0) / (x1 - x0) * (t - x0) + y0) := by
  induction before with
  | nil =>
    have hlt : x0 < x1 := (List.pairwise_cons.1 h).1 (x1, y1) (by simp)
    rw [List.nil_append, interpSorted, if_neg (not_lt.2 h0), if_pos h1, if_neg hlt.ne]
  | cons r before ih =>
    obtain ⟨a, b⟩ := r
    have hp := List.pairwise_cons.1 h
    have ih' := ih hp.2
    cases before with
    | nil =>
      have ha : a < x0 := hp.1 (x0, y0) (by simp)
      have hlt : x0 < x1 := (List.pairwise_cons.1 hp.2).1 (x1, y1) (by simp)
      rw [List.cons_append, List.nil_append, interpSorted, if_neg (not_lt.2 (le_of_lt (lt_of_lt_of_le ha h0)))]
      by_cases he : t ≤ x0
      · have : t = x0 := le_antisymm he h0
        subst this
        rw [if_pos he, if_neg ha.ne, sub_self, mul_zero, zero_add, div_mul_cancel₀ _ (sub_ne_zero.2 ha.ne'), sub_add_cancel]
      · rw [if_neg he]; exact ih'
    | cons r before =>
      obtain ⟨c, d⟩ := r
      have hc : c < x0 := (List.pairwise_cons.1 hp.2).1 (x0, y0) (by simp)
      have ha : a < c := hp.1 (c, d) (by simp)
      rw [List.cons_append, List.cons_append, interpSorted, if_neg (not_lt.2 (le_of_lt (lt_of_lt_of_le (ha.trans hc) h0))), if_neg (not_le.2 (lt_of_lt_of_le hc h0))]
      exact ih'

omit [Field K] in
/-- Somewhere between the first and the last row. -/
theorem find_gap (l : TimedLog K) (r : K × K) (hl : l ≠ []) {t : K} (h0 : r.1 ≤ t) (h1 : ∃ q ∈ l, t ≤ q.1) :
    ∃ before x0 y0 x1 y1 after, r :: l = before ++ (x0, y0) :: (x1, y1) :: after ∧ x0 ≤ t ∧ t ≤ x1 := by
  induction l generalizing r with
  | nil => exact absurd rfl hl
  | cons q l ih =>
    obtain ⟨x0, y0⟩ := r
    obtain ⟨x1, y1⟩ := q
    by_cases h : t ≤ x1
    · exact ⟨[], x0, y0, x1, y1, l, rfl, h0, h⟩
    · have hq : ∃ q ∈ l, t ≤ q.1 := by
        obtain ⟨q, hq, hle⟩ := h1
        rcases List.mem_cons.1 hq with rfl | hq
        · exact absurd hle h
        · exact ⟨q, hq, hle⟩
      have hne : l ≠ [] := hq.elim (fun q h => List.ne_nil_of_mem h.1)
      obtain ⟨before, a, b, c, d, after, e, h2, h3⟩ := ih (x1, y1) hne (le_of_lt (not_le.1 h)) hq
      exact ⟨(x0, y0) :: before, a, b, c, d, after, by rw [e]; rfl, h2, h3⟩

/-- **C114 (one log).**  The value of a log at a time from its first to its last row lies on the line between two neighbouring rows, so between their values, and at the time of a row
it is that of the row; before the first and after the last row there is no value. -/
theorem C114_interpolation {l : TimedLog K} (hl : ProperLog l) {x0 x1 : K} (hb : BeginsAt l x0) (he : EndsAt l x1) (t : K) :
    (x0 ≤ t → t ≤ x1 → ∃ v, interpAt l t = some v ∧ OnLog l t v) ∧ (∀ v, interpAt l t = some v → OnLog l t v ∧ x0 ≤ t ∧ t ≤ x1) ∧ (t < x0 → interpAt l t = none) ∧ (x1 < t → interpAt l t = none) ∧
    (∀ y, (t, y) ∈ l → interpAt l t = some y) := by
  unfold interpAt
  rw [sorted_proper hl.later]
  have line : ∀ {before after : TimedLog K} {a b c d : K}, l = before ++ (a, b) :: (c, d) :: after → a ≤ t → t ≤ c → ∃ v, interpSorted t l = some v ∧ OnLog l t v := by
    intro before after a b c d e h0 h1
    have hp := hl.later
    rw [e] at hp
    have hlt : a < c := (List.pairwise_cons.1 (List.pairwise_append.1 hp).2.1).1 (c, d) (by simp)
    refine ⟨_, by rw [e]; exact interpSorted_in hp h0 h1, before, a, b, c, d, after, e, h0, h1, ?_⟩
    rw [add_sub_cancel_right, mul_right_comm, div_mul_cancel₀ _ (sub_ne_zero.2 hlt.ne')]
  obtain ⟨y0, rest, hbe⟩ := hb
  obtain ⟨y1, front, hee⟩ := he
  have hin : x0 ≤ t → t ≤ x1 → ∃ v, interpSorted t l = some v ∧ OnLog l t v := by
    intro h0 h1
    have hrest : rest ≠ [] := by
      intro e
      have := hl.two
      rw [hbe, e] at this
      simp at this
    have hlast : (x1, y1) ∈ rest := by
      have h2 : l.getLast? = some (x1, y1) := by rw [hee]; simp
      rw [hbe, List.getLast?_cons_of_ne_nil hrest] at h2
      exact List.mem_of_getLast? h2
    obtain ⟨before, a, b, c, d, after, e, h2, h3⟩ := find_gap rest (x0, y0) hrest h0 ⟨_, hlast, h1⟩
    exact line (by rw [hbe, e]) h2 h3
  have hlow : t < x0 → interpSorted t l = none := fun h => by rw [hbe]; exact interpSorted_before h
  have hhigh : x1 < t → interpSorted t l = none := by
    intro h
    refine interpSorted_after (fun r hr => ?_)
    have hp := hl.later
    rw [hee] at hp hr
    rcases List.mem_append.1 hr with hr | hr
    · exact ((List.pairwise_append.1 hp).2.2 r hr (x1, y1) (by simp)).trans h
    · rw [List.mem_singleton.1 hr]; exact h
  refine ⟨hin, fun v hv => ?_, hlow, hhigh, fun y hy => ?_⟩
  · have h0 : x0 ≤ t := by
      by_contra h
      rw [hlow (not_le.1 h)] at hv; cases hv
    have h1 : t ≤ x1 := by
      by_contra h
      rw [hhigh (not_le.1 h)] at hv; cases hv
    obtain ⟨v', e, hon⟩ := hin h0 h1
    rw [e] at hv
    injection hv with hv
    exact ⟨hv ▸ hon, h0, h1⟩
  · obtain ⟨before, after, e⟩ := List.append_of_mem hy
    have hp := hl.later
    cases after with
    | cons q after =>
      obtain ⟨c, d⟩ := q
      rw [e] at hp
      have hlt : t < c := (List.pairwise_cons.1 (List.pairwise_append.1 hp).2.1).1 (c, d) (by simp)
      rw [e, interpSorted_in hp (le_refl _) (le_of_lt hlt), sub_self, mul_zero, zero_add]
    | nil =>
      rcases List.eq_nil_or_concat before with rfl | ⟨before, q, rfl⟩
      · have := hl.two
        rw [e] at this
        simp at this
      · obtain ⟨a, b⟩ := q
        have e' : l = before ++ (a, b) :: (t, y) :: [] := by rw [e]; simp
        rw [e'] at hp
        have hlt : a < t := (List.pairwise_cons.1 (List.pairwise_append.1 hp).2.1).1 (t, y) (by simp)
        rw [e', interpSorted_in hp (le_of_lt hlt) (le_refl _), div_mul_cancel₀ _ (sub_ne_zero.2 hlt.ne'), sub_add_cancel]

variable [IsStrictOrderedRing K]

/-- A value on the line lies between the values of the two rows. -/
theorem onLog_between {l : TimedLog K} (hl : ProperLog l) {t v : K} (h : OnLog l t v) {lo hi : K} (hlo : ∀ r ∈ l, lo ≤ r.2) (hhi : ∀ r ∈ l, r.2 ≤ hi) : lo ≤ v ∧ v ≤ hi := by
  obtain ⟨before, x0, y0, x1, y1, after, e, h0, h1, hv⟩ := h
  have hp := hl.later
  rw [e] at hp
  have hlt : x0 < x1 := (List.pairwise_cons.1 (List.pairwise_append.1 hp).2.1).1 (x1, y1) (by simp)
  have m0 : (x0, y0) ∈ l := by rw [e]; simp
  have m1 : (x1, y1) ∈ l := by rw [e]; simp
  have a0 := hlo _ m0; have a1 := hlo _ m1; have b0 := hhi _ m0; have b1 := hhi _ m1
  dsimp only at a0 a1 b0 b1
  have hd : 0 < x1 - x0 := sub_pos.2 hlt
  have e2 : v * (x1 - x0) = y0 * (x1 - t) + y1 * (t - x0) := by linear_combination hv
  constructor
  · refine le_of_mul_le_mul_right ?_ hd
    rw [e2]
    nlinarith [mul_nonneg (sub_nonneg.2 a0) (sub_nonneg.2 h1), mul_nonneg (sub_nonneg.2 a1) (sub_nonneg.2 h0)]
  · refine le_of_mul_le_mul_right ?_ hd
    rw [e2]
    nlinarith [mul_nonneg (sub_nonneg.2 b0) (sub_nonneg.2 h1), mul_nonneg (sub_nonneg.2 b1) (sub_nonneg.2 h0)]


/-! ### Means, least and greatest values -/

omit [Field K] [IsStrictOrderedRing K] in
theorem foldl_min_spec (v : List K) (a : K) : v.foldl min a ∈ a :: v ∧ ∀ x ∈ a :: v, v.foldl min a ≤ x := by
  induction v generalizing a with
  | nil => simp
  | cons b v ih =>
    obtain ⟨h1, h2⟩ := ih (min a b)
    rw [List.foldl_cons]
    refine ⟨?_, fun x hx => ?_⟩
    · rcases List.mem_cons.1 h1 with h | h
      · rw [h]; rcases min_choice a b with e | e <;> rw [e] <;> simp
      · simp [h]
    · have h0 := h2 (min a b) (by simp)
      rcases List.mem_cons.1 hx with rfl | hx
      · exact h0.trans (min_le_left _ _)
      · rcases List.mem_cons.1 hx with rfl | hx
        · exact h0.trans (min_le_right _ _)
        · exact h2 x (List.mem_cons_of_mem _ hx)

omit [Field K] [IsStrictOrderedRing K] in
theorem foldl_max_spec (v : List K) (a : K) : v.foldl max a ∈ a :: v ∧ ∀ x ∈ a :: v, x ≤ v.foldl max a := by
  induction v generalizing a with
  | nil => simp
  | cons b v ih =>
    obtain ⟨h1, h2⟩ := ih (max a b)
    rw [List.foldl_cons]
    refine ⟨?_, fun x hx => ?_⟩
    · rcases List.mem_cons.1 h1 with h | h
      · rw [h]; rcases max_choice a b with e | e <;> rw [e] <;> simp
      · simp [h]
    · have h0 := h2 (max a b) (by simp)
      rcases List.mem_cons.1 hx with rfl | hx
      · exact (le_max_left _ _).trans h0
      · rcases List.mem_cons.1 hx with rfl | hx
        · exact (le_max_right _ _).trans h0
        · exact h2 x (List.mem_cons_of_mem _ hx)

theorem shows_row (t : K) (ys : List (Option K)) : ShowsValues ⟨t, nanMean ys, nanMin ys, nanMax ys⟩ (ys.filterMap id) := by
  unfold ShowsValues nanMean nanMin nanMax
  cases hv : ys.filterMap id with
  | nil => exact ⟨fun _ => ⟨by dsimp only; rw [if_pos rfl], rfl, rfl⟩, fun h => absurd rfl h⟩
  | cons a v =>
    refine ⟨fun h => by simp at h, fun _ => ?_⟩
    obtain ⟨l1, l2⟩ := foldl_min_spec v a
    obtain ⟨m1, m2⟩ := foldl_max_spec v a
    have hlen : (((a :: v).length : Nat) : K) ≠ 0 := Nat.cast_ne_zero.2 (by simp)
    exact ⟨_, _, _, by dsimp only; rw [if_neg (List.cons_ne_nil a v)], rfl, rfl, div_mul_cancel₀ _ hlen, l1, m1, fun x hx => ⟨l2 x hx, m2 x hx⟩⟩

/-! ### The end of the figure -/

omit [IsStrictOrderedRing K] [Field K] in
theorem foldl_max_time (rows : TimedLog K) (m : K) : rows.foldl (fun m q => max m q.1) m = (rows.map Prod.fst).foldl max m := by
  rw [List.foldl_map]

omit [IsStrictOrderedRing K] [Field K] in
theorem maxTime_proper {l : TimedLog K} {x : K} (hl : l.Pairwise (fun a b => a.1 < b.1)) (he : EndsAt l x) : maxTime l = some x := by
  obtain ⟨y, front, e⟩ := he
  cases l with
  | nil => simp at e
  | cons r rows =>
    unfold maxTime
    dsimp only
    rw [foldl_max_time]
    obtain ⟨h1, h2⟩ := foldl_max_spec (rows.map Prod.fst) r.1
    have hmem : x ∈ r.1 :: rows.map Prod.fst := by
      have : (x, y) ∈ r :: rows := by rw [e]; simp
      exact List.mem_map_of_mem (f := Prod.fst) this
    have hall : ∀ z ∈ r.1 :: rows.map Prod.fst, z ≤ x := by
      intro z hz
      obtain ⟨q, hq, rfl⟩ := List.mem_map.1 (show z ∈ (r :: rows).map Prod.fst from hz)
      rw [e] at hq hl
      rcases List.mem_append.1 hq with hq | hq
      · exact le_of_lt ((List.pairwise_append.1 hl).2.2 q hq (x, y) (by simp))
      · rw [List.mem_singleton.1 hq]
    rw [le_antisymm (hall _ h1) (h2 x hmem)]

omit [IsStrictOrderedRing K] [Field K] [LinearOrder K] in
theorem proper_ends {l : TimedLog K} (h : l ≠ []) : ∃ x, EndsAt l x := by
  rcases List.eq_nil_or_concat l with rfl | ⟨front, q, rfl⟩
  · exact absurd rfl h
  · exact ⟨q.1, q.2, front, by simp⟩

omit [IsStrictOrderedRing K] [Field K] [LinearOrder K] in
theorem endsAt_unique {l : TimedLog K} {x z : K} (h : EndsAt l x) (h' : EndsAt l z) : x = z := by
  obtain ⟨y, f, e⟩ := h
  obtain ⟨y', f', e'⟩ := h'
  have h1 : l.getLast? = some (x, y) := by rw [e]; simp
  have h2 : l.getLast? = some (z, y') := by rw [e']; simp
  rw [h1] at h2
  injection h2 with h2
  exact congrArg Prod.fst h2

omit [IsStrictOrderedRing K] [Field K] in
theorem condenseEnd_some (logs : List (TimedLog K)) (hl : ∀ l ∈ logs, l ≠ [] ∧ l.Pairwise (fun a b => a.1 < b.1)) (m : K) :
    ∃ T, condenseEnd logs (some m) = some T ∧ T ≤ m ∧ (∀ l ∈ logs, ∀ x, EndsAt l x → T ≤ x) ∧ (T = m ∨ ∃ l ∈ logs, EndsAt l T) := by
  induction logs generalizing m with
  | nil => exact ⟨m, rfl, le_refl _, by simp, Or.inl rfl⟩
  | cons l ls ih =>
    obtain ⟨hne, hp⟩ := hl l (by simp)
    obtain ⟨x, hx⟩ := proper_ends hne
    obtain ⟨T, e, h1, h2, h3⟩ := ih (fun l h => hl l (List.mem_cons_of_mem _ h)) (if x < m then x else m)
    have hmin : (if x < m then x else m) ≤ x ∧ (if x < m then x else m) ≤ m := by
      split
      · exact ⟨le_refl _, le_of_lt (by assumption)⟩
      · exact ⟨not_lt.1 (by assumption), le_refl _⟩
    refine ⟨T, by simp only [condenseEnd, maxTime_proper hp hx]; exact e, h1.trans hmin.2, ?_, ?_⟩
    · intro l' hl' z hz
      rcases List.mem_cons.1 hl' with rfl | hl'
      · rw [endsAt_unique hz hx]; exact h1.trans hmin.1
      · exact h2 l' hl' z hz
    · rcases h3 with h3 | ⟨l', hl', h3⟩
      · split at h3
        · exact Or.inr ⟨l, by simp, h3 ▸ hx⟩
        · exact Or.inl h3
      · exact Or.inr ⟨l', List.mem_cons_of_mem _ hl', h3⟩

omit [IsStrictOrderedRing K] [Field K] in
theorem condenseEnd_none {logs : List (TimedLog K)} (h0 : logs ≠ []) (hl : ∀ l ∈ logs, l ≠ [] ∧ l.Pairwise (fun a b => a.1 < b.1)) :
    ∃ T, condenseEnd logs none = some T ∧ (∀ l ∈ logs, ∀ x, EndsAt l x → T ≤ x) ∧ ∃ l ∈ logs, EndsAt l T := by
  cases logs with
  | nil => exact absurd rfl h0
  | cons l ls =>
    obtain ⟨hne, hp⟩ := hl l (by simp)
    obtain ⟨x, hx⟩ := proper_ends hne
    obtain ⟨T, e, h1, h2, h3⟩ := condenseEnd_some ls (fun l h => hl l (List.mem_cons_of_mem _ h)) x
    refine ⟨T, by simp only [condenseEnd, maxTime_proper hp hx]; exact e, ?_, ?_⟩
    · intro l' hl' z hz
      rcases List.mem_cons.1 hl' with rfl | hl'
      · rw [endsAt_unique hz hx]; exact h1
      · exact h2 l' hl' z hz
    · rcases h3 with h3 | ⟨l', hl', h3⟩
      · exact ⟨l, by simp, h3 ▸ hx⟩
      · exact ⟨l', List.mem_cons_of_mem _ hl', h3⟩

/-! ### The figure -/

omit [IsStrictOrderedRing K] in
/-- The values of the runs at a time before every end. -/
theorem started_values (logs : List (TimedLog K)) (hl : ∀ l ∈ logs, ProperLog l) {t : K} (ht : ∀ l ∈ logs, ∀ x, EndsAt l x → t ≤ x) :
    List.Forall₂ (fun l v => interpAt l t = some v ∧ OnLog l t v) (logs.filter (hasLogged t)) ((logs.map (fun l => interpAt l t)).filterMap id) := by
  induction logs with
  | nil => exact List.Forall₂.nil
  | cons l ls ih =>
    have ih' := ih (fun l h => hl l (List.mem_cons_of_mem _ h)) (fun l h => ht l (List.mem_cons_of_mem _ h))
    have hp := hl l (by simp)
    cases l with
    | nil => have := hp.two; simp at this
    | cons r rows =>
      obtain ⟨x, hx⟩ := proper_ends (l := r :: rows) (by simp)
      have hi := C114_interpolation hp (x0 := r.1) ⟨r.2, rows, rfl⟩ hx t
      rw [List.map_cons]
      by_cases h : r.1 ≤ t
      · obtain ⟨v, hv, hon⟩ := hi.1 h (ht _ (by simp) x hx)
        rw [List.filter_cons_of_pos (by simp [hasLogged, h]), hv]
        exact List.Forall₂.cons ⟨hv, hon⟩ ih'
      · rw [List.filter_cons_of_neg (by simp [hasLogged, h]), hi.2.2.1 (not_le.1 h)]
        exact ih'

omit [IsStrictOrderedRing K] in
theorem condense_ok {n : Nat} {logs : List (TimedLog K)} (h0 : 0 < n) (hn : n ≤ logs.length) {T : K} (hT : condenseEnd logs none = some T) :
    condense n logs = .ok ((condenseGrid T).map (fun t => ⟨t, nanMean ((logs.take n).map (fun l => interpAt l t)), nanMin ((logs.take n).map (fun l => interpAt l t)), nanMax ((logs.take n).map (fun l => interpAt l t))⟩)) := by
  unfold condense
  rw [if_neg (by omega), if_neg (by omega), hT]

theorem grid_point (T : K) {j : Nat} {t : K} (h : (condenseGrid T)[j]? = some t) : j < 1000 ∧ t * 999 = (j : K) * T := by
  unfold condenseGrid at h
  rw [List.getElem?_map, Option.map_eq_some_iff] at h
  obtain ⟨i, hi, e⟩ := h
  obtain ⟨hlt, hi⟩ := List.getElem?_eq_some_iff.1 hi
  rw [List.getElem_range] at hi
  subst hi
  refine ⟨by simpa using hlt, ?_⟩
  rw [← e]
  split
  · rename_i h; rw [h]; push_cast; ring
  · rw [mul_assoc, div_mul_cancel₀]
    exact_mod_cast (show (999 : K) ≠ 0 from by exact_mod_cast (Nat.cast_ne_zero (R := K) (n := 999)).2 (by decide))

/-- **C114 (the figure of a method).**  It has a thousand points, equally spaced from time zero to the time at which the first of all logs of the method ends.  A point shows mean, least and
greatest of the values of those of the first `n` runs that have logged a row by then, each read off its log; where no run has, the point is empty. -/
theorem C114_figure {n : Nat} {logs : List (TimedLog K)} (h0 : 0 < n) (hn : n ≤ logs.length) (hl : ∀ l ∈ logs, ProperLog l) (hpos : ∀ l ∈ logs, ∀ r ∈ l, 0 ≤ r.1) :
    ∃ pts T, condense n logs = .ok pts ∧ pts.length = 1000 ∧ (∃ l ∈ logs, EndsAt l T) ∧ (∀ l ∈ logs, ∀ x, EndsAt l x → T ≤ x) ∧
      (∀ (j : Nat) p, pts[j]? = some p → p.t * 999 = (j : K) * T) ∧
      ∀ p ∈ pts, 0 ≤ p.t ∧ p.t ≤ T ∧ ∃ vals, List.Forall₂ (fun l v => OnLog l p.t v) ((logs.take n).filter (hasLogged p.t)) vals ∧ ShowsValues p vals := by
  have hne : logs ≠ [] := by rintro rfl; simp at hn; omega
  have hl' : ∀ l ∈ logs, l ≠ [] ∧ l.Pairwise (fun a b => a.1 < b.1) := fun l h => ⟨by rintro rfl; have := (hl _ h).two; simp at this, (hl l h).later⟩
  obtain ⟨T, hT, h1, l0, hl0, h2⟩ := condenseEnd_none hne hl'
  have hT0 : 0 ≤ T := by
    obtain ⟨y, f, e⟩ := h2
    exact hpos l0 hl0 (T, y) (by rw [e]; simp)
  have key : ∀ (j : Nat) t, (condenseGrid T)[j]? = some t → 0 ≤ t ∧ t ≤ T := by
    intro j t h
    obtain ⟨hj, e⟩ := grid_point T h
    have hj0 : (0 : K) ≤ j := Nat.cast_nonneg j
    have hj1 : (j : K) ≤ 999 := by exact_mod_cast (Nat.cast_le (α := K)).2 (show j ≤ 999 by omega)
    constructor
    · nlinarith [mul_nonneg hj0 hT0]
    · nlinarith [mul_le_mul_of_nonneg_right hj1 hT0]
  refine ⟨_, T, condense_ok h0 hn hT, by simp [condenseGrid], ⟨l0, hl0, h2⟩, h1, ?_, ?_⟩
  · intro j p hp
    rw [List.getElem?_map, Option.map_eq_some_iff] at hp
    obtain ⟨t, ht, rfl⟩ := hp
    exact (grid_point T ht).2
  · intro p hp
    obtain ⟨t, ht, rfl⟩ := List.mem_map.1 hp
    obtain ⟨j, hj⟩ := List.getElem?_of_mem ht
    obtain ⟨k0, k1⟩ := key j t hj
    refine ⟨k0, k1, _, ?_, shows_row _ _⟩
    refine (started_values (logs.take n) (fun l h => hl l (List.mem_of_mem_take h)) (fun l h x hx => k1.trans (h1 l (List.mem_of_mem_take h) x hx))).imp ?_
    exact fun _ _ h => h.2

/-- **C114 (the mean is among the values).**  Where a point is not empty, its mean lies between its least and its greatest value, and all three within any bounds of the logged means. -/
theorem C114_range {n : Nat} {logs : List (TimedLog K)} (hl : ∀ l ∈ logs, ProperLog l) (hpos : ∀ l ∈ logs, ∀ r ∈ l, 0 ≤ r.1) {pts : List (CondensedPoint K)}
    (hc : condense n logs = .ok pts) {p : CondensedPoint K} (hp : p ∈ pts) {lo hi : K} (hlo : ∀ l ∈ logs.take n, ∀ r ∈ l, lo ≤ r.2) (hhi : ∀ l ∈ logs.take n, ∀ r ∈ l, r.2 ≤ hi) :
    (p.avg = none ∧ p.low = none ∧ p.high = none ∧ ∀ l ∈ logs.take n, ∀ r ∈ l, p.t < r.1) ∨
    ∃ a b c, p.avg = some a ∧ p.low = some b ∧ p.high = some c ∧ lo ≤ b ∧ b ≤ a ∧ a ≤ c ∧ c ≤ hi := by
  have hn : n ≤ logs.length := by
    by_contra h
    rw [condense, if_pos (by omega)] at hc; cases hc
  have h0 : 0 < n := by
    by_contra h
    rw [condense, if_neg (by omega), if_pos (by omega)] at hc; cases hc
  obtain ⟨pts', T, e, -, -, -, -, hpts⟩ := C114_figure h0 hn hl hpos
  rw [e] at hc
  injection hc with hc
  subst hc
  obtain ⟨-, -, vals, hf, hs⟩ := hpts p hp
  by_cases hv : vals = []
  · left
    obtain ⟨h1, h2, h3⟩ := hs.1 hv
    refine ⟨h1, h2, h3, fun l hl' r hr => ?_⟩
    subst hv
    have hnone : (logs.take n).filter (hasLogged p.t) = [] := List.forall₂_nil_right_iff.1 hf
    have hno := List.filter_eq_nil_iff.1 hnone l hl'
    have hpr := (hl l (List.mem_of_mem_take hl')).later
    cases l with
    | nil => simp at hr
    | cons q rows =>
      have hq : p.t < q.1 := by simpa [hasLogged] using hno
      rcases List.mem_cons.1 hr with rfl | hr
      · exact hq
      · exact hq.trans ((List.pairwise_cons.1 hpr).1 r hr)
  · right
    obtain ⟨a, b, c, h1, h2, h3, h4, h5, h6, h7⟩ := hs.2 hv
    have hbound : ∀ v ∈ vals, lo ≤ v ∧ v ≤ hi := by
      intro v hv'
      obtain ⟨i, hi', e'⟩ := List.getElem_of_mem hv'
      have hlen := hf.length_eq
      have hrel := hf.get (i := i) (by rw [hlen]; exact hi') hi'
      have hmem : ((logs.take n).filter (hasLogged p.t))[i]'(by rw [hlen]; exact hi') ∈ logs.take n := (List.mem_filter.1 (List.getElem_mem _)).1
      rw [List.get_eq_getElem, List.get_eq_getElem, e'] at hrel
      exact onLog_between (hl _ (List.mem_of_mem_take hmem)) hrel (hlo _ hmem) (hhi _ hmem)
    have hlen : (0 : K) < (vals.length : K) := Nat.cast_pos.2 (List.length_pos_iff.2 hv)
    have s1 : (vals.length : K) * b ≤ vals.sum := by
      rw [← nsmul_eq_mul]; exact List.card_nsmul_le_sum vals b (fun x hx => (h7 x hx).1)
    have s2 : vals.sum ≤ (vals.length : K) * c := by
      rw [← nsmul_eq_mul]; exact List.sum_le_card_nsmul vals c (fun x hx => (h7 x hx).2)
    refine ⟨a, b, c, h1, h2, h3, (hbound b h5).1, ?_, ?_, (hbound c h6).2⟩
    · refine le_of_mul_le_mul_right ?_ hlen
      rw [h4, mul_comm]; exact s1
    · refine le_of_mul_le_mul_right ?_ hlen
      rw [h4, mul_comm c]; exact s2

/-- A value on the line of a log that never rises is not above its first value. -/
theorem interp_le_first {x y s w : K} {rest : TimedLog K} (hp : ((x, y) :: rest).Pairwise (fun a b => a.1 < b.1)) (hn : NeverRises ((x, y) :: rest)) (h : interpSorted s ((x, y) :: rest) = some w) : w ≤ y := by
  induction rest generalizing x y with
  | nil => cases h
  | cons q rest ih =>
    obtain ⟨x1, y1⟩ := q
    have hlt : x < x1 := (List.pairwise_cons.1 hp).1 (x1, y1) (by simp)
    have hy : y1 ≤ y := (List.pairwise_cons.1 hn).1 (x1, y1) (by simp)
    rw [interpSorted] at h
    split at h
    · cases h
    · rename_i h0
      split at h
      · rw [if_neg hlt.ne] at h
        injection h with h
        have h1 : (y1 - y) / (x1 - x) ≤ 0 := div_nonpos_of_nonpos_of_nonneg (sub_nonpos.2 hy) (sub_nonneg.2 hlt.le)
        have h2 := mul_nonpos_of_nonpos_of_nonneg h1 (sub_nonneg.2 (not_lt.1 h0))
        rw [← h]; linarith
      · exact (ih (List.pairwise_cons.1 hp).2 (List.pairwise_cons.1 hn).2 h).trans hy

theorem interp_antitone {l : TimedLog K} (hp : l.Pairwise (fun a b => a.1 < b.1)) (hn : NeverRises l) {t s v w : K} (hts : t ≤ s) (hv : interpSorted t l = some v) (hw : interpSorted s l = some w) : w ≤ v := by
  induction l with
  | nil => cases hv
  | cons r l ih =>
    obtain ⟨x, y⟩ := r
    cases l with
    | nil => cases hv
    | cons q rest =>
      obtain ⟨x1, y1⟩ := q
      have hlt : x < x1 := (List.pairwise_cons.1 hp).1 (x1, y1) (by simp)
      have hy : y1 ≤ y := (List.pairwise_cons.1 hn).1 (x1, y1) (by simp)
      have hslope : (y1 - y) / (x1 - x) ≤ 0 := div_nonpos_of_nonpos_of_nonneg (sub_nonpos.2 hy) (sub_nonneg.2 hlt.le)
      have hv0 := hv
      have hw0 := hw
      rw [interpSorted] at hv hw
      split at hv
      · cases hv
      · rename_i h0
        rw [if_neg (not_lt.2 ((not_lt.1 h0).trans hts))] at hw
        split at hv
        · rename_i h1
          rw [if_neg hlt.ne] at hv
          injection hv with hv
          split at hw
          · rw [if_neg hlt.ne] at hw
            injection hw with hw
            have := mul_le_mul_of_nonpos_left (sub_le_sub_right hts x) hslope
            rw [← hv, ← hw]; linarith
          · have hle := interp_le_first (List.pairwise_cons.1 hp).2 (List.pairwise_cons.1 hn).2 hw
            have e : (y1 - y) / (x1 - x) * (x1 - x) = y1 - y := div_mul_cancel₀ _ (sub_ne_zero.2 hlt.ne')
            have := mul_le_mul_of_nonpos_left (sub_le_sub_right h1 x) hslope
            rw [← hv]; linarith
        · rename_i h1
          rw [if_neg (not_le.2 (lt_of_lt_of_le (not_le.1 h1) hts))] at hw
          exact ih (List.pairwise_cons.1 hp).2 (List.pairwise_cons.1 hn).2 hv hw

theorem forall₂_values {L : List (TimedLog K)} {t s : K} (hp : ∀ l ∈ L, ProperLog l ∧ NeverRises l) (hts : t ≤ s) {v w : List K}
    (hv : List.Forall₂ (fun l v => interpAt l t = some v) L v) (hw : List.Forall₂ (fun l v => interpAt l s = some v) L w) : w.length = v.length ∧ w.sum ≤ v.sum := by
  induction hv generalizing w with
  | nil => cases hw; simp
  | @cons l a L v h1 _ ih =>
    cases hw with
    | @cons _ b _ w h2 h3 =>
      obtain ⟨e1, e2⟩ := ih (fun l h => hp l (List.mem_cons_of_mem _ h)) h3
      obtain ⟨hq, hn⟩ := hp l (by simp)
      unfold interpAt at h1 h2
      rw [sorted_proper hq.later] at h1 h2
      have := interp_antitone hq.later hn hts h1 h2
      exact ⟨by simp [e1], by simp only [List.sum_cons]; exact add_le_add this e2⟩

/-- **C114 (once every run has logged).**  From the time on at which every run has logged a row, the mean of runs that never rise does not rise. -/
theorem C114_settled {n : Nat} {logs : List (TimedLog K)} (hl : ∀ l ∈ logs, ProperLog l) (hpos : ∀ l ∈ logs, ∀ r ∈ l, 0 ≤ r.1) (hr : ∀ l ∈ logs.take n, NeverRises l)
    {pts : List (CondensedPoint K)} (hc : condense n logs = .ok pts) {p q : CondensedPoint K} (hp : p ∈ pts) (hq : q ∈ pts) (hall : ∀ l ∈ logs.take n, ∃ x, BeginsAt l x ∧ x ≤ p.t) (hpq : p.t ≤ q.t) :
    ∃ a b, p.avg = some a ∧ q.avg = some b ∧ b ≤ a := by
  have hn : n ≤ logs.length := by
    by_contra h
    rw [condense, if_pos (by omega)] at hc; cases hc
  have h0 : 0 < n := by
    by_contra h
    rw [condense, if_neg (by omega), if_pos (by omega)] at hc; cases hc
  have hne : logs ≠ [] := by rintro rfl; simp at hn; omega
  have hl' : ∀ l ∈ logs, l ≠ [] ∧ l.Pairwise (fun a b => a.1 < b.1) := fun l h => ⟨by rintro rfl; have := (hl _ h).two; simp at this, (hl l h).later⟩
  obtain ⟨T, hT, -⟩ := condenseEnd_none hne hl'
  obtain ⟨pts', T', e, -, -, hends, -, hpts⟩ := C114_figure h0 hn hl hpos
  have hc' := hc
  rw [e] at hc'
  injection hc' with hc'
  subst hc'
  rw [condense_ok h0 hn hT] at hc
  injection hc with hc
  have vals : ∀ r ∈ pts', p.t ≤ r.t → ∃ v, List.Forall₂ (fun l v => interpAt l r.t = some v) (logs.take n) v ∧ r.avg = some (v.sum / (v.length : K)) := by
    intro r hr' hpr
    obtain ⟨-, hrT, -⟩ := hpts r hr'
    rw [← hc] at hr'
    obtain ⟨t, ht, rfl⟩ := List.mem_map.1 hr'
    dsimp only at hrT hpr ⊢
    have hf := started_values (logs.take n) (fun l h => hl l (List.mem_of_mem_take h)) (t := t) (fun l h x hx => hrT.trans (hends l (List.mem_of_mem_take h) x hx))
    have hfil : (logs.take n).filter (hasLogged t) = logs.take n := by
      refine List.filter_eq_self.2 (fun l h => ?_)
      obtain ⟨x, ⟨y, rest, rfl⟩, hx⟩ := hall l h
      simp only [hasLogged, decide_eq_true_eq]
      exact hx.trans hpr
    rw [hfil] at hf
    refine ⟨_, hf.imp (fun _ _ h => h.1), ?_⟩
    unfold nanMean
    dsimp only
    rw [if_neg]
    intro hnil
    rw [hnil] at hf
    have hz := List.forall₂_nil_right_iff.1 hf
    have := congrArg List.length hz
    rw [List.length_take, List.length_nil] at this
    omega
  obtain ⟨v, hv, ev⟩ := vals p hp (le_refl _)
  obtain ⟨w, hw, ew⟩ := vals q hq hpq
  obtain ⟨e1, e2⟩ := forall₂_values (fun l h => ⟨hl l (List.mem_of_mem_take h), hr l h⟩) hpq hv hw
  refine ⟨_, _, ev, ew, ?_⟩
  rw [e1]
  exact div_le_div_of_nonneg_right e2 (Nat.cast_nonneg _)

omit [IsStrictOrderedRing K] in
/-- **C114 (too few logs).**  With fewer logs than runs, or no run, there is no figure. -/
theorem C114_missing (n : Nat) (logs : List (TimedLog K)) : (logs.length < n → condense n logs = .error .indexError) ∧ condense 0 logs = .error .valueError := by
  constructor
  · intro h; rw [condense, if_pos h]
  · rw [condense, if_neg (by omega), if_pos rfl]

end

/-! ### Before every run has logged -/

/-- A fast run and a slow one. -/
def twoRuns : List (TimedLog ℚ) := [[(1, 1), (10, 0)], [(5, 100), (10, 99)]]

theorem twoRuns_proper : ∀ l ∈ twoRuns, ProperLog l ∧ NeverRises l ∧ ∀ r ∈ l, 0 ≤ r.1 := by
  intro l hl
  simp only [twoRuns, List.mem_cons, List.not_mem_nil, or_false] at hl
  rcases hl with rfl | rfl
  · exact ⟨⟨by decide, by decide +kernel⟩, by unfold NeverRises; decide +kernel, by decide +kernel⟩
  · exact ⟨⟨by decide, by decide +kernel⟩, by unfold NeverRises; decide +kernel, by decide +kernel⟩

/-- **C114 (finding): the mean of runs that never rise can rise.**  A run counts only from its first row on, and a slow run that starts badly lifts the mean when it comes in. -/
theorem C114_rises : ∃ (logs : List (TimedLog ℚ)) (pts : List (CondensedPoint ℚ)) (p q : CondensedPoint ℚ) (a b : ℚ), (∀ l ∈ logs, ProperLog l ∧ NeverRises l ∧ ∀ r ∈ l, 0 ≤ r.1) ∧
    condense 2 logs = .ok pts ∧ p ∈ pts ∧ q ∈ pts ∧ p.t < q.t ∧ p.avg = some a ∧ q.avg = some b ∧ a < b := by
  have hT : condenseEnd twoRuns none = some 10 := by decide +kernel
  have hg : ∀ j : Nat, j < 999 → (j : ℚ) * (10 / 999) ∈ condenseGrid (10 : ℚ) := fun j hj =>
    List.mem_map.2 ⟨j, List.mem_range.2 (by omega), if_neg (by omega)⟩
  exact ⟨twoRuns, _, _, _, 8990 / 8991, (3990 / 8991 + 99699 / 999) / 2, twoRuns_proper, condense_ok (by decide) (by decide) hT, List.mem_map.2 ⟨_, hg 100 (by decide), rfl⟩, List.mem_map.2 ⟨_, hg 600 (by decide), rfl⟩,
    by dsimp only; norm_num, by decide +kernel, by decide +kernel, by norm_num⟩

/-- The two runs meet what is asked of logs, and the figure of both is there. -/
example : ∃ pts T, condense 2 twoRuns = .ok pts ∧ pts.length = 1000 ∧ ∃ l ∈ twoRuns, EndsAt l T := by
  obtain ⟨pts, T, h1, h2, h3, -⟩ := C114_figure (n := 2) (logs := twoRuns) (by decide) (by decide) (fun l h => (twoRuns_proper l h).1) (fun l h => (twoRuns_proper l h).2.2)
  exact ⟨pts, T, h1, h2, h3⟩

/-- Their values stay within the logged ones, and from the time on at which the slow one has logged, the mean does not rise. -/
example (pts : List (CondensedPoint ℚ)) (h : condense 2 twoRuns = .ok pts) (p q : CondensedPoint ℚ) (hp : p ∈ pts) (hq : q ∈ pts) (h5 : 5 ≤ p.t) (hpq : p.t ≤ q.t) :
    (∃ a b, p.avg = some a ∧ q.avg = some b ∧ b ≤ a) ∧ ∃ c, p.high = some c ∧ c ≤ 100 := by
  have hall : ∀ l ∈ twoRuns.take 2, ∃ x, BeginsAt l x ∧ x ≤ p.t := by
    intro l hl
    simp only [twoRuns, List.take, List.mem_cons, List.not_mem_nil, or_false] at hl
    rcases hl with rfl | rfl
    · exact ⟨1, ⟨1, _, rfl⟩, by linarith⟩
    · exact ⟨5, ⟨100, _, rfl⟩, h5⟩
  refine ⟨C114_settled (fun l h => (twoRuns_proper l h).1) (fun l h => (twoRuns_proper l h).2.2) (fun l h => (twoRuns_proper l (List.mem_of_mem_take h)).2.1) h hp hq hall hpq, ?_⟩
  rcases C114_range (lo := 0) (hi := 100) (fun l h => (twoRuns_proper l h).1) (fun l h => (twoRuns_proper l h).2.2) h hp (by decide +kernel) (by decide +kernel) with ⟨-, -, -, h6⟩ | ⟨a, b, c, -, -, hc, -, -, -, h7⟩
  · have := h6 _ (by simp [twoRuns]; exact Or.inl rfl) (1, 1) (by simp)
    dsimp only at this
    linarith
  · exact ⟨c, hc, h7⟩

/-- Three runs are asked for and two are there. -/
example : condense 3 twoRuns = .error .indexError := (C114_missing 3 twoRuns).1 (by decide)

/-- Half way between two rows the value is half way between theirs. -/
example : interpAt ([(0, 4), (2, 2), (4, 1)] : TimedLog ℚ) 1 = some 3 := by decide +kernel

end Verif
