import Verif.Model.Drawing
import Mathlib.Tactic.Linarith
import Mathlib.Tactic.Ring
import Mathlib.Tactic.FieldSimp
import Mathlib.Tactic.NormNum
/-!
Lemmas about the picture and the plots of the viewer.
-/

namespace Verif

theorem minOf_le (a : ℝ) (l : List ℝ) : minOf a l ≤ a ∧ ∀ x ∈ l, minOf a l ≤ x := by
  induction l generalizing a with
  | nil => simp [minOf]
  | cons b l ih =>
    obtain ⟨h1, h2⟩ := ih (min a b)
    have e : minOf a (b :: l) = minOf (min a b) l := rfl
    rw [e]
    refine ⟨h1.trans (min_le_left _ _), fun x hx => ?_⟩
    rcases List.mem_cons.1 hx with rfl | hx
    · exact h1.trans (min_le_right _ _)
    · exact h2 x hx

theorem minOf_mem (a : ℝ) (l : List ℝ) : minOf a l ∈ a :: l := by
  induction l generalizing a with
  | nil => simp [minOf]
  | cons b l ih =>
    have e : minOf a (b :: l) = minOf (min a b) l := rfl
    rw [e]
    rcases List.mem_cons.1 (ih (min a b)) with h | h
    · rcases min_choice a b with h' | h'
      · rw [h, h']; simp
      · rw [h, h']; simp
    · simp [h]

theorem le_maxOf (a : ℝ) (l : List ℝ) : a ≤ maxOf a l ∧ ∀ x ∈ l, x ≤ maxOf a l := by
  induction l generalizing a with
  | nil => simp [maxOf]
  | cons b l ih =>
    obtain ⟨h1, h2⟩ := ih (max a b)
    have e : maxOf a (b :: l) = maxOf (max a b) l := rfl
    rw [e]
    refine ⟨(le_max_left _ _).trans h1, fun x hx => ?_⟩
    rcases List.mem_cons.1 hx with rfl | hx
    · exact (le_max_right _ _).trans h1
    · exact h2 x hx

theorem maxOf_mem (a : ℝ) (l : List ℝ) : maxOf a l ∈ a :: l := by
  induction l generalizing a with
  | nil => simp [maxOf]
  | cons b l ih =>
    have e : maxOf a (b :: l) = maxOf (max a b) l := rfl
    rw [e]
    rcases List.mem_cons.1 (ih (max a b)) with h | h
    · rcases max_choice a b with h' | h'
      · rw [h, h']; simp
      · rw [h, h']; simp
    · simp [h]

/-- Smallest and largest value of a coordinate over a layout with first node `p`. -/
theorem span_spec (f : NodeId × ℝ × ℝ → ℝ) (p : NodeId × ℝ × ℝ) (ps : Positions) :
    (∀ q ∈ p :: ps, minOf (f p) (ps.map f) ≤ f q ∧ f q ≤ maxOf (f p) (ps.map f)) ∧
    (∃ q ∈ p :: ps, f q = minOf (f p) (ps.map f)) ∧ (∃ q ∈ p :: ps, f q = maxOf (f p) (ps.map f)) := by
  refine ⟨fun q hq => ?_, ?_, ?_⟩
  · rcases List.mem_cons.1 hq with rfl | hq
    · exact ⟨(minOf_le _ _).1, (le_maxOf _ _).1⟩
    · exact ⟨(minOf_le _ _).2 _ (List.mem_map_of_mem hq), (le_maxOf _ _).2 _ (List.mem_map_of_mem hq)⟩
  · rcases List.mem_cons.1 (minOf_mem (f p) (ps.map f)) with h | h
    · exact ⟨p, by simp, h.symm⟩
    · obtain ⟨q, hq, e⟩ := List.mem_map.1 h
      exact ⟨q, by simp [hq], e⟩
  · rcases List.mem_cons.1 (maxOf_mem (f p) (ps.map f)) with h | h
    · exact ⟨p, by simp, h.symm⟩
    · obtain ⟨q, hq, e⟩ := List.mem_map.1 h
      exact ⟨q, by simp [hq], e⟩

theorem span_zero (f : NodeId × ℝ × ℝ → ℝ) (p : NodeId × ℝ × ℝ) (ps : Positions) :
    maxOf (f p) (ps.map f) - minOf (f p) (ps.map f) = 0 ↔ ∀ q ∈ p :: ps, ∀ q' ∈ p :: ps, f q = f q' := by
  obtain ⟨h1, ⟨a, ha, ea⟩, ⟨b, hb, eb⟩⟩ := span_spec f p ps
  constructor
  · intro h q hq q' hq'
    have := h1 q hq
    have := h1 q' hq'
    linarith
  · intro h
    rw [← ea, ← eb, h a ha b hb]; ring

theorem toUnit_eq {lo hi : ℝ} (h : lo < hi) (x : ℝ) : toUnit lo hi x = 2 / (hi - lo) * x + (-1 - 2 * lo / (hi - lo)) := by
  have : hi - lo ≠ 0 := by linarith
  unfold toUnit
  rw [show (0.5 : ℝ) = 1 / 2 by norm_num, show (2.0 : ℝ) = 2 by norm_num]
  field_simp
  ring

theorem toUnit_bounds {lo hi x : ℝ} (h : lo < hi) (h1 : lo ≤ x) (h2 : x ≤ hi) : -1 ≤ toUnit lo hi x ∧ toUnit lo hi x ≤ 1 := by
  have hp : 0 < hi - lo := by linarith
  have a : 0 ≤ (x - lo) / (hi - lo) := div_nonneg (by linarith) hp.le
  have b : (x - lo) / (hi - lo) ≤ 1 := by rw [div_le_one hp]; linarith
  unfold toUnit
  constructor <;> norm_num <;> linarith

theorem toUnit_lo {lo hi : ℝ} : toUnit lo hi lo = -1 := by unfold toUnit; norm_num

theorem toUnit_hi {lo hi : ℝ} (h : lo < hi) : toUnit lo hi hi = 1 := by
  have : hi - lo ≠ 0 := by linarith
  unfold toUnit
  rw [div_self this]; norm_num

theorem toUnit_id (x : ℝ) : toUnit (-1) 1 x = x := by unfold toUnit; norm_num; ring

/-! Lines -/

theorem foldl_setVisible (b : Bool) (is : List Nat) (l : Nat → Option (List Bool)) (j : Nat) :
    is.foldl (setVisible b) l j = if j ∈ is then (l j).map (fun bs => bs.map (fun _ => b)) else l j := by
  induction is generalizing l with
  | nil => simp
  | cons i is ih =>
    rw [List.foldl_cons, ih]
    unfold setVisible
    by_cases h : j = i
    · subst h
      cases hl : l j <;> simp
    · by_cases h' : j ∈ is <;> simp [h, h']

theorem rowsOf_ok {R : Type} (d : Shown R) (is : List Nat) (h : ∀ i ∈ is, i < d.length) :
    ∃ rs, rowsOf d is = .ok rs ∧ rs.map some = is.map (fun i => (d[i]?).map (·.1)) := by
  induction is with
  | nil => exact ⟨[], rfl, rfl⟩
  | cons i is ih =>
    obtain ⟨rs, h1, h2⟩ := ih (fun j hj => h j (by simp [hj]))
    obtain ⟨r, hi⟩ : ∃ r, d[i]? = some r := ⟨_, List.getElem?_eq_getElem (h i (by simp))⟩
    refine ⟨r.1 :: rs, ?_, ?_⟩
    · simp only [rowsOf, hi, h1]
    · simp only [List.map_cons, h2, hi, Option.map_some]

theorem rowsOf_error {R : Type} (d : Shown R) (is : List Nat) (h : ∃ i ∈ is, d.length ≤ i) : rowsOf d is = .error .keyError := by
  induction is with
  | nil => simp at h
  | cons i is ih =>
    unfold rowsOf
    by_cases hi : d.length ≤ i
    · rw [List.getElem?_eq_none hi]
    · rw [List.getElem?_eq_getElem (by omega)]
      dsimp only
      obtain ⟨j, hj, hl⟩ := h
      rcases List.mem_cons.1 hj with rfl | hj
      · omega
      · rw [ih ⟨j, hj, hl⟩]

end Verif
