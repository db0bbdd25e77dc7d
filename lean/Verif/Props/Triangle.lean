import Verif.Model.Triangle
import Verif.Spec.Triangle
import Mathlib.MeasureTheory.Measure.Lebesgue.Basic
import Mathlib.Tactic.Linarith
import Mathlib.Tactic.FieldSimp
import Mathlib.Tactic.Positivity
/-!
# C117: the mutation of one parameter with a triangular distribution
-/

namespace Verif
open MeasureTheory

/-- What numpy draws lies between the ends, and is at most `y` exactly for the draws up to the share of `y`. -/
theorem numpyTriangular_law {a p b u : ℝ} (h1 : a ≤ p) (h2 : p ≤ b) (h3 : a < b) (hu : 0 ≤ u) (hu' : u < 1) :
    ∃ x, numpyTriangular a p b u = .ok x ∧ a ≤ x ∧ x ≤ b ∧ (u < (p - a) / (b - a) → x < p) ∧ ((p - a) / (b - a) ≤ u → p ≤ x) ∧ (p < b → x < b) ∧
      ∀ y, a ≤ y → y < b → (x ≤ y ↔ u ≤ triangleShare a p b y) := by
  have hb : 0 < b - a := by linarith
  have e0 : numpyTriangular a p b u = if u ≤ (p - a) / (b - a) then .ok (a + √(u * ((p - a) * (b - a)))) else .ok (b - √((1 - u) * ((b - p) * (b - a)))) := by
    unfold numpyTriangular
    rw [if_neg (not_lt.mpr h1), if_neg (not_lt.mpr h2), if_neg h3.ne]
  have hpa : 0 ≤ p - a := by linarith
  have hbp : 0 ≤ b - p := by linarith
  by_cases hc : u ≤ (p - a) / (b - a)
  · rw [if_pos hc] at e0
    have hc' : u * (b - a) ≤ p - a := by rwa [le_div_iff₀ hb] at hc
    have hx : √(u * ((p - a) * (b - a))) ≤ p - a := by
      rw [Real.sqrt_le_iff]
      refine ⟨hpa, ?_⟩
      nlinarith
    have hx0 := Real.sqrt_nonneg (u * ((p - a) * (b - a)))
    refine ⟨_, e0, by linarith, by linarith, ?_, ?_, ?_, ?_⟩
    · intro h
      have h' : u * (b - a) < p - a := by rwa [lt_div_iff₀ hb] at h
      have h'' : 0 < p - a := lt_of_le_of_lt (by positivity) h'
      have : √(u * ((p - a) * (b - a))) < p - a := by
        rw [Real.sqrt_lt' h'']
        nlinarith
      linarith
    · intro h
      have h' : p - a ≤ u * (b - a) := by rwa [div_le_iff₀ hb] at h
      have he : u * (b - a) = p - a := le_antisymm hc' h'
      have : √(u * ((p - a) * (b - a))) = p - a := by
        rw [show u * ((p - a) * (b - a)) = (p - a) ^ 2 by rw [← he]; ring, Real.sqrt_sq hpa]
      linarith
    · intro h
      linarith
    · intro y hy hyb
      unfold triangleShare
      rw [if_neg (not_lt.mpr hy)]
      by_cases hyp : y ≤ p
      · rw [if_pos hyp]
        rcases hpa.eq_or_lt with he | hlt
        · have hu0 : u = 0 := by
            rw [← he, zero_div] at hc
            exact le_antisymm hc hu
          have : y = a := by linarith
          subst this
          subst hu0
          simp
        · rw [le_div_iff₀ (by positivity)]
          rw [show (a + √(u * ((p - a) * (b - a))) ≤ y) ↔ (√(u * ((p - a) * (b - a))) ≤ y - a) by constructor <;> intro h <;> linarith]
          rw [Real.sqrt_le_iff]
          constructor
          · rintro ⟨_, h⟩
            linarith [mul_comm (p - a) (b - a)]
          · intro h
            exact ⟨by linarith, by linarith [mul_comm (p - a) (b - a)]⟩
      · have hyp' : p < y := not_le.mp hyp
        rw [if_neg hyp, if_pos hyb]
        refine iff_of_true (by linarith) ?_
        have hbp' : 0 < b - p := by linarith
        have : (b - y) ^ 2 / ((b - a) * (b - p)) ≤ 1 - (p - a) / (b - a) := by
          rw [show 1 - (p - a) / (b - a) = (b - p) / (b - a) by field_simp; ring, div_le_div_iff₀ (by positivity) hb]
          have : (b - y) ^ 2 ≤ (b - p) ^ 2 := by nlinarith
          nlinarith
        linarith
  · rw [if_neg hc] at e0
    have hc1 : (p - a) / (b - a) < u := not_le.mp hc
    have hc' : p - a < u * (b - a) := by rwa [div_lt_iff₀ hb] at hc1
    have hbp' : 0 < b - p := by nlinarith
    have hx : √((1 - u) * ((b - p) * (b - a))) ≤ b - p := by
      rw [Real.sqrt_le_iff]
      refine ⟨hbp, ?_⟩
      nlinarith
    have hx0 := Real.sqrt_nonneg ((1 - u) * ((b - p) * (b - a)))
    refine ⟨_, e0, by linarith, by linarith, fun h => absurd h (not_lt.mpr hc1.le), fun _ => by linarith, fun _ => ?_, ?_⟩
    · have : 0 < √((1 - u) * ((b - p) * (b - a))) := Real.sqrt_pos.mpr (by
        have : 0 < 1 - u := by linarith
        positivity)
      linarith
    intro y hy hyb
    unfold triangleShare
    rw [if_neg (not_lt.mpr hy)]
    have hk : ∀ z, z < b → (b - √((1 - u) * ((b - p) * (b - a))) ≤ z ↔ (b - z) ^ 2 ≤ (1 - u) * ((b - p) * (b - a))) := by
      intro z hz
      rw [show (b - √((1 - u) * ((b - p) * (b - a))) ≤ z) ↔ (b - z ≤ √((1 - u) * ((b - p) * (b - a)))) by constructor <;> intro h <;> linarith]
      exact Real.le_sqrt' (by linarith)
    rw [hk y hyb]
    by_cases hyp : y ≤ p
    · rw [if_pos hyp]
      refine iff_of_false ?_ ?_
      · have h1 : (b - p) ^ 2 ≤ (b - y) ^ 2 := by nlinarith
        have h2 : (1 - u) * ((b - p) * (b - a)) < (b - p) ^ 2 := by nlinarith
        linarith
      · rcases hpa.eq_or_lt with he | hlt
        · rw [← he]
          simp only [mul_zero, div_zero, not_le]
          rw [← he, zero_div] at hc1
          exact hc1
        · rw [not_le, div_lt_iff₀ (by positivity)]
          have : (y - a) ^ 2 ≤ (p - a) ^ 2 := by nlinarith
          nlinarith
    · rw [if_neg hyp, if_pos hyb]
      rw [show (u ≤ 1 - (b - y) ^ 2 / ((b - a) * (b - p))) ↔ ((b - y) ^ 2 / ((b - a) * (b - p)) ≤ 1 - u) by constructor <;> intro h <;> linarith,
        div_le_iff₀ (by positivity)]
      rw [show (1 - u) * ((b - a) * (b - p)) = (1 - u) * ((b - p) * (b - a)) by ring]

/-- The ends, for a parameter within its bounds. -/
theorem tri_ends {p low up width : ℝ} (h1 : low ≤ p) (h2 : p ≤ up) (h3 : low < up) (hw : 0 < width) :
    triLeft p low up width = max low (p - width * (up - low) / 2) ∧ triRight p low up width = min up (p + width * (up - low) / 2) ∧
      triLeft p low up width ≤ p ∧ p ≤ triRight p low up width ∧ triLeft p low up width < triRight p low up width := by
  have hr : 0 < width * (up - low) / 2 := by
    have : 0 < up - low := by linarith
    positivity
  have e1 : triLeft p low up width = max low (p - width * (up - low) / 2) := by
    unfold triLeft triRadius
    split
    · rw [max_eq_right (by linarith)]
    · rw [max_eq_left (by linarith)]
  have e2 : triRight p low up width = min up (p + width * (up - low) / 2) := by
    unfold triRight triRadius
    split
    · rw [min_eq_right (by linarith)]
    · rw [min_eq_left (by linarith)]
  refine ⟨e1, e2, ?_, ?_, ?_⟩
  · rw [e1]; exact max_le h1 (by linarith)
  · rw [e2]; exact le_min h2 (by linarith)
  · rw [e1, e2]
    exact max_lt (lt_min h3 (by linarith)) (lt_min (by linarith) (by linarith))

/-- **C117 (law).** A parameter within its bounds, of type float and without a step size, is replaced by a value of the triangular law whose peak is the
parameter and whose ends are half the width, in parts of the range, to the left and to the right, cut at the bounds: the share of the draws that lead to a
value of at most `y` is the probability of the law. -/
theorem C117_law {p low up width : ℝ} (h1 : low ≤ p) (h2 : p ≤ up) (h3 : low < up) (hw : 0 < width) (y : ℝ) :
    volume {u | u ∈ Set.Ico (0 : ℝ) 1 ∧ ∃ x, triangleSample (some p) low up none .float width u = .ok x ∧ x ≤ y} =
      ENNReal.ofReal (triangleShare (max low (p - width * (up - low) / 2)) p (min up (p + width * (up - low) / 2)) y) := by
  obtain ⟨e1, e2, h4, h5, h6⟩ := tri_ends h1 h2 h3 hw
  rw [← e1, ← e2]
  generalize ha : triLeft p low up width = a at *
  generalize hb : triRight p low up width = b at *
  have key : ∀ u x, triangleSample (some p) low up none .float width u = .ok x ↔ numpyTriangular a p b u = .ok x := by
    intro u x
    unfold triangleSample
    dsimp only
    rw [ha, hb]
    cases numpyTriangular a p b u <;> simp
  simp only [key]
  rcases lt_or_ge y a with hya | hya
  · have : {u | u ∈ Set.Ico (0 : ℝ) 1 ∧ ∃ x, numpyTriangular a p b u = .ok x ∧ x ≤ y} = ∅ := by
      ext u
      simp only [Set.mem_ofPred_eq, Set.mem_empty_iff_false, iff_false]
      rintro ⟨hu, x, hx, hxy⟩
      obtain ⟨x', hx', hx1, _⟩ := numpyTriangular_law h4 h5 h6 hu.1 hu.2
      rw [hx] at hx'
      cases hx'
      linarith
    rw [this]
    unfold triangleShare
    rw [if_pos hya]
    simp
  · rcases lt_or_ge y b with hyb | hyb
    · have hF : triangleShare a p b y < 1 := by
        unfold triangleShare
        rw [if_neg (not_lt.mpr hya)]
        by_cases hyp : y ≤ p
        · rw [if_pos hyp]
          rcases h4.eq_or_lt with he | hlt
          · rw [he]; simp
          · have q1 : 0 < p - a := by linarith
            have q2 : 0 < b - a := by linarith
            rw [div_lt_one (by positivity)]
            nlinarith
        · rw [if_neg hyp, if_pos hyb]
          have q1 : 0 < b - p := by linarith [not_le.mp hyp]
          have q2 : 0 < b - a := by linarith
          have q3 : 0 < b - y := by linarith
          have : 0 < (b - y) ^ 2 / ((b - a) * (b - p)) := by positivity
          linarith
      have : {u | u ∈ Set.Ico (0 : ℝ) 1 ∧ ∃ x, numpyTriangular a p b u = .ok x ∧ x ≤ y} = Set.Icc 0 (triangleShare a p b y) := by
        ext u
        simp only [Set.mem_ofPred_eq, Set.mem_Icc]
        constructor
        · rintro ⟨hu, x, hx, hxy⟩
          obtain ⟨x', hx', _, _, _, _, _, hl⟩ := numpyTriangular_law h4 h5 h6 hu.1 hu.2
          rw [hx] at hx'
          cases hx'
          exact ⟨hu.1, (hl y hya hyb).mp hxy⟩
        · rintro ⟨q1, q2⟩
          have hu1 : u < 1 := lt_of_le_of_lt q2 hF
          obtain ⟨x', hx', _, _, _, _, _, hl⟩ := numpyTriangular_law h4 h5 h6 q1 hu1
          exact ⟨⟨q1, hu1⟩, x', hx', (hl y hya hyb).mpr q2⟩
      rw [this, Real.volume_Icc, sub_zero]
    · have : {u | u ∈ Set.Ico (0 : ℝ) 1 ∧ ∃ x, numpyTriangular a p b u = .ok x ∧ x ≤ y} = Set.Ico 0 1 := by
        ext u
        simp only [Set.mem_ofPred_eq, and_iff_left_iff_imp]
        intro hu
        obtain ⟨x', hx', _, hx2, _⟩ := numpyTriangular_law h4 h5 h6 hu.1 hu.2
        exact ⟨x', hx', by linarith⟩
      rw [this, Real.volume_Ico]
      unfold triangleShare
      rw [if_neg (not_lt.mpr hya)]
      by_cases hyp : y ≤ p
      · have q1 : y = b := by linarith
        have q2 : p = b := by linarith
        have q3 : b - a ≠ 0 := by linarith
        rw [if_pos hyp, q1, q2, pow_two, div_self (mul_ne_zero q3 q3)]
        simp
      · rw [if_neg hyp, if_neg (not_lt.mpr hyb)]
        simp

/-- A parameter in the middle of its range. -/
example := C117_law (p := 1 / 2) (low := 0) (up := 1) (width := 1 / 20) (by norm_num) (by norm_num) (by norm_num) (by norm_num) (1 / 2)

/-- One half of the draws lower the value of a parameter that is not near a bound. -/
example : triangleShare (19 / 40) (1 / 2) (21 / 40) (1 / 2) = 1 / 2 := by
  unfold triangleShare
  norm_num

/-- A triangular draw for a parameter within its bounds. -/
theorem triangleSample_draw {p low up width u : ℝ} (h1 : low ≤ p) (h2 : p ≤ up) (h3 : low < up) (hw : 0 < width) (hu : 0 ≤ u) (hu' : u < 1) :
    ∃ x, numpyTriangular (triLeft p low up width) p (triRight p low up width) u = .ok x ∧ low ≤ x ∧ x ≤ up ∧ |x - p| ≤ width * (up - low) / 2 := by
  obtain ⟨e1, e2, h4, h5, h6⟩ := tri_ends h1 h2 h3 hw
  obtain ⟨x, hx, hx1, hx2, _⟩ := numpyTriangular_law h4 h5 h6 hu hu'
  refine ⟨x, hx, ?_, ?_, ?_⟩
  · rw [e1] at hx1; exact (le_max_left _ _).trans hx1
  · rw [e2] at hx2; exact hx2.trans (min_le_left _ _)
  · rw [e1] at hx1
    rw [e2] at hx2
    have := (le_max_right low (p - width * (up - low) / 2)).trans hx1
    have := hx2.trans (min_le_right up (p + width * (up - low) / 2))
    rw [abs_le]
    constructor <;> linarith

/-- **C117 (float).** A parameter of type float without a step size stays within its bounds and moves by at most half the width times the range. -/
theorem C117_float {p low up width u : ℝ} (h1 : low ≤ p) (h2 : p ≤ up) (h3 : low < up) (hw : 0 < width) (hu : 0 ≤ u) (hu' : u < 1) :
    ∃ x, triangleSample (some p) low up none .float width u = .ok x ∧ low ≤ x ∧ x ≤ up ∧ |x - p| ≤ width * (up - low) / 2 := by
  obtain ⟨x, hx, h⟩ := triangleSample_draw h1 h2 h3 hw hu hu'
  refine ⟨x, ?_, h⟩
  unfold triangleSample
  simp only [hx]

example := C117_float (p := 3) (low := -3) (up := 3) (width := 1 / 20) (u := 9 / 10) (by norm_num) (by norm_num) (by norm_num) (by norm_num) (by norm_num) (by norm_num)

/-- Rounding moves a number by at most one half. -/
theorem roundEven_near (x : ℝ) : |(roundEven x : ℝ) - x| ≤ 1 / 2 := by
  have f1 := Int.floor_le x
  have f2 := Int.lt_floor_add_one x
  unfold roundEven
  rw [abs_le]
  split_ifs <;> push_cast <;> constructor <;> linarith

/-- **C117 (step).** With a step size the new value is a multiple of the step, at most half a step from a value within the bounds. -/
theorem C117_step {p low up width u s : ℝ} (h1 : low ≤ p) (h2 : p ≤ up) (h3 : low < up) (hw : 0 < width) (hu : 0 ≤ u) (hu' : u < 1) (hs : 0 < s) :
    ∃ (x : ℝ) (k : ℤ), triangleSample (some p) low up (some s) .float width u = .ok x ∧ x = k * s ∧ low - s / 2 ≤ x ∧ x ≤ up + s / 2 ∧
      |x - p| ≤ width * (up - low) / 2 + s / 2 := by
  obtain ⟨x, hx, q1, q2, q3⟩ := triangleSample_draw h1 h2 h3 hw hu hu'
  have hr := roundEven_near (x / s)
  have hk : |(roundEven (x / s) : ℝ) * s - x| ≤ s / 2 := by
    rw [show (roundEven (x / s) : ℝ) * s - x = ((roundEven (x / s) : ℝ) - x / s) * s by field_simp, abs_mul, abs_of_pos hs]
    nlinarith
  refine ⟨roundEven (x / s) * s, roundEven (x / s), ?_, rfl, ?_, ?_, ?_⟩
  · unfold triangleSample
    simp only [hx, if_neg hs.ne']
  · have := (abs_le.mp hk).1
    linarith
  · have := (abs_le.mp hk).2
    linarith
  · have := abs_le.mp hk
    have := abs_le.mp q3
    rw [abs_le]
    constructor <;> linarith

example := C117_step (p := 3) (low := -3) (up := 3) (width := 1 / 20) (u := 9 / 10) (s := 1 / 4) (by norm_num) (by norm_num) (by norm_num) (by norm_num) (by norm_num)
  (by norm_num) (by norm_num)

/-- **C117 (step, outside).** The value with a step size can be outside of the bounds, whatever is drawn: a parameter at its upper bound of 1.6 with the step 1
becomes 2. -/
theorem C117_step_outside {u : ℝ} (hu : 0 ≤ u) (hu' : u < 1) : triangleSample (some (8 / 5)) 0 (8 / 5) (some 1) .float (1 / 20) u = .ok 2 := by
  obtain ⟨x, hx, q1, q2, q3⟩ := triangleSample_draw (p := 8 / 5) (low := 0) (up := 8 / 5) (width := 1 / 20) (u := u) (by norm_num) (by norm_num) (by norm_num)
    (by norm_num) hu hu'
  have hx' := abs_le.mp q3
  have hf : ⌊x⌋ = 1 := by
    rw [Int.floor_eq_iff]
    constructor <;> push_cast <;> linarith [hx'.1]
  have hr : roundEven x = 2 := by
    unfold roundEven
    rw [hf]
    push_cast
    rw [if_neg (by linarith [hx'.1]), if_pos (by linarith [hx'.1])]
  unfold triangleSample
  simp only [hx, if_neg one_ne_zero, div_one, hr]
  norm_num

example := C117_step_outside (u := 1 / 3) (by norm_num) (by norm_num)

/-- `int` leaves a number between the same integers. -/
theorem intOf_between {lo hi : ℤ} {x : ℝ} (h1 : (lo : ℝ) ≤ x) (h2 : x ≤ hi) : lo ≤ intOf x ∧ intOf x ≤ hi := by
  unfold intOf
  split
  · exact ⟨Int.le_floor.mpr h1, by exact_mod_cast (Int.floor_le x).trans h2⟩
  · exact ⟨by exact_mod_cast h1.trans (Int.le_ceil x), Int.ceil_le.mpr h2⟩

/-- **C117 (integers).** A parameter of type int with integer bounds becomes an integer within the bounds; the step size is ignored. -/
theorem C117_int {p : ℝ} {low up : ℤ} {width u : ℝ} (h1 : low ≤ p) (h2 : p ≤ up) (h3 : low < up) (hw : 0 < width) (hu : 0 ≤ u) (hu' : u < 1) (step : Option ℝ) :
    ∃ q : ℤ, triangleSample (some p) low up step .int width u = .ok q ∧ low ≤ q ∧ q ≤ up := by
  obtain ⟨x, hx, q1, q2, _⟩ := triangleSample_draw h1 h2 (by exact_mod_cast h3) hw hu hu'
  refine ⟨intOf x, ?_, intOf_between q1 q2⟩
  unfold triangleSample
  simp only [hx]

example := C117_int (p := 5) (low := 1) (up := 10) (width := 1 / 20) (u := 3 / 4) (by norm_num) (by norm_num) (by norm_num) (by norm_num) (by norm_num) (by norm_num) none

/-- **C117 (integers, outside).** With bounds that are not integers the value can be outside: a parameter 1 with the bounds 0.5 and 1.5 becomes 0 for one half of the
draws. -/
theorem C117_int_outside {u : ℝ} (hu : 0 ≤ u) (hu' : u < 1 / 2) : triangleSample (some 1) (1 / 2) (3 / 2) none .int (1 / 20) u = .ok 0 := by
  obtain ⟨e1, e2, h4, h5, h6⟩ := tri_ends (p := 1) (low := 1 / 2) (up := 3 / 2) (width := 1 / 20) (by norm_num) (by norm_num) (by norm_num) (by norm_num)
  obtain ⟨x, hx, q1, q2, q3, _⟩ := numpyTriangular_law h4 h5 h6 hu (by linarith)
  have q4 : x < 1 := q3 (by
    rw [e1, e2, max_eq_right (by norm_num), min_eq_right (by norm_num)]
    norm_num
    linarith)
  have q5 : (1 / 2 : ℝ) ≤ x := by
    rw [e1] at q1
    exact (le_max_left _ _).trans q1
  have hi : intOf x = 0 := by
    unfold intOf
    rw [if_pos (by linarith), Int.floor_eq_iff]
    constructor <;> push_cast <;> linarith
  unfold triangleSample
  simp only [hx, hi]
  norm_num

example := C117_int_outside (u := 1 / 3) (by norm_num) (by norm_num)

/-- A draw for an integer parameter that moves by less than one. -/
theorem triangle_int_draw {p low up : ℤ} {width u : ℝ} (h1 : low ≤ p) (h2 : p ≤ up) (h3 : low < up) (hw : 0 < width) (hr : width * (up - low) / 2 < 1)
    (hu : 0 ≤ u) (hu' : u < 1) :
    ∃ x : ℝ, triangleSample (some p) low up none .int width u = .ok (intOf x) ∧ (low : ℝ) ≤ x ∧ x ≤ up ∧ p - 1 < x ∧ x < p + 1 ∧
      (x < p ↔ u < (p - max (low : ℝ) (p - width * (up - low) / 2)) / (min (up : ℝ) (p + width * (up - low) / 2) - max (low : ℝ) (p - width * (up - low) / 2))) := by
  have h1' : (low : ℝ) ≤ p := by exact_mod_cast h1
  have h2' : (p : ℝ) ≤ up := by exact_mod_cast h2
  have h3' : (low : ℝ) < up := by exact_mod_cast h3
  obtain ⟨e1, e2, h4, h5, h6⟩ := tri_ends h1' h2' h3' hw
  obtain ⟨x, hx, q1, q2, q3, q4, _⟩ := numpyTriangular_law h4 h5 h6 hu hu'
  have k1 : p - width * (up - low) / 2 ≤ x := by
    rw [e1] at q1
    exact (le_max_right _ _).trans q1
  have k2 : x ≤ p + width * (up - low) / 2 := by
    rw [e2] at q2
    exact q2.trans (min_le_right _ _)
  have k3 : (low : ℝ) ≤ x := by
    rw [e1] at q1
    exact (le_max_left _ _).trans q1
  have k4 : x ≤ up := by
    rw [e2] at q2
    exact q2.trans (min_le_left _ _)
  refine ⟨x, ?_, k3, k4, by linarith, by linarith, ?_⟩
  · unfold triangleSample
    simp only [hx]
  · rw [← e1, ← e2]
    constructor
    · intro h
      by_contra hc
      exact absurd (q4 (not_lt.mp hc)) (not_le.mpr h)
    · exact q3

/-- **C117 (one way).** An integer parameter whose range times half the width is less than one never moves away from zero: a positive value becomes one less for
the draws below the share of the law to the left of it, and stays for all others; zero stays zero; a negative value stays or becomes one more. -/
theorem C117_int_one_way {p low up : ℤ} {width u : ℝ} (h1 : low ≤ p) (h2 : p ≤ up) (h3 : low < up) (hw : 0 < width) (hr : width * (up - low) / 2 < 1)
    (hu : 0 ≤ u) (hu' : u < 1) :
    ∃ q : ℤ, triangleSample (some p) low up none .int width u = .ok q ∧
      (0 < p → q = if u < (p - max (low : ℝ) (p - width * (up - low) / 2)) /
        (min (up : ℝ) (p + width * (up - low) / 2) - max (low : ℝ) (p - width * (up - low) / 2)) then p - 1 else p) ∧
      (p = 0 → q = 0) ∧ (p < 0 → q = p ∨ q = p + 1) := by
  obtain ⟨x, hx, _, _, k1, k2, k3⟩ := triangle_int_draw h1 h2 h3 hw hr hu hu'
  refine ⟨intOf x, hx, ?_, ?_, ?_⟩
  · intro hp
    have hp' : (1 : ℝ) ≤ p := by exact_mod_cast hp
    have hx0 : 0 ≤ x := by linarith
    unfold intOf
    rw [if_pos hx0]
    split
    · next h =>
      rw [Int.floor_eq_iff]
      have := k3.mpr h
      constructor <;> push_cast <;> linarith
    · next h =>
      rw [Int.floor_eq_iff]
      have : ¬ x < p := fun hh => h (k3.mp hh)
      constructor <;> linarith
  · rintro rfl
    push_cast at k1 k2
    unfold intOf
    split
    · next h =>
      rw [Int.floor_eq_iff]
      constructor <;> push_cast <;> linarith
    · next h =>
      rw [Int.ceil_eq_iff]
      constructor <;> push_cast <;> linarith [not_le.mp h]
  · intro hp
    have hp' : (p : ℝ) ≤ -1 := by exact_mod_cast (by omega : p ≤ -1)
    unfold intOf
    rcases le_or_gt 0 x with h | h
    · exact absurd h (by linarith)
    · rw [if_neg (by linarith)]
      rcases le_or_gt x p with h' | h'
      · left
        rw [Int.ceil_eq_iff]
        constructor <;> linarith
      · right
        rw [Int.ceil_eq_iff]
        constructor <;> push_cast <;> linarith

/-- An order of 5 between 1 and 10 with the default width: one half of the draws give 4, the others 5, none 6. -/
example := C117_int_one_way (p := 5) (low := 1) (up := 10) (width := 1 / 20) (u := 3 / 4) (by norm_num) (by norm_num) (by norm_num) (by norm_num) (by norm_num)
  (by norm_num) (by norm_num)

/-- **C117 (drift).** So no number of mutations, whatever is drawn, moves such a parameter away from zero or past it. -/
theorem C117_drift {low up : ℤ} {width : ℝ} (h3 : low < up) (hw : 0 < width) (hr : width * (up - low) / 2 < 1) (us : List ℝ)
    (hus : ∀ u ∈ us, 0 ≤ u ∧ u < 1) (p : ℤ) (h1 : low ≤ p) (h2 : p ≤ up) :
    ∃ q : ℤ, triangleRepeat low up width p us = .ok q ∧ low ≤ q ∧ q ≤ up ∧ ((0 ≤ q ∧ q ≤ p) ∨ (p ≤ q ∧ q ≤ 0)) := by
  induction us generalizing p with
  | nil => exact ⟨p, rfl, h1, h2, by omega⟩
  | cons u us ih =>
    have hu := hus u List.mem_cons_self
    obtain ⟨q, hq, a1, a2, a3⟩ := C117_int_one_way h1 h2 h3 hw hr hu.1 hu.2
    obtain ⟨q', hq', b1, b2⟩ := C117_int (p := (p : ℝ)) (by exact_mod_cast h1) (by exact_mod_cast h2) h3 hw hu.1 hu.2 none
    rw [hq] at hq'
    have : q = q' := by
      injection hq' with hh
      exact_mod_cast hh
    subst this
    obtain ⟨r, hr1, hr2, hr3, hr4⟩ := ih (fun u hu => hus u (List.mem_cons_of_mem _ hu)) q b1 b2
    refine ⟨r, ?_, hr2, hr3, ?_⟩
    · simp only [triangleRepeat, hq, hr1]
    · rcases lt_trichotomy p 0 with hp | hp | hp
      · have := a3 hp
        omega
      · have := a2 hp
        omega
      · have := a1 hp
        split at this <;> omega

example := C117_drift (low := 1) (up := 10) (width := 1 / 20) (by norm_num) (by norm_num) (by norm_num) [1 / 4, 3 / 4, 9 / 10] (by norm_num) 5 (by norm_num) (by norm_num)

/-- **C117 (refused).** No parameter is a `RuntimeError`; a type that is neither float nor int, a parameter outside of its bounds and bounds that are equal are
`ValueError`s. -/
theorem C117_refused (low up : ℝ) (step : Option ℝ) (dt : DType) {width : ℝ} (hw : 0 ≤ width) (u : ℝ) :
    triangleSample none low up step dt width u = .error .runtimeError ∧
      ∀ p, (dt = .other ∨ (low ≤ up ∧ (p < low ∨ up < p)) ∨ low = up) → triangleSample (some p) low up step dt width u = .error .valueError := by
  refine ⟨rfl, fun p h => ?_⟩
  have key : ((low ≤ up ∧ (p < low ∨ up < p)) ∨ low = up) → numpyTriangular (triLeft p low up width) p (triRight p low up width) u = .error .valueError := by
    intro h
    have hlu : low ≤ up := by
      rcases h with h | h
      · exact h.1
      · exact h.le
    have hr : 0 ≤ triRadius low up width := by
      unfold triRadius
      have : 0 ≤ up - low := by linarith
      positivity
    unfold numpyTriangular
    by_cases c1 : p < low
    · have : triLeft p low up width = low := by
        unfold triLeft
        rw [if_neg (by linarith)]
      rw [this, if_pos c1]
    · by_cases c2 : up < p
      · have : triRight p low up width = up := by
          unfold triRight
          rw [if_neg (by linarith)]
        rw [this]
        rw [if_pos c2]
        split <;> rfl
      · have he : low = up := by
          rcases h with h | h
          · rcases h.2 with h | h
            · exact absurd h c1
            · exact absurd h c2
          · exact h
        have hr0 : triRadius low up width = 0 := by unfold triRadius; rw [he]; simp
        have q1 : triLeft p low up width = low := by
          unfold triLeft
          rw [hr0, if_neg (by linarith)]
        have q2 : triRight p low up width = up := by
          unfold triRight
          rw [hr0, if_neg (by linarith)]
        rw [q1, q2, if_neg c1, if_neg c2, if_pos he]
  rcases h with h | h
  · subst h; rfl
  · unfold triangleSample
    cases dt <;> simp only [key h]

/-- A value beyond its upper bound. -/
example := (C117_refused 0 1 none .float (width := 1 / 20) (by norm_num) (1 / 2)).2 2 (Or.inr (Or.inl ⟨by norm_num, Or.inr (by norm_num)⟩))

end Verif
