import Verif.Model.Benchmarks
import Verif.Spec.Benchmarks
import Mathlib.Analysis.Calculus.Deriv.Abs
import Mathlib.Analysis.SpecialFunctions.Log.Deriv
import Mathlib.Tactic.Linarith
import Mathlib.Tactic.Positivity
import Mathlib.Tactic.FieldSimp
/-! # C105: the benchmark functions and their reference points -/

namespace Verif
open Real

theorem onlyMinimum_of_zero {f : ℝ × ℝ → ℝ} {p : ℝ × ℝ} {m : ℝ} (hp : f p = m) (h : ∀ q, m ≤ f q) (h0 : ∀ q, f q = m → q = p) : OnlyMinimum f p := fun q hq => by
  rw [hp]
  exact lt_of_le_of_ne (h q) fun he => hq (h0 q he.symm)

theorem rotate_id (x : ℝ × ℝ) : rotateCoordinates x = x := by
  have : benchTheta = 0 := by unfold benchTheta; norm_num
  unfold rotateCoordinates
  rw [this, cos_zero, sin_zero]
  simp

theorem booth_min : boothFunction.function (1, 3) = 0 ∧ OnlyMinimum boothFunction.function (1, 3) := by
  have h : ∀ q, boothFunction.function q = (q.1 + 2 * q.2 - 7) ^ 2 + (2 * q.1 + q.2 - 5) ^ 2 := fun q => by
    simp only [boothFunction, rotate_id]
  have h0 : boothFunction.function (1, 3) = 0 := by rw [h]; norm_num
  refine ⟨h0, onlyMinimum_of_zero h0 (fun q => by rw [h]; positivity) fun q hq => ?_⟩
  rw [h] at hq
  have a : q.1 + 2 * q.2 - 7 = 0 := by nlinarith [sq_nonneg (q.1 + 2 * q.2 - 7), sq_nonneg (2 * q.1 + q.2 - 5)]
  have b : 2 * q.1 + q.2 - 5 = 0 := by nlinarith [sq_nonneg (q.1 + 2 * q.2 - 7), sq_nonneg (2 * q.1 + q.2 - 5)]
  ext
  · show q.1 = 1; linarith
  · show q.2 = 3; linarith

theorem matyas_min : matyasFunction.function (0, 0) = 0 ∧ OnlyMinimum matyasFunction.function (0, 0) := by
  have h : ∀ q, matyasFunction.function q = 0.02 * (q.1 ^ 2 + q.2 ^ 2) + 0.24 * (q.1 - q.2) ^ 2 := fun q => by
    simp only [matyasFunction]; ring
  have h0 : matyasFunction.function (0, 0) = 0 := by rw [h]; norm_num
  refine ⟨h0, onlyMinimum_of_zero h0 (fun q => by rw [h]; positivity) fun q hq => ?_⟩
  rw [h] at hq
  have a : q.1 ^ 2 = 0 := by nlinarith [sq_nonneg q.1, sq_nonneg q.2, sq_nonneg (q.1 - q.2)]
  have b : q.2 ^ 2 = 0 := by nlinarith [sq_nonneg q.1, sq_nonneg q.2, sq_nonneg (q.1 - q.2)]
  ext
  · exact pow_eq_zero_iff (two_ne_zero) |>.1 a
  · exact pow_eq_zero_iff (two_ne_zero) |>.1 b

theorem ackley_min : ackleyFunction.function (0, 0) = 0 ∧ OnlyMinimum ackleyFunction.function (0, 0) := by
  have h0 : ackleyFunction.function (0, 0) = 0 := by
    simp only [ackleyFunction]
    norm_num
  refine ⟨h0, fun q hq => ?_⟩
  rw [h0]
  have hs : 0 < √(0.5 * (q.1 ^ 2 + q.2 ^ 2)) := by
    apply sqrt_pos.2
    rcases eq_or_ne q.1 0 with h1 | h1
    · have h2 : q.2 ≠ 0 := fun h2 => hq (Prod.ext h1 h2)
      positivity
    · positivity
  have a : exp (-0.25 * √(0.5 * (q.1 ^ 2 + q.2 ^ 2))) < 1 := by
    rw [exp_lt_one_iff]
    nlinarith
  have b : exp (0.5 * (cos (2 * π * q.1) + cos (2 * π * q.2))) ≤ exp 1 := exp_le_exp.2 (by linarith [cos_le_one (2 * π * q.1), cos_le_one (2 * π * q.2)])
  simp only [ackleyFunction]
  linarith

theorem easom_min : easomFunction.function (π, π) = 0 ∧ OnlyMinimum easomFunction.function (π, π) := by
  have h0 : easomFunction.function (π, π) = 0 := by
    simp only [easomFunction, cos_pi]
    norm_num
  refine ⟨h0, fun q hq => ?_⟩
  rw [h0]
  have hs : 0 < (q.1 - π) ^ 2 + (q.2 - π) ^ 2 := by
    rcases eq_or_ne q.1 π with h1 | h1
    · have h2 : q.2 - π ≠ 0 := fun h2 => hq (Prod.ext h1 (sub_eq_zero.1 h2))
      positivity
    · have h2 : q.1 - π ≠ 0 := sub_ne_zero.2 h1
      positivity
  have a : exp (-((q.1 - π) ^ 2 + (q.2 - π) ^ 2)) < 1 := exp_lt_one_iff.2 (by linarith)
  have b : cos q.1 * cos q.2 ≤ 1 := by
    have h1 : |cos q.1 * cos q.2| ≤ 1 := by
      rw [abs_mul]
      exact mul_le_one₀ (abs_cos_le_one _) (abs_nonneg _) (abs_cos_le_one _)
    exact (le_abs_self _).trans h1
  have c := exp_pos (-((q.1 - π) ^ 2 + (q.2 - π) ^ 2))
  simp only [easomFunction]
  nlinarith

theorem rastrigin_min : rastriginFunction.function (0, 0) = 0 ∧ OnlyMinimum rastriginFunction.function (0, 0) := by
  have h0 : rastriginFunction.function (0, 0) = 0 := by
    simp only [rastriginFunction]
    norm_num
  refine ⟨h0, fun q hq => ?_⟩
  rw [h0]
  have hs : 0 < q.1 ^ 2 + q.2 ^ 2 := by
    rcases eq_or_ne q.1 0 with h1 | h1
    · have h2 : q.2 ≠ 0 := fun h2 => hq (Prod.ext h1 h2)
      positivity
    · positivity
  simp only [rastriginFunction]
  linarith [cos_le_one (2 * π * q.1), cos_le_one (2 * π * q.2)]

theorem rosenbrock_min : rosenbrockFunction.function (1, 1) = 0 ∧ OnlyMinimum rosenbrockFunction.function (1, 1) := by
  have h0 : rosenbrockFunction.function (1, 1) = 0 := by simp only [rosenbrockFunction]; norm_num
  refine ⟨h0, onlyMinimum_of_zero h0 (fun q => by simp only [rosenbrockFunction]; positivity) fun q hq => ?_⟩
  simp only [rosenbrockFunction] at hq
  have a : (1 - q.1) ^ 2 = 0 := by nlinarith [sq_nonneg (1 - q.1), sq_nonneg (q.2 - q.1 ^ 2)]
  have b : (q.2 - q.1 ^ 2) ^ 2 = 0 := by nlinarith [sq_nonneg (1 - q.1), sq_nonneg (q.2 - q.1 ^ 2)]
  have a' : 1 - q.1 = 0 := pow_eq_zero_iff (two_ne_zero) |>.1 a
  have b' : q.2 - q.1 ^ 2 = 0 := pow_eq_zero_iff (two_ne_zero) |>.1 b
  have h1 : q.1 = 1 := by linarith
  rw [h1] at b'
  exact Prod.ext h1 (show q.2 = 1 by linarith)

theorem beale_min : bealeFunction.function (3, 0.5) = 0 ∧ OnlyMinimum bealeFunction.function (3, 0.5) := by
  have h0 : bealeFunction.function (3, 0.5) = 0 := by simp only [bealeFunction]; norm_num
  refine ⟨h0, onlyMinimum_of_zero h0 (fun q => by simp only [bealeFunction]; positivity) fun q hq => ?_⟩
  simp only [bealeFunction] at hq
  have a : (1.5 - q.1 + q.1 * q.2) ^ 2 = 0 := by
    nlinarith [sq_nonneg (1.5 - q.1 + q.1 * q.2), sq_nonneg (2.25 - q.1 + q.1 * q.2 ^ 2), sq_nonneg (2.625 - q.1 + q.1 * q.2 ^ 3)]
  have b : (2.25 - q.1 + q.1 * q.2 ^ 2) ^ 2 = 0 := by
    nlinarith [sq_nonneg (1.5 - q.1 + q.1 * q.2), sq_nonneg (2.25 - q.1 + q.1 * q.2 ^ 2), sq_nonneg (2.625 - q.1 + q.1 * q.2 ^ 3)]
  have a' : 1.5 - q.1 + q.1 * q.2 = 0 := pow_eq_zero_iff (two_ne_zero) |>.1 a
  have b' : 2.25 - q.1 + q.1 * q.2 ^ 2 = 0 := pow_eq_zero_iff (two_ne_zero) |>.1 b
  have h1 : q.1 * (1 - q.2) = 1.5 := by linarith
  have h2 : 1.5 * (1 + q.2) = 2.25 := by
    rw [← h1]
    linarith
  have h3 : q.2 = 0.5 := by linarith
  rw [h3] at h1
  exact Prod.ext (show q.1 = 3 by linarith) h3

/-- Goldstein and Price's function is a product of a function of `x + y` and one of `2x - 3y`. -/
theorem goldstein_split (q : ℝ × ℝ) : goldsteinPriceFunction.function q =
    (1 + (q.1 + q.2 + 1) ^ 2 * (3 * (q.1 + q.2) ^ 2 - 14 * (q.1 + q.2) + 19)) *
      (3 + (2 * q.1 - 3 * q.2 - 3) ^ 2 * (3 * (2 * q.1 - 3 * q.2) ^ 2 + 2 * (2 * q.1 - 3 * q.2) + 3)) := by
  simp only [goldsteinPriceFunction]
  ring

theorem goldstein_min : goldsteinPriceFunction.function (0, -1) = 3 ∧ OnlyMinimum goldsteinPriceFunction.function (0, -1) := by
  have h0 : goldsteinPriceFunction.function (0, -1) = 3 := by simp only [goldsteinPriceFunction]; norm_num
  refine ⟨h0, fun q hq => ?_⟩
  rw [h0, goldstein_split]
  have p1 : 0 < 3 * (q.1 + q.2) ^ 2 - 14 * (q.1 + q.2) + 19 := by nlinarith [sq_nonneg (3 * (q.1 + q.2) - 7)]
  have p2 : 0 < 3 * (2 * q.1 - 3 * q.2) ^ 2 + 2 * (2 * q.1 - 3 * q.2) + 3 := by nlinarith [sq_nonneg (3 * (2 * q.1 - 3 * q.2) + 1)]
  set u := 3 * (q.1 + q.2) ^ 2 - 14 * (q.1 + q.2) + 19
  set v := 3 * (2 * q.1 - 3 * q.2) ^ 2 + 2 * (2 * q.1 - 3 * q.2) + 3
  by_cases h1 : q.1 + q.2 + 1 = 0
  · have h2 : 2 * q.1 - 3 * q.2 - 3 ≠ 0 := fun h2 => hq (Prod.ext (show q.1 = 0 by linarith) (show q.2 = -1 by linarith))
    have h3 : 0 < (2 * q.1 - 3 * q.2 - 3) ^ 2 * v := by positivity
    rw [h1]
    linarith
  · have h3 : 0 < (q.1 + q.2 + 1) ^ 2 * u := by positivity
    have h4 : 0 ≤ (2 * q.1 - 3 * q.2 - 3) ^ 2 * v := by positivity
    nlinarith

theorem levi13_min : levi13Function.function (1, 1) = 0 ∧ OnlyMinimum levi13Function.function (1, 1) := by
  have h0 : levi13Function.function (1, 1) = 0 := by
    simp only [levi13Function]
    have : sin (3 * π * 1) = 0 := by rw [mul_one]; exact_mod_cast sin_nat_mul_pi 3
    rw [this]
    norm_num
  refine ⟨h0, fun q hq => ?_⟩
  rw [h0]
  simp only [levi13Function]
  have a : 0 ≤ sin (3 * π * q.1) ^ 2 := sq_nonneg _
  have b : 0 ≤ (q.1 - 1) ^ 2 * (1 + sin (3 * π * q.2) ^ 2) := by positivity
  have c : 0 ≤ (q.2 - 1) ^ 2 * (1 + sin (2 * π * q.2) ^ 2) := by positivity
  rcases eq_or_ne q.1 1 with h1 | h1
  · have h2 : q.2 - 1 ≠ 0 := fun h2 => hq (Prod.ext h1 (sub_eq_zero.1 h2))
    have : 0 < (q.2 - 1) ^ 2 * (1 + sin (2 * π * q.2) ^ 2) := by positivity
    linarith
  · have h2 : q.1 - 1 ≠ 0 := sub_ne_zero.2 h1
    have : 0 < (q.1 - 1) ^ 2 * (1 + sin (3 * π * q.2) ^ 2) := by positivity
    linarith

/-- **C105.** For nine of the functions, `TestFunction(name)` returns; the reference point is the only minimum of the function in the whole plane, the recorded value is the
value there (0, and 3 for Goldstein and Price's), and no value of the mesh is smaller. -/
theorem C105_minimum {name : String} (hn : name ∈ benchGood) : ∃ T, testFunction name = .ok T ∧ OnlyMinimum T.function T.xP ∧ T.zP = T.function T.xP ∧
    T.zP = (if name = "goldstein_price_function" then 3 else 0) ∧ ∀ i j, T.Z i j = T.function (T.X i, T.Y j) ∧ T.zP ≤ T.Z i j := by
  have key : ∀ (b : BenchFn) (p : ℝ × ℝ) (m : ℝ) (x0 x1 y0 y1 : ℝ) (r : List ℝ), benchNamed name = some b → b.xP = some p → b.xRange = [x0, x1] → b.yRange = y0 :: y1 :: r →
      b.function p = m ∧ OnlyMinimum b.function p → ∃ T, testFunction name = .ok T ∧ OnlyMinimum T.function T.xP ∧ T.zP = T.function T.xP ∧
        T.zP = m ∧ ∀ i j, T.Z i j = T.function (T.X i, T.Y j) ∧ T.zP ≤ T.Z i j := by
    intro b p m x0 x1 y0 y1 r h1 h2 h3 h4 ⟨h5, h6⟩
    unfold testFunction
    rw [h1]
    dsimp only
    rw [h2]
    dsimp only
    rw [h3, h4]
    refine ⟨_, rfl, h6, rfl, h5, fun i j => ⟨rfl, ?_⟩⟩
    dsimp only
    by_cases hq : (gridPoint x0 x1 i, gridPoint y0 y1 j) = p
    · rw [hq]
    · exact (h6 _ hq).le
  simp only [benchGood, List.mem_cons, List.not_mem_nil, or_false] at hn
  rcases hn with rfl | rfl | rfl | rfl | rfl | rfl | rfl | rfl | rfl
  · exact key boothFunction _ _ _ _ _ _ _ rfl rfl rfl rfl booth_min
  · exact key matyasFunction _ _ _ _ _ _ _ rfl rfl rfl rfl matyas_min
  · exact key ackleyFunction _ _ _ _ _ _ _ rfl rfl rfl rfl ackley_min
  · exact key easomFunction _ _ _ _ _ _ _ rfl rfl rfl rfl easom_min
  · exact key rastriginFunction _ _ _ _ _ _ _ rfl rfl rfl rfl rastrigin_min
  · exact key rosenbrockFunction _ _ _ _ _ _ _ rfl rfl rfl rfl rosenbrock_min
  · exact key bealeFunction _ _ _ _ _ _ _ rfl rfl rfl rfl beale_min
  · exact key goldsteinPriceFunction _ _ _ _ _ _ _ rfl rfl rfl rfl goldstein_min
  · exact key levi13Function _ _ _ _ _ _ _ rfl rfl rfl rfl levi13_min

/-- **C105 (finding).** The reference point of the sphere function is not its minimum: the recorded value is 0.02, the only minimum is at the origin with value 0. -/
theorem C105_sphere : ∃ T, testFunction "sphere_function" = .ok T ∧ T.xP = (0.1, 0.1) ∧ T.zP = 0.02 ∧ T.function (0, 0) = 0 ∧ OnlyMinimum T.function (0, 0) := by
  refine ⟨_, rfl, rfl, ?_, ?_, fun q hq => ?_⟩
  · simp only [sphereFunction]; norm_num
  · simp only [sphereFunction]; norm_num
  · simp only [sphereFunction]
    rcases eq_or_ne q.1 0 with h1 | h1
    · have h2 : q.2 ≠ 0 := fun h2 => hq (Prod.ext h1 h2)
      have : 0 < q.1 ^ 2 + q.2 ^ 2 := by positivity
      linarith
    · have : 0 < q.1 ^ 2 + q.2 ^ 2 := by positivity
      linarith

/-- **C105 (finding).** Two of the functions cannot be made a `TestFunction`: the reference point is not returned. -/
theorem C105_unusable : testFunction "eggholder_function" = .error .valueError ∧ testFunction "gaussian_function" = .error .valueError := ⟨rfl, rfl⟩

/-- **C105 (finding).** The reference point written down for the Gaussian is its only maximum, and it has no minimum. -/
theorem C105_gaussian : OnlyMinimum (fun q => -gaussianFunction.function q) (0, 0) ∧ ∀ p, ∃ q, gaussianFunction.function q < gaussianFunction.function p := by
  constructor
  · intro q hq
    have hs : 0 < 1 * q.1 ^ 2 + 50 * q.2 ^ 2 := by
      rcases eq_or_ne q.1 0 with h1 | h1
      · have h2 : q.2 ≠ 0 := fun h2 => hq (Prod.ext h1 h2)
        positivity
      · positivity
    simp only [gaussianFunction]
    exact neg_lt_neg (exp_lt_exp.2 (by norm_num; linarith))
  · intro p
    refine ⟨(p.1 ^ 2 + 1, p.2), ?_⟩
    simp only [gaussianFunction]
    refine exp_lt_exp.2 ?_
    nlinarith [sq_nonneg (p.1 ^ 2)]

/-- **C105.** The mesh runs from the first to the second entry of the ranges, which are the ends of the range for all functions but one: Beale's is given a range with three
entries, of which the mesh uses the first two, so it ends at 4 (finding). -/
theorem C105_mesh {name : String} {T : TestFn} (h : testFunction name = .ok T) :
    (∃ x0 x1 : ℝ, T.xRange = [x0, x1] ∧ x0 < x1 ∧ T.X 0 = x0 ∧ T.X 999 = x1 ∧ ∀ i, x0 ≤ T.X i ∧ T.X i ≤ x1) ∧
    (name ≠ "beale_function" → ∃ y0 y1 : ℝ, T.yRange = [y0, y1] ∧ y0 < y1 ∧ T.Y 0 = y0 ∧ T.Y 999 = y1 ∧ ∀ j, y0 ≤ T.Y j ∧ T.Y j ≤ y1) ∧
    (name = "beale_function" → T.yRange = [-4.5, 4, 5] ∧ T.Y 0 = -4.5 ∧ T.Y 999 = 4 ∧ ∀ j, -4.5 ≤ T.Y j ∧ T.Y j ≤ 4) := by
  have hg : ∀ {a b : ℝ}, a < b → gridPoint a b 0 = a ∧ gridPoint a b 999 = b ∧ ∀ i, a ≤ gridPoint a b i ∧ gridPoint a b i ≤ b := by
    intro a b hab
    refine ⟨by simp [gridPoint], ?_, fun i => ?_⟩
    · have : (((999 : Fin 1000) : Nat) : ℝ) = 999 := by norm_num
      unfold gridPoint
      rw [this]
      field_simp
      ring
    · have h1 : (0 : ℝ) ≤ i := Nat.cast_nonneg _
      have h2 : ((i : Nat) : ℝ) ≤ 999 := by
        have := i.2
        exact_mod_cast (by omega : (i : Nat) ≤ 999)
      have h3 : 0 < (b - a) / 999 := by
        have : 0 < b - a := sub_pos.2 hab
        positivity
      unfold gridPoint
      refine ⟨by nlinarith, ?_⟩
      have : b = a + 999 * ((b - a) / 999) := by field_simp; ring
      nlinarith
  have key : ∀ (b : BenchFn) (p : ℝ × ℝ) (x0 x1 y0 y1 : ℝ) (r : List ℝ), benchNamed name = some b → b.xP = some p → b.xRange = [x0, x1] → b.yRange = y0 :: y1 :: r → x0 < x1 → y0 < y1 →
      (T.xRange = [x0, x1] ∧ T.X 0 = x0 ∧ T.X 999 = x1 ∧ ∀ i, x0 ≤ T.X i ∧ T.X i ≤ x1) ∧ (T.yRange = y0 :: y1 :: r ∧ T.Y 0 = y0 ∧ T.Y 999 = y1 ∧ ∀ i, y0 ≤ T.Y i ∧ T.Y i ≤ y1) := by
    intro b p x0 x1 y0 y1 r h1 h2 h3 h4 hx hy
    unfold testFunction at h
    rw [h1] at h
    dsimp only at h
    rw [h2] at h
    dsimp only at h
    rw [h3, h4] at h
    injection h with h
    subst h
    exact ⟨⟨rfl, hg hx⟩, rfl, hg hy⟩
  have two : ∀ (b : BenchFn) (p : ℝ × ℝ) (x0 x1 y0 y1 : ℝ), name ≠ "beale_function" → benchNamed name = some b → b.xP = some p → b.xRange = [x0, x1] → b.yRange = [y0, y1] →
      x0 < x1 → y0 < y1 → (∃ x0 x1 : ℝ, T.xRange = [x0, x1] ∧ x0 < x1 ∧ T.X 0 = x0 ∧ T.X 999 = x1 ∧ ∀ i, x0 ≤ T.X i ∧ T.X i ≤ x1) ∧
      (name ≠ "beale_function" → ∃ y0 y1 : ℝ, T.yRange = [y0, y1] ∧ y0 < y1 ∧ T.Y 0 = y0 ∧ T.Y 999 = y1 ∧ ∀ j, y0 ≤ T.Y j ∧ T.Y j ≤ y1) ∧
      (name = "beale_function" → T.yRange = [-4.5, 4, 5] ∧ T.Y 0 = -4.5 ∧ T.Y 999 = 4 ∧ ∀ j, -4.5 ≤ T.Y j ∧ T.Y j ≤ 4) := by
    intro b p x0 x1 y0 y1 hb h1 h2 h3 h4 hx hy
    obtain ⟨⟨a1, a2⟩, a3, a4⟩ := key b p x0 x1 y0 y1 [] h1 h2 h3 h4 hx hy
    exact ⟨⟨x0, x1, a1, hx, a2⟩, fun _ => ⟨y0, y1, a3, hy, a4⟩, fun h => absurd h hb⟩
  have hcases : name ∈ benchGood ∨ name = "sphere_function" ∨ name = "eggholder_function" ∨ name = "gaussian_function" ∨ benchNamed name = none := by
    unfold benchNamed
    split <;> simp [benchGood]
  rcases hcases with hn | rfl | rfl | rfl | hn
  · simp only [benchGood, List.mem_cons, List.not_mem_nil, or_false] at hn
    rcases hn with rfl | rfl | rfl | rfl | rfl | rfl | rfl | rfl | rfl
    · exact two boothFunction _ _ _ _ _ (by decide) rfl rfl rfl rfl (by norm_num) (by norm_num)
    · exact two matyasFunction _ _ _ _ _ (by decide) rfl rfl rfl rfl (by norm_num) (by norm_num)
    · exact two ackleyFunction _ _ _ _ _ (by decide) rfl rfl rfl rfl (by norm_num) (by norm_num)
    · exact two easomFunction _ _ _ _ _ (by decide) rfl rfl rfl rfl (by norm_num) (by norm_num)
    · exact two rastriginFunction _ _ _ _ _ (by decide) rfl rfl rfl rfl (by norm_num) (by norm_num)
    · exact two rosenbrockFunction _ _ _ _ _ (by decide) rfl rfl rfl rfl (by norm_num) (by norm_num)
    · obtain ⟨⟨a1, a2⟩, a3, a4⟩ := key bealeFunction _ _ _ _ _ _ rfl rfl rfl rfl (by norm_num) (by norm_num)
      exact ⟨⟨_, _, a1, by norm_num, a2⟩, fun h => absurd rfl h, fun _ => ⟨a3, a4⟩⟩
    · exact two goldsteinPriceFunction _ _ _ _ _ (by decide) rfl rfl rfl rfl (by norm_num) (by norm_num)
    · exact two levi13Function _ _ _ _ _ (by decide) rfl rfl rfl rfl (by norm_num) (by norm_num)
  · exact two sphereFunction _ _ _ _ _ (by decide) rfl rfl rfl rfl (by norm_num) (by norm_num)
  · cases h
  · cases h
  · unfold testFunction at h
    rw [hn] at h
    cases h

/-- **C105.** Ackley's function has a kink at its minimum: along the axis it has no derivative there, so neither a gradient nor a Hessian exists (as its comment says). -/
theorem C105_ackley_kink : ¬ DifferentiableAt ℝ (fun x => ackleyFunction.function (x, 0)) 0 := by
  intro hd
  -- without the smooth part, `exp` of a multiple of `|x|` would have a derivative
  have h1 : DifferentiableAt ℝ (fun x : ℝ => exp (0.5 * (cos (2 * π * x) + cos (2 * π * 0)))) 0 := by fun_prop
  have h2 : DifferentiableAt ℝ (fun x : ℝ => exp (-0.25 * √(0.5 * (x ^ 2 + 0 ^ 2)))) 0 := by
    have h3 := ((hd.add h1).sub_const (exp 1 + 20)).const_mul (-(1 / 20))
    refine h3.congr_of_eventuallyEq (Filter.Eventually.of_forall fun x => ?_)
    simp only [ackleyFunction, Pi.add_apply]
    ring
  have h4 : DifferentiableAt ℝ (fun x : ℝ => |x|) 0 := by
    have h5 : DifferentiableAt ℝ (fun x : ℝ => log (exp (-0.25 * √(0.5 * (x ^ 2 + 0 ^ 2))))) 0 := h2.log (exp_pos _).ne'
    have h6 := h5.const_mul (-4 / √0.5)
    refine h6.congr_of_eventuallyEq (Filter.Eventually.of_forall fun x => ?_)
    have hp : (0 : ℝ) < √0.5 := sqrt_pos.2 (by norm_num)
    dsimp only
    rw [log_exp, show (0.5 * (x ^ 2 + 0 ^ 2) : ℝ) = 0.5 * x ^ 2 by ring, sqrt_mul (by norm_num), sqrt_sq_eq_abs]
    field_simp
    norm_num
    ring
  exact not_differentiableAt_abs_zero h4

/-- The object the Hessian analysis is tried out on (`testing/test_function_analysis.py:33`). -/
example : ∃ T, testFunction "beale_function" = .ok T ∧ T.xP = (3, 0.5) ∧ T.zP = 0 ∧ T.function (3, 0.5) < T.function (0, 0) := by
  obtain ⟨T, h1, h2, h3, h4, -⟩ := C105_minimum (name := "beale_function") (by decide)
  have h5 : T.xP = (3, 0.5) := by
    have := h1.symm.trans (rfl : testFunction "beale_function" = .ok _)
    injection this with this
    rw [this]
  refine ⟨T, h1, h5, by rw [h4]; exact if_neg (by decide), ?_⟩
  rw [← h5]
  exact h2 _ (by rw [h5]; simp)

example : "goldstein_price_function" ∈ benchGood := by decide

example : ∃ T, testFunction "beale_function" = .ok T ∧ T.Y 999 = 4 := by
  obtain ⟨T, h1, -⟩ := C105_minimum (name := "beale_function") (by decide)
  exact ⟨T, h1, ((C105_mesh h1).2.2 rfl).2.2.1⟩

end Verif
