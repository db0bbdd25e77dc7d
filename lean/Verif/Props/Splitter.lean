import Verif.Model.Splitter
import Mathlib.Algebra.Order.BigOperators.Group.List
import Mathlib.Algebra.BigOperators.Ring.List
import Mathlib.Tactic.Linarith
import Mathlib.Tactic.FieldSimp
import Mathlib.Tactic.Ring
import Mathlib.Tactic.NormNum
import Mathlib.Tactic.Positivity
import Mathlib.Algebra.Order.Ring.Rat
/-! # Properties of the splitters (C38) -/

namespace Verif

section
variable {K : Type} [Field K]

theorem splitWeights_cons (x : K) (a : List K) : splitWeights (x :: a) = (1 - x) :: (splitWeights a).map (x * ·) := by
  unfold splitWeights
  simp only [List.zipIdx_cons, List.map_cons, List.take_zero, List.prod_nil, mul_one, List.cons_append, List.map_append, List.prod_cons,
    List.map_nil, List.cons.injEq, true_and]
  congr 1
  refine List.ext_getElem? (fun i => ?_)
  simp only [List.getElem?_map, List.getElem?_zipIdx]
  cases a[i]? with
  | none => rfl
  | some y =>
    simp only [Option.map_some, Option.some.injEq, Nat.zero_add]
    rw [show 1 + i = i + 1 by omega, List.take_succ_cons, List.prod_cons]
    ring

theorem splitWeights_length (a : List K) : (splitWeights a).length = a.length + 1 := by simp [splitWeights]

theorem defaultRatios_length (n : Nat) : (defaultRatios K n).length = n - 1 := by
  induction n with
  | zero => rfl
  | succ n ih =>
    cases n with
    | zero => rfl
    | succ n => rw [defaultRatios, List.length_cons, ih]; omega

/-- **C38.** The attribute lists fit a splitter with `n` outputs: one ratio fewer than outputs. -/
theorem C38_attributes (n : Nat) : (splitUpdate K n).params.length = n - 1 ∧ (splitUpdate K n).lower.length = n - 1 ∧
    (splitUpdate K n).upper.length = n - 1 ∧ (splitUpdate K n).locks.length = n - 1 ∧ (splitUpdate K n).names.length = n - 1 ∧
    (0 < n → (splitWeights (splitUpdate K n).params).length = n) := by
  refine ⟨defaultRatios_length n, by simp [splitUpdate], by simp [splitUpdate], by simp [splitUpdate], by simp [splitUpdate], ?_⟩
  intro hn
  rw [splitWeights_length]
  simp only [splitUpdate, defaultRatios_length]
  omega

/-- **C38.** The weights add up to one, whatever the ratios. -/
theorem C38_sum_one (a : List K) : (splitWeights a).sum = 1 := by
  induction a with
  | nil => simp [splitWeights]
  | cons x a ih =>
    rw [splitWeights_cons, List.sum_cons, List.sum_map_mul_left, List.map_id'', ih]
    · ring
    · intro; rfl

theorem defaultRatios_weights [CharZero K] (n : Nat) : splitWeights (defaultRatios K (n + 1)) = List.replicate (n + 1) (1 / ((n + 1 : Nat) : K)) := by
  induction n with
  | zero => simp [defaultRatios, splitWeights]
  | succ n ih =>
    rw [defaultRatios, splitWeights_cons, ih, List.map_replicate]
    conv_rhs => rw [List.replicate_succ]
    have h1 : ((n + 1 : Nat) : K) ≠ 0 := Nat.cast_ne_zero.2 (by omega)
    have h2 : ((n + 2 : Nat) : K) ≠ 0 := Nat.cast_ne_zero.2 (by omega)
    have h3 : ((n + 2 : Nat) : K) = ((n + 1 : Nat) : K) + 1 := by push_cast; ring
    congr 1
    · ring
    · congr 1
      rw [h3] at h2 ⊢
      field_simp
      ring

/-- **C38.** With the default ratios every output gets the same share. -/
theorem C38_default_equal [CharZero K] {n : Nat} (hn : 0 < n) :
    splitWeights (splitUpdate K n).params = List.replicate n (1 / (n : K)) := by
  obtain ⟨m, rfl⟩ : ∃ m, n = m + 1 := ⟨n - 1, by omega⟩
  exact defaultRatios_weights m

variable [LinearOrder K] [IsStrictOrderedRing K]

/-- **C38.** For ratios in `[0,1]` no weight is negative (and none above one). -/
theorem C38_nonneg {a : List K} (ha : ∀ x ∈ a, 0 ≤ x ∧ x ≤ 1) : ∀ w ∈ splitWeights a, 0 ≤ w ∧ w ≤ 1 := by
  induction a with
  | nil =>
    intro w hw
    simp [splitWeights] at hw
    subst hw
    exact ⟨zero_le_one, le_refl _⟩
  | cons x a ih =>
    intro w hw
    obtain ⟨h0, h1⟩ := ha x List.mem_cons_self
    rw [splitWeights_cons] at hw
    rcases List.mem_cons.1 hw with rfl | hw
    · constructor <;> linarith
    · obtain ⟨v, hv, rfl⟩ := List.mem_map.1 hw
      obtain ⟨g0, g1⟩ := ih (fun y hy => ha y (List.mem_cons_of_mem _ hy)) v hv
      exact ⟨mul_nonneg h0 g0, mul_le_one₀ h1 g0 g1⟩

/-- The default ratios and bounds agree. -/
theorem C38_defaults_in_bounds (n : Nat) : ∀ x ∈ (splitUpdate K n).params, 0 ≤ x ∧ x ≤ 1 := by
  change ∀ x ∈ defaultRatios K n, 0 ≤ x ∧ x ≤ 1
  induction n with
  | zero => simp [defaultRatios]
  | succ n ih =>
    cases n with
    | zero => simp [defaultRatios]
    | succ n =>
      intro x hx
      rw [defaultRatios] at hx
      rcases List.mem_cons.1 hx with rfl | hx
      · have h2 : (1 : K) ≤ ((n + 2 : Nat) : K) := by exact_mod_cast (by omega : 1 ≤ n + 2)
        have h3 : 1 / ((n + 2 : Nat) : K) ≤ 1 := by
          rw [div_le_one (by linarith)]
          exact h2
        have h4 : 0 ≤ 1 / ((n + 2 : Nat) : K) := by positivity
        constructor <;> linarith
      · exact ih x hx

/-- **C38.** The bounds of a splitter are safe and lose nothing: ratios between its bounds give weights in `[0,1]`, every list of ratios in `[0,1]` lies between
them, the default ratios do, and none of them is locked. -/
theorem C38_bounds (n : Nat) :
    (∀ a : List K, a.length = n - 1 →
      ((∀ (i : Nat) (x l u : K), a[i]? = some x → (splitUpdate K n).lower[i]? = some l → (splitUpdate K n).upper[i]? = some u → l ≤ x ∧ x ≤ u) ↔ ∀ x ∈ a, 0 ≤ x ∧ x ≤ 1)) ∧
    (∀ a : List K, a.length = n - 1 →
      (∀ (i : Nat) (x l u : K), a[i]? = some x → (splitUpdate K n).lower[i]? = some l → (splitUpdate K n).upper[i]? = some u → l ≤ x ∧ x ≤ u) →
      ∀ w ∈ splitWeights a, 0 ≤ w ∧ w ≤ 1) ∧ ∀ b ∈ (splitUpdate K n).locks, b = false := by
  have h1 : ∀ a : List K, a.length = n - 1 →
      ((∀ (i : Nat) (x l u : K), a[i]? = some x → (splitUpdate K n).lower[i]? = some l → (splitUpdate K n).upper[i]? = some u → l ≤ x ∧ x ≤ u) ↔ ∀ x ∈ a, 0 ≤ x ∧ x ≤ 1) := by
    intro a ha
    constructor
    · intro h x hx
      obtain ⟨i, hi⟩ := List.mem_iff_getElem?.1 hx
      have hlt : i < n - 1 := by rw [← ha]; exact (List.getElem?_eq_some_iff.1 hi).1
      exact h i x 0 1 hi (by simp [splitUpdate, hlt]) (by simp [splitUpdate, hlt])
    · intro h i x l u hx hl hu
      obtain ⟨_, e1⟩ := List.getElem?_eq_some_iff.1 hl
      obtain ⟨_, e2⟩ := List.getElem?_eq_some_iff.1 hu
      simp only [splitUpdate, List.getElem_replicate] at e1 e2
      rw [← e1, ← e2]
      exact h x (List.mem_of_getElem? hx)
  exact ⟨h1, fun a ha h => C38_nonneg ((h1 a ha).1 h), fun b hb => (List.mem_replicate.1 hb).2⟩

example : ([1/2, 1/3, 1] : List ℚ).length = 4 - 1 := rfl

/-- **C38.** The cut-offs of the frequency splitter with ratios in `[0,1]` rise from zero to one: the bands of its outputs tile the
spectrum; there is one band per output. -/
theorem C38_bands {a : List K} (ha : ∀ x ∈ a, 0 ≤ x ∧ x ≤ 1) : (freqCutoffs a).length = a.length + 2 ∧
    (freqCutoffs a).head? = some 0 ∧ (freqCutoffs a).getLast? = some 1 ∧ (freqCutoffs a).Pairwise (· ≤ ·) ∧
    ∀ (k : Nat) (l r w : K), (freqCutoffs a)[k]? = some l → (freqCutoffs a)[k + 1]? = some r → (splitWeights a)[k]? = some w → r - l = w := by
  have hw := C38_nonneg ha
  have hs := C38_sum_one a
  have hl := splitWeights_length a
  unfold freqCutoffs
  generalize splitWeights a = w at *
  dsimp only
  have hn : (0 :: w : List K).length - 1 = a.length + 1 := by simp [hl]
  rw [hn]
  have hsum : ∀ n, ((0 :: w : List K).take (n + 1)).sum = (w.take n).sum := by intro n; simp
  have hmono : ∀ i j, i ≤ j → (w.take i).sum ≤ (w.take j).sum := by
    intro i j hij
    obtain ⟨d, rfl⟩ := Nat.exists_eq_add_of_le hij
    rw [List.take_add, List.sum_append]
    have : 0 ≤ ((w.drop i).take d).sum := List.sum_nonneg (fun y hy => (hw y (List.mem_of_mem_drop (List.mem_of_mem_take hy))).1)
    linarith
  have hle1 : ∀ i, (w.take i).sum ≤ 1 := by
    intro i
    rw [← hs]
    conv_rhs => rw [← List.take_append_drop i w, List.sum_append]
    have : 0 ≤ (w.drop i).sum := List.sum_nonneg (fun y hy => (hw y (List.mem_of_mem_drop hy)).1)
    linarith
  refine ⟨by simp, ?_, by simp, ?_, ?_⟩
  · simp [List.range_succ_eq_map]
  · rw [List.pairwise_append]
    refine ⟨?_, by simp, ?_⟩
    · rw [List.pairwise_map]
      refine List.Pairwise.imp ?_ List.pairwise_le_range
      intro i j hij
      rw [hsum, hsum]
      exact hmono i j hij
    · intro x hx y hy
      obtain ⟨i, _, rfl⟩ := List.mem_map.1 hx
      rw [List.mem_singleton.1 hy, hsum]
      exact hle1 i
  · intro k l r v h1 h2 h3
    have hk : k < a.length + 1 := by
      rw [← hl]
      exact (List.getElem?_eq_some_iff.1 h3).1
    rw [List.getElem?_append_left (by simpa using hk), List.getElem?_map, List.getElem?_range hk] at h1
    simp only [Option.map_some, Option.some.injEq, hsum] at h1
    have hstep : (w.take (k + 1)).sum = (w.take k).sum + v := by
      rw [List.take_add_one, h3, List.sum_append]
      simp
    rcases Nat.lt_or_ge (k + 1) (a.length + 1) with hk1 | hk1
    · rw [List.getElem?_append_left (by simpa using hk1), List.getElem?_map, List.getElem?_range hk1] at h2
      simp only [Option.map_some, Option.some.injEq, hsum] at h2
      rw [← h1, ← h2, hstep]
      ring
    · have hka : k = a.length := by omega
      rw [List.getElem?_append_right (by simpa using hk1)] at h2
      simp [hka] at h2
      have : w.take (k + 1) = w := List.take_of_length_le (by omega)
      rw [this, hs] at hstep
      rw [← h1, ← h2]
      linarith

end

/-! ### Signals -/

theorem sum_map_mul_left' (c : ℂ) (l : List ℂ) : (l.map (c * ·)).sum = c * l.sum := by
  rw [List.sum_map_mul_left, List.map_id'']
  intro; rfl

/-- The signals at the inputs, added up with the phases of the splitter. -/
noncomputable def combined (s : List ℂ) : ℂ :=
  (s.zipIdx.map (fun p => Complex.exp (-(2 * Real.pi * ((p.2 : ℝ) / s.length) : ℝ) * Complex.I) * p.1)).sum

theorem splitRow_eq (nOut : Nat) (w : ℝ) (j : Nat) (s : List ℂ) : splitRow s.length nOut w j s =
    (((Real.sqrt w / Real.sqrt nOut : ℝ) : ℂ) * Complex.exp (-(2 * Real.pi * ((j : ℝ) / nOut) : ℝ) * Complex.I)) * combined s := by
  unfold splitRow combined
  rw [← sum_map_mul_left', List.map_map]
  congr 1
  apply List.map_congr_left
  intro p _
  simp only [Function.comp, splitPhase]
  have : Complex.exp (-(2 * Real.pi * ((p.2 : ℝ) / s.length + (j : ℝ) / nOut) : ℝ) * Complex.I) =
      Complex.exp (-(2 * Real.pi * ((p.2 : ℝ) / s.length) : ℝ) * Complex.I) * Complex.exp (-(2 * Real.pi * ((j : ℝ) / nOut) : ℝ) * Complex.I) := by
    rw [← Complex.exp_add]
    congr 1
    push_cast
    ring
  rw [this]
  ring

theorem norm_splitRow {nOut : Nat} {w : ℝ} (hw : 0 ≤ w) (j : Nat) (s : List ℂ) :
    ‖splitRow s.length nOut w j s‖ ^ 2 = w / nOut * ‖combined s‖ ^ 2 := by
  rw [splitRow_eq, norm_mul, norm_mul]
  have h1 : ‖Complex.exp (-(2 * Real.pi * ((j : ℝ) / nOut) : ℝ) * Complex.I)‖ = 1 := by
    rw [show (-(2 * Real.pi * ((j : ℝ) / nOut) : ℝ) * Complex.I : ℂ) = ((-(2 * Real.pi * ((j : ℝ) / nOut)) : ℝ) : ℂ) * Complex.I by push_cast; ring]
    exact Complex.norm_exp_ofReal_mul_I _
  rw [h1, Complex.norm_real, Real.norm_eq_abs, mul_one, mul_pow, sq_abs, div_pow, Real.sq_sqrt hw, Real.sq_sqrt (Nat.cast_nonneg _)]

/-- **C38.** What a splitter does to the signals: output `j` carries the fraction `w_j / n_out` of the power of the combined input, so
together the outputs carry `1 / n_out` of it. -/
theorem C38_power {a : List ℝ} (ha : ∀ x ∈ a, 0 ≤ x ∧ x ≤ 1) (s : List ℂ) :
    ∃ out, splitPropagate a s.length (a.length + 1) s = .ok out ∧ out.length = a.length + 1 ∧
      (∀ (j : Nat) (w : ℝ) (y : ℂ), (splitWeights a)[j]? = some w → out[j]? = some y → ‖y‖ ^ 2 = w / (a.length + 1) * ‖combined s‖ ^ 2) ∧
      (out.map (‖·‖ ^ 2)).sum = ‖combined s‖ ^ 2 / (a.length + 1) := by
  have hw := C38_nonneg ha
  refine ⟨(splitWeights a).zipIdx.map (fun p => splitRow s.length (a.length + 1) p.1 p.2 s), ?_, ?_, ?_, ?_⟩
  · unfold splitPropagate
    dsimp only
    rw [if_neg (by rw [splitWeights_length]; push Not; exact ⟨rfl, rfl⟩), if_neg]
    rintro ⟨x, hx, hx'⟩
    linarith [(hw x hx).1]
  · simp [splitWeights_length]
  · intro j w y h1 h2
    simp only [List.getElem?_map, List.getElem?_zipIdx, h1, Option.map_some, Option.some.injEq, Nat.zero_add] at h2
    rw [← h2, norm_splitRow (hw w (List.mem_of_getElem? h1)).1]
    push_cast
    rfl
  · rw [List.map_map]
    have : (splitWeights a).zipIdx.map ((fun y : ℂ => ‖y‖ ^ 2) ∘ fun p => splitRow s.length (a.length + 1) p.1 p.2 s) =
        (splitWeights a).zipIdx.map (fun p => (‖combined s‖ ^ 2 / (a.length + 1)) * p.1) := by
      apply List.map_congr_left
      intro p hp
      have : p.1 ∈ splitWeights a := by
        have := List.mem_map_of_mem (f := Prod.fst) hp
        rwa [List.zipIdx_map_fst] at this
      simp only [Function.comp]
      rw [norm_splitRow (hw p.1 this).1]
      push_cast
      ring
    change (((splitWeights a).zipIdx.map ((fun y : ℂ => ‖y‖ ^ 2) ∘ fun p => splitRow s.length (a.length + 1) p.1 p.2 s)).sum) = _
    rw [this, List.sum_map_mul_left, List.zipIdx_map_fst, C38_sum_one, mul_one]

/-- **C38.** Power is not conserved: from one input, a splitter with `n` outputs passes on the `n`-th part; two equal inputs cancel. -/
theorem C38_not_conserving {a : List ℝ} (ha : ∀ x ∈ a, 0 ≤ x ∧ x ≤ 1) (z : ℂ) :
    (∃ out, splitPropagate a 1 (a.length + 1) [z] = .ok out ∧ (out.map (‖·‖ ^ 2)).sum = ‖z‖ ^ 2 / (a.length + 1)) ∧
    (∃ out, splitPropagate a 2 (a.length + 1) [z, z] = .ok out ∧ (out.map (‖·‖ ^ 2)).sum = 0) ∧
    (∃ out, splitPropagate [] 2 1 [z, -z] = .ok out ∧ (out.map (‖·‖ ^ 2)).sum = 4 * ‖z‖ ^ 2) := by
  have e1 : Complex.exp (-(2 * Real.pi * (1 / 2) : ℝ) * Complex.I) = -1 := by
    rw [show (-(2 * Real.pi * (1 / 2) : ℝ) * Complex.I : ℂ) = -(Real.pi * Complex.I) by push_cast; ring, Complex.exp_neg, Complex.exp_pi_mul_I]
    norm_num
  refine ⟨?_, ?_, ?_⟩
  · obtain ⟨out, h1, _, _, h2⟩ := C38_power ha [z]
    refine ⟨out, h1, ?_⟩
    rw [h2]
    have : combined [z] = z := by simp [combined]
    rw [this]
  · obtain ⟨out, h1, _, _, h2⟩ := C38_power ha [z, z]
    refine ⟨out, h1, ?_⟩
    rw [h2]
    have : combined [z, z] = 0 := by
      unfold combined
      simp only [List.zipIdx_cons, List.zipIdx_nil, List.map_cons, List.map_nil, List.sum_cons, List.sum_nil, List.length_cons, List.length_nil,
        Nat.zero_add, Nat.cast_zero, Nat.cast_one, Nat.reduceAdd, Nat.cast_ofNat]
      rw [e1]
      simp
    rw [this]
    simp
  · obtain ⟨out, h1, _, _, h2⟩ := C38_power (a := []) (by simp) [z, -z]
    refine ⟨out, h1, ?_⟩
    rw [h2]
    have : combined [z, -z] = 2 * z := by
      unfold combined
      simp only [List.zipIdx_cons, List.zipIdx_nil, List.map_cons, List.map_nil, List.sum_cons, List.sum_nil, List.length_cons, List.length_nil,
        Nat.zero_add, Nat.cast_zero, Nat.cast_one, Nat.reduceAdd, Nat.cast_ofNat]
      rw [e1]
      simp
      ring
    rw [this]
    simp
    ring

example : splitWeights [(1/2 : ℚ), 1/4, 1] = [1/2, 3/8, 0, 1/8] := by decide +kernel
example : (splitUpdate ℚ 4).params = [3/4, 2/3, 1/2] ∧ splitWeights (splitUpdate ℚ 4).params = [1/4, 1/4, 1/4, 1/4] := by decide +kernel
example : freqCutoffs [(1/2 : ℚ), 1/4] = [0, 1/2, 7/8, 1] := by decide +kernel

/-! Cases of the other theorems. -/

example := C38_attributes (K := ℚ) 4
example := C38_sum_one [(1/2 : ℚ), 1/4, 1]
example := C38_default_equal (K := ℚ) (n := 4) (by norm_num)
example := C38_nonneg (a := [(1/2 : ℚ), 1/4, 1]) (by norm_num)
example := C38_defaults_in_bounds (K := ℚ) 4
example := C38_bands (a := [(1/2 : ℚ), 1/4, 1]) (by norm_num)
example := C38_power (a := [(1/2 : ℝ), 1/4]) (by norm_num) [1, Complex.I, 2]
example := C38_not_conserving (a := [(1/2 : ℝ), 1/4]) (by norm_num) Complex.I

end Verif
