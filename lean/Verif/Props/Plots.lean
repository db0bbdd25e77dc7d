import Verif.Spec.Plots
import Verif.Props.Propagate
import Verif.Props.Signal
import Verif.Props.Fixture
/-!
# C90: units of axes in plots, comparison plots, states along a design
-/

namespace Verif
open Complex

theorem maxAbs_ok {data : List ℝ} {m : ℝ} : maxAbs data = .ok m ↔ LargestAbs data m := by
  have key : ∀ (l : List ℝ) (a0 : ℝ), (∃ a ∈ (a0 :: l), |a| = l.foldl (fun m b => max m |b|) |a0|) ∧
      ∀ a ∈ (a0 :: l), |a| ≤ l.foldl (fun m b => max m |b|) |a0| := by
    intro l
    induction l using List.reverseRecOn with
    | nil => intro a0; simp
    | append_singleton l b ih =>
      intro a0
      obtain ⟨⟨a, ha, hae⟩, hle⟩ := ih a0
      rw [List.foldl_append]
      simp only [List.foldl_cons, List.foldl_nil]
      constructor
      · rcases le_total |b| (l.foldl (fun m b => max m |b|) |a0|) with h | h
        · refine ⟨a, ?_, by rw [max_eq_left h]; exact hae⟩
          rcases List.mem_cons.1 ha with h' | h'
          · simp [h']
          · simp [h']
        · exact ⟨b, by simp, by rw [max_eq_right h]⟩
      · intro c hc
        have : c ∈ (a0 :: l) ∨ c = b := by
          rcases List.mem_cons.1 hc with h | h
          · simp [h]
          · rcases List.mem_append.1 h with h | h
            · simp [h]
            · simp at h; simp [h]
        rcases this with h | h
        · exact (hle c h).trans (le_max_left _ _)
        · rw [h]; exact le_max_right _ _
  cases data with
  | nil => simp [maxAbs, LargestAbs]
  | cons a0 l =>
    obtain ⟨⟨a, ha, hae⟩, hle⟩ := key l a0
    unfold maxAbs
    rw [Except.ok.injEq]
    constructor
    · intro h
      rw [← h]
      exact ⟨⟨a, ha, hae⟩, hle⟩
    · rintro ⟨⟨b, hb, hbm⟩, hm⟩
      apply le_antisymm
      · rw [← hae]; exact hm a ha
      · rw [← hbm]; exact hle b hb

theorem order_bounds {m : ℝ} (hm : 0 < m) : (10 : ℝ) ^ (3 * ⌊Real.logb 10 m / 3⌋) ≤ m ∧ m < (10 : ℝ) ^ (3 * ⌊Real.logb 10 m / 3⌋ + 3) := by
  have h1 := Int.floor_le (Real.logb 10 m / 3)
  have h2 := Int.lt_floor_add_one (Real.logb 10 m / 3)
  have hl : (10 : ℝ) ^ Real.logb 10 m = m := Real.rpow_logb (by norm_num) (by norm_num) hm
  constructor
  · rw [← Real.rpow_intCast]
    nth_rewrite 2 [← hl]
    apply Real.rpow_le_rpow_of_exponent_le (by norm_num)
    push_cast
    linarith
  · rw [← Real.rpow_intCast]
    nth_rewrite 1 [← hl]
    apply Real.rpow_lt_rpow_of_exponent_lt (by norm_num)
    push_cast
    linarith

theorem zpow_ten_lt {a b : ℤ} (h : (10 : ℝ) ^ a < (10 : ℝ) ^ b) : a < b := (zpow_lt_zpow_iff_right₀ (by norm_num)).1 h

theorem order_unique {m : ℝ} (hm : 0 < m) {q : ℤ} (h1 : (10 : ℝ) ^ (3 * q) ≤ m) (h2 : m < (10 : ℝ) ^ (3 * q + 3)) : ⌊Real.logb 10 m / 3⌋ = q := by
  obtain ⟨a, b⟩ := order_bounds hm
  have c := zpow_ten_lt (h1.trans_lt b)
  have d := zpow_ten_lt (a.trans_lt h2)
  omega

theorem unitPrefix_some (q : ℤ) : (∃ p, unitPrefix (3 * q) = some p) ↔ -7 ≤ q ∧ q ≤ 6 := by
  constructor
  · rintro ⟨p, hp⟩
    by_contra hc
    have hout : 3 * q < -21 ∨ 18 < 3 * q := by omega
    unfold unitPrefix at hp
    split at hp <;> first | omega | cases hp
  · rintro ⟨h1, h2⟩
    interval_cases q <;> exact ⟨_, rfl⟩

theorem siFactor_prefix {k : ℤ} {p : String} (h : unitPrefix k = some p) : siFactor p = (10 : ℝ) ^ k := by
  unfold unitPrefix at h
  split at h <;> first
    | (injection h with h; subst h; unfold siFactor; simp only [reduceIte, String.reduceEq]; norm_num)
    | cases h

/-- **C90.** Which prefix is chosen: for data whose largest absolute value `m` lies between `1e-21` (included) and `1e21` (excluded) the one for which `m` becomes
a number from 1 up to (not including) 1000; no data at all, data that are all zero, and data outside this range raise. -/
theorem C90_prefix (data : List ℝ) :
    (∀ m, LargestAbs data m → 1 / 10 ^ 21 ≤ m → m < 10 ^ 21 →
      ∃ k p, scaleOf data = .ok (k, p) ∧ siFactor p = (10 : ℝ) ^ k ∧ 1 ≤ m / siFactor p ∧ m / siFactor p < 1000) ∧
    (data = [] → scaleOf data = .error .valueError) ∧
    (data ≠ [] → (∀ a ∈ data, a = 0) → scaleOf data = .error .runtimeError) ∧
    ∀ m, LargestAbs data m → 0 < m → (m < 1 / 10 ^ 21 ∨ 10 ^ 21 ≤ m) → scaleOf data = .error .keyError := by
  have e1 : (1 : ℝ) / 10 ^ 21 = (10 : ℝ) ^ (-21 : ℤ) := by norm_num
  have e2 : (10 : ℝ) ^ 21 = (10 : ℝ) ^ (21 : ℤ) := by norm_num
  refine ⟨fun m hm hlo hhi => ?_, fun h => by subst h; rfl, fun hne h0 => ?_, fun m hm hpos hout => ?_⟩
  · have hpos : 0 < m := lt_of_lt_of_le (by positivity) hlo
    obtain ⟨b1, b2⟩ := order_bounds hpos
    have hq : -7 ≤ ⌊Real.logb 10 m / 3⌋ ∧ ⌊Real.logb 10 m / 3⌋ ≤ 6 := by
      rw [e1] at hlo
      rw [e2] at hhi
      have c := zpow_ten_lt (hlo.trans_lt b2)
      have d := zpow_ten_lt (b1.trans_lt hhi)
      omega
    obtain ⟨p, hp⟩ := (unitPrefix_some _).2 hq
    refine ⟨_, p, ?_, siFactor_prefix hp, ?_, ?_⟩
    · unfold scaleOf
      rw [maxAbs_ok.2 hm]
      simp only [hpos.ne', if_false, hp]
    · rw [siFactor_prefix hp, le_div_iff₀ (by positivity), one_mul]
      exact b1
    · rw [siFactor_prefix hp, div_lt_iff₀ (by positivity)]
      rw [zpow_add₀ (by norm_num)] at b2
      norm_num at b2 ⊢
      linarith
  · have hm : LargestAbs data 0 := by
      obtain ⟨a, ha⟩ := List.exists_mem_of_ne_nil data hne
      exact ⟨⟨a, ha, by rw [h0 a ha, abs_zero]⟩, fun b hb => by rw [h0 b hb, abs_zero]⟩
    unfold scaleOf
    rw [maxAbs_ok.2 hm]
    simp
  · obtain ⟨b1, b2⟩ := order_bounds hpos
    have hnone : unitPrefix (3 * ⌊Real.logb 10 m / 3⌋) = none := by
      rw [Option.eq_none_iff_forall_not_mem]
      intro p hp
      obtain ⟨h1, h2⟩ := (unitPrefix_some _).1 ⟨p, hp⟩
      rcases hout with h | h
      · rw [e1] at h
        have := zpow_ten_lt (b1.trans_lt h)
        omega
      · rw [e2] at h
        have := zpow_ten_lt (h.trans_lt b2)
        omega
    unfold scaleOf
    rw [maxAbs_ok.2 hm]
    simp only [hpos.ne', if_false, hnone]

/-- **C90.** `scale_units(ax, unit, ['x'])` and `(…, ['y'])`: when it returns, every value shown times the factor of the prefix is the value that was plotted, on
every line; the other coordinate is untouched, and the label says so.  When it raises, the picture is as before. -/
theorem C90_scaled (unit : String) (first : PlotLine) (rest : List PlotLine) (xl yl : String) :
    (∀ k p, scaleOf first.xdata = .ok (k, p) → ∃ lines, scaleUnits unit [.x] ⟨first :: rest, xl, yl⟩ =
        (⟨lines, xl ++ (" (" ++ p ++ unit ++ ")"), yl⟩, .ok (some (k, p))) ∧ lines.length = (first :: rest).length ∧
      ∀ (i : ℕ) (l : PlotLine), (first :: rest)[i]? = some l → ∃ l' : PlotLine, lines[i]? = some l' ∧ l'.ydata = l.ydata ∧ l'.xdata.map (· * siFactor p) = l.xdata) ∧
    (∀ k p, scaleOf first.ydata = .ok (k, p) → ∃ lines, scaleUnits unit [.y] ⟨first :: rest, xl, yl⟩ =
        (⟨lines, xl, yl ++ (" (" ++ p ++ unit ++ ")")⟩, .ok (some (k, p))) ∧ lines.length = (first :: rest).length ∧
      ∀ (i : ℕ) (l : PlotLine), (first :: rest)[i]? = some l → ∃ l' : PlotLine, lines[i]? = some l' ∧ l'.xdata = l.xdata ∧ l'.ydata.map (· * siFactor p) = l.ydata) ∧
    (∀ e, scaleOf first.xdata = .error e → scaleUnits unit [.x] ⟨first :: rest, xl, yl⟩ = (⟨first :: rest, xl, yl⟩, .error e)) ∧
    (∀ e, scaleOf first.ydata = .error e → scaleUnits unit [.y] ⟨first :: rest, xl, yl⟩ = (⟨first :: rest, xl, yl⟩, .error e)) := by
  have hback : ∀ (k : ℤ) (p : String) (d : List ℝ), (∃ data, scaleOf data = .ok (k, p)) → (divData k d).map (· * siFactor p) = d := by
    rintro k p d ⟨data, h⟩
    have hp : unitPrefix k = some p := by
      unfold scaleOf at h
      split at h
      · cases h
      · split at h
        · cases h
        · dsimp only at h
          split at h
          · cases h
          · rename_i q hq
            injection h with h
            injection h with h1 h2
            rw [← h1, ← h2]
            exact hq
    unfold divData
    rw [List.map_map]
    conv_rhs => rw [← List.map_id d]
    apply List.map_congr_left
    intro a _
    simp only [Function.comp, id]
    rw [siFactor_prefix hp]
    have : (10 : ℝ) ^ k ≠ 0 := by positivity
    field_simp
  refine ⟨fun k p h => ?_, fun k p h => ?_, fun e h => ?_, fun e h => ?_⟩
  · refine ⟨(first :: rest).map (fun l => { l with xdata := divData k l.xdata }), ?_, by simp, fun i l hl => ⟨{ l with xdata := divData k l.xdata }, by rw [List.getElem?_map, hl]; rfl, rfl, ?_⟩⟩
    · simp [scaleUnits, scaleLoop, scaleAxis, h]
    · exact hback k p l.xdata ⟨_, h⟩
  · refine ⟨(first :: rest).map (fun l => { l with ydata := divData k l.ydata }), ?_, by simp, fun i l hl => ⟨{ l with ydata := divData k l.ydata }, by rw [List.getElem?_map, hl]; rfl, rfl, ?_⟩⟩
    · simp [scaleUnits, scaleLoop, scaleAxis, h]
    · exact hback k p l.ydata ⟨_, h⟩
  · simp [scaleUnits, scaleLoop, scaleAxis, h]
  · simp [scaleUnits, scaleLoop, scaleAxis, h]

/-- **C90.** Other arguments: without lines nothing happens; axes called neither 'x' nor 'y' and an empty list of axes raise, and so does an axis listed after
others – the earlier ones are then already scaled and labelled. -/
theorem C90_other_axes (unit : String) (ax : PlotAxes) (axes : List AxisName) :
    (ax.lines = [] → scaleUnits unit axes ax = (ax, .ok none)) ∧
    (ax.lines ≠ [] → scaleUnits unit [] ax = (ax, .error .nameError) ∧ scaleUnits unit (.z :: axes) ax = (ax, .error .attributeError) ∧
      (∀ s, scaleUnits unit (.other s :: axes) ax = (ax, .error .nameError)) ∧
      ∀ k p, (scaleUnits unit [.x] ax).2 = .ok (some (k, p)) →
        scaleUnits unit [.x, .z] ax = ((scaleUnits unit [.x] ax).1, .error .attributeError)) := by
  refine ⟨fun h => by simp [scaleUnits, h], fun h => ?_⟩
  obtain ⟨lines, xl, yl⟩ := ax
  cases lines with
  | nil => exact absurd rfl h
  | cons first rest =>
    refine ⟨rfl, rfl, fun s => rfl, fun k p hk => ?_⟩
    cases hs : scaleOf first.xdata with
    | error e => simp [scaleUnits, scaleLoop, scaleAxis, hs] at hk
    | ok r => simp [scaleUnits, scaleLoop, scaleAxis, hs]

/-- **C90, finding.** Scaling an axis a second time changes no value and appends the unit without a prefix: the label then ends in the bare unit although the values
shown are in the unit with the first prefix. -/
theorem C90_twice (unit : String) (first : PlotLine) (rest : List PlotLine) (xl yl : String) (k : ℤ) (p : String) (m : ℝ)
    (hm : LargestAbs first.xdata m) (hlo : 1 / 10 ^ 21 ≤ m) (hhi : m < 10 ^ 21) (h : scaleOf first.xdata = .ok (k, p)) :
    ∃ lines, (scaleUnits unit [.x] ⟨first :: rest, xl, yl⟩).1 = ⟨lines, xl ++ (" (" ++ p ++ unit ++ ")"), yl⟩ ∧
      scaleUnits unit [.x] ⟨lines, xl ++ (" (" ++ p ++ unit ++ ")"), yl⟩ = (⟨lines, xl ++ (" (" ++ p ++ unit ++ ")") ++ (" (" ++ unit ++ ")"), yl⟩, .ok (some (0, ""))) := by
  obtain ⟨k', p', hk', hsi, h1, h2⟩ := (C90_prefix first.xdata).1 m hm hlo hhi
  rw [h] at hk'
  injection hk' with hk'
  injection hk' with e1 e2
  subst e1 e2
  rw [hsi] at h1 h2
  have hpos : (0 : ℝ) < (10 : ℝ) ^ k := by positivity
  have hm' : LargestAbs (divData k first.xdata) (m / (10 : ℝ) ^ k) := by
    obtain ⟨⟨a, ha, hae⟩, hle⟩ := hm
    refine ⟨⟨a / (10 : ℝ) ^ k, List.mem_map.2 ⟨a, ha, rfl⟩, by rw [abs_div, abs_of_pos hpos, hae]⟩, fun b hb => ?_⟩
    obtain ⟨c, hc, rfl⟩ := List.mem_map.1 hb
    rw [abs_div, abs_of_pos hpos]
    exact div_le_div_of_nonneg_right (hle c hc) hpos.le
  have hzero : scaleOf (divData k first.xdata) = .ok (0, "") := by
    have hq : ⌊Real.logb 10 (m / (10 : ℝ) ^ k) / 3⌋ = 0 := order_unique (by linarith) (by simpa using h1) (by norm_num; linarith)
    unfold scaleOf
    rw [maxAbs_ok.2 hm']
    have : m / (10 : ℝ) ^ k ≠ 0 := by linarith
    simp only [this, if_false, hq]
    rfl
  have hid : ∀ d : List ℝ, divData 0 d = d := fun d => by unfold divData; simp
  refine ⟨(first :: rest).map (fun l => { l with xdata := divData k l.xdata }), by simp [scaleUnits, scaleLoop, scaleAxis, h], ?_⟩
  simp [scaleUnits, scaleLoop, scaleAxis, hzero, hid]

/-! ### comparison with the target -/

theorem dataOf_t_largest {n : Nat} (hn : 2 ≤ n) {P : Prop_ n} (hw : 0 < P.window) : LargestAbs (dataOf P.t) (P.window / 2) := by
  have h2 : (2 : ℝ) ≤ n := by exact_mod_cast hn
  unfold dataOf
  refine ⟨⟨P.t ⟨0, by omega⟩, by simp, ?_⟩, fun a ha => ?_⟩
  · unfold Prop_.t Prop_.linspace
    simp only [Nat.cast_zero, zero_mul, add_zero]
    rw [abs_of_neg (by linarith)]
    ring
  · obtain ⟨j, rfl⟩ := (List.mem_ofFn' _ _).1 ha
    have hj : (j.val : ℝ) ≤ n - 1 := by
      have := j.isLt
      have : (j.val : ℝ) + 1 ≤ n := by exact_mod_cast this
      linarith
    have hj0 : (0 : ℝ) ≤ j.val := Nat.cast_nonneg _
    have e : P.t j = -P.window / 2 + P.window * (j.val / (n - 1)) := by
      unfold Prop_.t Prop_.linspace
      ring
    have hr0 : 0 ≤ (j.val : ℝ) / (n - 1) := div_nonneg hj0 (by linarith)
    have hr1 : (j.val : ℝ) / (n - 1) ≤ 1 := by rw [div_le_one (by linarith)]; exact hj
    rw [e, abs_le]
    constructor <;> nlinarith

theorem plotIndex_largest {y : List ℝ} (hy : y ≠ []) : LargestAbs (plotIndex y).xdata ((y.length : ℝ) - 1) := by
  have hl : 0 < y.length := List.length_pos_iff.2 hy
  unfold plotIndex
  refine ⟨⟨((y.length - 1 : ℕ) : ℝ), List.mem_map.2 ⟨y.length - 1, by simp; omega, rfl⟩, ?_⟩, fun a ha => ?_⟩
  · rw [abs_of_nonneg (Nat.cast_nonneg _), Nat.cast_sub (by omega)]; simp
  · obtain ⟨i, hi, rfl⟩ := List.mem_map.1 ha
    rw [abs_of_nonneg (Nat.cast_nonneg _)]
    have : i + 1 ≤ y.length := by simpa using hi
    have : (i : ℝ) + 1 ≤ y.length := by exact_mod_cast this
    linarith

theorem rfSpectrum_length {n : Nat} (hn : 2 ≤ n) (x : Signal n) : (rfSpectrum x).length = n / 2 + 1 := by
  unfold rfSpectrum
  simp
  omega

theorem rfSpectrum_eq {n : Nat} (hn : 2 ≤ n) (state : Signal n) : rfSpectrum state =
    (List.range (n / 2 + 1)).map (fun (i : ℕ) => ‖∑ j : Fin n, ((‖state j‖ ^ 2 : ℝ) : ℂ) * Complex.exp (-(2 * Real.pi * Complex.I * (j : ℂ) * (i : ℂ) / (n : ℂ)))‖) := by
  apply List.ext_getElem
  · rw [rfSpectrum_length hn]; simp
  · intro i h1 h2
    unfold rfSpectrum npFft power_
    simp

/-- **C90.** `compare` after a propagation, for windows between `2e-21` and `2e21` seconds and 2 to `2e21` samples: the first figure shows the power of the
output and the target against time, the time in the unit with the prefix that its label names.  Finding: the second figure has the numbers of the
frequency bins on its axis, divided by the power of 1000 that fits them, under a label in hertz – the same values and the same label for every window, although
the bins lie `1 / (n·dt)` apart. -/
theorem C90_compare {n : Nat} (hn : 2 ≤ n) (hn2 : n < 2 * 10 ^ 21) {P : Prop_ n} (hlo : 2 / 10 ^ 21 ≤ P.window) (hhi : P.window < 2 * 10 ^ 21)
    (tg : Fin n → ℝ) (g : Graph) (st : Store (Signal n)) (v : NodeId) (state : Signal n) (hv : outputNode g = .ok v) (hs : st (.node v) = some state) :
    ∃ p q t1 t2, ∃ k : ℕ,
      comparePlots P (some tg) g st = .ok
        (⟨[⟨t1, List.ofFn (power_ state)⟩, ⟨t2, List.ofFn tg⟩], "Time" ++ (" (" ++ p ++ "s" ++ ")"), "Power a.u."⟩,
         ⟨[⟨(List.range (n / 2 + 1)).map (fun (i : ℕ) => (i : ℝ) / 1000 ^ k),
            (List.range (n / 2 + 1)).map (fun (i : ℕ) => ‖∑ j : Fin n, ((‖state j‖ ^ 2 : ℝ) : ℂ) * Complex.exp (-(2 * Real.pi * Complex.I * (j : ℂ) * (i : ℂ) / (n : ℂ)))‖)⟩], "" ++ (" (" ++ q ++ "Hz" ++ ")"), "Power a.u."⟩) ∧
      t1.map (· * siFactor p) = List.ofFn P.t ∧ t2 = t1 ∧ 1 ≤ P.window / 2 / siFactor p ∧ P.window / 2 / siFactor p < 1000 ∧
      siFactor q = 1000 ^ k ∧ 1000 ^ k ≤ n / 2 ∧ n / 2 < 1000 ^ (k + 1) := by
  have hw : 0 < P.window := lt_of_lt_of_le (by positivity) hlo
  have hn0 : (2 : ℝ) ≤ n := by exact_mod_cast hn
  obtain ⟨k1, p, h1, hsi1, a1, a2⟩ := (C90_prefix (dataOf P.t)).1 _ (dataOf_t_largest hn hw) (by linarith) (by linarith)
  have hlen := rfSpectrum_length hn state
  have hne : rfSpectrum state ≠ [] := by
    intro h
    rw [h] at hlen
    simp at hlen
  have hlarge := plotIndex_largest hne
  rw [hlen] at hlarge
  have hm : (((n / 2 + 1 : ℕ) : ℝ) - 1) = ((n / 2 : ℕ) : ℝ) := by push_cast; ring
  rw [hm] at hlarge
  have hpos : (1 : ℝ) ≤ ((n / 2 : ℕ) : ℝ) := by exact_mod_cast (by omega : 1 ≤ n / 2)
  obtain ⟨k2, q, h2, hsi2, b1, b2⟩ := (C90_prefix (plotIndex (rfSpectrum state)).xdata).1 _ hlarge
    (le_trans (by norm_num) hpos) (by
      have : n / 2 < 10 ^ 21 := by omega
      exact_mod_cast this)
  rw [hsi2, le_div_iff₀ (by positivity), one_mul] at b1
  rw [hsi2, div_lt_iff₀ (by positivity)] at b2
  -- the multiplier is three times a natural number
  have hk2 : ∃ k : ℕ, k2 = 3 * (k : ℤ) := by
    have hq : k2 = 3 * ⌊Real.logb 10 ((n / 2 : ℕ) : ℝ) / 3⌋ := by
      unfold scaleOf at h2
      rw [maxAbs_ok.2 hlarge] at h2
      have h0 : ((n / 2 : ℕ) : ℝ) ≠ 0 := by linarith
      simp only [h0, if_false] at h2
      split at h2
      · cases h2
      · injection h2 with h2
        injection h2 with h2 _
        exact h2.symm
    have hnn : 0 ≤ ⌊Real.logb 10 ((n / 2 : ℕ) : ℝ) / 3⌋ := Int.floor_nonneg.2 (div_nonneg (Real.logb_nonneg (by norm_num) hpos) (by norm_num))
    exact ⟨⌊Real.logb 10 ((n / 2 : ℕ) : ℝ) / 3⌋.toNat, by rw [Int.toNat_of_nonneg hnn]; exact hq⟩
  obtain ⟨k, rfl⟩ := hk2
  have hpow : (10 : ℝ) ^ (3 * (k : ℤ)) = 1000 ^ k := by
    rw [zpow_mul, zpow_natCast]; norm_num
  rw [hpow] at hsi2 b1 b2
  refine ⟨p, q, divData k1 (dataOf P.t), _, k, ?_, ?_, rfl, a1, a2, hsi2, ?_, ?_⟩
  · unfold comparePlots
    rw [hv]
    simp only [hs]
    simp only [scaleUnits, scaleLoop, scaleAxis, h1, h2, List.map_cons, List.map_nil]
    have hx : divData (3 * (k : ℤ)) (plotIndex (rfSpectrum state)).xdata = (List.range (n / 2 + 1)).map (fun (i : ℕ) => (i : ℝ) / 1000 ^ k) := by
      unfold divData plotIndex
      rw [hlen, List.map_map]
      simp only [Function.comp_def, hpow]
    rw [hx, ← rfSpectrum_eq hn]
    rfl
  · unfold divData
    rw [List.map_map]
    conv_rhs => rw [show List.ofFn P.t = (dataOf P.t).map id by rw [List.map_id]; rfl]
    apply List.map_congr_left
    intro a _
    simp only [Function.comp, id, hsi1]
    have : (10 : ℝ) ^ k1 ≠ 0 := by positivity
    field_simp
  · exact_mod_cast b1
  · have : ((n / 2 : ℕ) : ℝ) < ((1000 ^ (k + 1) : ℕ) : ℝ) := by
      rw [pow_succ]; push_cast; linarith
    exact_mod_cast this

/-- **C90, finding.** The evaluator of noise suppression has no `target`, so its `compare` raises for every design that has been propagated. -/
theorem C90_compare_noise {n : Nat} (P : Prop_ n) (g : Graph) (st : Store (Signal n)) (v : NodeId) (state : Signal n)
    (hv : outputNode g = .ok v) (hs : st (.node v) = some state) : comparePlots P none g st = .error .attributeError := by
  unfold comparePlots
  rw [hv]
  simp only [hs]

/-- **C90, finding.** The evaluators score the state at the output against the target, but the figure shows its squared absolute value: for a design that meets
the target exactly the two curves are the square of the target and the target. -/
theorem C90_compare_squared {n : Nat} (hn : 2 ≤ n) (hn2 : n < 2 * 10 ^ 21) {P : Prop_ n} (hlo : 2 / 10 ^ 21 ≤ P.window) (hhi : P.window < 2 * 10 ^ 21)
    (tg : Fin n → ℝ) (g : Graph) (st : Store (Signal n)) (v : NodeId) (hv : outputNode g = .ok v)
    (hs : st (.node v) = some (fun i => ((tg i : ℝ) : ℂ))) :
    ∃ a b, comparePlots P (some tg) g st = .ok (a, b) ∧ a.lines.map (·.ydata) = [List.ofFn (fun i => tg i ^ 2), List.ofFn tg] := by
  obtain ⟨p, q, t1, t2, k, h, -⟩ := C90_compare hn hn2 hlo hhi tg g st v _ hv hs
  refine ⟨_, _, h, ?_⟩
  have : power_ (fun i : Fin n => ((tg i : ℝ) : ℂ)) = fun i => tg i ^ 2 := by
    funext i
    unfold power_
    rw [Complex.norm_real, Real.norm_eq_abs, sq_abs]
  simp [this]

/-! ### states along a design -/

/-- **C90, finding.** `inspect_state` is meant to draw the state after every node, but only states after nodes without outputs are stored under the node: it
raises after every propagation of a design with at least one edge, and before any propagation. -/
theorem C90_inspect_state {S : Type} {g : Graph} (hw : g.WF) {B : Behav S} {inp : S} {order : List NodeId} (ho : g.IsTopo order) (old st : Store S)
    (hp : propagateWith g B inp order old = .ok st) {e : Edge} (he : e ∈ g.edges) :
    inspectState g (some order) st = .error .keyError ∧ inspectState g (some order) (Store.empty (S := S)) = .error .keyError ∧
    inspectState g none st = .error .typeError := by
  have hflow := (C18_solves_dataflow hw ho old st).1 hp
  have hmem : e.src ∈ order.reverse := List.mem_reverse.2 ((ho.mem_iff _).2 (hw.src_mem e he))
  have hloop : ∀ (s : Store S) (l : List NodeId), (∀ v ∈ l, v = e.src → s (.node v) = none) → e.src ∈ l → inspectLoop g s l = .error .keyError := by
    intro s l
    induction l with
    | nil => intro _ h; cases h
    | cons v l ih =>
      intro hnone hin
      unfold inspectLoop
      cases hs : s (.node v) with
      | none => rfl
      | some x =>
        simp only
        cases g.node? v with
        | none => rfl
        | some m =>
          simp only
          have hne : e.src ≠ v := fun h => by
            rw [hnone v List.mem_cons_self h.symm] at hs
            cases hs
          rw [ih (fun u hu => hnone u (List.mem_cons_of_mem _ hu)) ((List.mem_cons.1 hin).resolve_left hne)]
  refine ⟨hloop st _ (fun v _ hv => ?_) hmem, hloop _ _ (fun v _ _ => rfl) hmem, rfl⟩
  by_contra hne
  rcases hflow.only _ hne with ⟨e', -, h⟩ | ⟨m, hm, hsink, h⟩
  · cases h
  · injection h with h
    rw [hv] at h
    exact hsink.2 e he h

/-! ### cases -/

example : LargestAbs [-2500, 3, 40] 2500 ∧ (1 : ℝ) / 10 ^ 21 ≤ 2500 ∧ (2500 : ℝ) < 10 ^ 21 := by
  refine ⟨⟨⟨-2500, by simp, by norm_num⟩, fun a ha => ?_⟩, by norm_num, by norm_num⟩
  simp only [List.mem_cons, List.not_mem_nil, or_false] at ha
  rcases ha with rfl | rfl | rfl <;> norm_num

/-- The largest value is 2500: shown in thousands. -/
theorem plots_demo : scaleOf [-2500, 3, 40] = .ok (3, "k") := by
  have hm : LargestAbs [-2500, 3, 40] 2500 := by
    refine ⟨⟨-2500, by simp, by norm_num⟩, fun a ha => ?_⟩
    simp only [List.mem_cons, List.not_mem_nil, or_false] at ha
    rcases ha with rfl | rfl | rfl <;> norm_num
  have hq : ⌊Real.logb 10 (2500 : ℝ) / 3⌋ = 1 := order_unique (by norm_num) (by norm_num) (by norm_num)
  unfold scaleOf
  rw [maxAbs_ok.2 hm]
  simp only [show (2500 : ℝ) ≠ 0 by norm_num, if_false, hq]
  rfl

example := (C90_prefix []).2.1 rfl
example := (C90_scaled "Hz" ⟨[-2500, 3, 40], [1, 2, 3]⟩ [⟨[7], [8]⟩] "Frequency" "Power").1 3 "k" plots_demo
example := (C90_other_axes "Hz" ⟨[⟨[-2500, 3, 40], [1, 2, 3]⟩], "Frequency", "Power"⟩ [.x]).2 (by simp)
example := C90_twice "Hz" ⟨[-2500, 3, 40], [1, 2, 3]⟩ [⟨[7], [8]⟩] "Frequency" "Power" 3 "k" 2500
  ⟨⟨-2500, by simp, by norm_num⟩, fun a ha => by
    simp only [List.mem_cons, List.not_mem_nil, or_false] at ha
    rcases ha with rfl | rfl | rfl <;> norm_num⟩ (by norm_num) (by norm_num) plots_demo
example (x : Signal 4) (tg : Fin 4 → ℝ) := C90_compare (n := 4) (by norm_num) (by norm_num) (P := ⟨4 / 10 ^ 9, 1⟩) (by norm_num) (by norm_num) tg Fixture.g
  (Store.empty.put (.node 3) x) 3 x (by decide) (by simp [Store.put])
example (tg : Fin 4 → ℝ) := C90_compare_squared (n := 4) (by norm_num) (by norm_num) (P := ⟨4 / 10 ^ 9, 1⟩) (by norm_num) (by norm_num) tg Fixture.g
  (Store.empty.put (.node 3) (fun i => ((tg i : ℝ) : ℂ))) 3 (by decide) (by simp [Store.put])
example (x : Signal 4) := C90_compare_noise demoProp Fixture.g (Store.empty.put (.node 3) x) 3 x (by decide) (by simp [Store.put])
/-- Components that hand on the one number they are given. -/
def handOn : Behav Nat := ⟨fun _ s _ _ => .ok (s ++ s), fun _ s => .ok s, fun _ => none⟩
example : ∃ st, propagateWith Fixture.line handOn 7 [0, 1, 2, 3] Store.empty = .ok st ∧ inspectState Fixture.line (some [0, 1, 2, 3]) st = .error .keyError := by
  refine ⟨_, rfl, ?_⟩
  exact (C90_inspect_state Fixture.line_wf Fixture.line_topo (B := handOn) (inp := 7) Store.empty _ rfl (e := ⟨0, 1, 0, Fixture.laser 4, 10⟩) (by decide)).1

end Verif
