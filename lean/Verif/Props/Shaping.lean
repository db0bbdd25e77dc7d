import Verif.Lemmas.Components
import Mathlib.Data.List.GetD
/-!
# Wave shaper, programmable filter, split-and-delay line (C59, C60, C64)
-/

namespace Verif
open Complex Finset

variable {n : Nat}

/-! ### Wave shaper -/

theorem wsRepeat_length (m : Nat) (v : List ℝ) : (wsRepeat m v).length = v.length * m := by
  unfold wsRepeat
  induction v with
  | nil => simp
  | cons a v ih => rw [List.flatMap_cons, List.length_append, ih, List.length_replicate, List.length_cons]; ring

theorem wsRepeat_get (m : Nat) : ∀ (v : List ℝ) (i : Nat), i < v.length * m → (wsRepeat m v)[i]? = v[i / m]?
  | [], i, h => by simp at h
  | a :: v, i, h => by
    have hm : 0 < m := by rcases Nat.eq_zero_or_pos m with rfl | h'; · simp at h
                          · exact h'
    unfold wsRepeat
    rw [List.flatMap_cons]
    rcases Nat.lt_or_ge i m with hi | hi
    · rw [List.getElem?_append_left (by simpa using hi), List.getElem?_replicate_of_lt hi, Nat.div_eq_of_lt hi]; rfl
    · rw [List.getElem?_append_right (by simpa using hi), List.length_replicate]
      have := wsRepeat_get m v (i - m) (by rw [List.length_cons, Nat.add_mul] at h; omega)
      unfold wsRepeat at this
      rw [this]
      have : i / m = (i - m) / m + 1 := by rw [← Nat.add_div_right _ hm]; congr 1; omega
      rw [this]; rfl

theorem wsMask_pad (l : List ℝ) (h : l.length ≤ n) :
    wsMask n l = List.replicate ((n - l.length) / 2) extinction ++ l ++
      List.replicate (n - l.length - (n - l.length) / 2) extinction := by
  unfold wsMask
  simp only
  rw [if_neg (by omega)]
  congr 3 <;> omega

theorem wsMask_cut (l : List ℝ) (h : n < l.length) :
    wsMask n l = (l.take (n + (l.length - n) / 2)).drop ((l.length - n + 1) / 2) := by
  unfold wsMask
  simp only
  rw [if_pos (by omega)]
  congr 2 <;> omega

theorem wsMask_length (l : List ℝ) :
    (wsMask n l).length = if n < l.length ∧ (l.length - n) % 2 = 1 then n - 1 else n := by
  rcases Nat.lt_or_ge n l.length with h | h
  · rw [wsMask_cut l h, List.length_drop, List.length_take]
    split <;> omega
  · rw [wsMask_pad l h, if_neg (by omega)]; simp only [List.length_append, List.length_replicate]; omega

/-- **C59.** The mask of a wave shaper with `b` bins of `m` samples that fit on the grid: the bins lie in order in the centre of the
grid, the rest is at the extinction ratio. -/
theorem C59_mask_padded (m : Nat) (v : List ℝ) (h : v.length * m ≤ n) (i : Nat) (hi : i < n) :
    (wsMask n (wsRepeat m v))[i]? =
      if (n - v.length * m) / 2 ≤ i ∧ i < (n - v.length * m) / 2 + v.length * m then v[(i - (n - v.length * m) / 2) / m]?
      else some ((10 : ℝ) ^ (-(7 : ℝ) / 2)) := by
  have hx : extinction = (10 : ℝ) ^ (-(7 : ℝ) / 2) := by unfold extinction; norm_num
  have hl := wsRepeat_length m v
  rw [wsMask_pad _ (by rw [hl]; exact h), hl, ← hx]
  set p := (n - v.length * m) / 2
  rcases Nat.lt_or_ge i p with h1 | h1
  · rw [List.append_assoc, List.getElem?_append_left (by simpa using h1), List.getElem?_replicate_of_lt h1, if_neg (by omega)]
  · rcases Nat.lt_or_ge i (p + v.length * m) with h2 | h2
    · rw [if_pos ⟨h1, h2⟩, List.getElem?_append_left (by rw [List.length_append, List.length_replicate, hl]; exact h2),
        List.getElem?_append_right (by simpa using h1), List.length_replicate]
      exact wsRepeat_get m v _ (by omega)
    · rw [if_neg (by omega), List.getElem?_append_right (by rw [List.length_append, List.length_replicate, hl]; exact h2),
        List.getElem?_replicate_of_lt]
      rw [List.length_append, List.length_replicate, hl]; omega

/-- **C59.** If the bins cover more than the grid, the mask is the middle part of them. -/
theorem C59_mask_cut (m : Nat) (v : List ℝ) (h : n < v.length * m) (i : Nat) (hi : i < n) (ho : (v.length * m - n) % 2 = 0) :
    (wsMask n (wsRepeat m v))[i]? = v[((v.length * m - n) / 2 + i) / m]? := by
  have hl := wsRepeat_length m v
  rw [wsMask_cut _ (by rw [hl]; exact h), hl, List.getElem?_drop, List.getElem?_take_of_lt (by omega)]
  rw [wsRepeat_get m v _ (by omega)]
  congr 2; omega

theorem broadcast_of_length {l : List ℝ} (h : l.length = n) : ∃ a, broadcast n l = .ok a ∧ ∀ i : Fin n, l[i.val]? = some (a i) := by
  refine ⟨_, by unfold broadcast; rw [dif_pos h], fun i => ?_⟩
  rw [List.getElem?_eq_getElem (by rw [h]; exact i.isLt)]

theorem broadcast_short {l : List ℝ} (h : l.length = n - 1) (hn : 3 ≤ n) : broadcast n l = .error .valueError := by
  unfold broadcast
  rw [dif_neg (by omega)]
  match l, h with
  | [], _ => rfl
  | [a], h => simp at h; omega
  | a :: b :: l, _ => rfl

theorem mem_wsMask {l : List ℝ} {x : ℝ} (h : x ∈ wsMask n l) : x = extinction ∨ x ∈ l := by
  rcases Nat.lt_or_ge n l.length with h1 | h1
  · rw [wsMask_cut l h1] at h
    exact .inr (List.mem_of_mem_take (List.mem_of_mem_drop h))
  · rw [wsMask_pad l h1] at h
    simp only [List.mem_append, List.mem_replicate] at h
    tauto

theorem mem_wsRepeat {m : Nat} {v : List ℝ} {x : ℝ} (h : x ∈ wsRepeat m v) : x ∈ v := by
  unfold wsRepeat at h
  rw [List.mem_flatMap] at h
  obtain ⟨a, ha, hx⟩ := h
  rw [List.mem_replicate] at hx
  rw [hx.2]; exact ha

theorem norm_amp_phase (a p : ℝ) : ‖(a : ℂ) * exp (I * (p : ℂ))‖ = |a| := by
  rw [norm_mul, norm_expI, mul_one, Complex.norm_real, Real.norm_eq_abs]

theorem extinction_pos_le : 0 < extinction ∧ extinction ≤ 1 :=
  ⟨Real.rpow_pos_of_pos (by norm_num) _, Real.rpow_le_one_of_one_le_of_nonpos (by norm_num) (by norm_num)⟩

/-- **C59.** For parameters within their bounds a wave shaper works on a grid exactly if the bins fit on the grid, or exceed it by an
even number of samples; then the energy falls at least by the insertion loss of 4.5 dB.  Otherwise it raises `ValueError`. -/
theorem C59_wave_shaper (hn : 3 ≤ n) {P : Prop_ n} (hw : 0 < P.window) (amps phases : List ℝ)
    (hl : phases.length = amps.length) (hb : ∀ a ∈ amps, (10 : ℝ) ^ (-(7 : ℝ) / 2) ≤ a ∧ a ≤ 1) (x : Signal n) :
    ((amps.length * wsBinLen P ≤ n ∨ (amps.length * wsBinLen P - n) % 2 = 0) →
      ∃ y, waveShaper P amps phases x = .ok y ∧ energy y ≤ (10 : ℝ) ^ (-(45 : ℝ) / 100) * energy x) ∧
    ((n < amps.length * wsBinLen P ∧ (amps.length * wsBinLen P - n) % 2 = 1) →
      waveShaper P amps phases x = .error .valueError) := by
  have hd := dt_ne_zero (by omega) hw
  have la := wsMask_length (n := n) (wsRepeat (wsBinLen P) amps)
  have lp := wsMask_length (n := n) (wsRepeat (wsBinLen P) phases)
  rw [wsRepeat_length] at la lp
  rw [hl] at lp
  constructor
  · intro h
    rw [if_neg (by omega)] at la lp
    obtain ⟨a, ha, ha'⟩ := broadcast_of_length la
    obtain ⟨p, hp, hp'⟩ := broadcast_of_length lp
    refine ⟨_, by unfold waveShaper; rw [ha, hp], ?_⟩
    rw [energy_dbScale]
    have hbd : ∀ j, |a j| ≤ 1 := fun j => by
      have hm := List.mem_of_getElem? (ha' j)
      rcases mem_wsMask hm with e | e
      · rw [e, abs_of_pos extinction_pos_le.1]; exact extinction_pos_le.2
      · have := hb _ (mem_wsRepeat e)
        have h0 : (0 : ℝ) < (10 : ℝ) ^ (-(7 : ℝ) / 2) := by positivity
        rw [abs_of_pos (h0.trans_le this.1)]; exact this.2
    have := energy_freqMul_le hd (c := 1)
      (H := ifftShift (fun j => (a j : ℂ) * exp (I * (p j : ℂ)))) (fun k => by
        simp only [ifftShift]; rw [norm_amp_phase]; exact hbd _) x
    have e : (-4.5 : ℝ) / 10 = -(45 : ℝ) / 100 := by norm_num
    rw [e]
    exact mul_le_mul_of_nonneg_left (by linarith) (by positivity)
  · intro h
    rw [if_pos h] at la lp
    unfold waveShaper
    rw [broadcast_short la hn, broadcast_short lp hn]

/-- **C59.** A wave shaper whose bins all have the same setting and cover the whole grid changes only the overall amplitude and phase. -/
theorem C59_flat (hn : 2 ≤ n) {P : Prop_ n} (hw : 0 < P.window) (b : Nat) (a φ : ℝ) (x : Signal n)
    (hc : n ≤ b * wsBinLen P) (he : (b * wsBinLen P - n) % 2 = 0) :
    waveShaper P (List.replicate b a) (List.replicate b φ) x =
      .ok (fun i => ((10 : ℝ) ^ (-(9 : ℝ) / 40) : ℝ) * ((a : ℂ) * exp (I * (φ : ℂ))) * x i) := by
  have hd := dt_ne_zero hn hw
  have key : ∀ c : ℝ, broadcast n (wsMask n (wsRepeat (wsBinLen P) (List.replicate b c))) = .ok (fun _ => c) := fun c => by
    have la := wsMask_length (n := n) (wsRepeat (wsBinLen P) (List.replicate b c))
    rw [wsRepeat_length, List.length_replicate, if_neg (by omega)] at la
    obtain ⟨y, hy, hy'⟩ := broadcast_of_length la
    rw [hy]; congr 1; funext i
    have h1 := hy' i
    have : (wsMask n (wsRepeat (wsBinLen P) (List.replicate b c)))[i.val]? =
        (List.replicate b c)[((b * wsBinLen P - n) / 2 + i) / wsBinLen P]? := by
      rcases Nat.lt_or_ge n (b * wsBinLen P) with h | h
      · have := C59_mask_cut (n := n) (wsBinLen P) (List.replicate b c) (by simpa using h) i.val i.isLt (by simpa using he)
        rw [this, List.length_replicate]
      · have hz : (n - b * wsBinLen P) / 2 = 0 := by omega
        have := C59_mask_padded (n := n) (wsBinLen P) (List.replicate b c) (by simpa using h) i.val i.isLt
        rw [List.length_replicate, hz, if_pos ⟨Nat.zero_le _, by have := i.isLt; omega⟩] at this
        rw [this]; congr 2; omega
    rw [this] at h1
    exact (List.mem_replicate.1 (List.mem_of_getElem? h1)).2
  unfold waveShaper
  rw [key, key]
  have : (ifftShift (fun _ : Fin n => (a : ℂ) * exp (I * (φ : ℂ)))) = fun _ => (a : ℂ) * exp (I * (φ : ℂ)) := by
    funext k; simp only [ifftShift]
  simp only [this]
  rw [freqMul_const _ hd]
  congr 1
  funext i
  unfold dbScale dbAmp
  have e : (-4.5 : ℝ) / 20 = -(9 : ℝ) / 40 := by norm_num
  rw [e]; ring

/-- The hypotheses are met, e.g. two bins of three samples on a grid of eight (padded) or of five (odd excess). -/
example : (wsMask 8 (wsRepeat 3 [1, 2])).length = 8 ∧ (wsMask 5 (wsRepeat 3 [1, 2])).length = 4 := by
  constructor <;> rw [wsMask_length] <;> simp [wsRepeat_length]

/-! ### Programmable filter -/

theorem bernstein_eq (t : ℝ) {i m : Nat} (h : i ≤ m) : bernstein_ t i m = t ^ i * (1 - t) ^ (m - i) * m.choose i := by
  unfold bernstein_
  rw [Nat.cast_choose ℝ h]; ring

theorem getWaveform_eq (c : List ℝ) (t : ℝ) (hc : c ≠ []) :
    getWaveform c t = ∑ i ∈ range c.length, c.getD i 0 * (t ^ i * (1 - t) ^ (c.length - 1 - i) * (c.length - 1).choose i) := by
  have gen : ∀ (l : List ℝ) (g : Nat → ℝ) (s : Nat), ((l.zipIdx s).map (fun p => p.1 * g p.2)).sum =
      ∑ i ∈ range l.length, l.getD i 0 * g (s + i) := by
    intro l g
    induction l with
    | nil => intro s; simp
    | cons a l ih =>
      intro s
      rw [List.zipIdx_cons, List.map_cons, List.sum_cons, ih, List.length_cons, sum_range_succ']
      simp only [List.getD_cons_zero, List.getD_cons_succ, Nat.add_zero]
      rw [add_comm]; congr 1
      exact sum_congr rfl (fun i _ => by congr 2; omega)
  unfold getWaveform
  have hpos : 0 < c.length := List.length_pos_iff.2 hc
  rw [gen c (fun i => bernstein_ t i (c.length - 1)) 0]
  refine sum_congr rfl (fun i hi => ?_)
  rw [mem_range] at hi
  rw [Nat.zero_add, bernstein_eq t (by omega)]

theorem bernstein_sum (t : ℝ) (m : Nat) : ∑ i ∈ range (m + 1), t ^ i * (1 - t) ^ (m - i) * (m.choose i : ℝ) = 1 := by
  rw [← add_pow]; norm_num

/-- **C60.** The Bernstein waveform of a programmable filter: inside `[0, 1]` it stays between the least and the greatest coefficient,
it starts at the first coefficient and ends at the last, and equal coefficients give a constant everywhere. -/
theorem C60_waveform (c : List ℝ) (hc : c ≠ []) (lo hi : ℝ) (hb : ∀ a ∈ c, lo ≤ a ∧ a ≤ hi) :
    (∀ t, 0 ≤ t → t ≤ 1 → lo ≤ getWaveform c t ∧ getWaveform c t ≤ hi) ∧
    getWaveform c 0 = c.head hc ∧ getWaveform c 1 = c.getLast hc ∧
    (∀ a, (∀ b ∈ c, b = a) → ∀ t, getWaveform c t = a) := by
  have hpos : 0 < c.length := List.length_pos_iff.2 hc
  obtain ⟨m, hm⟩ : ∃ m, c.length = m + 1 := ⟨c.length - 1, by omega⟩
  have hm1 : c.length - 1 = m := by omega
  have hget : ∀ i ∈ range (m + 1), c.getD i 0 ∈ c := fun i hi => by
    rw [mem_range] at hi
    rw [List.getD_eq_getElem _ _ (by omega)]; exact List.getElem_mem _
  refine ⟨fun t h0 h1 => ?_, ?_, ?_, fun a ha t => ?_⟩
  · rw [getWaveform_eq c t hc, hm1, hm]
    have hs := bernstein_sum t m
    have hnn : ∀ i ∈ range (m + 1), (0 : ℝ) ≤ t ^ i * (1 - t) ^ (m - i) * (m.choose i : ℝ) := fun i _ =>
      mul_nonneg (mul_nonneg (pow_nonneg h0 _) (pow_nonneg (by linarith) _)) (Nat.cast_nonneg _)
    constructor
    · calc lo = ∑ i ∈ range (m + 1), lo * (t ^ i * (1 - t) ^ (m - i) * (m.choose i : ℝ)) := by rw [← mul_sum, hs, mul_one]
        _ ≤ _ := sum_le_sum (fun i hi => mul_le_mul_of_nonneg_right (hb _ (hget i hi)).1 (hnn i hi))
    · calc _ ≤ ∑ i ∈ range (m + 1), hi * (t ^ i * (1 - t) ^ (m - i) * (m.choose i : ℝ)) :=
            sum_le_sum (fun i hi' => mul_le_mul_of_nonneg_right (hb _ (hget i hi')).2 (hnn i hi'))
        _ = hi := by rw [← mul_sum, hs, mul_one]
  · rw [getWaveform_eq c 0 hc, hm1, hm, sum_eq_single 0]
    · simp only [pow_zero, Nat.choose_zero_right, sub_zero, one_pow, mul_one, Nat.cast_one]
      rw [List.getD_eq_getElem _ _ hpos, List.head_eq_getElem]
    · intro i _ hi; rw [zero_pow hi]; ring
    · intro h; exact absurd (mem_range.2 (by omega)) h
  · rw [getWaveform_eq c 1 hc, hm1, hm, sum_eq_single m]
    · simp only [one_pow, sub_self, Nat.choose_self, mul_one, Nat.cast_one]
      rw [List.getD_eq_getElem _ _ (by omega), List.getLast_eq_getElem]
      simp only [hm1, Nat.sub_self, pow_zero, mul_one]
    · intro i hi hne
      rw [mem_range] at hi
      rw [sub_self, zero_pow (by omega)]; ring
    · intro h; exact absurd (mem_range.2 (by omega)) h
  · rw [getWaveform_eq c t hc, hm1, hm]
    calc _ = ∑ i ∈ range (m + 1), a * (t ^ i * (1 - t) ^ (m - i) * (m.choose i : ℝ)) :=
          sum_congr rfl (fun i hi => by rw [ha _ (hget i hi)])
      _ = a := by rw [← mul_sum, bernstein_sum, mul_one]

example : getWaveform [0, 1, 1 / 2] 0 = 0 ∧ getWaveform [0, 1, 1 / 2] 1 = 1 / 2 := by
  have h := C60_waveform [0, 1, 1 / 2] (by simp) 0 1 (by intro a ha; simp at ha; rcases ha with rfl | rfl | rfl <;> norm_num)
  exact ⟨h.2.1, h.2.2.1⟩

theorem f_eq_df (hn : 2 ≤ n) (P : Prop_ n) (j : Fin n) : P.f j = P.df * ((j : ℝ) - ((n : ℝ) - 1) / 2) := by
  have h1 := two_le_cast hn
  rw [(dt_df P).2]; unfold Prop_.f Prop_.linspace; field_simp; ring

theorem df_pos (hn : 2 ≤ n) {P : Prop_ n} (hw : 0 < P.window) : 0 < P.df := by
  have h2 : (2 : ℝ) ≤ n := by exact_mod_cast hn
  rw [(dt_df P).2]; exact div_pos (div_pos (by linarith) hw) (by linarith)

theorem pfT_eq (hn : 2 ≤ n) (P : Prop_ n) (hb : pfBwInt P ≠ 0) (j : Fin n) :
    pfT P j = 1 / 2 + (n : ℝ) / (n - 1) * ((j : ℝ) - ((n : ℝ) - 1) / 2) / (2 * pfBwInt P) := by
  have h1 := two_le_cast hn
  have h2 : (pfBwInt P : ℝ) ≠ 0 := by exact_mod_cast hb
  unfold pfT Prop_.linspace; field_simp; ring

/-- Rounding of a number that is no tie. -/
theorem roundEven_spec {x : ℝ} (h : x - ⌊x⌋ ≠ 1 / 2) : |(roundEven x : ℝ) - x| < 1 / 2 := by
  have h0 := Int.floor_le x
  have h1 := Int.lt_floor_add_one x
  unfold roundEven
  split
  · rw [abs_lt]; constructor <;> linarith
  · rename_i ha
    have hb : 1 / 2 < x - ⌊x⌋ := lt_of_le_of_ne (not_lt.1 ha) (Ne.symm h)
    rw [if_pos hb]; push_cast
    rw [abs_lt]; constructor <;> linarith

/-- **C60.** On an even grid (where the band edge is not exactly half-way between two multiples of `df`) every frequency inside the band is mapped into `[0, 1]`,
so with coefficients within the bounds `[0, 1]` the filter transmits nothing outside its band and never more than the insertion loss
of 4.5 dB allows. -/
theorem C60_filter_even (hn : 2 ≤ n) (he : n % 2 = 0) {P : Prop_ n} (hw : 0 < P.window)
    (ht : ∀ m : ℤ, (5 * 10 ^ 12 : ℝ) / 2 / P.df ≠ m + 1 / 2) (hb : pfBwInt P ≠ 0) :
    (∀ j, |P.f j| ≤ (5 * 10 ^ 12 : ℝ) / 2 → 0 ≤ pfT P j ∧ pfT P j ≤ 1) ∧
    ∀ (amps phases : List ℝ) (_ : amps ≠ []) (_ : ∀ a ∈ amps, 0 ≤ a ∧ a ≤ 1) (x : Signal n),
      ∃ y, progFilter P amps phases x = .ok y ∧ energy y ≤ (10 : ℝ) ^ (-(45 : ℝ) / 100) * energy x := by
  have hd := dt_ne_zero hn hw
  have hdf := df_pos hn hw
  have h2 : (2 : ℝ) ≤ n := by exact_mod_cast hn
  have hr : |(pfBwInt P : ℝ) - pfBand / 2 / P.df| < 1 / 2 := roundEven_spec (fun h => ht ⌊pfBand / 2 / P.df⌋ (by
    show pfBand / 2 / P.df = _; linarith))
  rw [abs_lt] at hr
  have hβ0 : 0 < pfBand / 2 / P.df := by unfold pfBand; positivity
  have hbpos : 0 < pfBwInt P := by
    have : (-1 : ℝ) < pfBwInt P := by linarith
    have : (-1 : ℤ) < pfBwInt P := by exact_mod_cast this
    omega
  have hb1 : (1 : ℝ) ≤ pfBwInt P := by exact_mod_cast hbpos
  have inband : ∀ j, |P.f j| ≤ pfBand / 2 → 0 ≤ pfT P j ∧ pfT P j ≤ 1 := by
    intro j hj
    rw [f_eq_df hn, abs_mul, abs_of_pos hdf, mul_comm] at hj
    rw [← le_div_iff₀ hdf] at hj
    set k : ℝ := (j : ℝ) - ((n : ℝ) - 1) / 2 with hk
    -- `|k|` is half-odd, at most `b - 1/2` and at most `(n - 1) / 2`
    have hk2 : ∃ z : ℤ, k = z + 1 / 2 := ⟨((j : ℕ) : ℤ) - ((n / 2 : ℕ) : ℤ), by
      have : (n : ℝ) = 2 * ((n / 2 : ℕ) : ℝ) := by exact_mod_cast (by omega : n = 2 * (n / 2))
      rw [hk, Int.cast_sub, Int.cast_natCast, Int.cast_natCast]; linarith⟩
    obtain ⟨z, hz⟩ := hk2
    have hkb : |k| ≤ pfBwInt P - 1 / 2 := by
      have h3 : |k| < pfBwInt P + 1 / 2 := by linarith
      rw [abs_lt] at h3
      rw [abs_le]
      constructor
      · have : (-(pfBwInt P : ℤ) - 1 : ℝ) < z := by rw [hz] at h3; linarith
        have : -(pfBwInt P : ℤ) - 1 < z := by exact_mod_cast this
        have : -(pfBwInt P : ℤ) ≤ z := by omega
        have : (-(pfBwInt P : ℤ) : ℝ) ≤ z := by exact_mod_cast this
        rw [hz]; linarith
      · have : (z : ℝ) < pfBwInt P := by rw [hz] at h3; linarith
        have : z < pfBwInt P := by exact_mod_cast this
        have : z ≤ pfBwInt P - 1 := by omega
        have : (z : ℝ) ≤ pfBwInt P - 1 := by exact_mod_cast this
        rw [hz]; linarith
    have hj' : (j : ℝ) ≤ n - 1 := by
      have : (j : ℕ) + 1 ≤ n := j.isLt
      have : ((j : ℕ) : ℝ) + 1 ≤ n := by exact_mod_cast this
      linarith
    have hkn : |k| ≤ ((n : ℝ) - 1) / 2 := by
      have : (0 : ℝ) ≤ (j : ℝ) := Nat.cast_nonneg _
      rw [abs_le]; constructor <;> linarith
    have hkey : (n : ℝ) / (n - 1) * |k| ≤ pfBwInt P := by
      rw [div_mul_eq_mul_div, div_le_iff₀ (by linarith)]
      nlinarith
    have hkey' : |(n : ℝ) / (n - 1) * k / (2 * pfBwInt P)| ≤ 1 / 2 := by
      rw [abs_div, abs_mul, abs_of_pos (show (0 : ℝ) < n / (n - 1) from div_pos (by linarith) (by linarith)),
        abs_of_pos (show (0 : ℝ) < 2 * pfBwInt P by linarith), div_le_iff₀ (by linarith)]
      linarith
    rw [abs_le] at hkey'
    rw [pfT_eq hn P hb]
    constructor <;> linarith
  refine ⟨inband, fun amps phases hne ha x => ⟨_, by unfold progFilter; rw [if_neg hb], ?_⟩⟩
  rw [energy_dbScale]
  have := energy_freqMul_le hd (c := 1)
    (H := ifftShift (fun j => ((getWaveform amps (pfT P j) * pfMask P j : ℝ) : ℂ) *
      exp (I * ((getWaveform phases (pfT P j) * pfMask P j : ℝ) : ℂ)))) (fun k => by
      simp only [ifftShift]; rw [norm_amp_phase]
      unfold pfMask
      split
      · rename_i hin
        obtain ⟨h1, h2⟩ := inband _ hin
        obtain ⟨h3, h4⟩ := (C60_waveform amps hne 0 1 ha).1 _ h1 h2
        rw [mul_one, abs_of_nonneg h3]; exact h4
      · simp) x
  have e : (-4.5 : ℝ) / 10 = -(45 : ℝ) / 100 := by norm_num
  rw [e]
  exact mul_le_mul_of_nonneg_left (by linarith) (by positivity)

/-- **C60, finding.** On an odd grid whose band edge is rounded down, the outermost sample inside the band is mapped outside `[0, 1]`; there the ten
coefficients `1, 0, …, 0`, which are within the bounds, give an amplitude above one. -/
theorem C60_filter_odd (hn : 2 ≤ n) (ho : n % 2 = 1) {P : Prop_ n} (hw : 0 < P.window)
    (hb : 0 < pfBwInt P) (hr : (pfBwInt P : ℝ) ≤ pfBand / 2 / P.df) (hf : 2 * pfBwInt P + 1 ≤ n) :
    ∃ j, |P.f j| ≤ (5 * 10 ^ 12 : ℝ) / 2 ∧ 1 < getWaveform (1 :: List.replicate 9 0) (pfT P j) * pfMask P j := by
  have hdf := df_pos hn hw
  have h2 : (2 : ℝ) ≤ n := by exact_mod_cast hn
  have hbr : (0 : ℝ) < pfBwInt P := by exact_mod_cast hb
  obtain ⟨b, hb'⟩ : ∃ b : Nat, pfBwInt P = b := ⟨(pfBwInt P).toNat, by omega⟩
  have hj : (n - 1) / 2 - b < n := by omega
  have hcast : (((n - 1) / 2 - b : ℕ) : ℝ) = ((n : ℝ) - 1) / 2 - pfBwInt P := by
    rw [hb', Nat.cast_sub (by omega)]
    have : (n : ℝ) = 2 * (((n - 1) / 2 : ℕ) : ℝ) + 1 := by exact_mod_cast (by omega : n = 2 * ((n - 1) / 2) + 1)
    push_cast; linarith
  have hin : |P.f ⟨_, hj⟩| ≤ pfBand / 2 := by
    rw [f_eq_df hn, abs_mul, abs_of_pos hdf]
    rw [show ((⟨(n - 1) / 2 - b, hj⟩ : Fin n) : ℕ) = (n - 1) / 2 - b from rfl, hcast]
    rw [show ((n : ℝ) - 1) / 2 - pfBwInt P - ((n : ℝ) - 1) / 2 = -(pfBwInt P : ℝ) by ring, abs_neg, abs_of_pos hbr, mul_comm]
    exact (le_div_iff₀ hdf).1 hr
  refine ⟨⟨_, hj⟩, hin, ?_⟩
  have ht : pfT P ⟨_, hj⟩ < 0 := by
    rw [pfT_eq hn P (by omega)]
    rw [show ((⟨(n - 1) / 2 - b, hj⟩ : Fin n) : ℕ) = (n - 1) / 2 - b from rfl, hcast]
    have : (n : ℝ) / (n - 1) * (((n : ℝ) - 1) / 2 - pfBwInt P - ((n : ℝ) - 1) / 2) / (2 * pfBwInt P) = -((n : ℝ) / (n - 1)) / 2 := by
      have : (n : ℝ) - 1 ≠ 0 := by linarith
      field_simp; ring
    rw [this]
    have : 1 < (n : ℝ) / (n - 1) := by rw [lt_div_iff₀ (by linarith)]; linarith
    linarith
  unfold pfMask
  rw [if_pos hin, mul_one, getWaveform_eq _ _ (by simp)]
  simp only [List.length_cons, List.length_replicate]
  rw [sum_eq_single 0]
  · simp only [List.getD_cons_zero, pow_zero, Nat.choose_zero_right, Nat.cast_one, mul_one, one_mul]
    exact one_lt_pow₀ (by linarith) (by norm_num)
  · intro i _ hi
    obtain ⟨k, rfl⟩ := Nat.exists_eq_succ_of_ne_zero hi
    rw [List.getD_cons_succ, show (List.replicate 9 (0 : ℝ)).getD k 0 = 0 by
      rw [List.getD_eq_getElem?_getD, List.getElem?_replicate]; split <;> rfl]; ring
  · intro h; exact absurd (mem_range.2 (by omega)) h

/-- Both theorems have instances: with the frequency step of the even grid `2.5e12 * 10 / 11` and of the odd one `2.5e12`. -/
example : ∃ P : Prop_ 4, 0 < P.window ∧ (∀ m : ℤ, (5 * 10 ^ 12 : ℝ) / 2 / P.df ≠ m + 1 / 2) ∧ pfBwInt P ≠ 0 := by
  refine ⟨⟨4 / 3 * (1 / (25 * 10 ^ 11)), 1⟩, by norm_num, ?_⟩
  have hdf : ((⟨4 / 3 * (1 / (25 * 10 ^ 11)), 1⟩ : Prop_ 4)).df = 25 * 10 ^ 11 := by rw [(dt_df _).2]; norm_num
  have h1 : (5 * 10 ^ 12 : ℝ) / 2 / (25 * 10 ^ 11) = ((1 : ℤ) : ℝ) := by norm_num
  refine ⟨fun m h => ?_, ?_⟩
  · rw [hdf, h1] at h
    have : (1 : ℤ) = 2 * (1 - m) := by exact_mod_cast (by push_cast at h ⊢; linarith : ((1 : ℤ) : ℝ) = ((2 * (1 - m) : ℤ) : ℝ))
    omega
  · unfold pfBwInt; rw [hdf]
    show roundEven ((5 * 10 ^ 12 : ℝ) / 2 / (25 * 10 ^ 11)) ≠ 0
    rw [h1]; unfold roundEven; simp

example : ∃ P : Prop_ 3, 0 < P.window ∧ 0 < pfBwInt P ∧ (pfBwInt P : ℝ) ≤ pfBand / 2 / P.df ∧ 2 * pfBwInt P + 1 ≤ (3 : ℕ) := by
  refine ⟨⟨3 / 2 * (1 / (25 * 10 ^ 11)), 1⟩, by norm_num, ?_⟩
  have hdf : ((⟨3 / 2 * (1 / (25 * 10 ^ 11)), 1⟩ : Prop_ 3)).df = 25 * 10 ^ 11 := by rw [(dt_df _).2]; norm_num
  have h1 : pfBand / 2 / (25 * 10 ^ 11) = ((1 : ℤ) : ℝ) := by unfold pfBand; norm_num
  have hb : pfBwInt (⟨3 / 2 * (1 / (25 * 10 ^ 11)), 1⟩ : Prop_ 3) = 1 := by
    unfold pfBwInt; rw [hdf, h1]; unfold roundEven; simp
  rw [hb, hdf, h1]; norm_num

/-! ### Split-and-delay line -/

/-- Total spectral energy of the two arms. -/
theorem sdlStage_energy (P : Prop_ n) (r d : ℝ) (s : Signal n × Signal n) :
    energy (sdlStage P r d s).1 + energy (sdlStage P r d s).2 = energy s.1 + energy s.2 := by
  unfold energy
  rw [← sum_add_distrib, ← sum_add_distrib]
  refine sum_congr rfl (fun k _ => ?_)
  simp only [sdlStage]
  rw [norm_mul, norm_expI, one_mul]
  simp only [← Complex.normSq_eq_norm_sq, Complex.normSq_apply]
  have := Real.sin_sq_add_cos_sq (Real.pi / 2 * r)
  generalize Real.sin (Real.pi / 2 * r) = a at *
  generalize Real.cos (Real.pi / 2 * r) = b at *
  simp only [add_re, add_im, mul_re, mul_im, I_re, I_im, ofReal_re, ofReal_im, zero_mul, one_mul, mul_zero, sub_zero, zero_sub,
    add_zero, zero_add]
  linear_combination ((s.1 k).re ^ 2 + (s.1 k).im ^ 2 + (s.2 k).re ^ 2 + (s.2 k).im ^ 2) * this

theorem sdlLoop_energy (P : Prop_ n) : ∀ (l : List (ℝ × ℝ)) (s : Signal n × Signal n),
    energy (sdlLoop P l s).1 + energy (sdlLoop P l s).2 = energy s.1 + energy s.2
  | [], _ => rfl
  | (r, d) :: l, s => by
    show energy (sdlLoop P l (sdlStage P r d s)).1 + energy (sdlLoop P l (sdlStage P r d s)).2 = _
    rw [sdlLoop_energy P l, sdlStage_energy]

theorem sdlLoop_bar (P : Prop_ n) : ∀ (l : List (ℝ × ℝ)) (_ : ∀ p ∈ l, p.1 = 0) (X : Signal n),
    sdlLoop P l (X, fun _ => 0) = (X, fun _ => 0)
  | [], _, _ => rfl
  | (r, d) :: l, h, X => by
    have hr : r = 0 := h (r, d) List.mem_cons_self
    show sdlLoop P l (sdlStage P r d (X, fun _ => 0)) = _
    have : sdlStage P r d (X, fun _ => 0) = (X, fun _ => 0) := by simp [sdlStage, hr]
    rw [this]
    exact sdlLoop_bar P l (fun p hp => h p (List.mem_cons_of_mem _ hp)) X

/-- **C64.** The couplers and delays of a split-and-delay line conserve energy: for every coupling the output has at most the input
energy, times the factor `10^(1/10)` of the line `state * dB_to_amplitude_ratio(1.0)`. -/
theorem C64_split_delay (hn : 2 ≤ n) {P : Prop_ n} (hw : 0 < P.window) (ratios : List ℝ) (x : Signal n) :
    energy (splitDelay P ratios x) ≤ (10 : ℝ) ^ ((1 : ℝ) / 10) * energy x := by
  have hd := dt_ne_zero hn hw
  have hn' : (0 : ℝ) < n := by exact_mod_cast (by omega : 0 < n)
  unfold splitDelay
  rw [energy_dbScale]
  refine mul_le_mul_of_nonneg_left ?_ (by positivity)
  set S := sdlLoop P (ratios.zip sdlDelays) (fft_ x P.dt, fun _ => 0) with hS
  have h1 : energy S.1 ≤ energy (fft_ x P.dt) := by
    have := sdlLoop_energy P (ratios.zip sdlDelays) (fft_ x P.dt, fun _ => 0)
    rw [← hS] at this
    have hz : energy (fun _ : Fin n => (0 : ℂ)) = 0 := by simp [energy]
    simp only [hz] at this
    have := energy_nonneg S.2
    linarith
  have h2 : energy (fft_ x P.dt) = P.dt ^ 2 * (n * energy x) := by
    rw [← energy_npFft]; unfold energy fft_
    rw [mul_sum]; exact sum_congr rfl (fun k _ => by rw [norm_mul, mul_pow, Complex.norm_real, Real.norm_eq_abs, sq_abs]; ring)
  have h3 : P.dt ^ 2 * (n * energy (ifft_ S.1 P.dt)) = energy S.1 := by
    have := npIfft_parseval S.1
    unfold energy
    rw [← this, ← mul_assoc, mul_comm (P.dt ^ 2), mul_assoc]
    congr 1
    rw [mul_sum]
    refine sum_congr rfl (fun k _ => ?_)
    unfold ifft_
    rw [norm_div, div_pow, Complex.norm_real, Real.norm_eq_abs, sq_abs]
    field_simp
  have hd2 : 0 < P.dt ^ 2 := by positivity
  have : P.dt ^ 2 * (n * energy (ifft_ S.1 P.dt)) ≤ P.dt ^ 2 * (n * energy x) := by rw [h3, ← h2]; exact h1
  exact le_of_mul_le_mul_left (le_of_mul_le_mul_left this hd2) hn'

/-- **C64, finding.** The "loss" is a gain: with all couplers in the bar state the line multiplies every signal by
`10^(1/20) > 1`. -/
theorem C64_loss_amplifies (hn : 2 ≤ n) {P : Prop_ n} (hw : 0 < P.window) (ratios : List ℝ) (h0 : ∀ r ∈ ratios, r = 0)
    (x : Signal n) : splitDelay P ratios x = (fun i => x i * (((10 : ℝ) ^ ((1 : ℝ) / 20) : ℝ) : ℂ)) ∧ 1 < (10 : ℝ) ^ ((1 : ℝ) / 20) := by
  have hd := dt_ne_zero hn hw
  refine ⟨?_, Real.one_lt_rpow (by norm_num) (by norm_num)⟩
  unfold splitDelay
  rw [sdlLoop_bar P _ (fun p hp => h0 _ (List.of_mem_zip hp).1)]
  have : ifft_ (fft_ x P.dt) P.dt = x := by
    have := freqMul_const (n := n) 1 hd x
    unfold freqMul at this
    simpa using this
  simp only [this]; rfl

example : (∀ r ∈ List.replicate 8 (0 : ℝ), r = 0) ∧ (2 : Nat) ≤ 4 ∧ 0 < demoProp.window := by
  refine ⟨fun r h => (List.mem_replicate.1 h).2, by norm_num, by norm_num [demoProp]⟩

/-! Cases of the other theorems. -/

example := C59_mask_padded (n := 8) 3 [1, 2] (by simp) 2 (by norm_num)
example := C59_mask_cut (n := 4) 3 [1, 2] (by simp) 2 (by norm_num) (by simp)
example (x : Signal 4) := C59_wave_shaper (n := 4) (by norm_num) (P := demoProp) (by norm_num [demoProp]) [1, 1] [0, 2] rfl (fun a ha => by
  simp only [List.mem_cons, List.not_mem_nil, or_false, or_self] at ha
  subst ha
  exact ⟨Real.rpow_le_one_of_one_le_of_nonpos (by norm_num) (by norm_num), le_refl _⟩) x
example (x : Signal 4) := C64_split_delay (n := 4) (by norm_num) (P := demoProp) (by norm_num [demoProp]) [1 / 2, 0, 1] x
example (x : Signal 4) := C64_loss_amplifies (n := 4) (by norm_num) (P := demoProp) (by norm_num [demoProp]) [0, 0] (by simp) x

end Verif
