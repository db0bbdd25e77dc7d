import Verif.Props.Shaping
import Verif.Lemmas.Physics
/-!
# Wave shaper: what it does to each frequency, in numbers (C59)
-/

namespace Verif
open Complex Finset

variable {n : Nat}

theorem wsBinLen_eq (hn : 2 ≤ n) {P : Prop_ n} (hw : 0 < P.window) {m : Nat}
    (hm : (m : ℝ) ≤ n * (P.window / (n - 1)) * (12 * 10 ^ 9) ∧ n * (P.window / (n - 1)) * (12 * 10 ^ 9) < m + 1) : wsBinLen P = m := by
  have h2 : (2 : ℝ) ≤ n := by exact_mod_cast hn
  have hd : P.dt = P.window / (n - 1) := (dt_df P).1
  have h1 : (0 : ℝ) < P.window / (n - 1) := div_pos hw (by linarith)
  unfold wsBinLen wsBinWidth
  rw [hd]
  have : (n : ℝ) / (1 / (P.window / (n - 1)) / (12 * 10 ^ 9)) = n * (P.window / (n - 1)) * (12 * 10 ^ 9) := by
    rw [div_div, div_div_eq_mul_div, div_one]; ring
  rw [this]
  exact (Nat.floor_eq_iff (by positivity)).2 hm

/-- **C59.** What a wave shaper does to each frequency.  Its bins are 12 GHz wide, `m` samples each, and lie in order around the centre of
the frequency axis.  The frequency at place `j` of the axis is multiplied by the amplitude and turned by the phase of the bin it lies in;
outside of all bins its amplitude falls by the extinction of 35 dB, *and its phase is turned by that same number* `10 ^ (-3.5)`.  All
frequencies suffer the insertion loss of 4.5 dB. -/
theorem C59_response (hn : 2 ≤ n) {P : Prop_ n} (hw : 0 < P.window) {m : Nat} (amps phases : List ℝ) (hl : phases.length = amps.length)
    (hm : (m : ℝ) ≤ n * (P.window / (n - 1)) * (12 * 10 ^ 9) ∧ n * (P.window / (n - 1)) * (12 * 10 ^ 9) < m + 1)
    (hf : amps.length * m ≤ n) (x : Signal n) :
    ∃ y, waveShaper P amps phases x = .ok y ∧ ∀ k j : Fin n, j.val = (k.val + n / 2) % n → ∀ s, s = (n - amps.length * m) / 2 →
      (∀ b a φ, s + b * m ≤ j.val → j.val < s + (b + 1) * m → amps[b]? = some a → phases[b]? = some φ →
        npFft y k = ((10 : ℝ) ^ (-(9 : ℝ) / 40) : ℝ) * ((a : ℂ) * exp (I * (φ : ℂ))) * npFft x k) ∧
      ((j.val < s ∨ s + amps.length * m ≤ j.val) → ∀ ε : ℝ, ε = (10 : ℝ) ^ (-(7 : ℝ) / 2) →
        npFft y k = ((10 : ℝ) ^ (-(9 : ℝ) / 40) : ℝ) * ((ε : ℂ) * exp (I * (ε : ℂ))) * npFft x k) := by
  have hd := dt_ne_zero hn hw
  have hb := wsBinLen_eq hn hw hm
  have la := wsMask_length (n := n) (wsRepeat m amps)
  have lp := wsMask_length (n := n) (wsRepeat m phases)
  rw [wsRepeat_length, if_neg (by omega)] at la
  rw [wsRepeat_length, hl, if_neg (by omega)] at lp
  obtain ⟨a, ha, ha'⟩ := broadcast_of_length la
  obtain ⟨p, hp, hp'⟩ := broadcast_of_length lp
  refine ⟨_, by unfold waveShaper; rw [hb, ha, hp], ?_⟩
  rintro k j hj s rfl
  have e : (-4.5 : ℝ) / 20 = -(9 : ℝ) / 40 := by norm_num
  have hk : rotIdx (n / 2) k = j := Fin.ext (by simp [rotIdx, hj])
  have main : npFft (dbScale (-4.5) (freqMul (ifftShift (fun j => (a j : ℂ) * exp (I * (p j : ℂ)))) P.dt x)) k =
      ((10 : ℝ) ^ (-(9 : ℝ) / 40) : ℝ) * ((a j : ℂ) * exp (I * (p j : ℂ))) * npFft x k := by
    rw [freqMul_lti _ hd, dbScale_lti]
    unfold lti
    rw [npFft_npIfft]
    simp only [ifftShift, hk, dbAmp, e]
  rw [main]
  have hA := ha' j
  have hP := hp' j
  rw [C59_mask_padded m amps hf _ j.isLt] at hA
  rw [C59_mask_padded m phases (by rw [hl]; exact hf) _ j.isLt, hl] at hP
  constructor
  · intro b a0 φ h1 h2 h3 h4
    have hlt : b < amps.length := (List.getElem?_eq_some_iff.1 h3).1
    have hle : (b + 1) * m ≤ amps.length * m := Nat.mul_le_mul_right m hlt
    have hin : (n - amps.length * m) / 2 ≤ j.val ∧ j.val < (n - amps.length * m) / 2 + amps.length * m := by omega
    have hq : (j.val - (n - amps.length * m) / 2) / m = b := by
      apply Nat.div_eq_of_lt_le
      · omega
      · omega
    rw [if_pos hin, hq, h3] at hA
    rw [if_pos hin, hq, h4] at hP
    rw [Option.some.inj hA, Option.some.inj hP]
  · rintro h ε rfl
    rw [if_neg (by omega)] at hA hP
    rw [Option.some.inj hA.symm, Option.some.inj hP.symm]

/-- Three bins on a grid of 64 samples over one nanosecond: 12 samples each (12 GHz × 64/63 ns = 12.19), 14 samples before the first bin. -/
noncomputable def binProp : Prop_ 64 := ⟨1 / 10 ^ 9, 155 / 100000000⟩

example (x : Signal 64) := C59_response (by norm_num) (P := binProp) (by norm_num [binProp]) (m := 12) [1, 1 / 2, 1] [0, 1, 2] rfl
  (by constructor <;> norm_num [binProp]) (by norm_num) x

end Verif
