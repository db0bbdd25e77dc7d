import Verif.Model.Adam
import Verif.Spec.Adam
import Mathlib.Algebra.Order.Ring.Rat
import Mathlib.Tactic.Linarith
import Mathlib.Tactic.FieldSimp
import Mathlib.Tactic.Ring
import Mathlib.Tactic.NormNum
import Mathlib.Tactic.Positivity
/-! # Properties of bounded Adam (C37) -/

namespace Verif
variable {K : Type} [Field K] [LinearOrder K]

omit [Field K] in
theorem clipAll_length (lo up x : List K) (h1 : lo.length = x.length) (h2 : up.length = x.length) :
    (clipAll lo up x).length = x.length := by
  induction x generalizing lo up with
  | nil => cases lo <;> cases up <;> rfl
  | cons a x ih =>
    cases lo with
    | nil => simp at h1
    | cons l lo =>
      cases up with
      | nil => simp at h2
      | cons u up => simp only [clipAll, List.length_cons, ih lo up (by simpa using h1) (by simpa using h2)]

omit [Field K] in
theorem clipAll_at (lo up x : List K) (i : Nat) (l u y : K) (hl : lo[i]? = some l) (hu : up[i]? = some u)
    (hy : (clipAll lo up x)[i]? = some y) : ∃ z, x[i]? = some z ∧ y = clip1 l u z := by
  induction x generalizing lo up i with
  | nil => cases lo <;> cases up <;> simp [clipAll] at hy
  | cons a x ih =>
    cases lo with
    | nil => simp at hl
    | cons l' lo =>
      cases up with
      | nil => simp at hu
      | cons u' up =>
        cases i with
        | zero =>
          simp [clipAll] at hl hu hy
          exact ⟨a, rfl, by rw [← hl, ← hu, ← hy]⟩
        | succ i =>
          simp [clipAll] at hl hu hy
          simpa using ih lo up i hl hu hy

/-- The loop: where it ends, where it looked. -/
theorem adamLoop_ok {c : AdamCfg K} {lo up : List K} {grad : Nat → List K → List K} {period : Nat} (left : Nat) (i : Nat)
    (st : AdamSt K) {st' : AdamSt K} {k : Nat} (h : adamLoop c lo up grad period i left st = .ok (st', k)) :
    i ≤ k ∧ k ≤ i + left ∧ st'.x.length = st.x.length ∧
    (0 < left → lo.length = st.x.length ∧ up.length = st.x.length ∧ ∃ y, y.length = st.x.length ∧ st'.x = clipAll lo up y) ∧
    (k < i + left → k % period = period - 1 ∧ ∃ (d : List K) (p : List K), norm2 c d < c.thresh ∧
      st'.queries.getLast? = some p ∧ st'.x = clipAll lo up (List.zipWith (· - ·) p d)) ∧
    (∃ qs, st'.queries = st.queries ++ qs ∧ qs.length = (if k < i + left then k + 1 else k) - i ∧ (0 < left → qs.head? = some st.x) ∧
      ∀ q ∈ qs.tail, ∃ y, y.length = st.x.length ∧ q = clipAll lo up y) := by
  induction left generalizing i st with
  | zero =>
    simp only [adamLoop, Except.ok.injEq, Prod.mk.injEq] at h
    obtain ⟨rfl, rfl⟩ := h
    exact ⟨le_refl _, le_refl _, rfl, fun h => absurd h (by omega), fun h => absurd h (by omega), [], by simp, by simp,
      fun h => absurd h (by omega), by simp⟩
  | succ left ih =>
    simp only [adamLoop] at h
    split at h
    · cases h
    · next m v d hm =>
      split at h
      · cases h
      · next hlen =>
        split at h
        · cases h
        · push Not at hlen
          obtain ⟨h1, h2, h3⟩ := hlen
          have hz : (List.zipWith (· - ·) st.x d).length = st.x.length := by simp; omega
          split at h
          · next hc =>
            simp only [Except.ok.injEq, Prod.mk.injEq] at h
            obtain ⟨rfl, rfl⟩ := h
            refine ⟨le_refl _, by omega, ?_, fun _ => ⟨h2, h3, _, hz, rfl⟩, fun _ => ⟨hc.1, d, st.x, hc.2, by simp, rfl⟩,
              [st.x], rfl, ?_, fun _ => rfl, by simp⟩
            · rw [clipAll_length _ _ _ (by rw [hz]; exact h2) (by rw [hz]; exact h3), hz]
            · rw [if_pos (by omega)]
              simp
          · obtain ⟨a1, a2, a3, a4, a5, qs, a6, a7, a8, a9⟩ := ih (i + 1) _ h
            have hx : (clipAll lo up (List.zipWith (· - ·) st.x d)).length = st.x.length := by
              rw [clipAll_length _ _ _ (by rw [hz]; exact h2) (by rw [hz]; exact h3), hz]
            dsimp only at a3 a4 a5 a6 a7 a8 a9
            rw [hx] at a3
            refine ⟨by omega, by omega, a3, fun _ => ⟨h2, h3, ?_⟩, fun hk => a5 (by omega), st.x :: qs, ?_, ?_, fun _ => rfl, ?_⟩
            · rcases Nat.eq_zero_or_pos left with h0 | h0
              · subst h0
                simp only [adamLoop, Except.ok.injEq, Prod.mk.injEq] at h
                obtain ⟨rfl, _⟩ := h
                exact ⟨_, hz, rfl⟩
              · obtain ⟨_, _, y, hy, hy'⟩ := a4 h0
                exact ⟨y, by rw [hy, hx], hy'⟩
            · rw [a6]
              simp
            · rw [List.length_cons, a7]
              have : i + 1 + left = i + (left + 1) := by omega
              rw [this]
              split <;> omega
            · intro q hq
              change q ∈ qs at hq
              cases qs with
              | nil => cases hq
              | cons q0 qs =>
                rcases List.mem_cons.1 hq with rfl | hq
                · rcases Nat.eq_zero_or_pos left with h0 | h0
                  · subst h0
                    simp at a7
                    split at a7 <;> omega
                  · have := a8 h0
                    simp at this
                    exact ⟨_, hz, this⟩
                · obtain ⟨y, hy, hy'⟩ := a9 q hq
                  exact ⟨y, by rw [hy, hx], hy'⟩

variable [IsStrictOrderedRing K]

theorem shrunk_box {lo up y : List K} (hlen : lo.length = up.length) (hy : y.length = lo.length)
    (hle : ∀ (i : Nat) (l u : K), lo[i]? = some l → up[i]? = some u → l ≤ u) :
    InBox lo up (clipAll (List.zipWith (· + ·) lo (List.zipWith (fun u l => (u - l) * (1 / 10 ^ 8)) up lo))
      (List.zipWith (· - ·) up (List.zipWith (fun u l => (u - l) * (1 / 10 ^ 8)) up lo)) y) := by
  have e1 : (List.zipWith (· + ·) lo (List.zipWith (fun u l => (u - l) * (1 / 10 ^ 8)) up lo)).length = lo.length := by
    simp; omega
  have e2 : (List.zipWith (· - ·) up (List.zipWith (fun u l => (u - l) * (1 / 10 ^ 8)) up lo)).length = lo.length := by
    simp; omega
  refine ⟨?_, ?_⟩
  · rw [clipAll_length _ _ _ (by omega) (by omega), hy]
  · intro i l u z hl hu hz
    have a1 : (List.zipWith (· + ·) lo (List.zipWith (fun u l => (u - l) * (1 / 10 ^ 8)) up lo))[i]? = some (l + (u - l) * (1 / 10 ^ 8)) := by
      simp [List.getElem?_zipWith, hl, hu]
    have a2 : (List.zipWith (· - ·) up (List.zipWith (fun u l => (u - l) * (1 / 10 ^ 8)) up lo))[i]? = some (u - (u - l) * (1 / 10 ^ 8)) := by
      simp [List.getElem?_zipWith, hl, hu]
    obtain ⟨w, _, rfl⟩ := clipAll_at _ _ _ i _ _ z a1 a2 hz
    have hlu := hle i l u hl hu
    have hb : l + (u - l) * (1 / 10 ^ 8) ≤ u - (u - l) * (1 / 10 ^ 8) := by
      have : (0 : K) ≤ u - l := by linarith
      norm_num
      linarith
    have hd : (u - l) / 10 ^ 8 = (u - l) * (1 / 10 ^ 8) := by ring
    rw [hd]
    unfold clip1
    exact ⟨le_min (le_max_right _ _) hb, min_le_right _ _⟩

/-- **C37.** With at least one iteration, whatever the gradient does: the vector returned is in the shrunk box, and so is every point
at which the gradient was taken, but for the first, which is the start.  The number reported is the number of iterations, or that of
an earlier iteration at which the convergence was to be checked and the step was below the threshold. -/
theorem C37_adam {c : AdamCfg K} {lo up : List K} {grad : Nat → List K → List K} {x : List K} {period : Option Nat}
    {numIters : Nat} {m v : Option (List K)} {st : AdamSt K} {k : Nat}
    (hle : ∀ (i : Nat) (l u : K), lo[i]? = some l → up[i]? = some u → l ≤ u) (hn : 0 < numIters)
    (h : adamBounded c lo up grad x period numIters m v = .ok (st, k)) :
    InBox lo up st.x ∧ st.queries.head? = some x ∧ (∀ q ∈ st.queries.tail, InBox lo up q) ∧
    st.queries.length = min (k + 1) numIters ∧
    (k = numIters ∨ (k < numIters ∧ ∃ p, period = some p ∧ k % p = p - 1 ∧ ∃ d q : List K, c.sqrt (d.map (· ^ 2)).sum < c.thresh ∧
      st.queries.getLast? = some q ∧ ∀ (i : Nat) (y z w l u : K), q[i]? = some y → d[i]? = some z → st.x[i]? = some w →
        lo[i]? = some l → up[i]? = some u → w = y - z ∨ w = l + (u - l) / 10 ^ 8 ∨ w = u - (u - l) / 10 ^ 8)) := by
  unfold adamBounded at h
  split at h
  · cases h
  · next hlen =>
    push Not at hlen
    dsimp only at h
    have hd : ∀ (u l : K), (u - l) / 10 ^ 8 = (u - l) * (1 / 10 ^ 8) := fun u l => by ring
    obtain ⟨_, a2, a3, a4, a5, qs, a6, a7, a8, a9⟩ := adamLoop_ok numIters 0 _ h
    obtain ⟨b1, b2, y, b3, b4⟩ := a4 hn
    simp only [Nat.zero_add, List.nil_append, Nat.sub_zero] at a2 a3 a5 a6 a7 a8 a9 b1 b2 b3
    have hxl : x.length = lo.length := by
      rw [← b1]
      simp; omega
    refine ⟨?_, by rw [a6]; exact a8 hn, ?_, ?_, ?_⟩
    · rw [b4]
      exact shrunk_box hlen (by omega) hle
    · intro q hq
      rw [a6] at hq
      obtain ⟨z, hz, rfl⟩ := a9 q hq
      exact shrunk_box hlen (by omega) hle
    · rw [a6, a7]
      split <;> omega
    · rcases Nat.lt_or_ge k numIters with hk | hk
      · right
        obtain ⟨e1, d, p, e2, e3, e4⟩ := a5 hk
        refine ⟨hk, ?_⟩
        cases period with
        | none =>
          simp only [Option.getD_none] at e1
          rw [Nat.mod_eq_of_lt (by omega)] at e1
          omega
        | some q =>
          refine ⟨q, rfl, e1, d, p, e2, e3, ?_⟩
          intro i y z w l u hy hz hw hl hu
          rw [e4] at hw
          have g1 : (List.zipWith (· + ·) lo (List.zipWith (fun u l => (u - l) * (1 / 10 ^ 8)) up lo))[i]? = some (l + (u - l) * (1 / 10 ^ 8)) := by
            simp [List.getElem?_zipWith, hl, hu]
          have g2 : (List.zipWith (· - ·) up (List.zipWith (fun u l => (u - l) * (1 / 10 ^ 8)) up lo))[i]? = some (u - (u - l) * (1 / 10 ^ 8)) := by
            simp [List.getElem?_zipWith, hl, hu]
          obtain ⟨t, ht, rfl⟩ := clipAll_at _ _ _ i _ _ w g1 g2 hw
          have : t = y - z := by
            simpa [List.getElem?_zipWith, hy, hz] using ht.symm
          subst this
          rw [hd]
          unfold clip1
          rcases le_total (max (y - z) (l + (u - l) * (1 / 10 ^ 8))) (u - (u - l) * (1 / 10 ^ 8)) with hm | hm
          · rw [min_eq_left hm]
            rcases le_total (y - z) (l + (u - l) * (1 / 10 ^ 8)) with hm | hm
            · rw [max_eq_right hm]
              exact .inr (.inl rfl)
            · rw [max_eq_left hm]
              exact .inl rfl
          · rw [min_eq_right hm]
            exact .inr (.inr rfl)
      · left
        omega

omit [IsStrictOrderedRing K] in
/-- **C37.** No iterations: the vector comes back as it was, clipped or not; zero is reported. -/
theorem C37_no_iterations (c : AdamCfg K) {lo up : List K} (hlen : lo.length = up.length) (grad : Nat → List K → List K) (x : List K)
    (period : Option Nat) (m v : Option (List K)) :
    ∃ st, adamBounded c lo up grad x period 0 m v = .ok (st, 0) ∧ st.x = x ∧ st.queries = [] := by
  unfold adamBounded
  rw [if_neg (by simpa using hlen)]
  exact ⟨_, rfl, rfl, rfl⟩

omit [IsStrictOrderedRing K] in
theorem divAll_total (a b : List K) (hl : a.length = b.length) (hb : ∀ y ∈ b, y ≠ 0) :
    ∃ r, divAll a b = .ok r ∧ r.length = a.length := by
  induction a generalizing b with
  | nil =>
    cases b with
    | nil => exact ⟨[], rfl, rfl⟩
    | cons => simp at hl
  | cons x a ih =>
    cases b with
    | nil => simp at hl
    | cons y b =>
      obtain ⟨r, hr, hr'⟩ := ih b (by simpa using hl) (fun z hz => hb z (List.mem_cons_of_mem _ hz))
      exact ⟨x / y :: r, by rw [divAll, if_neg (hb y List.mem_cons_self), hr], by simp [hr']⟩

theorem adamMove_total {c : AdamCfg K} (h1 : 0 ≤ c.b1 ∧ c.b1 < 1) (h2 : 0 ≤ c.b2 ∧ c.b2 < 1) (he : 0 < c.eps)
    (hs : ∀ y, 0 ≤ y → 0 ≤ c.sqrt y) (i : Nat) {g m v : List K} (hgm : g.length = m.length) (hgv : g.length = v.length)
    (hv : ∀ y ∈ v, 0 ≤ y) : ∃ m' v' d, adamMove c i g m v = .ok (m', v', d) ∧ m'.length = g.length ∧ v'.length = g.length ∧
      d.length = g.length ∧ ∀ y ∈ v', 0 ≤ y := by
  have hp1 : c.b1 ^ (i + 1) < 1 := pow_lt_one₀ h1.1 h1.2 (by omega)
  have hp2 : c.b2 ^ (i + 1) < 1 := pow_lt_one₀ h2.1 h2.2 (by omega)
  have hv' : ∀ y ∈ List.zipWith (fun g v => (1 - c.b2) * g ^ 2 + c.b2 * v) g v, 0 ≤ y := by
    intro y hy
    obtain ⟨j, hj⟩ := List.getElem?_of_mem hy
    simp only [List.getElem?_zipWith] at hj
    cases hg : g[j]? with
    | none => simp [hg] at hj
    | some a =>
      cases hvj : v[j]? with
      | none => simp [hg, hvj] at hj
      | some b =>
        simp [hg, hvj] at hj
        rw [← hj]
        have := hv b (List.mem_of_getElem? hvj)
        have h3 : 0 ≤ 1 - c.b2 := by linarith [h2.2]
        have := h2.1
        positivity
  unfold adamMove
  rw [if_neg (by push Not; exact ⟨hgm, hgv⟩)]
  dsimp only
  rw [if_neg (by push Not; exact ⟨by linarith, by linarith⟩)]
  obtain ⟨r, hr, hr'⟩ := divAll_total
    (((List.zipWith (fun g m => (1 - c.b1) * g + c.b1 * m) g m).map (· / (1 - c.b1 ^ (i + 1)))).map (c.stepSize * ·))
    (((List.zipWith (fun g v => (1 - c.b2) * g ^ 2 + c.b2 * v) g v).map (· / (1 - c.b2 ^ (i + 1)))).map (fun v => c.sqrt v + c.eps))
    (by simp; omega) (by
      intro y hy
      simp only [List.mem_map] at hy
      obtain ⟨w, ⟨z, hz, rfl⟩, rfl⟩ := hy
      have : 0 ≤ z / (1 - c.b2 ^ (i + 1)) := div_nonneg (hv' z hz) (by linarith)
      have := hs _ this
      linarith)
  rw [hr]
  refine ⟨_, _, _, rfl, by simp; omega, by simp; omega, ?_, hv'⟩
  rw [hr']
  simp; omega

/-- **C37.** With decay rates in `[0,1)`, `eps > 0`, a positive check period and arrays of one length there is no division by zero and
no error: Adam always returns. -/
theorem C37_total {c : AdamCfg K} (h1 : 0 ≤ c.b1 ∧ c.b1 < 1) (h2 : 0 ≤ c.b2 ∧ c.b2 < 1) (he : 0 < c.eps)
    (hs : ∀ y, 0 ≤ y → 0 ≤ c.sqrt y) {lo up x : List K} (hlo : lo.length = x.length) (hup : up.length = x.length)
    {grad : Nat → List K → List K} (hg : ∀ i y, (grad i y).length = y.length) {period : Option Nat} (hp : period ≠ some 0)
    (numIters : Nat) : ∃ r, adamBounded c lo up grad x period numIters none none = .ok r := by
  have hp' : period.getD (numIters + 1) ≠ 0 := by
    cases period with
    | none => simp
    | some p => simpa using hp
  have main : ∀ (lo up : List K) (left i : Nat) (st : AdamSt K), lo.length = st.x.length → up.length = st.x.length → st.m.length = st.x.length →
      st.v.length = st.x.length → (∀ y ∈ st.v, 0 ≤ y) → ∃ r, adamLoop c lo up grad (period.getD (numIters + 1)) i left st = .ok r := by
    intro lo up left
    induction left with
    | zero => exact fun i st _ _ _ _ _ => ⟨_, rfl⟩
    | succ left ih =>
      intro i st a1 a2 a3 a4 a5
      obtain ⟨m', v', d, e, e1, e2, e3, e4⟩ := adamMove_total h1 h2 he hs i (g := grad i st.x) (m := st.m) (v := st.v)
        (by rw [hg, a3]) (by rw [hg, a4]) a5
      rw [hg] at e1 e2 e3
      simp only [adamLoop, e]
      rw [if_neg (by push Not; exact ⟨e3, a1, a2⟩), if_neg hp']
      split
      · exact ⟨_, rfl⟩
      · have hz : (List.zipWith (· - ·) st.x d).length = st.x.length := by simp; omega
        have hx : (clipAll lo up (List.zipWith (· - ·) st.x d)).length = st.x.length := by
          rw [clipAll_length _ _ _ (by rw [hz]; exact a1) (by rw [hz]; exact a2), hz]
        apply ih
        · dsimp only; rw [hx, a1]
        · dsimp only; rw [hx, a2]
        · dsimp only; rw [hx, e1]
        · dsimp only; rw [hx, e2]
        · exact e4
  unfold adamBounded
  rw [if_neg (by push Not; omega)]
  apply main <;> simp <;> omega

/-- A one-dimensional setting in which the "root" is the identity. -/
def adamDemo : AdamCfg ℚ := ⟨1, 1/2, 1/2, 1/10, 3/2, fun y => y⟩

example : (adamBounded adamDemo [0] [2] (fun _ x => x.map (· - 1)) [2] (some 2) 5 none none).map (fun r => (r.2, r.1.queries.length)) =
    .ok (1, 2) := by decide +kernel
example : (adamBounded adamDemo [0] [2] (fun _ _ => [1]) [2] none 5 none none).map (fun r => (r.1.x, r.2)) =
    .ok ([2 / 10 ^ 8], 5) := by decide +kernel
/-- The premises of `C37_total` are met. -/
example : (0 ≤ adamDemo.b1 ∧ adamDemo.b1 < 1) ∧ 0 < adamDemo.eps ∧ ∀ y, 0 ≤ y → 0 ≤ adamDemo.sqrt y :=
  ⟨by decide +kernel, by decide +kernel, fun _ h => h⟩

/-- Cases of `C37_adam`, `C37_no_iterations` and `C37_total`: descent on a parabola, checked for convergence every other step. -/
example (st : AdamSt ℚ) (k : Nat) (h : adamBounded adamDemo [0] [2] (fun _ x => x.map (· - 1)) [2] (some 2) 5 none none = .ok (st, k)) :=
  C37_adam (c := adamDemo) (by intro i l u hl hu; cases i <;> simp_all; rw [← hl, ← hu]; norm_num) (by norm_num) h
example := C37_no_iterations adamDemo (lo := [0]) (up := [2]) rfl (fun _ x => x.map (· - 1)) [5] none none none
example : ∃ r, adamBounded adamDemo [0] [2] (fun _ x => x.map (· - 1)) [2] (some 2) 5 none none = .ok r :=
  C37_total (c := adamDemo) (by decide +kernel) (by decide +kernel) (by decide +kernel) (fun _ h => h) (lo := [0]) (up := [2]) (x := [2]) rfl rfl (grad := fun _ x => x.map (· - 1))
    (fun _ _ => by simp) (period := some 2) (by simp) 5

/-- **C37.** A vector outside the bounds survives a call with no iterations. -/
theorem C37_unclipped_example :
    (adamBounded adamDemo [0] [2] (fun _ _ => [1]) [5] none 0 none none).map (fun r => (r.1.x, r.2)) = .ok ([5], 0) := by decide +kernel

/-- **C37.** Two batches of one iteration with the moments carried over (as in `tuning_adam_gradient_descent`) are not one batch of two
iterations: the moments agree but the bias correction starts again. -/
theorem C37_batches_differ : ∃ (s1 s2 s : AdamSt ℚ) (k1 k2 k : Nat),
    adamBounded adamDemo [0] [8] (fun _ x => x) [4] none 1 none none = .ok (s1, k1) ∧
    adamBounded adamDemo [0] [8] (fun _ x => x) s1.x none 1 (some s1.m) (some s1.v) = .ok (s2, k2) ∧
    adamBounded adamDemo [0] [8] (fun _ x => x) [4] none 2 none none = .ok (s, k) ∧ s2.m = s.m ∧ s2.v = s.v ∧ s2.x ≠ s.x :=
  ⟨⟨[604/161], [2], [8], [[4]]⟩, ⟨[3231619184/925389521], [463/161], [286092/25921], [[604/161]]⟩,
    ⟨[6478894652/1854952323], [463/161], [286092/25921], [[4], [604/161]]⟩, 1, 1, 2, by decide +kernel⟩

end Verif
