import Verif.Props.Repeats
import Verif.Props.WholeRun
import Mathlib.Analysis.Real.Sqrt
import Mathlib.Tactic.LinearCombination
import Mathlib.Tactic.FieldSimp
import Mathlib.Tactic.Positivity
/-! # How far bounded Adam can go (C134) -/

namespace Verif
variable {K : Type} [Field K] [LinearOrder K] [IsStrictOrderedRing K]

omit [IsStrictOrderedRing K] in
theorem divAll_at {a b r : List K} (h : divAll a b = .ok r) {j : Nat} {z : K} (hz : r[j]? = some z) : ∃ x y, a[j]? = some x ∧ b[j]? = some y ∧ y ≠ 0 ∧ z = x / y := by
  induction a generalizing b r j with
  | nil =>
    cases b with
    | nil =>
      injection h with h
      subst h
      simp at hz
    | cons => cases h
  | cons x a ih =>
    cases b with
    | nil => cases h
    | cons y b =>
      rw [divAll] at h
      split at h
      · cases h
      · next hy =>
        split at h
        · cases h
        · next r' hr =>
          injection h with h
          subst h
          cases j with
          | zero =>
            simp only [List.getElem?_cons_zero, Option.some.injEq] at hz
            exact ⟨x, y, rfl, rfl, hy, hz.symm⟩
          | succ j => simpa using ih hr (by simpa using hz)

/-- The moments keep `m ^ 2 ≤ A * v`. -/
theorem moment_step {b c A g p q : K} (hb : b ^ 2 < c) (hc0 : 0 ≤ c) (hA : (1 - b) ^ 2 * c ≤ A * (1 - c) * (c - b ^ 2)) (h : p ^ 2 ≤ A * q) :
    ((1 - b) * g + b * p) ^ 2 ≤ A * ((1 - c) * g ^ 2 + c * q) := by
  have hD : 0 < c - b ^ 2 := sub_pos.2 hb
  have h1 : c * p ^ 2 ≤ c * (A * q) := mul_le_mul_of_nonneg_left h hc0
  have h2 : 0 ≤ (A * (1 - c) * g ^ 2 + c * p ^ 2 - ((1 - b) * g + b * p) ^ 2) := by
    refine nonneg_of_mul_nonneg_right (a := c - b ^ 2) ?_ hD
    have h3 : 0 ≤ (A * (1 - c) * (c - b ^ 2) - (1 - b) ^ 2 * c) * g ^ 2 := mul_nonneg (sub_nonneg.2 hA) (sq_nonneg _)
    have h4 : 0 ≤ ((c - b ^ 2) * p - b * (1 - b) * g) ^ 2 := sq_nonneg _
    have : (c - b ^ 2) * (A * (1 - c) * g ^ 2 + c * p ^ 2 - ((1 - b) * g + b * p) ^ 2) =
        (A * (1 - c) * (c - b ^ 2) - (1 - b) ^ 2 * c) * g ^ 2 + ((c - b ^ 2) * p - b * (1 - b) * g) ^ 2 := by ring
    rw [this]
    exact add_nonneg h3 h4
  linarith

/-- The size of a step. -/
theorem step_small {b c A κ s C M V S ε : K} {t : Nat} (hb0 : 0 ≤ b) (hb1 : b < 1) (hbc : b ≤ c) (hc1 : c < 1) (hA : 0 ≤ A) (hκ : 0 ≤ κ) (hS : 0 ≤ S) (hε : 0 ≤ ε)
    (hM : M ^ 2 ≤ A * V) (hV : V / (1 - c ^ (t + 1)) ≤ κ * S ^ 2) (hne : S + ε ≠ 0) (hC0 : 0 ≤ C) (hC : s ^ 2 * (A * κ) ≤ C ^ 2 * (1 - b)) :
    |s * (M / (1 - b ^ (t + 1))) / (S + ε)| ≤ C := by
  have hbt : b ^ (t + 1) ≤ b := pow_le_of_le_one hb0 hb1.le (by omega)
  have hbct : b ^ (t + 1) ≤ c ^ (t + 1) := pow_le_pow_left₀ hb0 hbc _
  have hct : c ^ (t + 1) < 1 := pow_lt_one₀ (hb0.trans hbc) hc1 (by omega)
  set X := 1 - b ^ (t + 1) with hX
  set Y := 1 - c ^ (t + 1) with hY
  have hX0 : 0 < X := by linarith
  have hY0 : 0 < Y := by linarith
  have hYX : Y ≤ X := by linarith
  have hSε : 0 < S + ε := lt_of_le_of_ne (add_nonneg hS hε) (Ne.symm hne)
  have e1 : V ≤ κ * S ^ 2 * Y := (div_le_iff₀ hY0).1 hV
  have e2 : M ^ 2 ≤ A * κ * X * (S + ε) ^ 2 := by
    calc M ^ 2 ≤ A * V := hM
      _ ≤ A * (κ * S ^ 2 * Y) := mul_le_mul_of_nonneg_left e1 hA
      _ ≤ A * (κ * (S + ε) ^ 2 * X) := by
        refine mul_le_mul_of_nonneg_left (mul_le_mul (mul_le_mul_of_nonneg_left (pow_le_pow_left₀ hS (by linarith) 2) hκ) hYX hY0.le (by positivity)) hA
      _ = _ := by ring
  refine abs_le_of_sq_le_sq ?_ hC0
  rw [div_pow, mul_pow, div_pow, ← mul_div_assoc, div_div, div_le_iff₀ (by positivity)]
  have e3 : s ^ 2 * M ^ 2 ≤ s ^ 2 * (A * κ * X * (S + ε) ^ 2) := mul_le_mul_of_nonneg_left e2 (sq_nonneg _)
  have e4 : s ^ 2 * (A * κ) * (X * (S + ε) ^ 2) ≤ C ^ 2 * (1 - b) * (X * (S + ε) ^ 2) := mul_le_mul_of_nonneg_right hC (by positivity)
  have e5 : C ^ 2 * (1 - b) * (X * (S + ε) ^ 2) ≤ C ^ 2 * X * (X * (S + ε) ^ 2) :=
    mul_le_mul_of_nonneg_right (mul_le_mul_of_nonneg_left (by linarith) (sq_nonneg _)) (by positivity)
  calc s ^ 2 * M ^ 2 ≤ _ := e3
    _ = s ^ 2 * (A * κ) * (X * (S + ε) ^ 2) := by ring
    _ ≤ _ := e4
    _ ≤ _ := e5
    _ = _ := by ring

/-- `A` and `C` bound the steps of Adam with the arguments `c`, where the square roots are right up to the factor `κ` below. -/
structure AdamBound (c : AdamCfg K) (κ A C : K) : Prop where
  b1 : 0 ≤ c.b1
  b1' : c.b1 < 1
  le : c.b1 ≤ c.b2
  b2' : c.b2 < 1
  sq : c.b1 ^ 2 < c.b2
  eps : 0 ≤ c.eps
  sqrt : ∀ y, 0 ≤ y → 0 ≤ c.sqrt y ∧ y ≤ κ * c.sqrt y ^ 2
  κ0 : 0 ≤ κ
  A0 : 0 ≤ A
  A1 : (1 - c.b1) ^ 2 * c.b2 ≤ A * (1 - c.b2) * (c.b2 - c.b1 ^ 2)
  C0 : 0 ≤ C
  C1 : c.stepSize ^ 2 * (A * κ) ≤ C ^ 2 * (1 - c.b1)

/-- What the moments keep. -/
def MomentInv (A : K) (m v : List K) : Prop := ∀ (j : Nat) (p q : K), m[j]? = some p → v[j]? = some q → 0 ≤ q ∧ p ^ 2 ≤ A * q

theorem adamMove_small {c : AdamCfg K} {κ A C : K} (B : AdamBound c κ A C) {i : Nat} {g m v m' v' d : List K} (h : adamMove c i g m v = .ok (m', v', d)) (hI : MomentInv A m v) :
    MomentInv A m' v' ∧ ∀ (j : Nat) (z : K), d[j]? = some z → |z| ≤ C := by
  unfold adamMove at h
  split at h
  · cases h
  · next hlen =>
    dsimp only at h
    split at h
    · cases h
    · split at h
      · cases h
      · next d' hd =>
        simp only [Except.ok.injEq, Prod.mk.injEq] at h
        obtain ⟨rfl, rfl, rfl⟩ := h
        have inv : MomentInv A (List.zipWith (fun g m => (1 - c.b1) * g + c.b1 * m) g m) (List.zipWith (fun g v => (1 - c.b2) * g ^ 2 + c.b2 * v) g v) := by
          intro j p q hp hq
          rw [List.getElem?_zipWith_eq_some] at hp hq
          obtain ⟨a, p0, ha, hp0, rfl⟩ := hp
          obtain ⟨a', q0, ha', hq0, rfl⟩ := hq
          rw [ha] at ha'
          injection ha' with ha'
          subst ha'
          obtain ⟨h1, h2⟩ := hI j p0 q0 hp0 hq0
          have hb2 : 0 ≤ c.b2 := B.b1.trans B.le
          exact ⟨add_nonneg (mul_nonneg (sub_nonneg.2 B.b2'.le) (sq_nonneg _)) (mul_nonneg hb2 h1), moment_step B.sq hb2 B.A1 h2⟩
        refine ⟨inv, fun j z hz => ?_⟩
        obtain ⟨x, y, hx, hy, hne, rfl⟩ := divAll_at hd hz
        rw [List.getElem?_map, Option.map_eq_some_iff] at hx hy
        obtain ⟨mh, hmh, rfl⟩ := hx
        obtain ⟨vh, hvh, rfl⟩ := hy
        rw [List.getElem?_map, Option.map_eq_some_iff] at hmh hvh
        obtain ⟨M, hM, rfl⟩ := hmh
        obtain ⟨V, hV, rfl⟩ := hvh
        obtain ⟨hV0, hMV⟩ := inv j M V hM hV
        have hct : c.b2 ^ (i + 1) < 1 := pow_lt_one₀ (B.b1.trans B.le) B.b2' (by omega)
        obtain ⟨s1, s2⟩ := B.sqrt (V / (1 - c.b2 ^ (i + 1))) (div_nonneg hV0 (sub_nonneg.2 hct.le))
        exact step_small B.b1 B.b1' B.le B.b2' B.A0 B.κ0 s1 B.eps hMV s2 hne B.C0 B.C1

theorem clip_near {l u a z C : K} (h1 : l ≤ a) (h2 : a ≤ u) (hz : |z| ≤ C) : |clip1 l u (a - z) - a| ≤ C ∧ l ≤ clip1 l u (a - z) ∧ clip1 l u (a - z) ≤ u := by
  unfold clip1
  have hC := abs_le.1 hz
  have h0 : 0 ≤ C := (abs_nonneg z).trans hz
  refine ⟨abs_le.2 ⟨?_, ?_⟩, le_min (le_max_right _ _) (h1.trans h2), min_le_right _ _⟩
  · have : a - C ≤ min (max (a - z) l) u := le_min (le_max_of_le_left (by linarith [hC.2])) (by linarith)
    linarith
  · have : min (max (a - z) l) u ≤ a + C := min_le_of_left_le (max_le (by linarith [hC.1]) (by linarith))
    linarith

/-- `x` is within bounds. -/
def WithinAll (lo up x : List K) : Prop := ∀ (j : Nat) (l u a : K), lo[j]? = some l → up[j]? = some u → x[j]? = some a → l ≤ a ∧ a ≤ u

theorem adamLoop_near {c : AdamCfg K} {κ A C : K} (B : AdamBound c κ A C) {lo up : List K} {grad : Nat → List K → List K} {period : Nat} (left : Nat) (i : Nat)
    (st : AdamSt K) {st' : AdamSt K} {k : Nat} (h : adamLoop c lo up grad period i left st = .ok (st', k)) (hI : MomentInv A st.m st.v) (hb : WithinAll lo up st.x)
    {j : Nat} {a y : K} (ha : st.x[j]? = some a) (hy : st'.x[j]? = some y) : |y - a| ≤ left * C := by
  induction left generalizing i st a with
  | zero =>
    simp only [adamLoop, Except.ok.injEq, Prod.mk.injEq] at h
    obtain ⟨rfl, rfl⟩ := h
    rw [ha] at hy
    injection hy with hy
    subst hy
    simp
  | succ left ih =>
    rw [adamLoop] at h
    split at h
    · cases h
    · next m v d hmv =>
      split at h
      · cases h
      · next hlen =>
        push Not at hlen
        split at h
        · cases h
        · dsimp only at h
          obtain ⟨hI', hd⟩ := adamMove_small B hmv hI
          have one : ∀ (j : Nat) (l u z' : K), lo[j]? = some l → up[j]? = some u → (clipAll lo up (List.zipWith (· - ·) st.x d))[j]? = some z' →
              ∃ a, st.x[j]? = some a ∧ |z' - a| ≤ C ∧ l ≤ z' ∧ z' ≤ u := by
            intro j l u z' hl hu hz'
            obtain ⟨w, hw, rfl⟩ := clipAll_at lo up _ j l u z' hl hu hz'
            rw [List.getElem?_zipWith_eq_some] at hw
            obtain ⟨a, z, ha, hz, rfl⟩ := hw
            obtain ⟨b1, b2⟩ := hb j l u a hl hu ha
            obtain ⟨c1, c2, c3⟩ := clip_near b1 b2 (hd j z hz)
            exact ⟨a, ha, c1, c2, c3⟩
          have len : (clipAll lo up (List.zipWith (· - ·) st.x d)).length = st.x.length := by
            rw [clipAll_length _ _ _ (by simp; omega) (by simp; omega)]
            simp
            omega
          have hj : j < st.x.length := (List.getElem?_eq_some_iff.1 ha).1
          obtain ⟨z', hz'⟩ : ∃ z', (clipAll lo up (List.zipWith (· - ·) st.x d))[j]? = some z' := ⟨_, List.getElem?_eq_getElem (by omega)⟩
          obtain ⟨a', ha', hn, -, -⟩ := one j _ _ z' (List.getElem?_eq_getElem (by omega)) (List.getElem?_eq_getElem (by omega)) hz'
          rw [ha] at ha'
          injection ha' with ha'
          subst ha'
          split at h
          · simp only [Except.ok.injEq, Prod.mk.injEq] at h
            obtain ⟨rfl, rfl⟩ := h
            rw [hz'] at hy
            injection hy with hy
            subst hy
            have : (0 : K) ≤ left * C := mul_nonneg (Nat.cast_nonneg _) B.C0
            push_cast
            linarith
          · have h2 := ih _ _ h hI' (fun j l u b hl hu hb' => by
              obtain ⟨_, _, _, q1, q2⟩ := one j l u b hl hu hb'
              exact ⟨q1, q2⟩) hz'
            have h3 := abs_add_le (y - z') (z' - a)
            rw [sub_add_sub_cancel] at h3
            push_cast
            linarith

/-- **C134.** Adam cannot go further than the number of its iterations times the step `C`, whatever the gradients and whatever the bounds: each parameter ends at most that far from a start within the bounds (shrunk by
`10 ^ -8` of their distance, as `adam_bounded` does). -/
theorem C134_reach {c : AdamCfg K} {κ A C : K} (B : AdamBound c κ A C) {lo up : List K} {grad : Nat → List K → List K} {x : List K} {period : Option Nat} {numIters : Nat} {st : AdamSt K} {k : Nat}
    (h : adamBounded c lo up grad x period numIters none none = .ok (st, k))
    (hx : ∀ (j : Nat) (l u a : K), lo[j]? = some l → up[j]? = some u → x[j]? = some a → l + (u - l) / 10 ^ 8 ≤ a ∧ a ≤ u - (u - l) / 10 ^ 8)
    {j : Nat} {a y : K} (ha : x[j]? = some a) (hy : st.x[j]? = some y) : |y - a| ≤ numIters * C := by
  unfold adamBounded at h
  split at h
  · cases h
  · dsimp only at h
    refine adamLoop_near B numIters 0 _ h ?_ ?_ ha hy
    · intro j p q hp hq
      simp only [Option.getD_none, List.getElem?_map, Option.map_eq_some_iff] at hp hq
      obtain ⟨_, _, rfl⟩ := hp
      obtain ⟨_, _, rfl⟩ := hq
      simp
    · intro j l u b hl hu hb
      simp only [List.getElem?_zipWith_eq_some] at hl hu
      obtain ⟨l0, δ, hl0, ⟨u1, l1, hu1, hl1, rfl⟩, rfl⟩ := hl
      obtain ⟨u0, δ', hu0, ⟨u2, l2, hu2, hl2, rfl⟩, rfl⟩ := hu
      rw [hl0] at hl1 hl2
      rw [hu0] at hu1 hu2
      injection hl1 with hl1
      injection hl2 with hl2
      injection hu1 with hu1
      injection hu2 with hu2
      subst hl1 hl2 hu1 hu2
      have := hx j l0 u0 b hl0 hu0 hb
      rw [div_eq_mul_one_div] at this
      exact this

omit [IsStrictOrderedRing K] in
/-- What the first iteration does. -/
theorem adamMove_first {c : AdamCfg K} (hb1 : c.b1 ≠ 1) (hb2 : c.b2 ≠ 1) {g m v m' v' d : List K} (hm : ∀ y ∈ m, y = 0) (hv : ∀ y ∈ v, y = 0) (h : adamMove c 0 g m v = .ok (m', v', d)) {j : Nat} {z : K}
    (hz : d[j]? = some z) : ∃ a, g[j]? = some a ∧ z = c.stepSize * a / (c.sqrt (a ^ 2) + c.eps) := by
  unfold adamMove at h
  split at h
  · cases h
  · dsimp only at h
    split at h
    · cases h
    · split at h
      · cases h
      · next d' hd =>
        simp only [Except.ok.injEq, Prod.mk.injEq] at h
        obtain ⟨rfl, rfl, rfl⟩ := h
        obtain ⟨x, y, hx, hy, hne, rfl⟩ := divAll_at hd hz
        simp only [List.getElem?_map, Option.map_eq_some_iff, List.getElem?_zipWith_eq_some] at hx hy
        obtain ⟨_, ⟨_, ⟨a, p, ha, hp, rfl⟩, rfl⟩, rfl⟩ := hx
        obtain ⟨_, ⟨_, ⟨a', q, ha', hq, rfl⟩, rfl⟩, rfl⟩ := hy
        rw [ha] at ha'
        injection ha' with ha'
        subst ha'
        have h1 : 1 - c.b1 ≠ 0 := sub_ne_zero.2 (Ne.symm hb1)
        have h2 : 1 - c.b2 ≠ 0 := sub_ne_zero.2 (Ne.symm hb2)
        refine ⟨a, ha, ?_⟩
        rw [hm p (List.mem_of_getElem? hp), hv q (List.mem_of_getElem? hq)]
        simp only [mul_zero, add_zero, zero_add, pow_one]
        rw [mul_div_cancel_left₀ _ h1, mul_div_cancel_left₀ _ h2]

/-- **C134.** And it cannot go any finer: the first step has at least half the step size for each parameter whose derivative is not below `eps`, so a parameter whose bounds are not further apart than that is at one of
its bounds (shrunk by `10 ^ -8` of their distance) the second time the gradient is taken, whatever the start within the bounds. -/
theorem C134_jump {c : AdamCfg K} (hb1 : c.b1 ≠ 1) (hb2 : c.b2 ≠ 1) (he : 0 < c.eps) (hs : 0 ≤ c.stepSize) {lo up : List K} {grad : Nat → List K → List K} {x : List K} {period : Option Nat} {numIters : Nat}
    {st : AdamSt K} {k : Nat} (h : adamBounded c lo up grad x period numIters none none = .ok (st, k)) {q : List K} (hq : st.queries[1]? = some q) {j : Nat} {l u a g : K}
    (hl : lo[j]? = some l) (hu : up[j]? = some u) (ha : x[j]? = some a) (hg : (grad 0 x)[j]? = some g) (hsq : c.sqrt (g ^ 2) = |g|) (hge : c.eps ≤ |g|)
    (hx : l ≤ a ∧ a ≤ u) (hlu : u - l ≤ c.stepSize / 2) : q[j]? = some (if g < 0 then u - (u - l) / 10 ^ 8 else l + (u - l) / 10 ^ 8) := by
  unfold adamBounded at h
  split at h
  · cases h
  · next hlen =>
    push Not at hlen
    dsimp only at h
    set L := List.zipWith (· + ·) lo (List.zipWith (fun u l => (u - l) * (1 / 10 ^ 8)) up lo) with hL
    set U := List.zipWith (· - ·) up (List.zipWith (fun u l => (u - l) * (1 / 10 ^ 8)) up lo) with hU
    have hLj : L[j]? = some (l + (u - l) / 10 ^ 8) := by
      rw [hL, List.getElem?_zipWith_eq_some]
      exact ⟨l, (u - l) * (1 / 10 ^ 8), hl, List.getElem?_zipWith_eq_some.2 ⟨u, l, hu, hl, rfl⟩, by rw [div_eq_mul_one_div (u - l)]⟩
    have hUj : U[j]? = some (u - (u - l) / 10 ^ 8) := by
      rw [hU, List.getElem?_zipWith_eq_some]
      exact ⟨u, (u - l) * (1 / 10 ^ 8), hu, List.getElem?_zipWith_eq_some.2 ⟨u, l, hu, hl, rfl⟩, by rw [div_eq_mul_one_div (u - l)]⟩
    cases numIters with
    | zero =>
      simp only [adamLoop, Except.ok.injEq, Prod.mk.injEq] at h
      obtain ⟨rfl, rfl⟩ := h
      simp at hq
    | succ left =>
      rw [adamLoop] at h
      split at h
      · cases h
      · next m v d hmv =>
        split at h
        · cases h
        · next hlen2 =>
          push Not at hlen2
          split at h
          · cases h
          · dsimp only at h
            split at h
            · simp only [Except.ok.injEq, Prod.mk.injEq] at h
              obtain ⟨rfl, rfl⟩ := h
              simp at hq
            · obtain ⟨-, -, -, -, -, qs, e1, e2, e3, -⟩ := adamLoop_ok _ _ _ h
              cases left with
              | zero =>
                rw [adamLoop] at h
                simp only [Except.ok.injEq, Prod.mk.injEq] at h
                obtain ⟨rfl, rfl⟩ := h
                simp at hq
              | succ left =>
                have e4 := e3 (by omega)
                rw [e1] at hq
                simp only [List.nil_append, List.singleton_append, List.getElem?_cons_succ] at hq
                rw [← List.head?_eq_getElem?, e4] at hq
                injection hq with hq
                subst hq
                dsimp only at hlen2
                have hj : j < x.length := (List.getElem?_eq_some_iff.1 ha).1
                obtain ⟨z, hz⟩ : ∃ z, d[j]? = some z := ⟨_, List.getElem?_eq_getElem (by omega)⟩
                obtain ⟨g', hg', hz'⟩ := adamMove_first hb1 hb2 (by simp) (by simp) hmv hz
                rw [hg] at hg'
                injection hg' with hg'
                subst hg'
                have len : (clipAll L U (List.zipWith (· - ·) x d)).length = x.length := by
                  rw [clipAll_length _ _ _ (by simp only [List.length_zipWith]; omega) (by simp only [List.length_zipWith]; omega)]
                  simp only [List.length_zipWith]
                  omega
                obtain ⟨y, hy⟩ : ∃ y, (clipAll L U (List.zipWith (· - ·) x d))[j]? = some y := ⟨_, List.getElem?_eq_getElem (by omega)⟩
                rw [hy]
                obtain ⟨w, hw, rfl⟩ := clipAll_at L U _ j _ _ y hLj hUj hy
                rw [List.getElem?_zipWith_eq_some] at hw
                obtain ⟨a', z', ha', hz2, rfl⟩ := hw
                rw [ha] at ha'
                rw [hz] at hz2
                injection ha' with ha'
                injection hz2 with hz2
                subst ha' hz2
                congr 1
                have hδ : 0 ≤ (u - l) / 10 ^ 8 := div_nonneg (by linarith [hx.1, hx.2]) (by positivity)
                have hδ2 : (u - l) / 10 ^ 8 ≤ (u - l) / 2 := div_le_div_of_nonneg_left (by linarith [hx.1, hx.2]) (by norm_num) (by norm_num)
                have hle : l + (u - l) / 10 ^ 8 ≤ u - (u - l) / 10 ^ 8 := by linarith
                have hpos : 0 < |g| + c.eps := by linarith
                have key : c.stepSize / 2 ≤ c.stepSize * |g| / (|g| + c.eps) := by
                  rw [div_le_div_iff₀ (by norm_num) hpos]
                  nlinarith
                rw [hz', hsq]
                unfold clip1
                split
                · next hneg =>
                  rw [abs_of_neg hneg] at key ⊢
                  have : c.stepSize * g / (-g + c.eps) = -(c.stepSize * -g / (-g + c.eps)) := by ring
                  rw [this, min_eq_right]
                  exact le_max_of_le_left (by linarith [hx.1])
                · next hnn =>
                  rw [abs_of_nonneg (not_lt.1 hnn)] at key ⊢
                  rw [max_eq_right (by linarith [hx.2]), min_eq_left hle]

/-- The arguments `parameters_optimize` calls `adam_bounded` with (`parameter_optimization.py:205-208`, 230-233), with square roots that are right up to a twentieth: no step is longer than `1 / 40`. -/
theorem adamBound_code {sqrt : K → K} (hs : ∀ y, 0 ≤ y → 0 ≤ sqrt y ∧ y ≤ 11 / 10 * sqrt y ^ 2) :
    AdamBound (⟨1 / 1000, 9 / 10, 999 / 1000, 1 / 10 ^ 8, 85 / 100000, sqrt⟩ : AdamCfg K) (11 / 10) 53 (1 / 40) where
  b1 := by norm_num
  b1' := by norm_num
  le := by norm_num
  b2' := by norm_num
  sq := by norm_num
  eps := by norm_num
  sqrt := hs
  κ0 := by norm_num
  A0 := by norm_num
  A1 := by norm_num
  C0 := by norm_num
  C1 := by norm_num

theorem finishOpt_vector {g : Graph} {h0 h h' : Heap} {eval : Heap → ℚ} {x y : List ℚ} {models : List ModelId} {index : List Nat} {v : ℚ} (hr : finishOpt g h0 eval h x models index = .ok (h', y, v)) : y = x := by
  unfold finishOpt at hr
  split at hr
  · cases hr
  · split at hr
    · cases hr
    · simp only [Except.ok.injEq, Prod.mk.injEq] at hr
      exact hr.2.1.symm

theorem runAdam_near {e : OptEnv} (hs : ∀ y, 0 ≤ y → 0 ≤ e.sqrt y ∧ y ≤ 11 / 10 * e.sqrt y ^ 2) {g : Graph} {h0 h h' : Heap} {eval : Heap → ℚ} {x0 x lo up : List ℚ} {k : Nat}
    (hr : runAdam e g h0 eval lo up x0 k h = .ok (h', x))
    (hx : ∀ (j : Nat) (l u a : ℚ), lo[j]? = some l → up[j]? = some u → x0[j]? = some a → l + (u - l) / 10 ^ 8 ≤ a ∧ a ≤ u - (u - l) / 10 ^ 8)
    {j : Nat} {a y : ℚ} (ha : x0[j]? = some a) (hy : x[j]? = some y) : |y - a| ≤ k * (1 / 40) := by
  unfold runAdam at hr
  split at hr
  · cases hr
  · next hB =>
    split at hr
    · cases hr
    · simp only [Except.ok.injEq, Prod.mk.injEq] at hr
      obtain ⟨-, rfl⟩ := hr
      exact C134_reach (adamBound_code hs) hB hx ha hy

/-- **C134.** `parameters_optimize` with the method `ADAM` changes no parameter by more than 25, whatever its unit, its bounds and the objective. -/
theorem C134_method {e : OptEnv} (hs : ∀ y, 0 ≤ y → 0 ≤ e.sqrt y ∧ y ≤ 11 / 10 * e.sqrt y ^ 2) {g : Graph} {h0 h h' : Heap} {eval : Heap → ℚ} {x0 : Option (List ℚ)} {x ps lo up : List ℚ} {models : List ModelId}
    {index : List Nat} {v : ℚ} (hex : extractToList g h = .ok (ps, models, index, lo, up)) (hr : parametersOptimize e g h0 eval x0 .adam h = .ok (h', x, v))
    (hx : ∀ (j : Nat) (l u a : ℚ), lo[j]? = some l → up[j]? = some u → (x0.getD ps)[j]? = some a → l + (u - l) / 10 ^ 8 ≤ a ∧ a ≤ u - (u - l) / 10 ^ 8)
    {j : Nat} {a y : ℚ} (ha : (x0.getD ps)[j]? = some a) (hy : x[j]? = some y) : |y - a| ≤ 25 := by
  unfold parametersOptimize at hr
  rw [hex] at hr
  dsimp only at hr
  split at hr
  · next h0' =>
    rw [List.length_eq_zero_iff.1 h0'] at ha
    simp at ha
  · split at hr
    · cases hr
    · next hA =>
      have := finishOpt_vector hr
      subst this
      have := runAdam_near hs hA hx ha hy
      norm_num at this
      exact this

theorem adam_runs {e : OptEnv} {g : Graph} {h : Heap} {eval : Heap → ℚ} (hp : ParamsPresent g h) (hw : e.Working) {ps lo up : List ℚ} {models : List ModelId} {index : List Nat}
    (hex : extractToList g h = .ok (ps, models, index, lo, up)) : ∃ r, parametersOptimize e g h eval none .adam h = .ok r := by
  obtain ⟨rfl, rfl, e1, e2, e3, -⟩ := extractToList_ok hex
  have R := SameLocked.refl g h
  unfold parametersOptimize
  simp only [hex, Option.getD_none]
  split
  · obtain ⟨⟨h2, v⟩, hc⟩ := callF_total (eval := eval) R hp R ps
    simp only [hc]
    exact ⟨_, rfl⟩
  · obtain ⟨⟨h2, x⟩, hc⟩ := runAdam_total (eval := eval) (lo := lo) (up := up) (x0 := ps) R hp R hw (by rw [e1, e2]) (by rw [e1, e3]) 1000
    have hs2 := (runAdam_ok R R hc).1
    simp only [hc]
    exact finishOpt_total R hp hs2 x

namespace AdamReachExample

noncomputable def code : AdamCfg ℝ := ⟨1 / 1000, 9 / 10, 999 / 1000, 1 / 10 ^ 8, 85 / 100000, Real.sqrt⟩

theorem root (y : ℝ) (hy : 0 ≤ y) : 0 ≤ Real.sqrt y ∧ y ≤ 11 / 10 * Real.sqrt y ^ 2 := by
  rw [Real.sq_sqrt hy]
  exact ⟨Real.sqrt_nonneg _, by linarith⟩

theorem runs {lo up x : List ℝ} (h1 : lo.length = x.length) (h2 : up.length = x.length) (slope : Nat → ℝ → ℝ) (N : Nat) : ∃ r, adamBounded code lo up (fun i x => x.map (slope i)) x none N none none = .ok r :=
  C37_total (c := code) (by norm_num [code]) (by norm_num [code]) (by norm_num [code]) (fun y hy => (root y hy).1) h1 h2 (by simp) (by simp) N

/-- `C134_reach`: the length of a fiber, between 0 and 1000 km (`single_path.py:35`), whatever the derivatives. -/
example (slope : Nat → ℝ → ℝ) (N : Nat) : ∃ st k, adamBounded code [0] [10 ^ 6] (fun i x => x.map (slope i)) [1000] none N none none = .ok (st, k) ∧ ∀ y : ℝ, st.x[0]? = some y → |y - 1000| ≤ N * (1 / 40) := by
  obtain ⟨⟨st, k⟩, h⟩ := runs (lo := [0]) (up := [10 ^ 6]) (x := [1000]) rfl rfl slope N
  refine ⟨st, k, h, fun y hy => C134_reach (adamBound_code root) h (fun j l u a hl hu ha => ?_) (j := 0) (a := 1000) rfl hy⟩
  cases j with
  | zero =>
    simp only [List.getElem?_cons_zero, Option.some.injEq] at hl hu ha
    rw [← hl, ← hu, ← ha]
    norm_num
  | succ j => simp at hl

/-- `C134_jump`: the delay of a `DelayLine`, between 0 and 2 ns (`single_path.py:738-739`), from 1 ns. -/
example (slope : Nat → ℝ → ℝ) (hs : slope 0 (1 / 10 ^ 9) = 3) {N : Nat} (hN : 2 ≤ N) : ∃ st k q, adamBounded code [0] [2 / 10 ^ 9] (fun i x => x.map (slope i)) [1 / 10 ^ 9] none N none none = .ok (st, k) ∧
    st.queries[1]? = some q ∧ q[0]? = some (0 + (2 / 10 ^ 9 - 0) / 10 ^ 8) := by
  obtain ⟨⟨st, k⟩, h⟩ := runs (lo := [0]) (up := [2 / 10 ^ 9]) (x := [1 / 10 ^ 9]) rfl rfl slope N
  have hA := C37_adam (by
    intro i l u hl hu
    cases i with
    | zero =>
      simp only [List.getElem?_cons_zero, Option.some.injEq] at hl hu
      rw [← hl, ← hu]
      norm_num
    | succ i => simp at hl) (by omega) h
  have hk : k = N := by
    rcases hA.2.2.2.2 with hk | ⟨_, p, hp, _⟩
    · exact hk
    · cases hp
  have hlen : st.queries.length = N := by rw [hA.2.2.2.1, hk]; omega
  have hq : st.queries[1]? = some st.queries[1] := List.getElem?_eq_getElem (by omega)
  refine ⟨st, k, _, h, hq, ?_⟩
  have := C134_jump (by norm_num [code]) (by norm_num [code]) (by norm_num [code]) (by norm_num [code]) h hq (j := 0) (g := 3) rfl rfl rfl (by rw [← hs]; rfl) (by change Real.sqrt (3 ^ 2) = _; rw [Real.sqrt_sq_eq_abs])
    (by norm_num [code]) (by norm_num) (by norm_num [code])
  rw [if_neg (by norm_num)] at this
  exact this

/-- `C134_method`: a design with two parameters between 0 and 4. -/
def env : OptEnv := { envOpt with sqrt := fun y => y + 1 }

theorem env_works : env.Working := ⟨fun y hy => by change 0 ≤ y + 1; linarith, fun i y => by simp [env, envOpt], by decide⟩

theorem env_sqrt (y : ℚ) (hy : 0 ≤ y) : 0 ≤ env.sqrt y ∧ y ≤ 11 / 10 * env.sqrt y ^ 2 := ⟨by change 0 ≤ y + 1; linarith, by change y ≤ 11 / 10 * (y + 1) ^ 2; nlinarith⟩

theorem bounds (j : Nat) (l u a : ℚ) (hl : [(0 : ℚ), 0][j]? = some l) (hu : [(4 : ℚ), 4][j]? = some u) (ha : [(1 : ℚ), 3][j]? = some a) : l + (u - l) / 10 ^ 8 ≤ a ∧ a ≤ u - (u - l) / 10 ^ 8 := by
  match j with
  | 0 =>
    simp only [List.getElem?_cons_zero, Option.some.injEq] at hl hu ha
    rw [← hl, ← hu, ← ha]
    norm_num
  | 1 =>
    simp only [List.getElem?_cons_zero, List.getElem?_cons_succ, Option.some.injEq] at hl hu ha
    rw [← hl, ← hu, ← ha]
    norm_num
  | j + 2 => simp at hl

example : ∃ r, parametersOptimize env Fixture.line heapOpt evalOpt none .adam heapOpt = .ok r ∧ ∀ y : ℚ, r.2.1[0]? = some y → |y - 1| ≤ 25 := by
  obtain ⟨r, hr⟩ := adam_runs (eval := evalOpt) RepeatsExample.present env_works RepeatsExample.extracted
  obtain ⟨h', x, v⟩ := r
  exact ⟨_, hr, fun y hy => C134_method (x0 := none) env_sqrt RepeatsExample.extracted hr bounds (j := 0) (a := 1) rfl hy⟩

end AdamReachExample

end Verif
