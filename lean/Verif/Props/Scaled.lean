import Verif.Spec.Scaled
import Verif.Lemmas.Params
import Verif.Props.Hessian
import Verif.Props.Fixture
import Mathlib.Analysis.Calculus.Deriv.Pow
import Mathlib.Analysis.Calculus.Deriv.Mul
import Mathlib.Analysis.Calculus.Deriv.CompMul
import Mathlib.Analysis.Calculus.Deriv.Shift
import Mathlib.Analysis.Calculus.Deriv.Pi
import Mathlib.Analysis.Calculus.Deriv.Prod
import Mathlib.Analysis.Calculus.FDeriv.Symmetric
/-!
# C74: sensitivities in units of the imprecisions
-/

namespace Verif
open Graph

variable {n : Nat}

theorem autoHessian_entry (f : (Fin n → ℝ) → ℝ) (x : Fin n → ℝ) (i j : Fin n) :
    (autoHessian f x).entry i j = pderiv j (pderiv i f) x := by
  unfold autoHessian
  simp only [i.2, j.2, and_self, dif_pos]
  rfl

theorem autoHessian_zero (f : (Fin n → ℝ) → ℝ) (x : Fin n → ℝ) {i j : Nat} (h : ¬ (i < n ∧ j < n)) : (autoHessian f x).entry i j = 0 := by
  unfold autoHessian
  simp only [h, dif_neg, not_false_eq_true]

/-- Derivative after an affine change of each parameter. -/
theorem pderiv_affine (f : (Fin n → ℝ) → ℝ) (a c : Fin n → ℝ) (i : Fin n) (y : Fin n → ℝ) :
    pderiv i (fun e => f (fun k => a k + c k * e k)) y = c i * pderiv i f (fun k => a k + c k * y k) := by
  unfold pderiv
  have h : (fun t => f (fun k => a k + c k * Function.update y i t k)) =
      fun t => (fun u => (fun v => f (Function.update (fun k => a k + c k * y k) i v)) (a i + u)) (c i * t) := by
    funext t
    simp only
    congr 1
    funext k
    by_cases hk : k = i
    · subst hk; simp
    · simp [hk]
  rw [h]
  rw [deriv_comp_mul_left (c i) (fun u => (fun v => f (Function.update (fun k => a k + c k * y k) i v)) (a i + u)) (y i)]
  rw [deriv_comp_const_add (fun v => f (Function.update (fun k => a k + c k * y k) i v)) (a i) (c i * y i)]
  rfl

theorem pderiv_const_mul (f : (Fin n → ℝ) → ℝ) (c : ℝ) (i : Fin n) (y : Fin n → ℝ) : pderiv i (fun e => c * f e) y = c * pderiv i f y := by
  unfold pderiv
  exact deriv_const_mul_field c

theorem pderiv_affine2 (f : (Fin n → ℝ) → ℝ) (a c : Fin n → ℝ) (i j : Fin n) (y : Fin n → ℝ) :
    pderiv j (pderiv i (fun e => f (fun k => a k + c k * e k))) y = c i * c j * pderiv j (pderiv i f) (fun k => a k + c k * y k) := by
  have : pderiv i (fun e => f (fun k => a k + c k * e k)) = fun e => c i * (fun e' => pderiv i f (fun k => a k + c k * e' k)) e := by
    funext e; exact pderiv_affine f a c i e
  rw [this, pderiv_const_mul, pderiv_affine (pderiv i f)]
  ring

theorem scaleHess_ofFn (s : Fin n → ℝ) (f : (Fin n → ℝ) → ℝ) (x : Fin n → ℝ) : ∃ S, scaleHess (List.ofFn s) (autoHessian f x) = .ok S ∧ S.size = n ∧
    (∀ i j : Fin n, S.entry i j = pderiv j (pderiv i f) x * (s i * s j)) ∧ ∀ i j : Nat, ¬ (i < n ∧ j < n) → S.entry i j = 0 := by
  refine ⟨⟨n, fun i j => (autoHessian f x).entry i j * ((List.ofFn s).getD i 0 * (List.ofFn s).getD j 0)⟩, ?_, rfl, ?_, ?_⟩
  · unfold scaleHess
    rw [if_pos (by simp [autoHessian])]
    rfl
  · intro i j
    simp only [autoHessian_entry]
    simp
  · intro i j h
    simp only [autoHessian_zero f x h, zero_mul]

/-- **C74.** `graph.scaled_hess(x)` is the Hessian of the score as a function of the parameters' errors, each counted in units of its imprecision: for every
score function, number of parameters and imprecisions. -/
theorem C74_units (f : (Fin n → ℝ) → ℝ) (x s : Fin n → ℝ) : ∃ S, scaleHess (List.ofFn s) (autoHessian f x) = .ok S ∧ S.size = n ∧
    ∀ i j : Fin n, S.entry i j = pderiv j (pderiv i (inErrors f x s)) 0 := by
  obtain ⟨S, h1, h2, h3, -⟩ := scaleHess_ofFn s f x
  refine ⟨S, h1, h2, fun i j => ?_⟩
  rw [h3]
  unfold inErrors
  rw [pderiv_affine2]
  simp
  ring

/-- **C74.** Sensitivities do not depend on the units in which parameters are given: with parameter `i` counted in units of `c i` (and its value and its
imprecision divided by `c i`) the scaled Hessian is the same matrix, and so are the scores of all edges. -/
theorem C74_unit_free (f : (Fin n → ℝ) → ℝ) (x s c : Fin n → ℝ) (hc : ∀ i, c i ≠ 0) :
    ∃ S, scaleHess (List.ofFn s) (autoHessian f x) = .ok S ∧
      scaleHess (List.ofFn fun i => s i / c i) (autoHessian (inUnits f c) (fun i => x i / c i)) = .ok S := by
  obtain ⟨S, h1, h2, h3, h4⟩ := scaleHess_ofFn s f x
  obtain ⟨S', k1, k2, k3, k4⟩ := scaleHess_ofFn (fun i => s i / c i) (inUnits f c) (fun i => x i / c i)
  refine ⟨S, h1, ?_⟩
  rw [k1]
  congr 1
  cases S with
  | mk m e =>
    cases S' with
    | mk m' e' =>
      simp only at h2 k2 h3 k3 h4 k4
      obtain rfl : m' = m := k2.trans h2.symm
      congr 1
      funext i j
      by_cases h : i < n ∧ j < n
      · have a := h3 ⟨i, h.1⟩ ⟨j, h.2⟩
        have b := k3 ⟨i, h.1⟩ ⟨j, h.2⟩
        simp only at a b
        rw [a, b]
        have hu : inUnits f c = fun y => f (fun k => (0 : Fin n → ℝ) k + c k * y k) := by funext y; simp [inUnits]
        rw [hu, pderiv_affine2]
        have hx : (fun k => (0 : Fin n → ℝ) k + c k * (x k / c k)) = x := by
          funext k
          have := hc k
          simp only [Pi.zero_apply, zero_add]
          field_simp
        rw [hx]
        have := hc ⟨i, h.1⟩
        have := hc ⟨j, h.2⟩
        field_simp
      · rw [h4 i j h, k4 i j h]

/-! ### Which imprecision belongs to which parameter -/

theorem imprecisionLoop_eq (imp : List ℝ) : ∀ (i : Nat) (ls : List Bool) (ss : List ℝ), imprecisionLoop imp i ls = .ok ss →
    ss.map some = (free i ls).map (fun j => imp[j]?) := by
  intro i ls
  induction ls generalizing i with
  | nil => intro ss h; simp only [imprecisionLoop, Except.ok.injEq] at h; subst h; rfl
  | cons l ls ih =>
    intro ss h
    unfold imprecisionLoop at h
    unfold free
    split at h
    · rename_i hl
      rw [if_pos hl]
      exact ih _ _ h
    · rename_i hl
      rw [if_neg hl]
      split at h
      · simp at h
      · rename_i s hs
        split at h
        · simp at h
        · rename_i ss' hr
          simp only [Except.ok.injEq] at h
          subst h
          simp [hs, ih _ _ hr]

theorem imprecisionLoop_total (imp : List ℝ) : ∀ (i : Nat) (ls : List Bool), (∀ j ∈ free i ls, j < imp.length) → ∃ ss, imprecisionLoop imp i ls = .ok ss := by
  intro i ls
  induction ls generalizing i with
  | nil => intro _; exact ⟨[], rfl⟩
  | cons l ls ih =>
    intro h
    unfold imprecisionLoop
    unfold free at h
    split
    · rename_i hl
      rw [if_pos hl] at h
      exact ih _ h
    · rename_i hl
      rw [if_neg hl] at h
      obtain ⟨ss, hs⟩ := ih (i + 1) (fun j hj => h j (by simp [hj]))
      have hi := h i (by simp)
      rw [List.getElem?_eq_getElem hi]
      simp only [hs]
      exact ⟨_, rfl⟩

theorem imprecisions_eq (h : Heap) (imp : ModelId → List ℝ) : ∀ (ms : List ModelId) (ss : List ℝ), imprecisions h imp ms = .ok ss →
    ss.map some = (slots h ms).map (fun p => (imp p.1)[p.2]?) := by
  intro ms
  induction ms with
  | nil => intro ss hs; simp only [imprecisions, Except.ok.injEq] at hs; subst hs; rfl
  | cons m ms ih =>
    intro ss hs
    unfold imprecisions at hs
    rw [slots_cons]
    split at hs
    · rename_i hl
      rw [if_pos hl]
      simpa using ih _ hs
    · rename_i hl
      rw [if_neg hl]
      split at hs
      · simp at hs
      · rename_i a ha
        split at hs
        · simp at hs
        · rename_i b hb
          simp only [Except.ok.injEq] at hs
          subst hs
          rw [List.map_append, List.map_append, ih _ hb, imprecisionLoop_eq _ _ _ _ ha, List.map_map]
          rfl

/-- **C74.** The imprecisions are taken in the order of the parameter list: entry `k` is the imprecision of the parameter that entry `k` of the parameter list
is the value of, and the two lists have the same length. -/
theorem C74_aligned {g : Graph} {h : Heap} {imp : ModelId → List ℝ} {ss : List ℝ} (hs : imprecisions h imp (getModels g) = .ok ss) {as : List Attr} {ex : Extracted}
    (he : extract as g h = .ok ex) :
    ss.length = ex.models.length ∧ ∀ (k : Nat) (m : ModelId) (i : Nat), ex.models[k]? = some m → ex.index[k]? = some i → ss[k]? = (imp m)[i]? := by
  obtain ⟨-, rfl⟩ := extract_eq he
  have h1 := imprecisions_eq h imp _ _ hs
  have hl : ss.length = (slots h (getModels g)).length := by simpa using congrArg List.length h1
  refine ⟨by simpa using hl, fun k m i hm hi => ?_⟩
  simp only [List.getElem?_map, Option.map_eq_some_iff] at hm hi
  obtain ⟨⟨a, b⟩, h2, rfl⟩ := hm
  obtain ⟨⟨a', b'⟩, h3, rfl⟩ := hi
  rw [h2] at h3
  cases h3
  have := congrArg (·[k]?) h1
  simp only [List.getElem?_map, h2, Option.map_some] at this
  cases hk : ss[k]? with
  | none => rw [hk] at this; simp at this
  | some s => rw [hk] at this; simpa using this

/-- **C74.** If the objective has as many arguments as there are free parameters and every free parameter has an imprecision, the scaled Hessian exists and has
the size the sensitivity scores require. If the numbers differ (a parameter was locked or freed, or the design evolved, since the function was built), it is an
error, unless one of the numbers is one. -/
theorem C74_shape {g : Graph} {h : Heap} {imp : ModelId → List ℝ} {as : List Attr} {ex : Extracted} (he : extract as g h = .ok ex)
    (hi : ∀ m ∈ componentsOf g, (h m).locks.length ≤ (imp m).length) (f : (Fin n → ℝ) → ℝ) (x : Fin n → ℝ) :
    (ex.models.length = n → ∃ S, scaledHess g h imp f x = .ok S ∧ S.size = ex.models.length) ∧
    (ex.models.length ≠ n → ex.models.length ≠ 1 → n ≠ 1 → scaledHess g h imp f x = .error .valueError) := by
  have htot : ∀ ms : List ModelId, (∀ m ∈ ms, m ∈ componentsOf g) → ∃ ss, imprecisions h imp ms = .ok ss := by
    intro ms
    induction ms with
    | nil => intro _; exact ⟨[], rfl⟩
    | cons m ms ih =>
      intro hm
      obtain ⟨ts, ht⟩ := ih (fun m' h' => hm m' (by simp [h']))
      unfold imprecisions
      split
      · exact ⟨ts, ht⟩
      · obtain ⟨ss, hs⟩ := imprecisionLoop_total (imp m) 0 (h m).locks (fun j hj => by
          have h1 := (mem_free.1 hj).2
          have h2 := (List.getElem?_eq_some_iff.1 h1).1
          have h3 := hi m (hm m (by simp))
          omega)
        simp only [hs, ht]
        exact ⟨_, rfl⟩
  obtain ⟨ss, hs⟩ := htot (getModels g) (fun m hm => hm)
  have hl := (C74_aligned hs he).1
  have hsz : (autoHessian f x).size = n := rfl
  constructor
  · intro hn
    refine ⟨⟨n, fun i j => (autoHessian f x).entry i j * (ss.getD i 0 * ss.getD j 0)⟩, ?_, hn.symm⟩
    unfold scaledHess scaleHess
    simp only [hs]
    rw [if_pos (by rw [hsz, hl, hn])]
    rfl
  · intro h1 h2 h3
    unfold scaledHess scaleHess
    simp only [hs]
    rw [if_neg (by rw [hsz, hl]; exact fun h => h1 h.symm), if_neg (by rw [hl]; exact h2), if_neg (by rw [hsz]; exact h3)]

/-! ### The second-order change of the score -/

theorem pderiv_eq_fderiv {f : (Fin n → ℝ) → ℝ} {x : Fin n → ℝ} (h : DifferentiableAt ℝ f x) (i : Fin n) : pderiv i f x = fderiv ℝ f x (Pi.single i 1) := by
  unfold pderiv
  have h1 : HasFDerivAt f (fderiv ℝ f x) (Function.update x i (x i)) := by rw [Function.update_eq_self]; exact h.hasFDerivAt
  exact (h1.comp_hasDerivAt (x i) (hasDerivAt_update x i (x i))).deriv

theorem fderiv_sum {f : (Fin n → ℝ) → ℝ} {x : Fin n → ℝ} (v : Fin n → ℝ) : fderiv ℝ f x v = ∑ i, v i * fderiv ℝ f x (Pi.single i 1) := by
  conv_lhs => rw [pi_eq_sum_univ' v]
  rw [map_sum]
  refine Finset.sum_congr rfl fun i _ => ?_
  rw [map_smul, smul_eq_mul]

theorem pderiv_line {f : (Fin n → ℝ) → ℝ} (h : Differentiable ℝ f) (x v : Fin n → ℝ) (t : ℝ) :
    HasDerivAt (fun t => f (fun i => x i + t * v i)) (∑ i, v i * pderiv i f (fun i => x i + t * v i)) t := by
  have h1 : HasDerivAt (fun t : ℝ => (fun i => x i + t * v i)) v t := by
    rw [hasDerivAt_pi]
    intro i
    simpa using ((hasDerivAt_id t).mul_const (v i)).const_add (x i)
  have h2 := (h (fun i => x i + t * v i)).hasFDerivAt.comp_hasDerivAt t h1
  rw [fderiv_sum] at h2
  simp only [pderiv_eq_fderiv (h _)]
  exact h2

theorem pderiv_smooth {f : (Fin n → ℝ) → ℝ} (h : ContDiff ℝ 2 f) (i : Fin n) : Differentiable ℝ (pderiv i f) := by
  have hd : Differentiable ℝ f := h.differentiable (by norm_num)
  have : pderiv i f = fun x => fderiv ℝ f x (Pi.single i 1) := by funext x; exact pderiv_eq_fderiv (hd x) i
  rw [this]
  have h1 : ContDiff ℝ 1 (fderiv ℝ f) := h.fderiv_right (by norm_num)
  exact (h1.differentiable (by norm_num)).clm_apply (differentiable_const _)

theorem pderiv_symm {f : (Fin n → ℝ) → ℝ} (h : ContDiff ℝ 2 f) (i j : Fin n) (x : Fin n → ℝ) : pderiv j (pderiv i f) x = pderiv i (pderiv j f) x := by
  have hd : Differentiable ℝ f := h.differentiable (by norm_num)
  have h1 : Differentiable ℝ (fderiv ℝ f) := (h.fderiv_right (m := 1) (by norm_num)).differentiable (by norm_num)
  have key : ∀ a b : Fin n, pderiv b (pderiv a f) x = fderiv ℝ (fderiv ℝ f) x (Pi.single b 1) (Pi.single a 1) := by
    intro a b
    rw [pderiv_eq_fderiv (pderiv_smooth h a x)]
    have : pderiv a f = fun x => fderiv ℝ f x (Pi.single a 1) := by funext x; exact pderiv_eq_fderiv (hd x) a
    rw [this, fderiv_clm_apply (h1 x) (differentiableAt_const _)]
    simp
  rw [key, key]
  exact (h.contDiffAt.isSymmSndFDerivAt (by simp)) _ _

/-- **C74.** For a twice continuously differentiable score the scaled Hessian is symmetric (so `lha_analysis` gives no warning), and if every parameter is off by
`t e i` imprecisions, the second-order change of the score is the quadratic form of the scaled Hessian at `e`. Over all errors of one imprecision up or down this
is, on average, the sum of the diagonal. -/
theorem C74_second_order {f : (Fin n → ℝ) → ℝ} (hf : ContDiff ℝ 2 f) (x s : Fin n → ℝ) : ∃ S, scaleHess (List.ofFn s) (autoHessian f x) = .ok S ∧
    (∀ i j : Fin n, S.entry i j = S.entry j i) ∧
    (∀ e : Fin n → ℝ, deriv (deriv (fun t => f (fun i => x i + t * (s i * e i)))) 0 = ∑ i : Fin n, ∑ j : Fin n, S.entry i j * e i * e j) ∧
    (∑ b : Fin n → Bool, ∑ i : Fin n, ∑ j : Fin n, S.entry i j * sgn (b i) * sgn (b j)) / 2 ^ n = ∑ i : Fin n, S.entry i i ∧
    ∀ eig, ¬ (lhaAnalysis S eig).warned := by
  obtain ⟨S, h1, h2, h3, -⟩ := scaleHess_ofFn s f x
  have hsym : ∀ i j : Fin n, S.entry i j = S.entry j i := by
    intro i j
    rw [h3, h3, pderiv_symm hf]
    ring
  refine ⟨S, h1, hsym, fun e => ?_, ?_, ?_⟩
  · have hd : Differentiable ℝ f := hf.differentiable (by norm_num)
    have a : deriv (fun t => f (fun i => x i + t * (s i * e i))) = fun t => ∑ i, (s i * e i) * pderiv i f (fun k => x k + t * (s k * e k)) := by
      funext t; exact (pderiv_line hd x (fun i => s i * e i) t).deriv
    rw [a]
    have b : HasDerivAt (fun t : ℝ => ∑ i, (s i * e i) * pderiv i f (fun k => x k + t * (s k * e k)))
        (∑ i, (s i * e i) * ∑ j, (s j * e j) * pderiv j (pderiv i f) (fun k => x k + 0 * (s k * e k))) 0 :=
      HasDerivAt.fun_sum fun i _ => (pderiv_line (pderiv_smooth hf i) x (fun i => s i * e i) 0).const_mul _
    rw [b.deriv]
    refine Finset.sum_congr rfl fun i _ => ?_
    rw [Finset.mul_sum]
    refine Finset.sum_congr rfl fun j _ => ?_
    rw [h3]
    have : (fun k => x k + 0 * (s k * e k)) = x := by funext k; ring
    rw [this]
    ring
  · rw [div_eq_iff (by positivity), Finset.sum_comm, Finset.sum_mul]
    refine Finset.sum_congr rfl fun i _ => ?_
    rw [Finset.sum_comm, Finset.sum_eq_single i]
    · have : ∀ b : Fin n → Bool, S.entry i i * sgn (b i) * sgn (b i) = S.entry i i := by
        intro b
        cases b i <;> simp [sgn]
      simp only [this, Finset.sum_const, Finset.card_univ, Fintype.card_fun, Fintype.card_bool, Fintype.card_fin, nsmul_eq_mul]
      push_cast
      ring
    · intro j _ hj
      refine Finset.sum_involution (fun b _ => Function.update b j (!b j)) ?_ ?_ ?_ ?_
      · intro b _
        have : Function.update b j (!b j) i = b i := Function.update_of_ne hj.symm _ _
        rw [this, Function.update_self]
        cases b j <;> simp [sgn]
      · intro b _ _ hb
        have := congrFun hb j
        simp at this
      · intro b _; exact Finset.mem_univ _
      · intro b _; simp
    · intro h; exact absurd (Finset.mem_univ i) h
  · rintro eig ⟨i, j, hi, hj, h⟩
    rw [h2] at hi hj
    have := hsym ⟨i, hi⟩ ⟨j, hj⟩
    simp only at this
    rw [this] at h
    norm_num at h

/-! ### `lha_analysis` -/

/-- **C74.** `lha_analysis` returns the eigenvalues it is given, each with its own eigenvector, in order of increasing magnitude, together with the diagonal. -/
theorem C74_lha (H : Hess ℝ) (eig : List (ℝ × List ℝ)) (he : ∀ p ∈ eig, EigenPair H p.1 p.2) :
    ((lhaAnalysis H eig).values.zip (lhaAnalysis H eig).vectors).Perm eig ∧
    (∀ p ∈ (lhaAnalysis H eig).values.zip (lhaAnalysis H eig).vectors, EigenPair H p.1 p.2) ∧
    (lhaAnalysis H eig).values.Pairwise (fun a b => |a| ≤ |b|) ∧
    (lhaAnalysis H eig).diagonal.length = H.size ∧ (∀ i, i < H.size → (lhaAnalysis H eig).diagonal[i]? = some (H.entry i i)) ∧
    ((lhaAnalysis H eig).warned ↔ ∃ i j, i < H.size ∧ j < H.size ∧ |H.entry i j - H.entry j i| > 1 / 100000) := by
  have hz : (lhaAnalysis H eig).values.zip (lhaAnalysis H eig).vectors = eig.mergeSort (fun a b => decide (|a.1| ≤ |b.1|)) := by
    unfold lhaAnalysis
    simp only [List.zip_map']
    simp
  have hp : ((lhaAnalysis H eig).values.zip (lhaAnalysis H eig).vectors).Perm eig := by rw [hz]; exact List.mergeSort_perm _ _
  refine ⟨hp, fun p hm => he p (hp.mem_iff.1 hm), ?_, by simp [lhaAnalysis], ?_, ?_⟩
  · have := List.pairwise_mergeSort (le := fun a b : ℝ × List ℝ => decide (|a.1| ≤ |b.1|))
      (by intro a b c h1 h2; simp only [decide_eq_true_eq] at *; exact h1.trans h2)
      (by intro a b; simpa using le_total |a.1| |b.1|) eig
    unfold lhaAnalysis
    simp only [List.pairwise_map]
    exact this.imp (by intro a b h; simpa using h)
  · intro i hi
    unfold lhaAnalysis
    simp [hi]
  · unfold lhaAnalysis
    simp only
    constructor
    · rintro ⟨i, j, hi, hj, h⟩
      exact ⟨i, j, hi, hj, lt_of_lt_of_le h (le_abs_self _)⟩
    · rintro ⟨i, j, hi, hj, h⟩
      rcases abs_cases (H.entry i j - H.entry j i) with ⟨h1, -⟩ | ⟨h1, -⟩
      · exact ⟨i, j, hi, hj, h1 ▸ h⟩
      · refine ⟨j, i, hj, hi, ?_⟩
        rw [h1] at h
        linarith

/-- **C74.** A parameter with imprecision zero has sensitivity zero, whatever the score does. -/
theorem C74_zero_imprecision (f : (Fin n → ℝ) → ℝ) (x s : Fin n → ℝ) (i : Fin n) (hi : s i = 0) :
    ∃ S, scaleHess (List.ofFn s) (autoHessian f x) = .ok S ∧ (paramScores S)[(i : Nat)]? = some 0 := by
  obtain ⟨S, h1, h2, h3, -⟩ := scaleHess_ofFn s f x
  refine ⟨S, h1, ?_⟩
  obtain ⟨p, hp, -, hz, -⟩ := (C43_parameters S).2 i (by rw [h2]; exact i.2)
  rw [hp, hz.2]
  intro j hj
  rw [h2] at hj
  have a := h3 i ⟨j, hj⟩
  have b := h3 ⟨j, hj⟩ i
  simp only [hi] at a b
  exact ⟨by rw [a]; ring, by rw [b]; ring⟩

namespace Sens

/-- A quadratic score of two parameters. -/
def quad (a b : ℝ) : (Fin 2 → ℝ) → ℝ := fun x => a * x 0 ^ 2 + b * x 1 ^ 2

theorem quad_smooth (a b : ℝ) : ContDiff ℝ 2 (quad a b) := by unfold quad; fun_prop

theorem quad_d0 (a b : ℝ) : pderiv 0 (quad a b) = fun x => 2 * a * x 0 := by
  funext x
  unfold pderiv quad
  simp only [Function.update_self, ne_eq, one_ne_zero, not_false_eq_true, Function.update_of_ne]
  have := (((hasDerivAt_pow 2 (x 0)).const_mul a).add_const (b * x 1 ^ 2)).deriv
  rw [this]
  norm_num
  ring

theorem quad_d1 (a b : ℝ) : pderiv 1 (quad a b) = fun x => 2 * b * x 1 := by
  funext x
  unfold pderiv quad
  simp only [Function.update_self, ne_eq, zero_ne_one, not_false_eq_true, Function.update_of_ne]
  have := (((hasDerivAt_pow 2 (x 1)).const_mul b).const_add (a * x 0 ^ 2)).deriv
  rw [this]
  norm_num
  ring

theorem quad_hess (a b : ℝ) (x : Fin 2 → ℝ) : (autoHessian (quad a b) x).entry 0 0 = 2 * a ∧ (autoHessian (quad a b) x).entry 1 1 = 2 * b ∧
    (autoHessian (quad a b) x).entry 0 1 = 0 ∧ (autoHessian (quad a b) x).entry 1 0 = 0 := by
  have h00 := autoHessian_entry (quad a b) x 0 0
  have h11 := autoHessian_entry (quad a b) x 1 1
  have h01 := autoHessian_entry (quad a b) x 0 1
  have h10 := autoHessian_entry (quad a b) x 1 0
  rw [quad_d0] at h00 h01
  rw [quad_d1] at h11 h10
  have lin : ∀ (c y : ℝ), deriv (fun t => c * t) y = c := by intro c y; simp
  refine ⟨h00.trans ?_, h11.trans ?_, h01.trans ?_, h10.trans ?_⟩ <;> unfold pderiv
  · simp only [Function.update_self, lin]
  · simp only [Function.update_self, lin]
  · simp
  · simp

/-- Source, two components with one free parameter each, detector. -/
def g : Graph :=
  { nodes := [⟨0, Fixture.src, 1⟩, ⟨1, Fixture.split 3, 40⟩, ⟨2, Fixture.snk, 2⟩]
    edges := [⟨0, 1, 0, Fixture.fiber 5, 30⟩, ⟨1, 2, 0, Fixture.fiber 6, 30⟩] }

def h : Heap := fun m => if m = 5 ∨ m = 6 then ⟨[1], [0], [10], [.float], [none], [false], false⟩ else ⟨[], [], [], [], [], [], false⟩

theorem scores (lg : ℝ → ℝ) (a b : ℝ) (ha : 0 ≤ a) (hb : 0 ≤ b) (x : Fin 2 → ℝ) :
    allEdgeScores lg false g h (some (storedHess (quad a b) x)) = .ok [(⟨0, 1, 0⟩, a), (⟨1, 2, 0⟩, b)] := by
  have he : ∃ ex, extract [.parameters, .lowerBounds, .upperBounds] g h = .ok ex ∧ ex.models = [5, 6] := ⟨_, rfl, rfl⟩
  obtain ⟨ex, he, hm⟩ := he
  have hl : nodeEdgeIndex g h = [.inr ⟨0, 1, 0⟩, .inr ⟨1, 2, 0⟩] := rfl
  have hs : (storedHess (quad a b) x).size = 2 := rfl
  obtain ⟨q1, q2, q3, q4⟩ := quad_hess a b x
  have hp : paramScores (storedHess (quad a b) x) = [a, b] := by
    unfold paramScores storedHess
    rw [show (autoHessian (quad a b) x).size = 2 from rfl]
    simp only [show List.range 2 = [0, 1] from rfl, List.map_cons, List.map_nil, List.sum_cons, List.sum_nil, q1, q2, q3, q4, abs_zero, add_zero, zero_add]
    rw [abs_of_nonneg (by positivity : 0 ≤ 2 * a), abs_of_nonneg (by positivity : 0 ≤ 2 * b)]
    congr 1
    · push_cast; ring
    · congr 1; push_cast; ring
  unfold allEdgeScores
  rw [he]
  simp only [hm, List.length_cons, List.length_nil]
  rw [if_neg (by norm_num)]
  unfold edgeScores
  rw [he]
  simp only [hm, List.length_cons, List.length_nil, hs]
  rw [if_neg (by norm_num)]
  unfold averageOverEdges
  rw [hl, hp]
  simp [g, maskSelect, Edge.ref]

end Sens

/-- **C74.** A run does not use the scaled Hessian: it stores the plain one, so which component counts as the least sensitive depends on the units. The score
`x² + 4 y²` of two components with one parameter each makes the first the less sensitive one; with the first parameter in units of ten, the second. -/
theorem C74_run_depends_on_units (lg : ℝ → ℝ) : ∃ (g : Graph) (h : Heap) (f : (Fin 2 → ℝ) → ℝ) (x c : Fin 2 → ℝ), (∀ i, c i ≠ 0) ∧
    ∃ (e1 e2 : EdgeRef) (a1 a2 b1 b2 : ℝ), allEdgeScores lg false g h (some (storedHess f x)) = .ok [(e1, a1), (e2, a2)] ∧ a1 < a2 ∧
      allEdgeScores lg false g h (some (storedHess (inUnits f c) (fun i => x i / c i))) = .ok [(e1, b1), (e2, b2)] ∧ b2 < b1 := by
  refine ⟨Sens.g, Sens.h, Sens.quad 1 4, fun _ => 1, ![10, 1], ?_, ⟨0, 1, 0⟩, ⟨1, 2, 0⟩, 1, 4, 100, 4, ?_, by norm_num, ?_, by norm_num⟩
  · intro i; fin_cases i <;> simp
  · exact Sens.scores lg 1 4 (by norm_num) (by norm_num) _
  · have : inUnits (Sens.quad 1 4) ![10, 1] = Sens.quad 100 4 := by
      funext y
      simp [inUnits, Sens.quad]
      ring
    rw [this]
    exact Sens.scores lg 100 4 (by norm_num) (by norm_num) _

/-- **C74.** `plot_eigenvectors` draws rows where eigenvectors are columns: for the Hessian `[[2, 2], [2, -1]]` with eigenvectors `(1, -2)` for -2 and `(2, 1)` for
3, as `lha_analysis` returns them, neither of the vectors drawn is an eigenvector for the value it is drawn with. -/
theorem C74_plot_rows : ∃ (H : Hess ℝ) (eig : List (ℝ × List ℝ)), (∀ p ∈ eig, EigenPair H p.1 p.2) ∧
    ∃ v w, plottedVectors (lhaAnalysis H eig).vectors (lhaAnalysis H eig).values = [(v, -2), (w, 3)] ∧ ¬ EigenPair H (-2) v ∧ ¬ EigenPair H 3 w := by
  let H : Hess ℝ := ⟨2, fun i j => if i = 0 ∧ j = 0 then 2 else if i = 1 ∧ j = 1 then -1 else 2⟩
  have hev : ∀ (l : ℝ) (a b : ℝ), EigenPair H l [a, b] ↔ 2 * a + 2 * b = l * a ∧ 2 * a - b = l * b := by
    intro l a b
    unfold EigenPair
    constructor
    · rintro ⟨-, h⟩
      have h0 := h 0 (by simp [H])
      have h1 := h 1 (by simp [H])
      simp [H, Finset.sum_range_succ] at h0 h1
      exact ⟨h0, by linarith⟩
    · rintro ⟨h0, h1⟩
      refine ⟨rfl, fun i hi => ?_⟩
      have : i = 0 ∨ i = 1 := by simp only [H] at hi; omega
      rcases this with rfl | rfl
      · simp [H, Finset.sum_range_succ]; exact h0
      · simp [H, Finset.sum_range_succ]; linarith
  have hs : ([(-2, [1, -2]), (3, [2, 1])] : List (ℝ × List ℝ)).mergeSort (fun a b => decide (|a.1| ≤ |b.1|)) = [(-2, [1, -2]), (3, [2, 1])] := by
    apply List.mergeSort_of_pairwise
    simp
    norm_num
  refine ⟨H, [(-2, [1, -2]), (3, [2, 1])], ?_, [1, 2], [-2, 1], ?_, ?_, ?_⟩
  · intro p hp
    simp only [List.mem_cons, List.not_mem_nil, or_false] at hp
    rcases hp with rfl | rfl
    · rw [hev]; norm_num
    · rw [hev]; norm_num
  · unfold plottedVectors lhaAnalysis
    simp only [hs]
    simp [List.range_succ]
  · rw [hev]; norm_num
  · rw [hev]; norm_num

/-- Non-vacuity: the quadratic score meets the smoothness assumption; with imprecisions 1/10 and 1/2 an error of one imprecision in each parameter changes it
by half of 0.02 + 2. -/
example : deriv (deriv (fun t => Sens.quad 1 4 (fun i => (1 : Fin 2 → ℝ) i + t * (![1 / 10, 1 / 2] i * (1 : Fin 2 → ℝ) i)))) 0 = 2.02 := by
  obtain ⟨S, h1, -, h2, -⟩ := C74_second_order (Sens.quad_smooth 1 4) (1 : Fin 2 → ℝ) ![1 / 10, 1 / 2]
  obtain ⟨S', k1, -, k2, -⟩ := scaleHess_ofFn ![1 / 10, 1 / 2] (Sens.quad 1 4) (1 : Fin 2 → ℝ)
  rw [h1] at k1
  cases k1
  rw [h2]
  obtain ⟨q1, q2, q3, q4⟩ := Sens.quad_hess 1 4 (1 : Fin 2 → ℝ)
  simp only [k2, ← autoHessian_entry, Fin.sum_univ_two]
  simp only [Fin.val_zero, Fin.val_one, q1, q2, q3, q4]
  norm_num

/-- Non-vacuity: the free parameters of the example design have imprecisions in the right order. -/
example : imprecisions Sens.h (fun m => if m = 5 then [1 / 10] else if m = 6 then [1 / 2] else []) (getModels Sens.g) = .ok [1 / 10, 1 / 2] := by
  rfl

/-- Non-vacuity of the shape statement: two free parameters, two arguments; and three arguments are rejected. -/
example : (∃ S, scaledHess Sens.g Sens.h (fun _ => [1 / 10]) (Sens.quad 1 4) (fun _ => 1) = .ok S ∧ S.size = 2) ∧
    scaledHess Sens.g Sens.h (fun _ => [1 / 10]) (fun x : Fin 3 → ℝ => x 0) (fun _ => 1) = .error .valueError := by
  have he : ∃ ex, extract [] Sens.g Sens.h = .ok ex ∧ ex.models.length = 2 := ⟨_, rfl, rfl⟩
  obtain ⟨ex, he, hm⟩ := he
  have hi : ∀ m ∈ componentsOf Sens.g, (Sens.h m).locks.length ≤ ((fun _ => [1 / 10] : ModelId → List ℝ) m).length := by
    intro m _
    unfold Sens.h
    split <;> simp
  constructor
  · have := (C74_shape he hi (Sens.quad 1 4) (fun _ => 1)).1 hm
    rwa [hm] at this
  · exact (C74_shape he hi (fun x : Fin 3 → ℝ => x 0) (fun _ => 1)).2 (by omega) (by omega) (by omega)

/-! Cases of the other theorems. -/

example := C74_units (Sens.quad 1 4) (fun _ => 1) ![1 / 10, 1 / 2]
example := C74_unit_free (Sens.quad 1 4) (fun _ => 1) ![1 / 10, 1 / 2] ![1000, 3] (fun i => by fin_cases i <;> norm_num)
example (ex : Extracted) (he : extract [.parameters] Sens.g Sens.h = .ok ex) :=
  C74_aligned (imp := fun m => if m = 5 then [1 / 10] else if m = 6 then [1 / 2] else []) (ss := [1 / 10, 1 / 2]) rfl he
example := C74_zero_imprecision (Sens.quad 1 4) (fun _ => 1) ![0, 1 / 2] 0 rfl

end Verif
