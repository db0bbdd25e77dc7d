import Verif.Spec.Energy
import Verif.Lemmas.Symmetry
import Verif.Props.Splitter
import Verif.Props.Components
/-! # Energy through splitters and over whole graphs -/

namespace Verif
open Complex Graph

variable {n : Nat}

theorem sq_sum_le (l : List ℝ) : l.sum ^ 2 ≤ l.length * (l.map (· ^ 2)).sum := by
  induction l with
  | nil => simp
  | cons a l ih =>
    simp only [List.sum_cons, List.length_cons, List.map_cons]
    push_cast
    set S := l.sum
    set Q := (l.map (· ^ 2)).sum
    rcases Nat.eq_zero_or_pos l.length with h | h
    · have : l = [] := List.length_eq_zero_iff.1 h
      subst this
      simp [S, Q]
    · have hm : (0 : ℝ) < l.length := by exact_mod_cast h
      have : 0 ≤ (l.length : ℝ) * ((l.length : ℝ) * a ^ 2 + Q - 2 * a * S) := by nlinarith [sq_nonneg ((l.length : ℝ) * a - S)]
      have := nonneg_of_mul_nonneg_right this hm
      nlinarith

theorem norm_list_sum_le (l : List ℂ) : ‖l.sum‖ ≤ (l.map (‖·‖)).sum := by
  induction l with
  | nil => simp
  | cons a l ih => simp only [List.sum_cons, List.map_cons]; exact (norm_add_le _ _).trans (by linarith)

theorem norm_sum_sq_le (l : List ℂ) : ‖l.sum‖ ^ 2 ≤ l.length * (l.map (‖·‖ ^ 2)).sum := by
  have h1 := norm_list_sum_le l
  have h2 := sq_sum_le (l.map (‖·‖))
  rw [List.length_map, List.map_map] at h2
  exact (pow_le_pow_left₀ (norm_nonneg _) h1 2).trans h2

theorem combined_sq_le (s : List ℂ) : ‖combined s‖ ^ 2 ≤ s.length * (s.map (‖·‖ ^ 2)).sum := by
  unfold combined
  refine (norm_sum_sq_le _).trans (le_of_eq ?_)
  rw [List.length_map, List.length_zipIdx, List.map_map]
  congr 2
  have : (s.map (‖·‖ ^ 2)) = (s.zipIdx.map (fun p => ‖p.1‖ ^ 2)) := by
    have e : (fun p : ℂ × ℕ => ‖p.1‖ ^ 2) = (fun z : ℂ => ‖z‖ ^ 2) ∘ Prod.fst := rfl
    rw [e, ← List.map_map, List.zipIdx_map_fst]
  rw [this]
  apply List.map_congr_left
  intro p _
  simp only [Function.comp]
  rw [norm_mul]
  have h1 : ‖Complex.exp (-(2 * Real.pi * ((p.2 : ℝ) / s.length) : ℝ) * Complex.I)‖ = 1 := by
    rw [show (-(2 * Real.pi * ((p.2 : ℝ) / s.length) : ℝ) * Complex.I : ℂ) = ((-(2 * Real.pi * ((p.2 : ℝ) / s.length)) : ℝ) : ℂ) * Complex.I by push_cast; ring]
    exact Complex.norm_exp_ofReal_mul_I _
  rw [h1, one_mul]

theorem sum_samples (s : List (Signal n)) : ∑ t, ((s.map (· t)).map (‖·‖ ^ 2)).sum = (s.map energy).sum := by
  induction s with
  | nil => simp
  | cons x s ih =>
    simp only [List.map_cons, List.sum_cons, Finset.sum_add_distrib, ih]
    rfl

/-- Every output of a splitter gets its share. -/
theorem energy_splitSignals {a : List ℝ} {nIn nOut : Nat} {s outs : List (Signal n)} (h : splitSignals a nIn nOut s = .ok outs) :
    (splitWeights a).length = nOut ∧ (∀ w ∈ splitWeights a, 0 ≤ w) ∧
    ∀ (j : Nat) (w : ℝ) (y : Signal n), (splitWeights a)[j]? = some w → outs[j]? = some y → energy y ≤ w * ((nIn : ℝ) / nOut * (s.map energy).sum) := by
  unfold splitSignals at h
  dsimp only at h
  split at h
  · cases h
  · rename_i hl
    push Not at hl
    split at h
    · cases h
    · rename_i hneg
      push Not at hneg
      injection h with h
      refine ⟨hl.2, hneg, ?_⟩
      intro j w y hw hy
      rw [← h] at hy
      simp only [List.getElem?_map, List.getElem?_zipIdx, hw, Option.map_some, Option.some.injEq, Nat.zero_add] at hy
      rw [← hy]
      have hw0 := hneg w (List.mem_of_getElem? hw)
      unfold energy
      have : ∀ t, ‖splitRow nIn nOut w j (s.map (· t))‖ ^ 2 ≤ w / nOut * (nIn * ((s.map (· t)).map (‖·‖ ^ 2)).sum) := by
        intro t
        have h1 := norm_splitRow (nOut := nOut) hw0 j (s.map (· t))
        have h2 := combined_sq_le (s.map (· t))
        rw [List.length_map, hl.1] at h1 h2
        rw [h1]
        exact mul_le_mul_of_nonneg_left h2 (by positivity)
      refine (Finset.sum_le_sum (fun t _ => this t)).trans (le_of_eq ?_)
      rw [← Finset.mul_sum, ← Finset.mul_sum, sum_samples]
      have : (s.map (fun x : Signal n => ∑ i, ‖x i‖ ^ 2)) = s.map energy := rfl
      rw [this]
      ring

theorem energy_sumSignals (s : List (Signal n)) : energy (sumSignals s) ≤ s.length * (s.map energy).sum := by
  rw [← sum_samples, Finset.mul_sum]
  refine Finset.sum_le_sum (fun t _ => ?_)
  have := norm_sum_sq_le (s.map (· t))
  rw [List.length_map] at this
  exact this

theorem bandMask_bound (l r : ℝ) (j : Fin n) : 0 ≤ bandMask n l r j ∧ bandMask n l r j ≤ 1 := by
  unfold bandMask
  have h1 := Real.exp_pos (-500 * (Prop_.linspace 0 1 n j - l))
  have h2 := Real.exp_pos (500 * (Prop_.linspace 0 1 n j - r))
  refine ⟨by positivity, mul_le_one₀ ?_ (by positivity) ?_⟩ <;>
  · rw [div_le_one (by positivity)]; linarith

theorem energy_freqSplit {P : Prop_ n} (hdt : P.dt ≠ 0) {a : List ℝ} {s : List (Signal n)} {y : Signal n} (h : y ∈ freqSplit P a s) :
    energy y ≤ s.length * (s.map energy).sum := by
  unfold freqSplit at h
  obtain ⟨c, -, rfl⟩ := List.mem_map.1 h
  have := energy_freqMul_le hdt (c := 1) (H := ifftShift (fun j => ((bandMask n c.1 c.2 j : ℝ) : ℂ))) (fun k => by
    simp only [ifftShift]
    rw [Complex.norm_real, Real.norm_of_nonneg (bandMask_bound _ _ _).1]
    exact (bandMask_bound _ _ _).2) (sumSignals s)
  have h2 := energy_sumSignals s
  linarith

/-! ### Sums over the edges of a graph -/

theorem sum_filter_compl {α : Type} (p : α → Bool) (F : α → ℝ) (l : List α) :
    ((l.filter p).map F).sum + ((l.filter (fun x => !p x)).map F).sum = (l.map F).sum := by
  induction l with
  | nil => simp
  | cons a l ih =>
    cases h : p a with
    | true => simp [h]; linarith
    | false => simp [h]; linarith

theorem sum_if_mem {ids : List NodeId} (hn : ids.Nodup) (v : NodeId) (c : ℝ) : (ids.map (fun u => if v = u then c else 0)).sum = if v ∈ ids then c else 0 := by
  induction ids with
  | nil => simp
  | cons a ids ih =>
    obtain ⟨h1, h2⟩ := List.nodup_cons.1 hn
    simp only [List.map_cons, List.sum_cons, ih h2, List.mem_cons]
    by_cases h : v = a
    · subst h; simp [h1]
    · simp [h]

theorem sum_by_node {ids : List NodeId} (hn : ids.Nodup) (end_ : Edge → NodeId) (F : Edge → ℝ) (l : List Edge) :
    (ids.map (fun v => ((l.filter (fun e => end_ e = v)).map F).sum)).sum = ((l.filter (fun e => end_ e ∈ ids)).map F).sum := by
  induction l with
  | nil => simp
  | cons e l ih =>
    have h1 : ∀ v, (((e :: l).filter (fun e => end_ e = v)).map F).sum = (if end_ e = v then F e else 0) + ((l.filter (fun e => end_ e = v)).map F).sum := by
      intro v
      by_cases h : end_ e = v <;> simp [h]
    have h2 : (((e :: l).filter (fun e => end_ e ∈ ids)).map F).sum = (if end_ e ∈ ids then F e else 0) + ((l.filter (fun e => end_ e ∈ ids)).map F).sum := by
      by_cases h : end_ e ∈ ids <;> simp [h]
    rw [List.map_congr_left (fun v _ => h1 v), List.sum_map_add, sum_if_mem hn, ih, h2]

theorem sum_le_shares {α : Type} (f : α → ℝ) (C : ℝ) : ∀ (l : List α) (w : List ℝ), l.length = w.length →
    (∀ (i : Nat) a b, l[i]? = some a → w[i]? = some b → f a ≤ b * C) → (l.map f).sum ≤ w.sum * C := by
  intro l
  induction l with
  | nil => intro w h _; rw [List.length_eq_zero_iff.1 h.symm]; simp
  | cons a l ih =>
    intro w h hf
    cases w with
    | nil => cases h
    | cons b w =>
      simp only [List.map_cons, List.sum_cons]
      have h1 := hf 0 a b rfl rfl
      have h2 := ih w (by simpa using h) (fun i x y hx hy => hf (i + 1) x y (by simpa using hx) (by simpa using hy))
      linarith

/-- If no inner node passes on more (at the prices `W`) than it receives, the outputs receive at most what the entries emit. -/
theorem balance {g : Graph} (hw : g.WF) (E : Edge → ℝ) (W : NodeId → ℝ)
    (h : ∀ v ∈ g.ids, g.inEdges v ≠ [] → g.outEdges v ≠ [] →
      ((g.outEdges v).map (fun e => W e.dst * E e)).sum ≤ W v * ((g.inEdges v).map E).sum) :
    ((g.edges.filter (fun e => g.outEdges e.dst = [])).map (fun e => W e.dst * E e)).sum ≤
      ((g.edges.filter (fun e => g.inEdges e.src = [])).map (fun e => W e.dst * E e)).sum := by
  set F : Edge → ℝ := fun e => W e.dst * E e
  set ids := g.ids.filter (fun v => g.inEdges v ≠ [] ∧ g.outEdges v ≠ []) with hids
  have hn : ids.Nodup := hw.ids_nodup.filter _
  have hout : ∀ e ∈ g.edges, g.outEdges e.src ≠ [] := fun e he => List.ne_nil_of_mem (mem_outEdges.2 ⟨he, rfl⟩)
  have hin : ∀ e ∈ g.edges, g.inEdges e.dst ≠ [] := fun e he => List.ne_nil_of_mem (mem_inEdges.2 ⟨he, rfl⟩)
  have h1 : ((g.edges.filter (fun e => e.src ∈ ids)).map F).sum ≤ ((g.edges.filter (fun e => e.dst ∈ ids)).map F).sum := by
    rw [← sum_by_node hn Edge.src F, ← sum_by_node hn Edge.dst F]
    refine List.sum_le_sum (fun v hv => ?_)
    rw [hids, List.mem_filter] at hv
    simp only [ne_eq, decide_eq_true_eq] at hv
    refine (h v hv.1 hv.2.1 hv.2.2).trans (le_of_eq ?_)
    show W v * ((g.edges.filter (fun e => e.dst = v)).map E).sum = _
    rw [← List.sum_map_mul_left]
    congr 1
    apply List.map_congr_left
    intro e he
    rw [List.mem_filter] at he
    simp only [decide_eq_true_eq] at he
    simp only [F, he.2]
  have hs : g.edges.filter (fun e => e.src ∈ ids) = g.edges.filter (fun e => !decide (g.inEdges e.src = [])) := by
    apply List.filter_congr
    intro e he
    have : e.src ∈ ids ↔ g.inEdges e.src ≠ [] := by
      rw [hids, List.mem_filter]
      simp [hw.src_mem e he, hout e he]
    simp [this]
  have hd : g.edges.filter (fun e => e.dst ∈ ids) = g.edges.filter (fun e => !decide (g.outEdges e.dst = [])) := by
    apply List.filter_congr
    intro e he
    have : e.dst ∈ ids ↔ g.outEdges e.dst ≠ [] := by
      rw [hids, List.mem_filter]
      simp [hw.dst_mem e he, hin e he]
    simp [this]
  rw [hs, hd] at h1
  have e1 := sum_filter_compl (fun e => decide (g.inEdges e.src = [])) F g.edges
  have e2 := sum_filter_compl (fun e => decide (g.outEdges e.dst = [])) F g.edges
  linarith

end Verif
