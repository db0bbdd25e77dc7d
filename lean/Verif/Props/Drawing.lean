import Verif.Lemmas.Drawing
/-!
# C86: What the viewer draws and shows
-/

namespace Verif
open Graph

/-! ## Positions -/

/-- The positions are scaled to the square from -1 to 1, which they fill: names are kept, every coordinate lies in the square, each side of it is
touched.  The scaling is affine with a positive factor in each direction, so left and right, and above and below, stay what they were.  Scaled again nothing changes. -/
theorem C86_scaled {l l' : Positions} (h : scaled l = .ok l') :
    (∃ a b c d : ℝ, 0 < a ∧ 0 < c ∧ l' = l.map (fun q => (q.1, a * q.2.1 + b, c * q.2.2 + d))) ∧
    (∀ q ∈ l', -1 ≤ q.2.1 ∧ q.2.1 ≤ 1 ∧ -1 ≤ q.2.2 ∧ q.2.2 ≤ 1) ∧
    (∃ q ∈ l', q.2.1 = -1) ∧ (∃ q ∈ l', q.2.1 = 1) ∧ (∃ q ∈ l', q.2.2 = -1) ∧ (∃ q ∈ l', q.2.2 = 1) ∧
    scaled l' = .ok l' := by
  have main : ∀ {l l' : Positions}, scaled l = .ok l' →
    (∃ a b c d : ℝ, 0 < a ∧ 0 < c ∧ l' = l.map (fun q => (q.1, a * q.2.1 + b, c * q.2.2 + d))) ∧
    (∀ q ∈ l', -1 ≤ q.2.1 ∧ q.2.1 ≤ 1 ∧ -1 ≤ q.2.2 ∧ q.2.2 ≤ 1) ∧
    (∃ q ∈ l', q.2.1 = -1) ∧ (∃ q ∈ l', q.2.1 = 1) ∧ (∃ q ∈ l', q.2.2 = -1) ∧ (∃ q ∈ l', q.2.2 = 1) := by
    intro l l' h
    cases l with
    | nil => simp [scaled] at h
    | cons p ps =>
      simp only [scaled] at h
      obtain ⟨hx, ⟨q1, m1, e1⟩, ⟨q2, m2, e2⟩⟩ := span_spec (fun q => q.2.1) p ps
      obtain ⟨hy, ⟨q3, m3, e3⟩, ⟨q4, m4, e4⟩⟩ := span_spec (fun q => q.2.2) p ps
      obtain ⟨x0, hx0⟩ : ∃ u, u = minOf p.2.1 (ps.map (fun q => q.2.1)) := ⟨_, rfl⟩
      obtain ⟨x1, hx1⟩ : ∃ u, u = maxOf p.2.1 (ps.map (fun q => q.2.1)) := ⟨_, rfl⟩
      obtain ⟨y0, hy0⟩ : ∃ u, u = minOf p.2.2 (ps.map (fun q => q.2.2)) := ⟨_, rfl⟩
      obtain ⟨y1, hy1⟩ : ∃ u, u = maxOf p.2.2 (ps.map (fun q => q.2.2)) := ⟨_, rfl⟩
      rw [← hx0, ← hx1, ← hy0, ← hy1] at h
      rw [← hx0, ← hx1] at hx
      rw [← hy0, ← hy1] at hy
      rw [← hx0] at e1
      rw [← hx1] at e2
      rw [← hy0] at e3
      rw [← hy1] at e4
      split at h
      · cases h
      rename_i nx
      split at h
      · cases h
      rename_i ny
      have lx : x0 < x1 := lt_of_le_of_ne ((hx p (by simp)).1.trans (hx p (by simp)).2) (fun e => nx (by rw [e]; ring))
      have ly : y0 < y1 := lt_of_le_of_ne ((hy p (by simp)).1.trans (hy p (by simp)).2) (fun e => ny (by rw [e]; ring))
      have h' : l' = (p :: ps).map (fun q => (q.1, toUnit x0 x1 q.2.1, toUnit y0 y1 q.2.2)) := by injection h with h; exact h.symm
      refine ⟨⟨2 / (x1 - x0), -1 - 2 * x0 / (x1 - x0), 2 / (y1 - y0), -1 - 2 * y0 / (y1 - y0), ?_, ?_, ?_⟩, ?_, ?_, ?_, ?_, ?_⟩
      · exact div_pos two_pos (by linarith)
      · exact div_pos two_pos (by linarith)
      · rw [h']
        refine List.map_congr_left (fun q _ => ?_)
        rw [toUnit_eq lx, toUnit_eq ly]
      · intro q hq
        rw [h'] at hq
        obtain ⟨q', hq', rfl⟩ := List.mem_map.1 hq
        have a := toUnit_bounds lx (hx q' hq').1 (hx q' hq').2
        have b := toUnit_bounds ly (hy q' hq').1 (hy q' hq').2
        exact ⟨a.1, a.2, b.1, b.2⟩
      · refine ⟨_, h' ▸ List.mem_map_of_mem m1, ?_⟩
        dsimp only; rw [e1]; exact toUnit_lo
      · refine ⟨_, h' ▸ List.mem_map_of_mem m2, ?_⟩
        dsimp only; rw [e2]; exact toUnit_hi lx
      · refine ⟨_, h' ▸ List.mem_map_of_mem m3, ?_⟩
        dsimp only; rw [e3]; exact toUnit_lo
      · refine ⟨_, h' ▸ List.mem_map_of_mem m4, ?_⟩
        dsimp only; rw [e4]; exact toUnit_hi ly
  obtain ⟨h1, h2, ⟨a, ma, ea⟩, ⟨b, mb, eb⟩, ⟨c, mc, ec⟩, ⟨d, md, ed⟩⟩ := main h
  refine ⟨h1, h2, ⟨a, ma, ea⟩, ⟨b, mb, eb⟩, ⟨c, mc, ec⟩, ⟨d, md, ed⟩, ?_⟩
  cases l' with
  | nil => simp at ma
  | cons p ps =>
    obtain ⟨hx, ⟨q1, m1, e1⟩, ⟨q2, m2, e2⟩⟩ := span_spec (fun q => q.2.1) p ps
    obtain ⟨hy, ⟨q3, m3, e3⟩, ⟨q4, m4, e4⟩⟩ := span_spec (fun q => q.2.2) p ps
    have f1 : minOf p.2.1 (ps.map (fun q => q.2.1)) = -1 := le_antisymm (ea ▸ (hx a ma).1) (e1 ▸ (h2 q1 m1).1)
    have f2 : maxOf p.2.1 (ps.map (fun q => q.2.1)) = 1 := le_antisymm (e2 ▸ (h2 q2 m2).2.1) (eb ▸ (hx b mb).2)
    have f3 : minOf p.2.2 (ps.map (fun q => q.2.2)) = -1 := le_antisymm (ec ▸ (hy c mc).1) (e3 ▸ (h2 q3 m3).2.2.1)
    have f4 : maxOf p.2.2 (ps.map (fun q => q.2.2)) = 1 := le_antisymm (e4 ▸ (h2 q4 m4).2.2.2) (ed ▸ (hy d md).2)
    simp only [scaled, f1, f2, f3, f4, toUnit_id]
    norm_num

/-- Drawing fails exactly for the empty layout and when all nodes have the same place in one direction, as the only node of a graph with one node. -/
theorem C86_scaled_error (l : Positions) (e : Err) :
    scaled l = .error e ↔ (l = [] ∧ e = .valueError) ∨ (l ≠ [] ∧ e = .zeroDivision ∧
      ((∀ q ∈ l, ∀ q' ∈ l, q.2.1 = q'.2.1) ∨ (∀ q ∈ l, ∀ q' ∈ l, q.2.2 = q'.2.2))) := by
  cases l with
  | nil => simp [scaled, eq_comm]
  | cons p ps =>
    have hx := span_zero (fun q => q.2.1) p ps
    have hy := span_zero (fun q => q.2.2) p ps
    simp only [scaled]
    split
    · rename_i h
      have := hx.1 h
      constructor
      · intro he
        injection he with he
        exact Or.inr ⟨by simp, he.symm, Or.inl this⟩
      · rintro (⟨h, _⟩ | ⟨_, rfl, _⟩)
        · simp at h
        · rfl
    · rename_i nx
      split
      · rename_i h
        have := hy.1 h
        constructor
        · intro he
          injection he with he
          exact Or.inr ⟨by simp, he.symm, Or.inr this⟩
        · rintro (⟨h, _⟩ | ⟨_, rfl, _⟩)
          · simp at h
          · rfl
      · rename_i ny
        constructor
        · intro he; cases he
        · rintro (⟨h, _⟩ | ⟨_, _, h | h⟩)
          · simp at h
          · exact absurd (hx.2 h) nx
          · exact absurd (hy.2 h) ny

example : ∃ l', scaled [(0, 0, 0.3), (1, 1, 0.5), (2, 2, 0.1)] = .ok l' := by
  cases h : scaled [(0, 0, 0.3), (1, 1, 0.5), (2, 2, 0.1)] with
  | ok l' => exact ⟨l', rfl⟩
  | error e =>
    exfalso
    rcases (C86_scaled_error _ _).1 h with ⟨h, _⟩ | ⟨_, _, h | h⟩
    · simp at h
    · have := h (0, 0, 0.3) (by simp) (1, 1, 0.5) (by simp)
      norm_num at this
    · have := h (0, 0, 0.3) (by simp) (1, 1, 0.5) (by simp)
      norm_num at this

/-! ## Curves -/

/-- Share of the way from one node to the other at parameter `s`, horizontally, for an edge with control points at share `c` of the way. -/
noncomputable def alongX (c s : ℝ) : ℝ := 3 * s * (1 - s) * c + s ^ 3

/-- The same vertically. -/
noncomputable def alongY (s : ℝ) : ℝ := 3 * s ^ 2 - 2 * s ^ 3

theorem curvesOf_get {g : Graph} {l : Positions} {es : List Edge} {cs} (h : curvesOf g l es = .ok cs) :
    cs.length = es.length ∧ ∀ (i : Nat) (e : Edge), es[i]? = some e → ∃ u v, posOf l e.src = .ok u ∧ posOf l e.dst = .ok v ∧
      cs[i]? = some (curve u v (g.parallelCount e.src e.dst) e.key) := by
  induction es generalizing cs with
  | nil => simp only [curvesOf, Except.ok.injEq] at h; subst h; simp
  | cons a es ih =>
    unfold curvesOf at h
    cases hu : posOf l a.src with
    | error x => rw [hu] at h; cases h
    | ok u =>
      cases hv : posOf l a.dst with
      | error x => rw [hu, hv] at h; cases h
      | ok v =>
        cases hc : curvesOf g l es with
        | error x => rw [hu, hv, hc] at h; cases h
        | ok ds =>
          rw [hu, hv, hc] at h
          injection h with h
          subst h
          obtain ⟨h1, h2⟩ := ih hc
          refine ⟨by simp [h1], fun i e he => ?_⟩
          cases i with
          | zero =>
            simp only [List.getElem?_cons_zero, Option.some.injEq] at he
            subst he
            exact ⟨u, v, hu, hv, rfl⟩
          | succ i => simpa using h2 i e (by simpa using he)

/-- There is one curve for each edge, of 100 points.  Point `n` of the curve of an edge with key `k`, one of `m` parallel ones, lies where the formulas
`alongX` and `alongY` say, between the scaled places of the two nodes. -/
theorem C86_curve {g : Graph} {l l' : Positions} {cs} (h : edgeCurves g l = .ok (l', cs)) :
    scaled l = .ok l' ∧ cs.length = g.edges.length ∧ ∀ (i : Nat) (e : Edge), g.edges[i]? = some e → ∃ u v xs ys,
      posOf l' e.src = .ok u ∧ posOf l' e.dst = .ok v ∧ cs[i]? = some (xs, ys) ∧ xs.length = 100 ∧ ys.length = 100 ∧
      ∀ n : Nat, n < 100 → xs[n]? = some (u.1 + (v.1 - u.1) *
          alongX ((1 + (e.key : ℝ)) / (((g.edges.filter (fun e' => e'.src = e.src ∧ e'.dst = e.dst)).length : ℝ) + 1)) ((n : ℝ) / 100)) ∧
        ys[n]? = some (u.2 + (v.2 - u.2) * alongY ((n : ℝ) / 100)) := by
  unfold edgeCurves at h
  cases hs : scaled l with
  | error e => rw [hs] at h; cases h
  | ok l1 =>
    cases hc : curvesOf g l1 g.edges with
    | error e => rw [hs] at h; dsimp only at h; rw [hc] at h; cases h
    | ok cs1 =>
      rw [hs] at h
      dsimp only at h
      rw [hc] at h
      injection h with h
      injection h with h1 h2
      subst h1 h2
      obtain ⟨g1, g2⟩ := curvesOf_get hc
      refine ⟨rfl, g1, fun i e he => ?_⟩
      obtain ⟨u, v, hu, hv, hcu⟩ := g2 i e he
      refine ⟨u, v, _, _, hu, hv, hcu, by simp [drawSteps], by simp [drawSteps], fun n hn => ?_⟩
      have hd : drawSteps[n]? = some ((n : ℝ) / 100) := by
        unfold drawSteps
        rw [List.getElem?_map, List.getElem?_eq_getElem (by simpa using hn)]
        simp
      rw [List.getElem?_map, List.getElem?_map, hd]
      simp only [Option.map_some]
      constructor
      · congr 1
        unfold bezierAt controlX alongX Graph.parallelCount
        have : (((g.edges.filter (fun e' => e'.src = e.src ∧ e'.dst = e.dst)).length : ℝ) + 1) ≠ 0 := by positivity
        field_simp
        ring
      · congr 1
        unfold bezierAt alongY
        ring

/-- All edges are drawn whenever the layout can be scaled and places every node. -/
theorem C86_all_drawn {g : Graph} {l l' : Positions} (h : scaled l = .ok l') (hn : ∀ e ∈ g.edges, e.src ∈ l.map (·.1) ∧ e.dst ∈ l.map (·.1)) :
    ∃ cs, edgeCurves g l = .ok (l', cs) := by
  obtain ⟨⟨a, b, c, d, _, _, hl⟩, _⟩ := C86_scaled h
  have hp : ∀ v, v ∈ l.map (·.1) → ∃ p, posOf l' v = .ok p := by
    intro v hv
    obtain ⟨q, hq, rfl⟩ := List.mem_map.1 hv
    unfold posOf
    cases hf : l'.find? (fun q' => decide (q'.1 = q.1)) with
    | none =>
      have := List.find?_eq_none.1 hf (q.1, a * q.2.1 + b, c * q.2.2 + d) (by rw [hl]; exact List.mem_map_of_mem hq)
      simp at this
    | some q' => exact ⟨_, rfl⟩
  have : ∀ es : List Edge, (∀ e ∈ es, e ∈ g.edges) → ∃ cs, curvesOf g l' es = .ok cs := by
    intro es
    induction es with
    | nil => exact fun _ => ⟨[], rfl⟩
    | cons e es ih =>
      intro he
      obtain ⟨cs, hcs⟩ := ih (fun e' h' => he e' (by simp [h']))
      obtain ⟨u, hu⟩ := hp _ (hn e (he e (by simp))).1
      obtain ⟨v, hv⟩ := hp _ (hn e (he e (by simp))).2
      exact ⟨_, by simp only [curvesOf, hu, hv, hcs]; rfl⟩
  obtain ⟨cs, hcs⟩ := this g.edges (fun _ h => h)
  exact ⟨cs, by simp only [edgeCurves, h, hcs]⟩

theorem alongX_mono {c s t : ℝ} (hc : 0 ≤ c) (hc1 : c ≤ 1) (h0 : 0 ≤ s) (h : s ≤ t) (h1 : t ≤ 1) : alongX c s ≤ alongX c t := by
  have e : alongX c t - alongX c s = (t - s) * ((1 - c) * (s ^ 2 + s * t + t ^ 2) + c * ((1 - s) ^ 2 + (1 - s) * (1 - t) + (1 - t) ^ 2)) := by
    unfold alongX; ring
  have p1 : 0 ≤ s ^ 2 + s * t + t ^ 2 := by nlinarith [mul_nonneg h0 (h0.trans h)]
  have p2 : 0 ≤ (1 - s) ^ 2 + (1 - s) * (1 - t) + (1 - t) ^ 2 := by
    have := mul_nonneg (sub_nonneg.2 (h.trans h1)) (sub_nonneg.2 h1)
    nlinarith [sq_nonneg (1 - s), sq_nonneg (1 - t)]
  have : 0 ≤ (t - s) * ((1 - c) * (s ^ 2 + s * t + t ^ 2) + c * ((1 - s) ^ 2 + (1 - s) * (1 - t) + (1 - t) ^ 2)) :=
    mul_nonneg (sub_nonneg.2 h) (add_nonneg (mul_nonneg (sub_nonneg.2 hc1) p1) (mul_nonneg hc p2))
  linarith

theorem alongY_strict {s t : ℝ} (h0 : 0 ≤ s) (h : s < t) (h1 : t < 1) : alongY s < alongY t := by
  have e : alongY t - alongY s = (t - s) * (3 * (s + t) - 2 * (s ^ 2 + s * t + t ^ 2)) := by unfold alongY; ring
  have p : 0 < 3 * (s + t) - 2 * (s ^ 2 + s * t + t ^ 2) := by
    have a : s ^ 2 ≤ s := by nlinarith
    have b : t ^ 2 < t := by nlinarith
    have c : 2 * (s * t) ≤ s + t := by nlinarith [sq_nonneg (s - t)]
    linarith
  have := mul_pos (sub_pos.2 h) p
  linarith

/-- Each curve begins at its node, and ends a little before the other: the last of the 100 points is at parameter 0.99 (finding). -/
theorem C86_ends {g : Graph} {l l' : Positions} {cs} (h : edgeCurves g l = .ok (l', cs)) {i : Nat} {e : Edge} (he : g.edges[i]? = some e) {u v : ℝ × ℝ}
    (hu : posOf l' e.src = .ok u) (hv : posOf l' e.dst = .ok v) :
    ∃ xs ys, cs[i]? = some (xs, ys) ∧ xs[0]? = some u.1 ∧ ys[0]? = some u.2 ∧ xs[100]? = none ∧ ys[99]? = some (v.2 - 0.000298 * (v.2 - u.2)) ∧
      xs[99]? = some (v.1 - (0.029701 - 0.0297 * ((1 + (e.key : ℝ)) /
        (((g.edges.filter (fun e' => e'.src = e.src ∧ e'.dst = e.dst)).length : ℝ) + 1))) * (v.1 - u.1)) := by
  obtain ⟨_, _, hc⟩ := C86_curve h
  obtain ⟨u', v', xs, ys, hu', hv', hcs, hl, _, hp⟩ := hc i e he
  rw [hu] at hu'
  rw [hv] at hv'
  injection hu' with hu'
  injection hv' with hv'
  subst hu' hv'
  refine ⟨xs, ys, hcs, ?_, ?_, ?_, ?_, ?_⟩
  · rw [(hp 0 (by norm_num)).1]; congr 1; unfold alongX; norm_num
  · rw [(hp 0 (by norm_num)).2]; congr 1; unfold alongY; norm_num
  · exact List.getElem?_eq_none (by omega)
  · rw [(hp 99 (by norm_num)).2]; congr 1; unfold alongY; norm_num; ring
  · rw [(hp 99 (by norm_num)).1]; congr 1; unfold alongX; norm_num; ring

/-- The curve of an edge whose key is at most the number of parallel edges runs from its node on the left to its node on the right without turning back, between the
two. -/
theorem C86_between {g : Graph} {l l' : Positions} {cs} (h : edgeCurves g l = .ok (l', cs)) {i : Nat} {e : Edge} (he : g.edges[i]? = some e) {u v : ℝ × ℝ}
    (hu : posOf l' e.src = .ok u) (hv : posOf l' e.dst = .ok v) (huv : u.1 ≤ v.1)
    (hk : e.key ≤ (g.edges.filter (fun e' => e'.src = e.src ∧ e'.dst = e.dst)).length) :
    ∃ xs ys, cs[i]? = some (xs, ys) ∧ xs.Pairwise (· ≤ ·) ∧ (∀ x ∈ xs, u.1 ≤ x ∧ x ≤ v.1) ∧ ∀ y ∈ ys, min u.2 v.2 ≤ y ∧ y ≤ max u.2 v.2 := by
  obtain ⟨_, _, hc⟩ := C86_curve h
  obtain ⟨u', v', xs, ys, hu', hv', hcs, hl, hl', hp⟩ := hc i e he
  rw [hu] at hu'
  rw [hv] at hv'
  injection hu' with hu'
  injection hv' with hv'
  subst hu' hv'
  obtain ⟨c, hcc⟩ : ∃ c : ℝ, c = (1 + (e.key : ℝ)) / (((g.edges.filter (fun e' => e'.src = e.src ∧ e'.dst = e.dst)).length : ℝ) + 1) := ⟨_, rfl⟩
  rw [← hcc] at hp
  have hkr : (e.key : ℝ) ≤ ((g.edges.filter (fun e' => e'.src = e.src ∧ e'.dst = e.dst)).length : ℝ) := by exact_mod_cast hk
  have hc0 : 0 ≤ c := by rw [hcc]; positivity
  have hc1 : c ≤ 1 := by rw [hcc, div_le_one (by positivity)]; linarith
  have z : alongX c 0 = 0 := by unfold alongX; ring
  have o : alongX c 1 = 1 := by unfold alongX; ring
  have step : ∀ n : Nat, n < 100 → (0 : ℝ) ≤ (n : ℝ) / 100 ∧ (n : ℝ) / 100 < 1 := fun n hn => by
    have : (n : ℝ) < 100 := by exact_mod_cast hn
    exact ⟨by positivity, by rw [div_lt_one (by norm_num)]; exact this⟩
  refine ⟨xs, ys, hcs, ?_, ?_, ?_⟩
  · rw [List.pairwise_iff_getElem]
    intro a b ha hb hab
    have ga := (hp a (by omega)).1
    have gb := (hp b (by omega)).1
    rw [List.getElem?_eq_getElem ha] at ga
    rw [List.getElem?_eq_getElem hb] at gb
    injection ga with ga
    injection gb with gb
    rw [ga, gb]
    have : (a : ℝ) / 100 ≤ (b : ℝ) / 100 := by
      have : (a : ℝ) ≤ b := by exact_mod_cast hab.le
      linarith
    have := mul_le_mul_of_nonneg_left (alongX_mono hc0 hc1 (step a (by omega)).1 this (step b (by omega)).2.le) (sub_nonneg.2 huv)
    linarith
  · intro x hx
    obtain ⟨n, hn, rfl⟩ := List.getElem_of_mem hx
    have gn := (hp n (by omega)).1
    rw [List.getElem?_eq_getElem hn] at gn
    injection gn with gn
    rw [gn]
    have s := step n (by omega)
    have a := alongX_mono hc0 hc1 (le_refl 0) s.1 s.2.le
    have b := alongX_mono hc0 hc1 s.1 s.2.le (le_refl 1)
    rw [z] at a
    rw [o] at b
    have d := sub_nonneg.2 huv
    constructor
    · have := mul_nonneg d a; linarith
    · have := mul_le_mul_of_nonneg_left b d; linarith
  · intro y hy
    obtain ⟨n, hn, rfl⟩ := List.getElem_of_mem hy
    have gn := (hp n (by omega)).2
    rw [List.getElem?_eq_getElem hn] at gn
    injection gn with gn
    rw [gn]
    obtain ⟨s0, s1⟩ := step n (by omega)
    obtain ⟨s, hs⟩ : ∃ s : ℝ, s = (n : ℝ) / 100 := ⟨_, rfl⟩
    rw [← hs] at s0 s1 ⊢
    have a : 0 ≤ alongY s := by unfold alongY; nlinarith [sq_nonneg s]
    have b : alongY s ≤ 1 := by unfold alongY; nlinarith [mul_nonneg (sq_nonneg (1 - s)) (by linarith : (0 : ℝ) ≤ 1 + 2 * s)]
    rcases le_total u.2 v.2 with hh | hh
    · rw [min_eq_left hh, max_eq_right hh]
      have d := sub_nonneg.2 hh
      have := mul_nonneg d a
      have := mul_le_mul_of_nonneg_left b d
      constructor <;> linarith
    · rw [min_eq_right hh, max_eq_left hh]
      have d := sub_nonneg.2 hh
      have := mul_nonneg d a
      have := mul_le_mul_of_nonneg_left b d
      constructor <;> linarith

/-- Parallel edges are drawn apart: when their nodes lie neither above each other nor at the same height, the curves share no point but the first.  When the
nodes are at the same height all points of both lie on one straight line (finding). -/
theorem C86_parallel {g : Graph} {l l' : Positions} {cs} (h : edgeCurves g l = .ok (l', cs)) {i j : Nat} {e e' : Edge} (he : g.edges[i]? = some e)
    (he' : g.edges[j]? = some e') (hs : e'.src = e.src) (hd : e'.dst = e.dst) (hk : e'.key ≠ e.key) {u v : ℝ × ℝ}
    (hu : posOf l' e.src = .ok u) (hv : posOf l' e.dst = .ok v) (huv : u.1 ≠ v.1) :
    ∃ xs ys xs' ys', cs[i]? = some (xs, ys) ∧ cs[j]? = some (xs', ys') ∧
      (u.2 ≠ v.2 → ∀ a b : Nat, a < 100 → b < 100 → xs[a]? = xs'[b]? → ys[a]? = ys'[b]? → a = 0 ∧ b = 0) ∧
      (u.2 = v.2 → ∀ y, y ∈ ys ∨ y ∈ ys' → y = u.2) := by
  obtain ⟨_, _, hc⟩ := C86_curve h
  obtain ⟨u', v', xs, ys, hu', hv', hcs, hl, hl', hp⟩ := hc i e he
  obtain ⟨u2, v2, xs', ys', hu2, hv2, hcs', hl2, hl2', hp'⟩ := hc j e' he'
  rw [hs, hu] at hu2
  rw [hd, hv] at hv2
  rw [hu] at hu'
  rw [hv] at hv'
  injection hu' with hu'
  injection hv' with hv'
  injection hu2 with hu2
  injection hv2 with hv2
  subst hu' hv' hu2 hv2
  have step : ∀ n : Nat, n < 100 → (0 : ℝ) ≤ (n : ℝ) / 100 ∧ (n : ℝ) / 100 < 1 := fun n hn => by
    have : (n : ℝ) < 100 := by exact_mod_cast hn
    exact ⟨by positivity, by rw [div_lt_one (by norm_num)]; exact this⟩
  refine ⟨xs, ys, xs', ys', hcs, hcs', fun hy a b ha hb ex ey => ?_, fun hy y hyy => ?_⟩
  · rw [(hp a ha).2, (hp' b hb).2] at ey
    injection ey with ey
    have ey : alongY ((a : ℝ) / 100) = alongY ((b : ℝ) / 100) := mul_left_cancel₀ (sub_ne_zero.2 hy.symm) (by linarith)
    have hab : a = b := by
      rcases lt_trichotomy a b with hh | hh | hh
      · have : (a : ℝ) / 100 < (b : ℝ) / 100 := by
          have : (a : ℝ) < b := by exact_mod_cast hh
          linarith
        exact absurd ey (alongY_strict (step a ha).1 this (step b hb).2).ne
      · exact hh
      · have : (b : ℝ) / 100 < (a : ℝ) / 100 := by
          have : (b : ℝ) < a := by exact_mod_cast hh
          linarith
        exact absurd ey (alongY_strict (step b hb).1 this (step a ha).2).ne'
    subst hab
    rw [(hp a ha).1, (hp' a ha).1, hs, hd] at ex
    injection ex with ex
    obtain ⟨m, hm⟩ : ∃ m : ℝ, m = (((g.edges.filter (fun e' => e'.src = e.src ∧ e'.dst = e.dst)).length : ℝ) + 1) := ⟨_, rfl⟩
    have m0 : m ≠ 0 := by rw [hm]; positivity
    rw [← hm] at ex
    have ex : alongX ((1 + (e.key : ℝ)) / m) ((a : ℝ) / 100) = alongX ((1 + (e'.key : ℝ)) / m) ((a : ℝ) / 100) :=
      mul_left_cancel₀ (sub_ne_zero.2 huv.symm) (by linarith)
    have hz : (a : ℝ) / 100 * (1 - (a : ℝ) / 100) * (((e.key : ℝ) - e'.key) / m) = 0 := by
      unfold alongX at ex
      have : ((e.key : ℝ) - e'.key) / m = (1 + (e.key : ℝ)) / m - (1 + (e'.key : ℝ)) / m := by ring
      rw [this]
      linarith
    have s := step a ha
    have k0 : ((e.key : ℝ) - e'.key) / m ≠ 0 := div_ne_zero (sub_ne_zero.2 (by exact_mod_cast hk.symm)) m0
    have := (mul_eq_zero.1 hz).resolve_right k0
    have := (mul_eq_zero.1 this).resolve_right (by linarith [s.2])
    have a0 : (a : ℝ) = 0 := by linarith
    have : a = 0 := by exact_mod_cast a0
    exact ⟨this, this⟩
  · rcases hyy with hyy | hyy
    · obtain ⟨n, hn, rfl⟩ := List.getElem_of_mem hyy
      have gn := (hp n (by omega)).2
      rw [List.getElem?_eq_getElem hn] at gn
      injection gn with gn
      rw [gn, hy]; ring
    · obtain ⟨n, hn, rfl⟩ := List.getElem_of_mem hyy
      have gn := (hp' n (by omega)).2
      rw [List.getElem?_eq_getElem hn] at gn
      injection gn with gn
      rw [gn, hy]; ring


/-- Two nodes, and two lines between them. -/
def drawnLines : Graph where
  nodes := [⟨0, ⟨0, 0, false, .multiPath, 0⟩, 0⟩, ⟨1, ⟨1, 1, false, .multiPath, 0⟩, 1⟩]
  edges := [⟨0, 1, 0, ⟨2, 2, false, .singlePath, 0⟩, 2⟩, ⟨0, 1, 1, ⟨3, 3, false, .singlePath, 0⟩, 3⟩]

theorem drawnLines_scaled : scaled [(0, 0, 0.3), (1, 1, 0.5)] = .ok [(0, -1, -1), (1, 1, 1)] := by
  have e1 : minOf 0 [1] = 0 := by simp [minOf]
  have e2 : maxOf 0 [1] = 1 := by simp [maxOf]
  have e3 : minOf 0.3 [0.5] = 0.3 := by simp only [minOf, List.foldl]; norm_num
  have e4 : maxOf 0.3 [0.5] = 0.5 := by simp only [maxOf, List.foldl]; norm_num
  simp only [scaled, List.map_cons, List.map_nil, e1, e2, e3, e4, toUnit]
  norm_num

theorem drawnLines_drawn : ∃ cs, edgeCurves drawnLines [(0, 0, 0.3), (1, 1, 0.5)] = .ok ([(0, -1, -1), (1, 1, 1)], cs) :=
  C86_all_drawn drawnLines_scaled (by simp [drawnLines])

/-- The two lines are drawn apart, begin at the first node, and end close to the second. -/
example : ∃ cs xs ys xs' ys', edgeCurves drawnLines [(0, 0, 0.3), (1, 1, 0.5)] = .ok ([(0, -1, -1), (1, 1, 1)], cs) ∧ cs[0]? = some (xs, ys) ∧
    cs[1]? = some (xs', ys') ∧ (∀ a b : Nat, a < 100 → b < 100 → xs[a]? = xs'[b]? → ys[a]? = ys'[b]? → a = 0 ∧ b = 0) ∧ xs[0]? = some (-1 : ℝ) := by
  obtain ⟨cs, h⟩ := drawnLines_drawn
  have hu : posOf [(0, -1, -1), (1, 1, 1)] 0 = .ok (-1, -1) := by simp [posOf]
  have hv : posOf [(0, -1, -1), (1, 1, 1)] 1 = .ok (1, 1) := by simp [posOf]
  obtain ⟨xs, ys, xs', ys', h1, h2, h3, _⟩ := C86_parallel h (i := 0) (j := 1) rfl rfl rfl rfl (by decide) hu hv (by norm_num)
  obtain ⟨xs2, ys2, g1, g2, _⟩ := C86_ends h (i := 0) rfl hu hv
  obtain ⟨_, _, _, _⟩ := C86_between h (i := 0) rfl hu hv (by norm_num) (by decide)
  rw [h1] at g1
  injection g1 with g1
  injection g1 with g1 _
  subst g1
  exact ⟨cs, xs, ys, xs', ys', h, h1, h2, h3 (by norm_num), g2⟩

end Verif
