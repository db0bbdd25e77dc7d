import Verif.Lemmas.Best
import Verif.Props.Evaluate
import Verif.Props.Noise
import Verif.Props.Objective
import Mathlib.Analysis.SpecialFunctions.Trigonometric.DerivHyp
import Mathlib.Analysis.Convex.Topology
/-!
# C99: the best setting of a design

The score is a continuous function on the box of allowed settings, its faces included.
-/

namespace Verif
open Graph Filter Topology

section Main

variable {n : Nat} {P : Prop_ n} {S : Settings} {cls : ClassId → Part} {rest : Part → List ℝ → Optic n} {hasNoise : Comp → Bool} {inp : Signal n} {at_ : Key}
  {score : Signal n → Except Err ℝ} {g : Graph}

/-- The components of a design. -/
def Has (g : Graph) (c : Comp) : Prop := c ∈ g.nodes.map Node.comp ∨ c ∈ g.edges.map Edge.comp

theorem allows_ofFn {s : Sheet} {N : Nat} {q : Fin N → ℝ} : s.Allows (List.ofFn q) ↔ N = s.number ∧ ∀ k : Fin N,
    (∀ lo up : ℚ, s.locks[k.1]? = some false → s.lower[k.1]? = some (Entry.num lo) → s.upper[k.1]? = some (Entry.num up) → (lo : ℝ) ≤ q k ∧ q k ≤ (up : ℝ)) ∧
    (∀ d : Entry, s.locks[k.1]? = some true → s.defaults[k.1]? = some d → q k = (d.toNum : ℝ)) := by
  have hq : ∀ k : Fin N, (List.ofFn q)[k.1]? = some (q k) := fun k => by
    rw [List.getElem?_eq_getElem (by simp)]; simp
  constructor
  · intro h
    exact ⟨by rw [← h.length, List.length_ofFn], fun k => ⟨fun lo up h1 h2 h3 => h.free k.1 _ lo up (hq k) h1 h2 h3, fun d h1 h2 => h.locked k.1 _ d (hq k) h1 h2⟩⟩
  · rintro ⟨h, hk⟩
    refine ⟨by rw [List.length_ofFn, h], ?_, ?_⟩
    · intro k x lo up hx h1 h2 h3
      have hkN : k < N := by simpa using (List.getElem?_eq_some_iff.1 hx).1
      rw [hq ⟨k, hkN⟩] at hx
      injection hx with hx
      exact hx ▸ (hk ⟨k, hkN⟩).1 lo up h1 h2 h3
    · intro k x d hx h1 h2
      have hkN : k < N := by simpa using (List.getElem?_eq_some_iff.1 hx).1
      rw [hq ⟨k, hkN⟩] at hx
      injection hx with hx
      exact hx ▸ (hk ⟨k, hkN⟩).2 d h1 h2

/-- The allowed settings as a set of functions. -/
def allowedSet (S : Settings) (cls : ClassId → Part) (g : Graph) (N : Comp → ℕ) : Set (Comp → ℕ → ℝ) :=
  {x | Allowed S cls g (spread N x) ∧ ∀ c k, ¬ Has g c ∨ N c ≤ k → x c k = 0}

theorem closed_sheet (s : Sheet) (N : Comp → ℕ) (c : Comp) : IsClosed {x : Comp → ℕ → ℝ | s.Allows (spread N x c)} := by
  have hc : ∀ k : Fin (N c), Continuous (fun x : Comp → ℕ → ℝ => x c k) := fun k => (continuous_apply k.1).comp (continuous_apply c)
  simp only [spread, allows_ofFn, Set.ofPred_and, Set.ofPred_forall]
  refine isClosed_const.inter (isClosed_iInter fun k => ?_)
  refine (isClosed_iInter fun lo => isClosed_iInter fun up => isClosed_iInter fun _ => isClosed_iInter fun _ => isClosed_iInter fun _ => ?_).inter
    (isClosed_iInter fun d => isClosed_iInter fun _ => isClosed_iInter fun _ => ?_)
  · exact (isClosed_le continuous_const (hc k)).inter (isClosed_le (hc k) continuous_const)
  · exact isClosed_eq (hc k) continuous_const

theorem convex_sheet (s : Sheet) (N : Comp → ℕ) (c : Comp) : Convex ℝ {x : Comp → ℕ → ℝ | s.Allows (spread N x c)} := by
  intro x hx y hy a b ha hb hab
  simp only [spread, allows_ofFn, Set.mem_ofPred_eq] at hx hy ⊢
  refine ⟨hx.1, fun k => ⟨fun lo up h1 h2 h3 => ?_, fun d h1 h2 => ?_⟩⟩
  · exact convex_Icc (lo : ℝ) (up : ℝ) ((hx.2 k).1 lo up h1 h2 h3) ((hy.2 k).1 lo up h1 h2 h3) ha hb hab
  · show a * x c k + b * y c k = _
    rw [(hx.2 k).2 d h1 h2, (hy.2 k).2 d h1 h2, ← add_mul, hab, one_mul]

theorem allowedSet_eq (N : Comp → ℕ) : allowedSet S cls g N = ((⋂ e ∈ g.edges, {x | (sheet S (cls e.comp.cls) 1).Allows (spread N x e.comp)}) ∩
    ⋂ v ∈ g.nodes, {x | (sheet S (cls v.comp.cls) (g.outEdges v.id).length).Allows (spread N x v.comp)}) ∩ {x | ∀ c k, ¬ Has g c ∨ N c ≤ k → x c k = 0} := by
  ext x
  simp only [allowedSet, Set.mem_ofPred_eq, Set.mem_inter_iff, Set.mem_iInter]
  exact ⟨fun h => ⟨⟨h.1.edges, h.1.nodes⟩, h.2⟩, fun h => ⟨⟨h.1.1, h.1.2⟩, h.2⟩⟩

theorem allowedSet_closed (N : Comp → ℕ) : IsClosed (allowedSet S cls g N) := by
  rw [allowedSet_eq]
  refine (IsClosed.inter ?_ ?_).inter ?_
  · exact isClosed_biInter fun e _ => closed_sheet _ _ _
  · exact isClosed_biInter fun e _ => closed_sheet _ _ _
  · simp only [Set.ofPred_forall]
    exact isClosed_iInter fun c => isClosed_iInter fun k => isClosed_iInter fun _ => isClosed_eq ((continuous_apply k).comp (continuous_apply c)) continuous_const

theorem allowedSet_convex (N : Comp → ℕ) : Convex ℝ (allowedSet S cls g N) := by
  rw [allowedSet_eq]
  refine (Convex.inter ?_ ?_).inter ?_
  · exact convex_iInter₂ fun e _ => convex_sheet _ _ _
  · exact convex_iInter₂ fun e _ => convex_sheet _ _ _
  · intro x hx y hy a b _ _ _ c k h
    show a * x c k + b * y c k = 0
    rw [hx c k h, hy c k h]
    ring

theorem bounded_entry (hS : S.Sensible) (p : Part) (j N k : Nat) : ∃ M : ℝ, ∀ q : Fin N → ℝ, (sheet S p j).Allows (List.ofFn q) → ∀ h : k < N, |q ⟨k, h⟩| ≤ M := by
  have hs := C75_sheets hS p j
  by_cases hk : k < (sheet S p j).number
  · have hl : k < (sheet S p j).locks.length := by rw [hs.locks]; exact hk
    cases hb : (sheet S p j).locks[k] with
    | false =>
      have hf : (sheet S p j).locks[k]? = some false := by rw [List.getElem?_eq_getElem hl, hb]
      obtain ⟨l, u, d, h1, h2, -⟩ := (hs.free k hf).bounds
      refine ⟨max |(l : ℝ)| |(u : ℝ)|, fun q hq h => ?_⟩
      obtain ⟨h3, h4⟩ := ((allows_ofFn.1 hq).2 ⟨k, h⟩).1 l u hf h1 h2
      exact abs_le_max_abs_abs h3 h4
    | true =>
      have hf : (sheet S p j).locks[k]? = some true := by rw [List.getElem?_eq_getElem hl, hb]
      have hd : k < (sheet S p j).defaults.length := by rw [hs.defaults]; exact hk
      exact ⟨_, fun q hq h => (congrArg abs (((allows_ofFn.1 hq).2 ⟨k, h⟩).2 _ hf (List.getElem?_eq_getElem hd))).le⟩
  · exact ⟨0, fun q hq h => absurd ((allows_ofFn.1 hq).1 ▸ h) hk⟩

theorem allowedSet_compact (hS : S.Sensible) (N : Comp → ℕ) : IsCompact (allowedSet S cls g N) := by
  have hM : ∀ c k, ∃ M : ℝ, ∀ x ∈ allowedSet S cls g N, |x c k| ≤ M := by
    intro c k
    by_cases hc : Has g c ∧ k < N c
    · obtain ⟨hc, hk⟩ := hc
      rcases hc with hc | hc
      · obtain ⟨v, hv, rfl⟩ := List.mem_map.1 hc
        obtain ⟨M, hM⟩ := bounded_entry hS (cls v.comp.cls) (g.outEdges v.id).length (N v.comp) k
        exact ⟨M, fun x hx => hM _ (hx.1.nodes v hv) hk⟩
      · obtain ⟨e, he, rfl⟩ := List.mem_map.1 hc
        obtain ⟨M, hM⟩ := bounded_entry hS (cls e.comp.cls) 1 (N e.comp) k
        exact ⟨M, fun x hx => hM _ (hx.1.edges e he) hk⟩
    · refine ⟨0, fun x hx => ?_⟩
      rw [hx.2 c k (by by_contra h; push Not at h; exact hc h)]
      simp
  choose M hM using hM
  refine IsCompact.of_isClosed_subset (isCompact_univ_pi fun c => isCompact_univ_pi fun k => isCompact_Icc (a := -M c k) (b := M c k)) (allowedSet_closed N) ?_
  intro x hx c _ k _
  exact abs_le.1 (hM c k x hx)

/-- A setting as a function. -/
noncomputable def gather (g : Graph) (θ : Comp → List ℝ) (c : Comp) (k : ℕ) : ℝ :=
  haveI := Classical.propDecidable (Has g c)
  if Has g c then (θ c).getD k 0 else 0

theorem gather_spread {θ : Comp → List ℝ} {N : Comp → ℕ} {c : Comp} (hc : Has g c) (h : N c = (θ c).length) : spread N (gather g θ) c = θ c := by
  unfold spread gather
  simp only [if_pos hc]
  apply List.ext_getElem
  · simp [h]
  · intro i h1 h2
    simp [List.getD_eq_getElem?_getD, h2]

theorem same_lengths {θ θ' : Comp → List ℝ} (h : Allowed S cls g θ) (h' : Allowed S cls g θ') {c : Comp} (hc : Has g c) : (θ c).length = (θ' c).length := by
  rcases hc with hc | hc
  · obtain ⟨v, hv, rfl⟩ := List.mem_map.1 hc
    rw [(h.nodes v hv).length, (h'.nodes v hv).length]
  · obtain ⟨v, hv, rfl⟩ := List.mem_map.1 hc
    rw [(h.edges v hv).length, (h'.edges v hv).length]

theorem gather_mem {θ θ' : Comp → List ℝ} (h : Allowed S cls g θ) (h' : Allowed S cls g θ') : gather g θ' ∈ allowedSet S cls g (fun c => (θ c).length) := by
  refine ⟨⟨fun e he => ?_, fun v hv => ?_⟩, fun c k hck => ?_⟩
  · have hc : Has g e.comp := .inr (List.mem_map_of_mem he)
    rw [gather_spread hc (same_lengths h h' hc)]
    exact h'.edges e he
  · have hc : Has g v.comp := .inl (List.mem_map_of_mem hv)
    rw [gather_spread hc (same_lengths h h' hc)]
    exact h'.nodes v hv
  · unfold gather
    split
    · rename_i hc
      rcases hck with hck | hck
      · exact absurd hc hck
      · have hck : (θ c).length ≤ k := hck
        rw [same_lengths h h' hc] at hck
        simp [List.getD_eq_getElem?_getD, hck]
    · rfl

theorem score_gather {θ θ' : Comp → List ℝ} (h : Allowed S cls g θ) (h' : Allowed S cls g θ') :
    scoreOf P S cls rest hasNoise inp at_ score g (spread (fun c => (θ c).length) (gather g θ')) = scoreOf P S cls rest hasNoise inp at_ score g θ' := by
  unfold scoreOf systemScore
  rw [propagate_congr]
  · intro m hm
    have hc : Has g m.comp := .inl (List.mem_map_of_mem hm)
    simp only [physics, gather_spread (N := fun c => (θ c).length) hc (same_lengths h h' hc)]
  · intro e he
    have hc : Has g e.comp := .inr (List.mem_map_of_mem he)
    simp only [physics, gather_spread (N := fun c => (θ c).length) hc (same_lengths h h' hc), and_self]

/-- **C99.** A design that runs at every allowed setting has a score at every allowed setting, and the score is continuous up to the bounds: when the allowed
settings `θs i` tend to the allowed setting `θ`, their scores tend to its score.  (The derivative may not exist at the bounds: C91.) -/
theorem C99_continuous (hn : 3 ≤ n) (hw : 0 < P.window) (hS : S.Sensible) (hrest : ∀ p ps x, ∃ y, (rest p ps).apply P x = .ok y) (hr : EndsContinuous rest)
    (hT : Tunable P S cls g) (hat : Readable g at_) (hsc : ∀ s, Seen P S cls rest hasNoise inp at_ g s → SmoothScoreAt 0 score s)
    {θs : ℕ → Comp → List ℝ} {θ : Comp → List ℝ} (hθs : ∀ i, Allowed S cls g (θs i)) (hθ : Allowed S cls g θ) (hlim : SettingsTendTo g θs θ) :
    ∃ (vs : ℕ → ℝ) (v : ℝ), (∀ i, scoreOf P S cls rest hasNoise inp at_ score g (θs i) = .ok (vs i)) ∧
      scoreOf P S cls rest hasNoise inp at_ score g θ = .ok v ∧ Tendsto vs atTop (𝓝 v) := by
  have hx0 := gather_mem hθ hθ
  obtain ⟨F, hF, hev⟩ := design_cont hn hw hS hrest hr hT hat hsc (K := allowedSet S cls g (fun c => (θ c).length)) (fun x hx => hx.1) hx0
  have hval : ∀ i, ∃ v, scoreOf P S cls rest hasNoise inp at_ score g (θs i) = .ok v := by
    intro i
    obtain ⟨F', -, hev'⟩ := design_cont hn hw hS hrest hr hT hat hsc (K := allowedSet S cls g (fun c => (θ c).length)) (fun x hx => hx.1) (gather_mem hθ (hθs i))
    exact ⟨_, (score_gather hθ (hθs i)).symm.trans (hev'.self_of_nhdsWithin (gather_mem hθ (hθs i)))⟩
  choose vs hvs using hval
  refine ⟨vs, F (gather g θ), hvs, (score_gather hθ hθ).symm.trans (hev.self_of_nhdsWithin hx0), ?_⟩
  have ht : Tendsto (fun i => gather g (θs i)) atTop (𝓝[allowedSet S cls g (fun c => (θ c).length)] (gather g θ)) := by
    refine tendsto_nhdsWithin_iff.2 ⟨?_, Eventually.of_forall fun i => gather_mem hθ (hθs i)⟩
    refine tendsto_pi_nhds.2 fun c => tendsto_pi_nhds.2 fun k => ?_
    unfold gather
    split
    · rename_i hc
      exact hlim c hc k
    · exact tendsto_const_nhds
  refine (hF.tendsto.comp ht).congr' ?_
  filter_upwards [ht.eventually hev] with i hi
  rw [score_gather hθ (hθs i), hvs i] at hi
  injection hi with hi
  exact hi.symm

/-- **C99.** The scores a design has at its allowed settings form a closed interval: there is a best setting and a worst, and everything in between is the score of
some allowed setting. -/
theorem C99_scores (hn : 3 ≤ n) (hw : 0 < P.window) (hS : S.Sensible) (hrest : ∀ p ps x, ∃ y, (rest p ps).apply P x = .ok y) (hr : EndsContinuous rest)
    (hT : Tunable P S cls g) (hat : Readable g at_) (hsc : ∀ s, Seen P S cls rest hasNoise inp at_ g s → SmoothScoreAt 0 score s)
    (hne : ∃ θ, Allowed S cls g θ) :
    ∃ best worst : ℝ, best ≤ worst ∧ ∀ v, CanScore P S cls rest hasNoise inp at_ score g v ↔ best ≤ v ∧ v ≤ worst := by
  obtain ⟨θ, hθ⟩ := hne
  obtain ⟨N, hN⟩ : ∃ N : Comp → ℕ, N = fun c => (θ c).length := ⟨_, rfl⟩
  obtain ⟨G, hG⟩ : ∃ G : (Comp → ℕ → ℝ) → ℝ, ∀ x ∈ allowedSet S cls g N, scoreOf P S cls rest hasNoise inp at_ score g (spread N x) = .ok (G x) := by
    have : ∀ x, ∃ v, x ∈ allowedSet S cls g N → scoreOf P S cls rest hasNoise inp at_ score g (spread N x) = .ok v := by
      intro x
      by_cases hx : x ∈ allowedSet S cls g N
      · obtain ⟨F, -, hev⟩ := design_cont hn hw hS hrest hr hT hat hsc (K := allowedSet S cls g N) (fun x hx => hx.1) hx
        exact ⟨F x, fun _ => hev.self_of_nhdsWithin hx⟩
      · exact ⟨0, fun h => absurd h hx⟩
    choose G hG using this
    exact ⟨G, hG⟩
  have hcont : ContinuousOn G (allowedSet S cls g N) := by
    intro x hx
    obtain ⟨F, hF, hev⟩ := design_cont hn hw hS hrest hr hT hat hsc (K := allowedSet S cls g N) (fun x hx => hx.1) hx
    refine hF.congr_of_eventuallyEq ?_ ?_
    · filter_upwards [hev, self_mem_nhdsWithin] with y h1 h2
      rw [hG y h2] at h1
      injection h1
    · have h1 := hev.self_of_nhdsWithin hx
      rw [hG x hx] at h1
      injection h1
  have hne : (allowedSet S cls g N).Nonempty := ⟨_, hN ▸ gather_mem hθ hθ⟩
  have hiff : ∀ v, CanScore P S cls rest hasNoise inp at_ score g v ↔ v ∈ G '' allowedSet S cls g N := by
    intro v
    constructor
    · rintro ⟨θ', hA, hv⟩
      have hmem : gather g θ' ∈ allowedSet S cls g N := hN ▸ gather_mem hθ hA
      refine ⟨_, hmem, ?_⟩
      have h1 := hG _ hmem
      rw [hN, score_gather hθ hA] at h1
      have hv : scoreOf P S cls rest hasNoise inp at_ score g θ' = .ok v := hv
      rw [hv] at h1
      injection h1 with h1
      exact h1.symm
    · rintro ⟨x, hx, rfl⟩
      exact ⟨_, hx.1, hG x hx⟩
  obtain ⟨a, ha, hmin⟩ := (allowedSet_compact hS N).exists_isMinOn hne hcont
  obtain ⟨b, hb, hmax⟩ := (allowedSet_compact hS N).exists_isMaxOn hne hcont
  refine ⟨G a, G b, hmin hb, fun v => (hiff v).trans ⟨?_, fun hv => ?_⟩⟩
  · rintro ⟨x, hx, rfl⟩
    exact ⟨hmin hx, hmax hx⟩
  · exact (allowedSet_convex N).isPreconnected.intermediate_value ha hb hcont hv

/-- **C99** (with C97). Growing a design in series with components that can be switched off never makes its best score worse: every score of the first design is
at least the best score of the grown one, which some allowed setting has. -/
theorem C99_grown (hn : 3 ≤ n) (hw : 0 < P.window) (hS : S.Sensible) (hrest : ∀ p ps x, ∃ y, (rest p ps).apply P x = .ok y) (hr : EndsContinuous rest)
    {g' : Graph} (hwf : g.WF) (hg : GrownIdly cls g g') (hT : Tunable P S cls g') {u : NodeId} (hu : g'.IsSink u)
    (hsc : ∀ s, Seen P S cls rest hasNoise inp (.node u) g' s → SmoothScoreAt 0 score s) {v : ℝ} (hv : CanScore P S cls rest hasNoise inp (.node u) score g v) :
    ∃ best ≤ v, CanScore P S cls rest hasNoise inp (.node u) score g' best ∧ ∀ v', CanScore P S cls rest hasNoise inp (.node u) score g' v' → best ≤ v' := by
  have hv' := (C97_grown (by omega) hw (by have := hS.pi; linarith) hwf hg).1 v hv
  obtain ⟨θ, hθ, -⟩ := id hv'
  obtain ⟨best, worst, hle, hiff⟩ := C99_scores hn hw hS hrest hr hT (.inl ⟨u, rfl, hu⟩) hsc ⟨θ, hθ⟩
  exact ⟨best, ((hiff v).1 hv').1, (hiff best).2 ⟨le_rfl, hle⟩, fun v' h => ((hiff v').1 h).1⟩

/-- The narrower the filter, the less passes, at every frequency but the central one. -/
theorem sfMask_lt {j : Fin n} (hj : P.f j ≠ 0) {b b' : ℝ} (hb' : 0 < b') (hlt : b' < b) : sfMask P b' j < sfMask P b j := by
  have hb : 0 < b := hb'.trans hlt
  have key : ∀ {c : ℝ}, 0 < c → sfMask P c j = 1 / (1 + Real.exp (-60) + 2 * Real.exp (-30) * Real.cosh (60 * P.f j / c)) := by
    intro c hc
    unfold sfMask logistic
    rw [one_div_mul_one_div]
    congr 1
    have e1 : -((P.f j + c / 2) * (60 / c)) = -30 + -(60 * P.f j / c) := by field_simp; ring
    have e2 : -((-P.f j + c / 2) * (60 / c)) = -30 + 60 * P.f j / c := by field_simp; ring
    rw [e1, e2, Real.exp_add, Real.exp_add, Real.cosh_eq]
    have h60 : Real.exp (-60) = Real.exp (-30) * Real.exp (-30) := by rw [← Real.exp_add]; norm_num
    have hone : Real.exp (-(60 * P.f j / c)) * Real.exp (60 * P.f j / c) = 1 := by rw [← Real.exp_add]; simp
    rw [h60]
    linear_combination Real.exp (-30) * Real.exp (-30) * hone
  rw [key hb', key hb]
  have hc : Real.cosh (60 * P.f j / b) < Real.cosh (60 * P.f j / b') := by
    rw [Real.cosh_lt_cosh, abs_div, abs_div, abs_of_pos hb, abs_of_pos hb']
    exact div_lt_div_of_pos_left (abs_pos.2 (by positivity)) hb' hlt
  have h1 := Real.exp_pos (-30)
  have h2 := Real.exp_pos (-60)
  have h3 := Real.cosh_pos (60 * P.f j / b)
  exact one_div_lt_one_div_of_lt (by positivity) (by nlinarith)

/-- **C99** (what the exclusion of traps is for). A square filter has no best setting for stopping light: its bounds contain the bandwidth 0, at which it raises,
and at every other allowed bandwidth some narrower allowed one passes less of any signal (grids with an even number of samples). -/
theorem C99_square_filter (hn : 2 ≤ n) (he : n % 2 = 0) (hw : 0 < P.window) {x : Signal n} (hx : x ≠ 0) {ps : List ℝ} (ha : (sheet S .squareFilter 1).Allows ps)
    {y : Signal n} (hy : (Part.squareFilter.optic S rest ps).apply P x = .ok y) :
    ∃ ps' y', (sheet S .squareFilter 1).Allows ps' ∧ (Part.squareFilter.optic S rest ps').apply P x = .ok y' ∧ energy y' < energy y := by
  obtain ⟨b, rfl⟩ : ∃ b, ps = [b] := List.length_eq_one_iff.1 ha.length
  have hbd := ha.free 0 b 0 (10 * 10 ^ 12) rfl rfl rfl rfl
  have hy : squareFilter P b x = .ok y := hy
  unfold squareFilter at hy
  split at hy
  · cases hy
  rename_i hb0
  injection hy with hy
  have hb : 0 < b := lt_of_le_of_ne (by exact_mod_cast hbd.1) (Ne.symm hb0)
  refine ⟨[b / 2], dbScale 0 (freqMul (ifftShift (fun j => (sfMask P (b / 2) j : ℂ))) P.dt x), ⟨rfl, ?_, ?_⟩, ?_, ?_⟩
  · intro k z lo up hz _ h1 h2
    match k with
    | 0 =>
      simp only [sheet, entries, List.map_cons, List.map_nil, List.getElem?_cons_zero, Option.some.injEq, Entry.num.injEq] at hz h1 h2
      subst hz h1 h2
      refine ⟨by push_cast; positivity, ?_⟩
      exact (half_le_self hb.le).trans hbd.2
    | k + 1 => simp at hz
  · intro k z d hz hl _
    match k with
    | 0 => simp [sheet] at hl
    | k + 1 => simp at hz
  · show squareFilter P (b / 2) x = _
    unfold squareFilter
    rw [if_neg (by positivity)]
  · rw [← hy, dbScale_zero, dbScale_zero]
    have hd := dt_ne_zero hn hw
    have hn0 : (0 : ℝ) < n := by exact_mod_cast (by omega : 0 < n)
    refine lt_of_mul_lt_mul_left ?_ hn0.le
    rw [energy_freqMul _ hd, energy_freqMul _ hd]
    have hz : ∀ j, P.f j ≠ 0 := fun j h => by
      have := (exists_f_zero hn hw).1 ⟨j, h⟩
      omega
    have hm : ∀ k, ‖ifftShift (fun j => (sfMask P (b / 2) j : ℂ)) k‖ ^ 2 < ‖ifftShift (fun j => (sfMask P b j : ℂ)) k‖ ^ 2 := by
      intro k
      unfold ifftShift
      rw [Complex.norm_real, Complex.norm_real, sq_lt_sq₀ (norm_nonneg _) (norm_nonneg _), Real.norm_of_nonneg, Real.norm_of_nonneg]
      · exact sfMask_lt (hz _) (by positivity) (by linarith)
      · exact ((C58_square_filter hn hw hb x).1 _).1.le
      · exact ((C58_square_filter hn hw (by positivity : 0 < b / 2) x).1 _).1.le
    obtain ⟨k, hk⟩ : ∃ k, npFft x k ≠ 0 := by
      by_contra hc
      push Not at hc
      apply hx
      have := energy_npFft x
      have h0 : energy (npFft x) = 0 := by unfold energy; simp [hc]
      rw [h0] at this
      have hex : energy x = 0 := by
        rcases mul_eq_zero.1 this.symm with h | h
        · exact absurd h hn0.ne'
        · exact h
      unfold energy at hex
      rw [Finset.sum_eq_zero_iff_of_nonneg (fun _ _ => by positivity)] at hex
      funext i
      have := hex i (Finset.mem_univ i)
      simpa using this
    refine Finset.sum_lt_sum (fun k _ => mul_le_mul_of_nonneg_right (hm k).le (by positivity)) ⟨k, Finset.mem_univ k, ?_⟩
    exact mul_lt_mul_of_pos_right (hm k) (by have := norm_pos_iff.2 hk; positivity)

end Main

/-! ### Examples -/

namespace Settled
open Fixture

theorem rest_cont : EndsContinuous Idle.rest := by
  intro p N L hL q
  cases p with
  | cwLaser =>
    refine .source (x := fun q => fun _ => (((L.map (· q)).getD 0 0 : ℝ) : ℂ)) ?_
    exact contDiffAt_pi.2 fun _ => (Complex.ofRealCLM.contDiff.contDiffAt).comp q (getD_cont hL 0 q)
  | _ => exact .measure

theorem line_tunable : Tunable demoProp stdSettings Idle.cls line where
  wf := line_wf
  acyclic := line_acyclic
  fits := by
    intro v hv
    simp only [line, List.mem_cons, List.not_mem_nil, or_false] at hv
    rcases hv with rfl | rfl | rfl | rfl
    · show max 1 _ ≤ max 1 _; decide
    · show 1 ≤ _ ∧ 1 ≤ _; decide
    · show 1 ≤ _ ∧ 1 ≤ _; decide
    · show max 1 _ ≤ max 1 _; decide
  free := fun e he _ _ => Steady.untrapped ((show ∀ e ∈ line.edges, Idle.cls e.comp.cls ∉ [Part.squareFilter, .programmableFilter, .waveShaper] by decide) e he) _

theorem lineSer_tunable : Tunable demoProp stdSettings Idle.cls Idle.lineSer where
  wf := addSeries_wf line_wf (i := ⟨1, ⟨1, 2, 0⟩⟩) (by decide) (by decide) Idle.line_series
  acyclic := addSeries_acyclic line_wf line_acyclic (i := ⟨1, ⟨1, 2, 0⟩⟩) (by decide) (by decide) Idle.line_series
  fits := by
    intro v hv
    simp only [Idle.lineSer, List.mem_cons, List.not_mem_nil, or_false] at hv
    rcases hv with rfl | rfl | rfl | rfl | rfl
    · show max 1 _ ≤ max 1 _; decide
    · show 1 ≤ _ ∧ 1 ≤ _; decide
    · show 1 ≤ _ ∧ 1 ≤ _; decide
    · show max 1 _ ≤ max 1 _; decide
    · show 1 ≤ _ ∧ 1 ≤ _; decide
  free := fun e he _ _ => Steady.untrapped ((show ∀ e ∈ Idle.lineSer.edges, Idle.cls e.comp.cls ∉ [Part.squareFilter, .programmableFilter, .waveShaper] by decide) e he) _

theorem g_tunable : Tunable demoProp stdSettings Idle.cls g where
  wf := g_wf
  acyclic := g_acyclic
  fits := by
    intro v hv
    simp only [g, List.mem_cons, List.not_mem_nil, or_false] at hv
    rcases hv with rfl | rfl | rfl | rfl
    · show max 1 _ ≤ max 1 _; decide
    · show 1 ≤ _ ∧ 1 ≤ _; decide
    · show 1 ≤ _ ∧ 1 ≤ _; decide
    · show max 1 _ ≤ max 1 _; decide
  free := fun e he _ _ => Steady.untrapped ((show ∀ e ∈ g.edges, Idle.cls e.comp.cls ∉ [Part.squareFilter, .programmableFilter, .waveShaper] by decide) e he) _

/-- Two arms, the splitter in front with ratio `r`. -/
noncomputable def θ (r : ℝ) (c : Comp) : List ℝ := if c.uid = 2 then [r] else if c.uid = 6 then [0] else Idle.θ c

theorem θ_allowed {r : ℝ} (h0 : 0 ≤ r) (h1 : r ≤ 1) : Allowed stdSettings Idle.cls g (θ r) where
  edges := by
    intro e he
    simp only [g, List.mem_cons, List.not_mem_nil, or_false] at he
    rcases he with rfl | rfl | rfl | rfl
    · exact Idle.θ_allowed.edges ⟨0, 1, 0, laser 4, 10⟩ (by decide)
    · exact Idle.θ_allowed.edges ⟨1, 2, 0, Fixture.fiber 5, 30⟩ (by decide)
    · refine ⟨rfl, ?_, ?_⟩
      · intro k x lo up hx hl h1 h2
        match k with
        | 0 =>
          simp [θ, sheet, Idle.cls, entries, shaper] at hx h1 h2
          subst hx h1 h2
          norm_num [stdSettings]
        | k + 1 => simp [θ, shaper] at hx
      · intro k x d hx hl h1
        match k with
        | 0 => simp [sheet, Idle.cls, shaper] at hl
        | k + 1 => simp [θ, shaper] at hx
    · exact Idle.θ_allowed.edges ⟨2, 3, 0, diode 7, 20⟩ (by decide)
  nodes := by
    intro v hv
    simp only [g, List.mem_cons, List.not_mem_nil, or_false] at hv
    rcases hv with rfl | rfl | rfl | rfl
    · exact Idle.θ_allowed.nodes ⟨0, src, 1⟩ (by decide)
    · have hs : sheet stdSettings (Idle.cls (split 2).cls) (g.outEdges 1).length = splitSheet 2 := by
        rw [show (g.outEdges 1).length = 2 by decide]; rfl
      show (sheet stdSettings (Idle.cls (split 2).cls) (g.outEdges 1).length).Allows _
      rw [hs]
      refine ⟨rfl, ?_, ?_⟩
      · intro k x lo up hx hl h1 h2
        match k with
        | 0 =>
          simp [θ, splitSheet, entries, split] at hx h1 h2
          subst hx h1 h2
          exact ⟨by simpa using h0, by simpa⟩
        | k + 1 => simp [θ, split] at hx
      · intro k x d hx hl h1
        match k with
        | 0 => simp [splitSheet] at hl
        | k + 1 => simp [θ, split] at hx
    · exact Idle.θ_allowed.nodes ⟨2, split 3, 40⟩ (by decide)
    · exact Idle.θ_allowed.nodes ⟨3, snk, 2⟩ (by decide)

theorem g_sink : g.IsSink 3 := ⟨by decide, by decide⟩

/-- As the ratio goes to its lower bound, where the derivative does not exist, the scores tend to the score there. -/
example (T inp : Signal 4) : ∃ (vs : ℕ → ℝ) (v : ℝ),
    (∀ i : ℕ, scoreOf demoProp stdSettings Idle.cls Idle.rest (fun _ => false) inp (.node 3) (fun y => .ok (noiseSuppressionScore T y)) g (θ (1 / ((i : ℝ) + 1))) = .ok (vs i)) ∧
      scoreOf demoProp stdSettings Idle.cls Idle.rest (fun _ => false) inp (.node 3) (fun y => .ok (noiseSuppressionScore T y)) g (θ 0) = .ok v ∧ Tendsto vs atTop (𝓝 v) := by
  refine C99_continuous (by norm_num) (by norm_num [demoProp]) std_sensible Steady.rest_ok rest_cont g_tunable (.inl ⟨3, rfl, g_sink⟩)
    (fun s _ => C91_score_noise T s) (fun i => θ_allowed (by positivity) ?_) (θ_allowed le_rfl zero_le_one) ?_
  · rw [div_le_one (by positivity)]; linarith [(Nat.cast_nonneg i : (0 : ℝ) ≤ i)]
  · intro c _ k
    by_cases hc : c.uid = 2
    · simp only [θ, if_pos hc]
      match k with
      | 0 => exact tendsto_one_div_add_atTop_nhds_zero_nat (𝕜 := ℝ)
      | k + 1 => exact tendsto_const_nhds
    · simp only [θ, if_neg hc]
      exact tendsto_const_nhds

/-- Two arms: there is a best setting, and every score between the best and the worst is that of a setting. -/
example (T inp : Signal 4) := C99_scores (hasNoise := fun _ => true) (inp := inp) (by norm_num) (by norm_num [demoProp]) std_sensible Steady.rest_ok rest_cont g_tunable
  (.inl ⟨3, rfl, g_sink⟩) (fun s _ => C91_score_noise T s) ⟨_, θ_allowed (r := 1 / 4) (by norm_num) (by norm_num)⟩

/-- The line with a phase shifter more. -/
example (T inp : Signal 4) {v : ℝ} (hv : CanScore demoProp stdSettings Idle.cls Idle.rest (fun _ => true) inp (.node 3) (fun y => .ok (noiseSuppressionScore T y)) line v) :=
  C99_grown (by norm_num) (by norm_num [demoProp]) std_sensible Steady.rest_ok rest_cont line_wf Idle.line_grown lineSer_tunable (u := 3) ⟨by decide, by decide⟩
    (fun s _ => C91_score_noise T s) hv

example (T inp : Signal 4) : ∃ v, CanScore demoProp stdSettings Idle.cls Idle.rest (fun _ => true) inp (.node 3) (fun y => .ok (noiseSuppressionScore T y)) line v := by
  obtain ⟨best, worst, h, hiff⟩ := C99_scores (hasNoise := fun _ => true) (inp := inp) (by norm_num) (by norm_num [demoProp]) std_sensible Steady.rest_ok rest_cont line_tunable
    (at_ := .node 3) (.inl ⟨3, rfl, ⟨by decide, by decide⟩⟩) (fun s _ => C91_score_noise T s) ⟨_, Idle.θ_allowed⟩
  exact ⟨best, (hiff best).2 ⟨le_rfl, h⟩⟩

/-- A square filter of 1 THz lets more of the constant signal through than some narrower one. -/
example : ∃ ps' y', (sheet stdSettings .squareFilter 1).Allows ps' ∧ (Part.squareFilter.optic stdSettings Idle.rest ps').apply demoProp (fun _ => 1) = .ok y' ∧
    ∃ y, (Part.squareFilter.optic stdSettings Idle.rest [10 ^ 12]).apply demoProp (fun _ => 1) = .ok y ∧ energy y' < energy y := by
  have ha : (sheet stdSettings .squareFilter 1).Allows [(10 : ℝ) ^ 12] := by
    refine ⟨rfl, ?_, ?_⟩
    · intro k x lo up hx hl h1 h2
      match k with
      | 0 =>
        simp [sheet, entries] at hx h1 h2
        subst hx h1 h2
        norm_num
      | k + 1 => simp at hx
    · intro k x d hx hl h1
      match k with
      | 0 => simp [sheet] at hl
      | k + 1 => simp at hx
  obtain ⟨y, hy, -⟩ := (C58_square_filter (by norm_num) (P := demoProp) (by norm_num [demoProp]) (bw := 10 ^ 12) (by positivity) (fun _ => 1)).2.1
  obtain ⟨ps', y', h1, h2, h3⟩ := C99_square_filter (rest := Idle.rest) (by norm_num) (by norm_num) (P := demoProp) (by norm_num [demoProp]) (x := fun _ => 1)
    (fun h => one_ne_zero (congrFun h 0)) ha (y := y) hy
  exact ⟨ps', y', h1, h2, y, hy, h3⟩

end Settled

end Verif
