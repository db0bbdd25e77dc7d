import Verif.Spec.HofFigure
import Verif.Props.Layout
import Verif.Props.Evaluate
/-!
# C115: the figure of the hall of fame
-/

namespace Verif
open Graph

variable {n : Nat}

/-- Middle of the line plus a part of the perpendicular. -/
theorem arrowCentre_eq (p q : ℝ × ℝ) (rad : ℝ) :
    arrowCentre p q rad = ((p.1 + q.1) / 2 + 7 / 10 * rad * (q.2 - p.2), (p.2 + q.2) / 2 - 7 / 10 * rad * (q.1 - p.1)) := by
  unfold arrowCentre
  dsimp only
  set z : ℂ := ⟨q.1 - p.1, q.2 - p.2⟩ with hz
  have hn : Real.sqrt ((q.1 - p.1) ^ 2 + (q.2 - p.2) ^ 2) = ‖z‖ := by
    rw [Complex.norm_eq_sqrt_sq_add_sq]
  have hre : ‖z‖ * Real.cos (Complex.arg z) = q.1 - p.1 := Complex.norm_mul_cos_arg z
  have him : ‖z‖ * Real.sin (Complex.arg z) = q.2 - p.2 := Complex.norm_mul_sin_arg z
  rw [hn, Real.cos_sub_pi_div_two, Real.sin_sub_pi_div_two]
  refine Prod.ext ?_ ?_
  · dsimp only; rw [← him]; ring
  · dsimp only; rw [← hre]; ring

/-- **C115 (labels of arrows).**  The label of an arrow stands on the perpendicular through the middle of its line, on the side to which the arrow is bent, so the labels of parallel edges stand
at different places, and that of a single edge in the middle of the line. -/
theorem C115_labels {p q : ℝ × ℝ} (hpq : p ≠ q) (j k : Nat) :
    (arrowCentre p q (4 / 10 * (j : ℝ)) = arrowCentre p q (4 / 10 * (k : ℝ)) → j = k) ∧ arrowCentre p q (4 / 10 * ((0 : Nat) : ℝ)) = ((p.1 + q.1) / 2, (p.2 + q.2) / 2) := by
  constructor
  · intro h
    rw [arrowCentre_eq, arrowCentre_eq] at h
    obtain ⟨h1, h2⟩ := Prod.mk.inj h
    by_contra hjk
    have hne : (j : ℝ) - k ≠ 0 := sub_ne_zero.2 (by exact_mod_cast hjk)
    have e1 : ((j : ℝ) - k) * (q.2 - p.2) = 0 := by linarith
    have e2 : ((j : ℝ) - k) * (q.1 - p.1) = 0 := by linarith
    have f1 := (mul_eq_zero.1 e1).resolve_left hne
    have f2 := (mul_eq_zero.1 e2).resolve_left hne
    exact hpq (Prod.ext (by linarith) (by linarith))
  · rw [arrowCentre_eq]; simp

theorem drawNodes_ok {pos : NodeId → Option (ℝ × ℝ)} {P : NodeId → ℝ × ℝ → Prop} (l : List Node) (h : ∀ v ∈ l, ∃ p, pos v.id = some p ∧ P v.id p) :
    ∃ ns, drawNodes pos l = .ok ns ∧ List.Forall₂ (fun v x => P v.id x.1 ∧ x.2 = v.comp.cls) l ns := by
  induction l with
  | nil => exact ⟨[], rfl, .nil⟩
  | cons v l ih =>
    obtain ⟨p, hp, hP⟩ := h v (by simp)
    obtain ⟨ns, e, hf⟩ := ih (fun v hv => h v (List.mem_cons_of_mem _ hv))
    exact ⟨(p, v.comp.cls) :: ns, by rw [drawNodes, hp]; dsimp only; rw [e], .cons ⟨hP, rfl⟩ hf⟩

theorem drawArrows_ok {pos : NodeId → Option (ℝ × ℝ)} {P : NodeId → ℝ × ℝ → Prop} (l : List Edge)
    (h : ∀ e ∈ l, ∃ p q, pos e.src = some p ∧ pos e.dst = some q ∧ P e.src p ∧ P e.dst q ∧ p.1 < q.1) :
    ∃ as, drawArrows pos l = .ok as ∧ List.Forall₂ (fun e a => P e.src a.start ∧ P e.dst a.stop ∧ a.start.1 < a.stop.1 ∧ a.label = e.comp.cls ∧ a.rad = 2 / 5 * (e.key : ℝ) ∧
      a.labelAt = ((a.start.1 + a.stop.1) / 2 + 7 / 25 * (e.key : ℝ) * (a.stop.2 - a.start.2), (a.start.2 + a.stop.2) / 2 - 7 / 25 * (e.key : ℝ) * (a.stop.1 - a.start.1))) l as := by
  induction l with
  | nil => exact ⟨[], rfl, .nil⟩
  | cons e l ih =>
    obtain ⟨p, q, hp, hq, h1, h2, h3⟩ := h e (by simp)
    obtain ⟨as, ea, hf⟩ := ih (fun v hv => h v (List.mem_cons_of_mem _ hv))
    refine ⟨_, by rw [drawArrows, hp, hq]; dsimp only; rw [ea], .cons ⟨h1, h2, h3, rfl, by dsimp only; ring, ?_⟩ hf⟩
    dsimp only
    rw [arrowCentre_eq]
    exact Prod.ext (by dsimp only; ring) (by dsimp only; ring)

/-- **C115 (the drawing).**  A design without cycles and with one source is drawn: every node and every edge, with the name of its component, arrows pointing from left to right. -/
theorem C115_drawing {g : Graph} (hw : g.WF) (ha : g.Acyclic) (h1 : ∀ u v, g.IsSource u → g.IsSource v → u = v) (hne : g.nodes ≠ []) {fuel : Nat} (hf : g.nodes.length ≤ fuel) (u : NodeId → ℝ) :
    ∃ d, drawDesign g u fuel = .ok d ∧ d.Depicts g u := by
  obtain ⟨order, ho⟩ := topoSort_complete hw ha
  have ht := topoSort_sound hw ho
  cases order with
  | nil =>
    exfalso
    cases hn : g.nodes with
    | nil => exact hne hn
    | cons v vs =>
      have : v.id ∈ g.ids := by unfold ids; rw [hn]; simp
      have := (ht.mem_iff v.id).2 this
      simp at this
  | cons s rest =>
    have hs : g.IsSource s := by
      refine ⟨(ht.mem_iff s).1 (by simp), fun e he hd => ?_⟩
      have := ht.forward e he
      rw [hd, List.idxOf_cons_self] at this
      omega
    obtain ⟨row, hrow, hpos, -⟩ := C21_layout_longest_path hw ht h1 hf
    have hfwd := C21_edges_point_forward hw ht h1 hf hrow
    have hstand : ∀ v ∈ g.ids, ∃ r, row v = some r ∧ StandsAt g u v ((r : ℝ), u v * 4) := fun v hv => by
      obtain ⟨r, hr, hl⟩ := hpos v hv
      exact ⟨r, hr, s, r, hs, hl, by rw [mul_comm]⟩
    obtain ⟨ns, e1, f1⟩ := drawNodes_ok (pos := fun v => (row v).map (fun r => ((r : ℝ), u v * 4))) (P := StandsAt g u) g.nodes (fun v hv => by
      obtain ⟨r, hr, hst⟩ := hstand v.id (List.mem_map_of_mem (f := (·.id)) hv)
      exact ⟨_, by rw [hr]; rfl, hst⟩)
    obtain ⟨as, e2, f2⟩ := drawArrows_ok (pos := fun v => (row v).map (fun r => ((r : ℝ), u v * 4))) (P := StandsAt g u) g.edges (fun e he => by
      obtain ⟨r, hr, hst⟩ := hstand _ (hw.src_mem e he)
      obtain ⟨r', hr', hst'⟩ := hstand _ (hw.dst_mem e he)
      obtain ⟨a, b, ha', hb, hlt⟩ := hfwd e he
      rw [hr] at ha'; rw [hr'] at hb
      injection ha' with ha'; injection hb with hb
      subst ha' hb
      exact ⟨_, _, by rw [hr]; rfl, by rw [hr']; rfl, hst, hst', Nat.cast_lt.2 hlt⟩)
    refine ⟨⟨ns, as⟩, ?_, f1, f2⟩
    unfold drawDesign
    rw [ho]
    dsimp only
    rw [hrow]
    dsimp only
    rw [e1]
    dsimp only
    rw [e2]

/-- **C115 (two sources).**  A design with two sources is never drawn, however many rounds the layout is given. -/
theorem C115_two_sources {g : Graph} (hw : g.WF) (ha : g.Acyclic) {s t : NodeId} (hs : g.IsSource s) (ht : g.IsSource t) (hne : s ≠ t) (u : NodeId → ℝ) (fuel : Nat) :
    drawDesign g u fuel = .error .diverges := by
  obtain ⟨order, ho⟩ := topoSort_complete hw ha
  unfold drawDesign
  rw [ho]
  dsimp only
  rw [C21_layout_diverges (topoSort_sound hw ho) hs ht hne fuel]

section
variable {B : Sim n} {inp : Signal n} {params : ModelId → List ℝ} {flag : Bool} {sink : NodeId} {u : Nat → NodeId → ℝ} {fuel : Nat}

theorem plotHofLoop_ok (t : Fin n → ℂ) (hof : List (HofItem n)) (h : ∀ x ∈ hof, Showable B inp params flag sink fuel x) (i : Nat) :
    ∃ rows, (plotHofLoop B inp params flag sink (some t) u fuel i hof).2 = .ok rows ∧ rows.length = hof.length ∧
      (∀ (j : Nat) x r, hof[j]? = some x → rows[j]? = some r → r.design.Depicts x.g (u (i + j)) ∧ r.target = t ∧ r.index = i + j ∧ r.score = x.score ∧
        ∃ s, Delivers x.g B inp flag params (.node sink) s ∧ r.solution = fun k => ‖s k‖) ∧
      List.Forall₂ (fun x y => y.g = x.g ∧ y.score = x.score ∧ y.attr = some x.score) hof (plotHofLoop B inp params flag sink (some t) u fuel i hof).1 := by
  induction hof generalizing i with
  | nil => exact ⟨[], rfl, rfl, by simp, .nil⟩
  | cons x xs ih =>
    obtain ⟨hw, ha, h1, hf, hne, s, F, hF, hk⟩ := h x (by simp)
    obtain ⟨rows, e, hlen, hrows, hitems⟩ := ih (fun x hx => h x (List.mem_cons_of_mem _ hx)) (i + 1)
    obtain ⟨d, hd, hdep⟩ := C115_drawing hw ha h1 hne hf (u i)
    have hrun : (⟨params, flag, x.saves⟩ : Session n).run x.g B inp (.node sink) = (⟨params, flag, F⟩, .ok s) := (Session.run_ok hw ha).2 ⟨F, hF, hk, rfl⟩
    have hloop : plotHofLoop B inp params flag sink (some t) u fuel i (x :: xs) =
        ({ x with attr := some x.score, saves := F } :: (plotHofLoop B inp params flag sink (some t) u fuel (i + 1) xs).1, .ok (⟨d, t, fun j => ‖s j‖, i, x.score⟩ :: rows)) := by
      rw [plotHofLoop]
      dsimp only
      rw [hrun]
      dsimp only
      rw [hd]
      dsimp only
      cases hl : plotHofLoop B inp params flag sink (some t) u fuel (i + 1) xs with
      | mk a b =>
        rw [hl] at e
        dsimp only at e
        subst e
        rfl
    rw [hloop]
    refine ⟨_, rfl, by simp [hlen], ?_, .cons ⟨rfl, rfl, rfl⟩ hitems⟩
    intro j y r hy hr
    cases j with
    | zero =>
      simp only [List.getElem?_cons_zero, Option.some.injEq] at hy hr
      subst hy hr
      exact ⟨hdep, rfl, rfl, rfl, s, ⟨F, hF, hk⟩, rfl⟩
    | succ j =>
      rw [List.getElem?_cons_succ] at hy hr
      have := hrows j y r hy hr
      rw [show i + 1 + j = i + (j + 1) by omega] at this
      exact this

/-- **C115 (the figure).**  For an evaluator with a target and designs that can be shown, the figure has one row for each entry of the hall of fame, in its order: the design, the target, the magnitude
of what the design delivers at the sink with the present parameters, and the index and score of the entry.  Nothing about the designs changes but the score they carry. -/
theorem C115_figure (t : Fin n → ℂ) {E : EvalName} (hE : E ≠ .discreteTimeLens ∧ E ≠ .filterDesign ∧ E ≠ .noiseSuppression) {hof : List (HofItem n)} (hne : hof ≠ []) (h : ∀ x ∈ hof, Showable B inp params flag sink fuel x) :
    ∃ rows, (plotHof B inp params flag sink (E.target t) u fuel hof).2 = .ok rows ∧ rows.length = hof.length ∧
      (∀ (j : Nat) x r, hof[j]? = some x → rows[j]? = some r → r.design.Depicts x.g (u j) ∧ r.target = t ∧ r.index = j ∧ r.score = x.score ∧
        ∃ s, Delivers x.g B inp flag params (.node sink) s ∧ r.solution = fun k => ‖s k‖) ∧
      List.Forall₂ (fun x y => y.g = x.g ∧ y.score = x.score ∧ y.attr = some x.score) hof (plotHof B inp params flag sink (E.target t) u fuel hof).1 := by
  have hT : E.hasTarget = true := by
    obtain ⟨h1, h2, h3⟩ := hE
    cases E <;> first | rfl | exact absurd rfl h1 | exact absurd rfl h2 | exact absurd rfl h3
  unfold plotHof EvalName.target
  rw [if_neg hne, if_pos hT]
  have := plotHofLoop_ok (u := u) t hof h 0
  simpa only [Nat.zero_add] using this

/-- Simulating and then reading the stored state is scoring what the design delivers. -/
theorem stored_scores {g : Graph} (hw : g.WF) (ha : g.Acyclic) {k : Key} {score : Signal n → Except Err ℝ} {w : Session n} {r : ℝ}
    (h : (propagateAndEvaluate g B inp (.stored k score) w).2 = .ok r) : ∃ s, Delivers g B inp w.flag w.params k s ∧ score s = .ok r := by
  unfold propagateAndEvaluate at h
  cases hp : w.propagate g B inp with
  | mk w1 o =>
    rw [hp] at h
    cases o with
    | error e => simp at h
    | ok v =>
      simp only [evaluate] at h
      cases hm : w1.measure k with
      | error e => rw [hm] at h; simp at h
      | ok s =>
        rw [hm] at h
        have hr : w.run g B inp k = (w1, .ok s) := by unfold Session.run; rw [hp]; dsimp only; rw [hm]
        obtain ⟨F, hF, hk, -⟩ := (Session.run_ok hw ha).1 hr
        exact ⟨s, ⟨F, hF, hk⟩, h⟩

/-- **C115 (score and curve).**  If the score of an entry is what the evaluator gives for its design (evaluators which simulate the design, and those which read its stored state after a
simulation), then it is the score of the very signal whose magnitude its row shows. -/
theorem C115_score (t : Fin n → ℂ) {E : EvalName} (hE : E ≠ .discreteTimeLens ∧ E ≠ .filterDesign ∧ E ≠ .noiseSuppression) {hof : List (HofItem n)} (hne : hof ≠ []) (h : ∀ x ∈ hof, Showable B inp params flag sink fuel x)
    {score : Signal n → Except Err ℝ} (hs : ∀ x ∈ hof, (evaluate x.g B inp (.plain (.node sink) score) ⟨params, flag, x.saves⟩).2 = .ok x.score ∨
      (propagateAndEvaluate x.g B inp (.stored (.node sink) score) ⟨params, flag, x.saves⟩).2 = .ok x.score) :
    ∃ rows, (plotHof B inp params flag sink (E.target t) u fuel hof).2 = .ok rows ∧ rows.length = hof.length ∧
      ∀ r ∈ rows, ∃ s, (r.solution = fun k => ‖s k‖) ∧ score s = .ok r.score := by
  obtain ⟨rows, e, hlen, hrows, -⟩ := C115_figure (u := u) t hE hne h
  refine ⟨rows, e, hlen, fun r hr => ?_⟩
  obtain ⟨j, hj⟩ := List.getElem?_of_mem hr
  have hlt : j < hof.length := by
    have := (List.getElem?_eq_some_iff.1 hj).1
    omega
  have hx : hof[j]? = some hof[j] := List.getElem?_eq_getElem hlt
  obtain ⟨-, -, -, hsc, s, hd, hsol⟩ := hrows j _ r hx hj
  have hm : hof[j] ∈ hof := List.getElem_mem hlt
  obtain ⟨s', hd', hs'⟩ : ∃ s', Delivers hof[j].g B inp flag params (.node sink) s' ∧ score s' = .ok hof[j].score := by
    rcases hs _ hm with hs | hs
    · exact (C72_plain (h _ hm).wf (h _ hm).acyclic).1 hs
    · exact stored_scores (h _ hm).wf (h _ hm).acyclic hs
  obtain ⟨F, hF, hk⟩ := hd
  obtain ⟨F', hF', hk'⟩ := hd'
  have r1 := (Session.run_ok (h _ hm).wf (h _ hm).acyclic (w := ⟨params, flag, hof[j].saves⟩)).2 ⟨F, hF, hk, rfl⟩
  have r2 := (Session.run_ok (h _ hm).wf (h _ hm).acyclic (w := ⟨params, flag, hof[j].saves⟩)).2 ⟨F', hF', hk', rfl⟩
  rw [r1] at r2
  have hss : s = s' := Except.ok.inj (Prod.mk.inj r2).2
  exact ⟨s, hsol, by rw [hss, hs', hsc]⟩

/-- **C115 (no target).**  For the three evaluators without a target there is no figure, whatever the hall of fame. -/
theorem C115_no_target (t : Fin n → ℂ) {E : EvalName} (hE : E = .discreteTimeLens ∨ E = .filterDesign ∨ E = .noiseSuppression) (hof : List (HofItem n)) :
    (∀ rows, (plotHof B inp params flag sink (E.target t) u fuel hof).2 ≠ .ok rows) ∧
    ∀ x xs, hof = x :: xs → Showable B inp params flag sink fuel x → (plotHof B inp params flag sink (E.target t) u fuel hof).2 = .error .attributeError := by
  have ht : E.target t = none := by rcases hE with rfl | rfl | rfl <;> rfl
  rw [ht]
  unfold plotHof
  cases hof with
  | nil => rw [if_pos rfl]; exact ⟨fun _ h => by simp at h, fun _ _ h => by simp at h⟩
  | cons x xs =>
    rw [if_neg (by simp), plotHofLoop]
    dsimp only
    constructor
    · intro rows
      split
      · simp
      · split <;> simp
    · intro y ys hy hsh
      injection hy with hy _
      subst hy
      obtain ⟨hw, ha, h1, hf, hne, s, F, hF, hk⟩ := hsh
      obtain ⟨d, hd, -⟩ := C115_drawing hw ha h1 hne hf (u 0)
      rw [(Session.run_ok hw ha (w := ⟨params, flag, x.saves⟩)).2 ⟨F, hF, hk, rfl⟩]
      dsimp only
      rw [hd]

/-- **C115 (failure).**  An empty hall of fame raises, and a single entry that has no signal at the sink, or is not simulated, or has two sources, is enough that no figure is made. -/
theorem C115_failure (target : Option (Fin n → ℂ)) (hof : List (HofItem n)) (h : hof = [] ∨ ∃ x ∈ hof, x.g.WF ∧ x.g.Acyclic ∧
      ((∀ s, ¬ Delivers x.g B inp flag params (.node sink) s) ∨ ∃ a b, x.g.IsSource a ∧ x.g.IsSource b ∧ a ≠ b)) :
    ∀ rows, (plotHof B inp params flag sink target u fuel hof).2 ≠ .ok rows := by
  rcases h with rfl | ⟨x, hx, hw, ha, hbad⟩
  · intro rows; unfold plotHof; rw [if_pos rfl]; simp
  · have key : ∀ i, ∀ rows, (plotHofLoop B inp params flag sink target u fuel i hof).2 ≠ .ok rows := by
      induction hof with
      | nil => simp at hx
      | cons y ys ih =>
        intro i rows hr
        rw [plotHofLoop] at hr
        dsimp only at hr
        split at hr
        · simp at hr
        · rename_i w s hrun
          split at hr
          · simp at hr
          · rename_i d hd
            split at hr
            · simp at hr
            · rcases List.mem_cons.1 hx with rfl | hx
              · rcases hbad with hno | ⟨a, b, hsa, hsb, hab⟩
                · obtain ⟨F, hF, hk, -⟩ := (Session.run_ok hw ha).1 hrun
                  exact hno s ⟨F, hF, hk⟩
                · rw [C115_two_sources hw ha hsa hsb hab] at hd; cases hd
              · split at hr
                · simp at hr
                · rename_i hl
                  exact ih hx (i + 1) _ (by rw [hl])
    unfold plotHof
    rw [if_neg (List.ne_nil_of_mem hx)]
    exact key 0

end

/-! ### Cases meeting the hypotheses -/

namespace HofFigureDemo

/-- Two entries with the toy design, the parameter being 2. -/
noncomputable def hof : List (HofItem 1) := [⟨4, Toy.g, Store.empty, none⟩, ⟨4, Toy.g, Store.empty, some 3⟩]

theorem showable : ∀ x ∈ hof, Showable Toy.sim Toy.one (fun _ => [2]) false 1 2 x := by
  have hsrc : ∀ u, Toy.g.IsSource u → u = 0 := by
    rintro u ⟨h1, h2⟩
    have h3 := h2 ⟨0, 1, 0, ⟨5, 50, true, .singlePath, 1⟩, 50⟩ (by simp [Toy.g])
    rw [show Toy.g.ids = [0, 1] by decide] at h1
    rcases List.mem_cons.1 h1 with h | h
    · exact h
    · exact absurd (List.mem_singleton.1 h).symm h3
  have key : ∀ a b c, Showable Toy.sim Toy.one (fun _ => [2]) false 1 2 (⟨a, Toy.g, b, c⟩ : HofItem 1) := fun a b c =>
    ⟨Toy.g_wf, Toy.g_topo.acyclic, fun u v hu hv => (hsrc u hu).trans (hsrc v hv).symm, le_refl 2, by simp [Toy.g], _, Toy.delivers false _⟩
  intro x hx
  simp only [hof, List.mem_cons, List.not_mem_nil, or_false] at hx
  rcases hx with rfl | rfl <;> exact key _ _ _

/-- There are two rows with the curve of the toy design. -/
example (t : Fin 1 → ℂ) (u : Nat → NodeId → ℝ) : ∃ rows, (plotHof Toy.sim Toy.one (fun _ => [2]) false 1 (EvalName.pulseRepetition.target t) u 2 hof).2 = .ok rows ∧ rows.length = 2 := by
  obtain ⟨rows, h1, h2, -⟩ := C115_figure (u := u) t (E := .pulseRepetition) ⟨by simp, by simp, by simp⟩ (by simp [hof]) showable
  exact ⟨rows, h1, h2⟩

/-- The score `4` is that of the curve, for the evaluator that takes the square of the first sample. -/
example (t : Fin 1 → ℂ) (u : Nat → NodeId → ℝ) : ∃ rows, (plotHof Toy.sim Toy.one (fun _ => [2]) false 1 (EvalName.rfWaveform.target t) u 2 hof).2 = .ok rows ∧ rows.length = 2 ∧
    ∀ r ∈ rows, ∃ s : Signal 1, (r.solution = fun k => ‖s k‖) ∧ (fun s : Signal 1 => (.ok (‖s 0‖ ^ 2) : Except Err ℝ)) s = .ok r.score := by
  refine C115_score t ⟨by simp, by simp, by simp⟩ (by simp [hof]) showable (fun x hx => Or.inl ?_)
  have key : ∀ b, (evaluate Toy.g Toy.sim Toy.one (.plain (.node 1) (fun s => .ok (‖s 0‖ ^ 2))) ⟨fun _ => [2], false, b⟩).2 = .ok 4 := fun b =>
    (C72_plain Toy.g_wf Toy.g_topo.acyclic).2 ⟨_, Toy.delivers false _, by simp [Toy.out]; norm_num⟩
  simp only [hof, List.mem_cons, List.not_mem_nil, or_false] at hx
  rcases hx with rfl | rfl <;> exact key _

/-- No figure for the filter design. -/
example (t : Fin 1 → ℂ) (u : Nat → NodeId → ℝ) : (plotHof Toy.sim Toy.one (fun _ => [2]) false 1 (EvalName.filterDesign.target t) u 2 hof).2 = .error .attributeError :=
  (C115_no_target t (Or.inr (Or.inl rfl)) hof).2 _ _ rfl (showable _ (by simp [hof]))

/-- A design with two sources among the entries. -/
example (t : Option (Fin 1 → ℂ)) (u : Nat → NodeId → ℝ) (rows : List (HofRow 1)) :
    (plotHof Toy.sim Toy.one (fun _ => [2]) false 1 t u 2 (hof ++ [⟨0, ⟨[⟨0, Fixture.src, 1⟩, ⟨1, Fixture.src, 1⟩], []⟩, Store.empty, none⟩])).2 ≠ .ok rows := by
  have ht : (⟨[⟨0, Fixture.src, 1⟩, ⟨1, Fixture.src, 1⟩], []⟩ : Graph).IsTopo [0, 1] := ⟨by decide, by simp [ids], by simp⟩
  exact C115_failure t _ (Or.inr ⟨_, List.mem_append_right _ (List.mem_singleton.2 rfl), ⟨by decide, by decide, by simp, by simp⟩, ht.acyclic, Or.inr ⟨0, 1, ⟨by decide, by simp⟩, ⟨by decide, by simp⟩, by decide⟩⟩) rows

example := C115_labels (p := (0, 0)) (q := (1, 2)) (by simp) 0 1
example (u : NodeId → ℝ) := C115_drawing layoutDemo_ok.1 layoutDemo_ok.2.1.acyclic layoutDemo_ok.2.2 (by simp [layoutDemo]) (fuel := 4) (by decide) u
example (u : NodeId → ℝ) (fuel : Nat) : drawDesign ⟨[⟨0, Fixture.src, 1⟩, ⟨1, Fixture.src, 1⟩], []⟩ u fuel = .error .diverges := by
  have ht : (⟨[⟨0, Fixture.src, 1⟩, ⟨1, Fixture.src, 1⟩], []⟩ : Graph).IsTopo [0, 1] := ⟨by decide, by simp [ids], by simp⟩
  exact C115_two_sources ⟨by decide, by decide, by simp, by simp⟩ ht.acyclic (s := 0) (t := 1) ⟨by decide, by simp⟩ ⟨by decide, by simp⟩ (by decide) u fuel

end HofFigureDemo

end Verif
