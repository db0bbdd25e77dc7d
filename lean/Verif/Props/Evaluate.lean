import Verif.Spec.Evaluate
import Verif.Spec.Params
import Verif.Lemmas.Transfer
import Verif.Props.Evolution
import Verif.Props.Propagate
import Mathlib.Analysis.Calculus.Deriv.Mul
import Mathlib.Analysis.Calculus.Deriv.Pow
/-!
# C72: evaluations in sequence
-/

namespace Verif
open Graph

variable {n : Nat}

section
variable {g : Graph} {B : Sim n} {inp : Signal n}

theorem Session.run_ok (hw : g.WF) (ha : g.Acyclic) {k : Key} {w : Session n} {s : Signal n} {w' : Session n} :
    w.run g B inp k = (w', .ok s) ↔ ∃ F, IsFlow g (B w.flag w.params) inp F ∧ F k = some s ∧ w' = { w with saves := F } := by
  obtain ⟨order, ho⟩ := topoSort_complete hw ha
  unfold Session.run Session.propagate
  cases h : Verif.propagate g (B w.flag w.params) inp w.saves with
  | error e =>
    simp only [Prod.mk.injEq, reduceCtorEq, and_false, false_iff, not_exists, not_and]
    intro F hF
    rw [(propagate_iff hw).2 ⟨⟨order, ho⟩, hF⟩] at h
    cases h
  | ok st =>
    have hF := ((propagate_iff hw).1 h).2
    have huniq : ∀ F, IsFlow g (B w.flag w.params) inp F → F = st := fun F hF' => by
      have := (propagate_iff hw (old := w.saves)).2 ⟨⟨order, ho⟩, hF'⟩
      rw [h] at this
      exact (Except.ok.inj this).symm
    simp only [Session.measure, Prod.mk.injEq]
    constructor
    · rintro ⟨h1, h2⟩
      cases hk : st k with
      | none => rw [hk] at h2; cases h2
      | some x =>
        rw [hk] at h2
        exact ⟨st, hF, by rw [hk, Except.ok.inj h2], h1.symm⟩
    · rintro ⟨F, hF', hk, hw'⟩
      rw [huniq F hF'] at hk hw'
      rw [hk]
      exact ⟨hw'.symm, rfl⟩

/-- A run changes the stored states at most. -/
theorem Session.run_frame {k : Key} {w : Session n} : (w.run g B inp k).1.params = w.params ∧ (w.run g B inp k).1.flag = w.flag := by
  unfold Session.run Session.propagate
  cases h : Verif.propagate g (B w.flag w.params) inp w.saves <;> exact ⟨rfl, rfl⟩

theorem propagate_old (B' : Behav (Signal n)) (o o' : Store (Signal n)) : Verif.propagate g B' inp o = Verif.propagate g B' inp o' := by
  unfold Verif.propagate
  cases g.topoSort <;> rfl

theorem Session.run_saves (k : Key) (w : Session n) (st : Store (Signal n)) : (({ w with saves := st } : Session n).run g B inp k).2 = (w.run g B inp k).2 := by
  unfold Session.run Session.propagate
  simp only
  rw [propagate_old _ st w.saves]
  cases h : Verif.propagate g (B w.flag w.params) inp w.saves <;> rfl

theorem Session.run_saves_ok {k : Key} {w : Session n} {st : Store (Signal n)} {w' s} (h : w.run g B inp k = (w', .ok s)) :
    ({ w with saves := st } : Session n).run g B inp k = (w', .ok s) := by
  unfold Session.run Session.propagate at h ⊢
  simp only
  rw [propagate_old _ st w.saves]
  cases hp : Verif.propagate g (B w.flag w.params) inp w.saves with
  | error e => rw [hp] at h; simp at h
  | ok st' => rw [hp] at h; exact h

end

/-- **C72.** What the scores are. A plain evaluator scores what the design delivers with the present parameters and noise switch, whatever was
stored before. -/
theorem C72_plain {g : Graph} (hw : g.WF) (ha : g.Acyclic) {B : Sim n} {inp : Signal n} {k : Key} {score : Signal n → Except Err ℝ} {w : Session n} {r : ℝ} :
    (evaluate g B inp (.plain k score) w).2 = .ok r ↔ ∃ s, Delivers g B inp w.flag w.params k s ∧ score s = .ok r := by
  unfold evaluate
  simp only
  cases h : w.run g B inp k with
  | mk w1 r1 =>
  cases r1 with
  | error e =>
    simp only [reduceCtorEq, false_iff, not_exists, not_and]
    rintro s ⟨F, hF, hk⟩
    rw [(Session.run_ok hw ha).2 ⟨F, hF, hk, rfl⟩] at h
    cases h
  | ok s =>
    obtain ⟨F, hF, hk, -⟩ := (Session.run_ok hw ha).1 h
    constructor
    · exact fun hs => ⟨s, ⟨F, hF, hk⟩, hs⟩
    · rintro ⟨s', ⟨F', hF', hk'⟩, hs⟩
      have := (Session.run_ok hw ha (w := w)).2 ⟨F', hF', hk', rfl⟩
      rw [h] at this
      obtain ⟨-, h2⟩ := Prod.mk.inj this
      rw [← Except.ok.inj h2] at hs
      exact hs

/-- **C72.** The signal-to-noise score is one minus the mean of noisy over noiseless amplitude: `0` without noise, and the *smaller* (better, as scores
are minimised) the more the noise adds to the amplitude. Neither the switch nor stored states matter. -/
theorem C72_snr (hn : 0 < n) {g : Graph} (hw : g.WF) (ha : g.Acyclic) {B : Sim n} {inp : Signal n} {k : Key} {w : Session n} {r : ℝ} :
    (evaluate g B inp (.snr k) w).2 = .ok r ↔ ∃ s s', Delivers g B inp false w.params k s ∧ Delivers g B inp true w.params k s' ∧ (∀ i, s i ≠ 0) ∧
      r = 1 - (∑ i, ‖s' i‖ / ‖s i‖) / n := by
  have hn' : (n : ℝ) ≠ 0 := by positivity
  have hval : ∀ s s' : Signal n, (∀ i, s i ≠ 0) → npMean (fun i => (‖s i‖ - ‖s' i‖) / ‖s i‖) = 1 - (∑ i, ‖s' i‖ / ‖s i‖) / n := by
    intro s s' h0
    unfold npMean
    have : ∀ i, (‖s i‖ - ‖s' i‖) / ‖s i‖ = 1 - ‖s' i‖ / ‖s i‖ := fun i => by
      have := norm_ne_zero_iff.2 (h0 i)
      field_simp
    simp only [this, Finset.sum_sub_distrib, Finset.sum_const, Finset.card_univ, Fintype.card_fin, nsmul_eq_mul, mul_one]
    field_simp
  unfold evaluate
  simp only
  cases h : ({ w with flag := false } : Session n).run g B inp k with
  | mk w1 r1 =>
  have hfr := Session.run_frame (g := g) (B := B) (inp := inp) (k := k) (w := { w with flag := false })
  rw [h] at hfr
  cases r1 with
  | error e =>
    simp only [reduceCtorEq, false_iff, not_exists, not_and]
    rintro s s' ⟨F, hF, hk⟩
    rw [(Session.run_ok hw ha).2 ⟨F, hF, hk, rfl⟩] at h
    cases h
  | ok s1 =>
    obtain ⟨F, hF, hk, -⟩ := (Session.run_ok hw ha).1 h
    have u1 : ∀ s, Delivers g B inp false w.params k s → s = s1 := by
      rintro s ⟨F', hF', hk'⟩
      have := (Session.run_ok hw ha (w := { w with flag := false })).2 ⟨F', hF', hk', rfl⟩
      rw [h] at this
      exact (Except.ok.inj (Prod.mk.inj this).2).symm
    simp only
    cases h' : ({ w1 with flag := true } : Session n).run g B inp k with
    | mk w2 r2 =>
    have hp : w1.params = w.params := hfr.1
    cases r2 with
    | error e =>
      simp only [reduceCtorEq, false_iff, not_exists, not_and]
      rintro s s' - ⟨F', hF', hk'⟩
      rw [(Session.run_ok hw ha).2 ⟨F', by simpa [hp] using hF', hk', rfl⟩] at h'
      cases h'
    | ok s2 =>
      obtain ⟨F2, hF2, hk2, -⟩ := (Session.run_ok hw ha).1 h'
      have u2 : ∀ s, Delivers g B inp true w.params k s → s = s2 := by
        rintro s ⟨F', hF', hk'⟩
        have := (Session.run_ok hw ha (w := { w1 with flag := true })).2 ⟨F', by simpa [hp] using hF', hk', rfl⟩
        rw [h'] at this
        exact (Except.ok.inj (Prod.mk.inj this).2).symm
      simp only
      split
      · rename_i hz
        simp only [reduceCtorEq, false_iff, not_exists, not_and]
        intro s s' hs hs' h0
        obtain ⟨i, hi⟩ := hz
        rw [u1 s hs] at h0
        exact absurd (norm_eq_zero.1 hi) (h0 i)
      · rename_i hz
        have h0 : ∀ i, s1 i ≠ 0 := fun i hi => hz ⟨i, by rw [hi, norm_zero]⟩
        rw [hval s1 s2 h0]
        constructor
        · intro hr
          exact ⟨s1, s2, ⟨F, hF, hk⟩, ⟨F2, by simpa [hp] using hF2, hk2⟩, h0, (Except.ok.inj hr).symm⟩
        · rintro ⟨s, s', hs, hs', -, rfl⟩
          rw [u1 s hs, u2 s' hs']

/-! ### What an evaluation leaves behind -/

theorem setParams_self {w : Session n} {m : ModelId} {φ : ℝ} (h : w.params m = [φ]) : w.setParams m [φ] = w := by
  unfold Session.setParams
  have : (fun x => if x = m then [φ] else w.params x) = w.params := by
    funext x
    split
    · rename_i hx; rw [hx, h]
    · rfl
  rw [this]

theorem phaseMean_frame {g : Graph} {B : Sim n} {inp : Signal n} {k : Key} {m : ModelId} {w : Session n} {φ : ℝ} (h : w.params m = [φ]) :
    (phaseMean g B inp k m w φ).1.params = w.params ∧ (phaseMean g B inp k m w φ).1.flag = w.flag := by
  unfold phaseMean
  rw [setParams_self h]
  have hf := Session.run_frame (g := g) (B := B) (inp := inp) (k := k) (w := w)
  cases hr : w.run g B inp k with
  | mk w1 r => rw [hr] at hf; cases r <;> exact hf

theorem phaseMeanBoth_frame {g : Graph} {B : Sim n} {inp : Signal n} {k : Key} {m1 m2 : ModelId} {w : Session n} {x y : ℝ} (h : w.params m1 = [x])
    (h' : w.params m2 = [y]) :
    (phaseMeanBoth g B inp k m1 m2 w x y).1.params = w.params ∧ (phaseMeanBoth g B inp k m1 m2 w x y).1.flag = w.flag := by
  unfold phaseMeanBoth
  rw [setParams_self h, setParams_self h']
  have hf := Session.run_frame (g := g) (B := B) (inp := inp) (k := k) (w := w)
  cases hr : w.run g B inp k with
  | mk w1 r => rw [hr] at hf; cases r <;> exact hf

/-- **C72.** No evaluation changes a parameter, successful or not. Only the signal-to-noise evaluator touches the noise switch: whatever it was, it is
on after a successful evaluation. -/
theorem C72_leaves {g : Graph} {B : Sim n} {inp : Signal n} {E : Evaluator n} {w : Session n} (h1 : OnePhase w.params g E) :
    (evaluate g B inp E w).1.params = w.params ∧ (¬ E.IsSnr → (evaluate g B inp E w).1.flag = w.flag) ∧
    (E.IsSnr → ∀ r, (evaluate g B inp E w).2 = .ok r → (evaluate g B inp E w).1.flag = true) := by
  unfold evaluate
  cases E with
  | plain k score =>
    have hf := Session.run_frame (g := g) (B := B) (inp := inp) (k := k) (w := w)
    simp only
    cases hr : w.run g B inp k with
    | mk w1 r => rw [hr] at hf; cases r <;> exact ⟨hf.1, fun _ => hf.2, fun h => h.elim⟩
  | atOutput score =>
    simp only
    cases outputNode g with
    | error e => exact ⟨rfl, fun _ => rfl, fun h => h.elim⟩
    | ok v =>
      have hf := Session.run_frame (g := g) (B := B) (inp := inp) (k := .node v) (w := w)
      simp only
      cases hr : w.run g B inp (.node v) with
      | mk w1 r => rw [hr] at hf; cases r <;> exact ⟨hf.1, fun _ => hf.2, fun h => h.elim⟩
  | timeLens k score =>
    have hf := Session.run_frame (g := g) (B := B) (inp := inp) (k := .edge ⟨0, 1, 0⟩) (w := w)
    simp only
    cases hr : w.run g B inp (.edge ⟨0, 1, 0⟩) with
    | mk w1 r =>
      rw [hr] at hf
      cases r with
      | error e => exact ⟨hf.1, fun _ => hf.2, fun h => h.elim⟩
      | ok s =>
        simp only
        cases w1.measure k <;> exact ⟨hf.1, fun _ => hf.2, fun h => h.elim⟩
  | stored k score =>
    simp only
    cases w.measure k <;> exact ⟨rfl, fun _ => rfl, fun h => h.elim⟩
  | snr k =>
    have hf := Session.run_frame (g := g) (B := B) (inp := inp) (k := k) (w := { w with flag := false })
    simp only
    cases hr : ({ w with flag := false } : Session n).run g B inp k with
    | mk w1 r =>
      rw [hr] at hf
      cases r with
      | error e => exact ⟨hf.1, fun h => absurd trivial h, fun _ r h => by simp at h⟩
      | ok s =>
        have hf' := Session.run_frame (g := g) (B := B) (inp := inp) (k := k) (w := { w1 with flag := true })
        simp only
        cases hr' : ({ w1 with flag := true } : Session n).run g B inp k with
        | mk w2 r' =>
          rw [hr'] at hf'
          cases r' with
          | error e => exact ⟨hf'.1.trans hf.1, fun h => absurd trivial h, fun _ r h => by simp at h⟩
          | ok s2 =>
            simp only
            split
            · exact ⟨hf'.1.trans hf.1, fun h => absurd trivial h, fun _ r h => by simp at h⟩
            · exact ⟨hf'.1.trans hf.1, fun h => absurd trivial h, fun _ r _ => hf'.2⟩
  | phase cls k =>
    simp only
    split
    · rename_i e he
      have hem : e ∈ edgesOfClass g cls := by rw [he]; simp
      obtain ⟨hm, hc⟩ := List.mem_filter.1 hem
      obtain ⟨φ, hφ⟩ := h1 e hm (by simpa using hc)
      simp only [hφ]
      have hf := phaseMean_frame (g := g) (B := B) (inp := inp) (k := k) hφ
      cases hr : phaseMean g B inp k e.comp.uid w φ with
      | mk w1 r =>
        rw [hr] at hf
        cases r with
        | error x => exact ⟨hf.1, fun _ => hf.2, fun h => h.elim⟩
        | ok x =>
          simp only
          have hf1 : w1.params = w.params := hf.1
          rw [setParams_self (by rw [hf1, hφ])]
          exact ⟨hf.1, fun _ => hf.2, fun h => h.elim⟩
    · exact ⟨rfl, fun _ => rfl, fun h => h.elim⟩
  | second cls m1 m2 k =>
    simp only
    split
    · exact ⟨rfl, fun _ => rfl, fun h => h.elim⟩
    · obtain ⟨⟨x, hx⟩, y, hy⟩ := h1
      simp only [hx, hy]
      have hf := phaseMeanBoth_frame (g := g) (B := B) (inp := inp) (k := k) hx hy
      cases hr : phaseMeanBoth g B inp k m1 m2 w x y with
      | mk w1 r =>
        rw [hr] at hf
        cases r with
        | error x => exact ⟨hf.1, fun _ => hf.2, fun h => h.elim⟩
        | ok z =>
          simp only
          have hf1 : w1.params = w.params := hf.1
          rw [setParams_self (w := w1) (by rw [hf1, hx]), setParams_self (by rw [hf1, hy])]
          exact ⟨hf.1, fun _ => hf.2, fun h => h.elim⟩

theorem phaseMean_saves {g : Graph} {B : Sim n} {inp : Signal n} {k : Key} {m : ModelId} (w : Session n) (st : Store (Signal n)) (x : ℝ) :
    (phaseMean g B inp k m { w with saves := st } x).2 = (phaseMean g B inp k m w x).2 := by
  unfold phaseMean
  have e : ({ w with saves := st } : Session n).setParams m [x] = { w.setParams m [x] with saves := st } := rfl
  rw [e]
  have := Session.run_saves (g := g) (B := B) (inp := inp) k (w.setParams m [x]) st
  cases h1 : ({ w.setParams m [x] with saves := st } : Session n).run g B inp k with
  | mk w1 r1 =>
    cases h2 : (w.setParams m [x]).run g B inp k with
    | mk w2 r2 =>
      rw [h1, h2] at this
      simp only at this
      subst this
      cases r1 <;> rfl

theorem phaseMeanBoth_saves {g : Graph} {B : Sim n} {inp : Signal n} {k : Key} {m1 m2 : ModelId} (w : Session n) (st : Store (Signal n)) (x y : ℝ) :
    (phaseMeanBoth g B inp k m1 m2 { w with saves := st } x y).2 = (phaseMeanBoth g B inp k m1 m2 w x y).2 := by
  unfold phaseMeanBoth
  have e : (({ w with saves := st } : Session n).setParams m1 [x]).setParams m2 [y] = { (w.setParams m1 [x]).setParams m2 [y] with saves := st } := rfl
  rw [e]
  have := Session.run_saves (g := g) (B := B) (inp := inp) k ((w.setParams m1 [x]).setParams m2 [y]) st
  cases h1 : ({ (w.setParams m1 [x]).setParams m2 [y] with saves := st } : Session n).run g B inp k with
  | mk w1 r1 =>
    cases h2 : ((w.setParams m1 [x]).setParams m2 [y]).run g B inp k with
    | mk w2 r2 =>
      rw [h1, h2] at this
      simp only at this
      subst this
      cases r1 <;> rfl

/-- **C72.** Score or exception do not depend on what was stored before, for all evaluators but the one for radio-frequency waveforms; that one sees
nothing but what was stored. -/
theorem C72_fresh {g : Graph} {B : Sim n} {inp : Signal n} {E : Evaluator n} (w : Session n) :
    (¬ E.IsStored → ∀ st, (evaluate g B inp E { w with saves := st }).2 = (evaluate g B inp E w).2) ∧
    (E.IsStored → ∀ p f, (evaluate g B inp E { w with params := p, flag := f }).2 = (evaluate g B inp E w).2) := by
  constructor
  · intro hE st
    unfold evaluate
    cases E with
    | stored k score => exact absurd trivial hE
    | plain k score =>
      have := Session.run_saves (g := g) (B := B) (inp := inp) k w st
      simp only
      cases h1 : ({ w with saves := st } : Session n).run g B inp k with
      | mk w1 r1 =>
        cases h2 : w.run g B inp k with
        | mk w2 r2 =>
          rw [h1, h2] at this
          simp only at this
          subst this
          cases r1 <;> rfl
    | atOutput score =>
      simp only
      cases outputNode g with
      | error e => rfl
      | ok v =>
        have := Session.run_saves (g := g) (B := B) (inp := inp) (.node v) w st
        simp only
        cases h1 : ({ w with saves := st } : Session n).run g B inp (.node v) with
        | mk w1 r1 =>
          cases h2 : w.run g B inp (.node v) with
          | mk w2 r2 =>
            rw [h1, h2] at this
            simp only at this
            subst this
            cases r1 <;> rfl
    | timeLens k score =>
      have := Session.run_saves (g := g) (B := B) (inp := inp) (.edge ⟨0, 1, 0⟩) w st
      simp only
      cases h2 : w.run g B inp (.edge ⟨0, 1, 0⟩) with
      | mk w2 r2 =>
        cases r2 with
        | ok s => rw [Session.run_saves_ok h2]
        | error e =>
          cases h1 : ({ w with saves := st } : Session n).run g B inp (.edge ⟨0, 1, 0⟩) with
          | mk w1 r1 =>
            rw [h1, h2] at this
            simp only at this
            subst this
            rfl
    | snr k =>
      have := Session.run_saves (g := g) (B := B) (inp := inp) k { w with flag := false } st
      simp only
      cases h2 : ({ w with flag := false } : Session n).run g B inp k with
      | mk w2 r2 =>
        cases r2 with
        | ok s =>
          have := Session.run_saves_ok (st := st) h2
          simp only at this
          rw [this]
        | error e =>
          cases h1 : ({ w with flag := false, saves := st } : Session n).run g B inp k with
          | mk w1 r1 =>
            rw [h1, h2] at this
            simp only at this
            subst this
            rfl
    | phase cls k =>
      simp only
      split
      · rename_i e he
        cases w.params e.comp.uid with
        | nil => rfl
        | cons φ l =>
          simp only [phaseMean_saves]
          have := phaseMean_saves (g := g) (B := B) (inp := inp) (k := k) (m := e.comp.uid) w st φ
          cases h1 : phaseMean g B inp k e.comp.uid { w with saves := st } φ with
          | mk w1 r1 =>
            cases h2 : phaseMean g B inp k e.comp.uid w φ with
            | mk w2 r2 =>
              rw [h1, h2] at this
              simp only at this
              subst this
              cases r1 <;> rfl
      · rfl
    | second cls m1 m2 k =>
      simp only
      split
      · rfl
      · cases w.params m1 with
        | nil => rfl
        | cons x l =>
          cases w.params m2 with
          | nil => rfl
          | cons y l' =>
            simp only [phaseMeanBoth_saves]
            have := phaseMeanBoth_saves (g := g) (B := B) (inp := inp) (k := k) (m1 := m1) (m2 := m2) w st x y
            cases h1 : phaseMeanBoth g B inp k m1 m2 { w with saves := st } x y with
            | mk w1 r1 =>
              cases h2 : phaseMeanBoth g B inp k m1 m2 w x y with
              | mk w2 r2 =>
                rw [h1, h2] at this
                simp only at this
                subst this
                cases r1 <;> rfl
  · intro hE p f
    cases E with
    | stored k score =>
      unfold evaluate Session.measure
      simp only
      cases w.saves k <;> rfl
    | _ => exact hE.elim

theorem evaluateAll_frame {B : Sim n} {inp : Signal n} {xs : List (Graph × Evaluator n)} {w : Session n} (h1 : ∀ x ∈ xs, OnePhase w.params x.1 x.2) :
    (evaluateAll B inp xs w).params = w.params ∧ ((∀ x ∈ xs, ¬ x.2.IsSnr) → (evaluateAll B inp xs w).flag = w.flag) := by
  induction xs generalizing w with
  | nil => exact ⟨rfl, fun _ => rfl⟩
  | cons x xs ih =>
    have hl := C72_leaves (g := x.1) (B := B) (inp := inp) (E := x.2) (w := w) (h1 x (by simp))
    have := ih (w := (evaluate x.1 B inp x.2 w).1) (fun y hy => by rw [hl.1]; exact h1 y (by simp [hy]))
    refine ⟨this.1.trans hl.1, fun hs => (this.2 (fun y hy => hs y (by simp [hy]))).trans (hl.2.1 (hs x (by simp)))⟩

/-- **C72.** Earlier evaluations, of any designs with any evaluators but the signal-to-noise ratio, successful or not, make no difference to a score; after
a signal-to-noise evaluation every score is that of the noisy system, whatever the switch had been set to. -/
theorem C72_sequence {B : Sim n} {inp : Signal n} {xs : List (Graph × Evaluator n)} {w : Session n} (h1 : ∀ x ∈ xs, OnePhase w.params x.1 x.2)
    (hs : ∀ x ∈ xs, ¬ x.2.IsSnr) {g : Graph} {E : Evaluator n} (hE : ¬ E.IsStored) :
    (evaluate g B inp E (evaluateAll B inp xs w)).2 = (evaluate g B inp E w).2 ∧
    (∀ g0 k r, (evaluate g0 B inp (.snr k) w).2 = .ok r →
      (evaluate g B inp E (evaluateAll B inp xs (evaluate g0 B inp (.snr k) w).1)).2 = (evaluate g B inp E { w with flag := true }).2) := by
  have key : ∀ w1 w2 : Session n, w1.params = w2.params → w1.flag = w2.flag → (evaluate g B inp E w1).2 = (evaluate g B inp E w2).2 := by
    intro w1 w2 hp hf
    have := (C72_fresh (g := g) (B := B) (inp := inp) (E := E) w2).1 hE w1.saves
    rw [← this, ← hp, ← hf]
  constructor
  · obtain ⟨a, b⟩ := evaluateAll_frame (B := B) (inp := inp) h1
    exact key _ _ a (b hs)
  · intro g0 k r hr
    have hl := C72_leaves (g := g0) (B := B) (inp := inp) (E := .snr k) (w := w) trivial
    obtain ⟨a, b⟩ := evaluateAll_frame (B := B) (inp := inp) (xs := xs) (w := (evaluate g0 B inp (.snr k) w).1) (fun x hx => by rw [hl.1]; exact h1 x hx)
    exact key _ _ (a.trans hl.1) ((b hs).trans (hl.2.2 trivial r hr))

/-- **C72.** The waveform evaluator raises `KeyError` on a design not yet propagated, keeps its score when parameters change, and is right only directly
after a propagation, as in the objective function. -/
theorem C72_stored {g : Graph} {B : Sim n} {inp : Signal n} {k : Key} {score : Signal n → Except Err ℝ} (w : Session n) :
    (w.saves = Store.empty → (evaluate g B inp (.stored k score) w).2 = .error .keyError) ∧
    (∀ m ps, (evaluate g B inp (.stored k score) (w.setParams m ps)).2 = (evaluate g B inp (.stored k score) w).2) ∧
    (∀ r, (propagateAndEvaluate g B inp (.stored k score) w).2 = .ok r ↔ (evaluate g B inp (.plain k score) w).2 = .ok r) := by
  refine ⟨?_, ?_, ?_⟩
  · intro h
    unfold evaluate Session.measure
    rw [h]
    rfl
  · intro m ps
    exact (C72_fresh (g := g) (B := B) (inp := inp) (E := .stored k score) w).2 trivial _ w.flag
  · intro r
    unfold propagateAndEvaluate evaluate Session.run
    simp only
    cases w.propagate g B inp with
    | mk w1 r1 =>
      cases r1 with
      | error e => simp
      | ok u =>
        simp only
        cases w1.measure k <;> rfl

/-! ### Phase shifters during evolution -/

/-- The components on the edges. -/
def edgeComps (g : Graph) : List Comp := g.edges.map (·.comp)

/-- What one step does to the components on the edges. -/
theorem step_comps {lib g r g'} (hw : g.WF) (ha : g.Acyclic) (hs : LegalStep lib g r g') :
    (∃ c, c.cls ∈ lib.edge ∧ (edgeComps g').Perm (c :: edgeComps g)) ∨ (∃ c, c.prot = false ∧ (edgeComps g).Perm (c :: edgeComps g')) ∨
    (edgeComps g').Perm (edgeComps g) ∨
    (∃ c c' l, c.prot = false ∧ (c'.cls ∈ lib.edge ∨ c'.cls ∈ lib.source ∨ c'.cls ∈ lib.sink) ∧ (edgeComps g).Perm (c :: l) ∧ (edgeComps g').Perm (c' :: l)) := by
  unfold edgeComps
  cases legal_kind hs with
  | series i _ _ hi hnid hec _ h =>
    obtain ⟨e, he, _, h'', h1, hnodes, hperm⟩ := addSeries_shape hw hi hnid r.draw.ec r.draw.nc
    rw [h] at h1; injection h1 with h1; subst h1
    refine .inl ⟨r.draw.ec, hec, (hperm.map _).trans ?_⟩
    have h2 := (removeEdge_perm hw he).map (·.comp)
    refine .trans ?_ ((h2.cons r.draw.ec).symm)
    split
    · simp
    · simpa using List.Perm.swap ..
  | parallel u v o _ _ ho hi hec h =>
    subst h
    unfold addParallel
    exact .inl ⟨r.draw.ec, hec, (addEdge_perm _ _ _ _ _).map _⟩
  | remove i _ _ hi h =>
    obtain ⟨e, he, nu, mu, nv, mv, hr, iu, iv, hnode, pe, pu, pv, hin, hout⟩ := removeLocs_spec hw hi
    obtain ⟨keep, _, _, hres⟩ := removeComp_shape hw he hr hnode
    rw [h] at hres; injection hres with hres
    refine .inr (.inl ⟨e.comp, pe, ((removeEdge_perm hw he).map _).trans ?_⟩)
    rw [List.map_cons]
    refine List.Perm.cons _ ?_
    split at hres
    · subst hres; exact .refl _
    · rename_i hpth
      obtain ⟨n1, n2, n3⟩ := (mergeFacts ha he hpth).no_edges ha
      obtain ⟨_, _, _, hp⟩ := contract_edges n1 n2 n3
      subst hres
      have := hp.map (fun b => b.2.2.1)
      simpa [List.map_map, Function.comp_def, Edge.body, renEdge] using this.symm
  | swapNode v _ hloc hi _ h => subst h; exact .inr (.inr (.inl (.refl _)))
  | swapEdge v _ hloc hi hc h =>
    rcases mem_swapLocs hi with ⟨m, hm, hl, _⟩ | ⟨e, he, hl, hpe, _⟩
    · rw [hloc] at hl; cases hl
    · rw [hloc] at hl; injection hl with hl
      have hcls : r.draw.ec.cls ∈ lib.edge ∨ r.draw.ec.cls ∈ lib.source ∨ r.draw.ec.cls ∈ lib.sink := by
        rw [hloc] at hc
        unfold swapSet at hc
        simp only at hc
        split at hc
        · simp at hc
        · have := (List.mem_filter.1 hc).1
          unfold edgeCategory at this
          split at this
          · exact .inr (.inl this)
          · split at this
            · exact .inr (.inr this)
            · exact .inl this
      refine .inr (.inr (.inr ⟨e.comp, r.draw.ec, (g.removeEdge e.ref).edges.map (·.comp), hpe, hcls, (removeEdge_perm hw he).map _, ?_⟩))
      subst h
      unfold setEdge
      simp only
      refine (((removeEdge_perm hw he).map _).map _).trans ?_
      simp only [List.map_cons, hl, if_true]
      refine List.Perm.cons _ ?_
      rw [List.map_map]
      refine List.Perm.of_eq (List.map_congr_left (fun x hx => ?_))
      have : x.ref ≠ e.ref := by
        unfold removeEdge at hx
        simpa using (List.mem_filter.1 hx).2
      simp [this]

/-- **C72.** Components of a class that evolution cannot draw, all of them protected, are kept by every history, as the same objects: none is added, lost
or exchanged. -/
theorem C72_undrawn_class {lib g0 rs g} (hw : g0.WF) (ha : g0.Acyclic) (h : History lib g0 rs g) {c : ClassId} (h1 : c ∉ lib.edge) (h2 : c ∉ lib.source)
    (h3 : c ∉ lib.sink) (hp : ∀ e ∈ g0.edges, e.comp.cls = c → e.comp.prot = true) :
    ((edgeComps g).filter (fun x => x.cls = c)).Perm ((edgeComps g0).filter (fun x => x.cls = c)) := by
  induction h with
  | nil => exact .refl _
  | @step rs g r g' hh hs ih =>
    obtain ⟨w, a⟩ := history_dag hw ha hh
    have hprot : ∀ x ∈ edgeComps g, x.cls = c → x.prot = true := by
      intro x hx hxc
      have : x ∈ (edgeComps g0).filter (fun x => x.cls = c) := ih.mem_iff.1 (List.mem_filter.2 ⟨hx, by simpa using hxc⟩)
      obtain ⟨e, he, rfl⟩ := List.mem_map.1 (List.mem_filter.1 this).1
      exact hp e he hxc
    refine .trans ?_ ih
    rcases step_comps w a hs with ⟨x, hx, hP⟩ | ⟨x, hx, hP⟩ | hP | ⟨x, x', l, hx, hx', hP, hP'⟩
    · have := hP.filter (fun x => decide (x.cls = c))
      rw [List.filter_cons_of_neg (by simp only [decide_eq_true_eq]; exact fun hc => h1 (hc ▸ hx))] at this
      exact this
    · have := hP.filter (fun x => decide (x.cls = c))
      rw [List.filter_cons_of_neg (by
        simp only [decide_eq_true_eq]
        intro hc
        have := hprot x (hP.mem_iff.2 (by simp)) hc
        rw [hx] at this; cases this)] at this
      exact this.symm
    · exact hP.filter _
    · have e1 := hP.filter (fun x => decide (x.cls = c))
      have e2 := hP'.filter (fun x => decide (x.cls = c))
      rw [List.filter_cons_of_neg (by
        simp only [decide_eq_true_eq]
        intro hc
        have := hprot x (hP.mem_iff.2 (by simp)) hc
        rw [hx] at this; cases this)] at e1
      rw [List.filter_cons_of_neg (by
        simp only [decide_eq_true_eq]
        intro hc
        rcases hx' with hx' | hx' | hx'
        · exact h1 (hc ▸ hx')
        · exact h2 (hc ▸ hx')
        · exact h3 (hc ▸ hx'))] at e2
      exact e2.trans e1.symm

theorem edgeClassCount_eq (g : Graph) (c : ClassId) : edgeClassCount g c = ((edgeComps g).filter (fun x => x.cls = c)).length := by
  unfold edgeClassCount edgeComps
  rw [← List.countP_eq_length_filter, List.countP_map]
  rfl

theorem edgesOfClass_length (g : Graph) (c : ClassId) : (edgesOfClass g c).length = edgeClassCount g c := by
  unfold edgesOfClass edgeClassCount
  rw [List.countP_eq_length_filter]

/-- **C72.** The phase-sensitivity evaluator raises `RuntimeError` unless there is exactly one phase shifter. Starting from a design with one (protected) phase
shifter this never happens during evolution, provided phase shifters are not in the sets evolution draws from; if they are, one that is added in series
or in parallel makes every later evaluation fail. -/
theorem C72_phase_runtime {B : Sim n} {inp : Signal n} {c : ClassId} {k : Key} {g : Graph} (w : Session n) :
    (edgeClassCount g c ≠ 1 → evaluate g B inp (.phase c k) w = (w, .error .runtimeError)) ∧
    (∀ lib g0 rs, g0.WF → g0.Acyclic → History lib g0 rs g → c ∉ lib.edge → c ∉ lib.source → c ∉ lib.sink →
      (∀ e ∈ g0.edges, e.comp.cls = c → e.comp.prot = true) → edgeClassCount g0 c = 1 → edgeClassCount g c = 1) ∧
    (∀ lib g0 r, g0.WF → g0.Acyclic → LegalStep lib g0 r g → r.op = .addSeries ∨ r.op = .addParallel → r.draw.ec.cls = c → edgeClassCount g0 c = 1 →
      evaluate g B inp (.phase c k) w = (w, .error .runtimeError)) := by
  have first : ∀ g : Graph, edgeClassCount g c ≠ 1 → evaluate g B inp (.phase c k) w = (w, .error .runtimeError) := by
    intro g h
    rw [← edgesOfClass_length] at h
    unfold evaluate
    simp only
    split
    · rename_i e he; rw [he] at h; simp at h
    · rfl
  refine ⟨first g, ?_, ?_⟩
  · intro lib g0 rs hw ha hh h1 h2 h3 hp hc
    rw [edgeClassCount_eq] at hc ⊢
    rw [(C72_undrawn_class hw ha hh h1 h2 h3 hp).length_eq, hc]
  · intro lib g0 r hw ha hs hop hc h1
    refine first g ?_
    have : (edgeComps g).Perm (r.draw.ec :: edgeComps g0) := by
      unfold edgeComps
      cases legal_kind hs with
      | series i _ _ hi hnid hec _ h =>
        obtain ⟨e, he, _, h'', h1, hnodes, hperm⟩ := addSeries_shape hw hi hnid r.draw.ec r.draw.nc
        rw [h] at h1; injection h1 with h1; subst h1
        refine (hperm.map _).trans ?_
        have h2 := (removeEdge_perm hw he).map (·.comp)
        refine .trans ?_ ((h2.cons r.draw.ec).symm)
        split
        · simp
        · simpa using List.Perm.swap ..
      | parallel u v o _ _ ho hi hec h =>
        subst h
        unfold addParallel
        exact (addEdge_perm _ _ _ _ _).map _
      | remove i ho _ hi h => rw [ho] at hop; rcases hop with h | h <;> cases h
      | swapNode v ho hloc hi _ h => rw [ho] at hop; rcases hop with h | h <;> cases h
      | swapEdge v ho hloc hi hc h => rw [ho] at hop; rcases hop with h | h <;> cases h
    rw [edgeClassCount_eq] at h1 ⊢
    rw [(this.filter _).length_eq, List.filter_cons_of_pos (by simpa using hc), List.length_cons, h1]
    omega

/-- **C72.** With one phase shifter the score is minus the slope of the mean power as a function of its phase, at its present value. -/
theorem C72_phase {g : Graph} (hw : g.WF) (ha : g.Acyclic) {B : Sim n} {inp : Signal n} {c : ClassId} {k : Key} {w : Session n} {e : Edge} (he : e ∈ g.edges)
    (hc : e.comp.cls = c) (h1 : edgeClassCount g c = 1) {φ : ℝ} {ps} (hφ : w.params e.comp.uid = φ :: ps) {p : ℝ → ℝ}
    (hp : ∀ x, ∃ s, Delivers g B inp w.flag (withParams w.params e.comp.uid [x]) k s ∧ p x = (∑ i, (s i).re) / n) :
    (evaluate g B inp (.phase c k) w).2 = .ok (-|deriv p φ|) := by
  have hm : ∀ x, (phaseMean g B inp k e.comp.uid w x).2 = .ok (p x) := by
    intro x
    obtain ⟨s, ⟨F, hF, hk⟩, hs⟩ := hp x
    unfold phaseMean
    rw [(Session.run_ok hw ha).2 ⟨F, hF, hk, rfl⟩, hs]
    rfl
  have hl : edgesOfClass g c = [e] := by
    rw [← edgesOfClass_length, List.length_eq_one_iff] at h1
    obtain ⟨a, ha⟩ := h1
    have : e ∈ edgesOfClass g c := List.mem_filter.2 ⟨he, by simpa using hc⟩
    rw [ha] at this ⊢
    rw [List.mem_singleton.1 this]
  unfold evaluate
  simp only [hl, hφ]
  have h0 := hm φ
  cases hr : phaseMean g B inp k e.comp.uid w φ with
  | mk w1 r =>
    rw [hr] at h0
    simp only at h0
    subst h0
    simp only [hm, valueOf]

theorem propagate_congr {S : Type} {g : Graph} {B B' : Behav S} {inp : S} {old : Store S} (hn : ∀ m ∈ g.nodes, B.node m.comp = B'.node m.comp)
    (he : ∀ e ∈ g.edges, B.edge e.comp = B'.edge e.comp ∧ B.noise e.comp = B'.noise e.comp) : Verif.propagate g B inp old = Verif.propagate g B' inp old := by
  have hout : ∀ (states : List S) (es : List Edge) (i : Nat) (st : Store S), (∀ e ∈ es, e ∈ g.edges) → outLoop B states i es st = outLoop B' states i es st := by
    intro states es
    induction es with
    | nil => intro i st _; rfl
    | cons e es ih =>
      intro i st h
      unfold outLoop
      have ht : ∀ s, throughEdge B e s = throughEdge B' e s := by
        intro s
        unfold throughEdge
        rw [(he e (h e (by simp))).1, (he e (h e (by simp))).2]
      cases states[i]? with
      | none => rfl
      | some s =>
        simp only [ht]
        cases throughEdge B' e s with
        | error x => rfl
        | ok s' => exact ih _ _ (fun x hx => h x (by simp [hx]))
  have hnode : ∀ v st, propNode g B inp v st = propNode g B' inp v st := by
    intro v st
    unfold propNode
    split
    · rfl
    · cases hv : g.node? v with
      | none => rfl
      | some m =>
        have hm : m ∈ g.nodes := by
          unfold Graph.node? at hv
          exact List.mem_of_find?_eq_some hv
        simp only [hn m hm]
        split
        · rfl
        · have := fun (outs : List S) (st : Store S) => hout outs (g.outEdges v) 0 st (fun e he => (mem_outEdges.1 he).1)
          simp only [this]
  unfold Verif.propagate
  cases g.topoSort with
  | error x => rfl
  | ok order =>
    simp only [propagateWith]
    have : ∀ (vs : List NodeId) (st : Store S), propLoop g B inp vs st = propLoop g B' inp vs st := by
      intro vs
      induction vs with
      | nil => intro st; rfl
      | cons v vs ih =>
        intro st
        unfold propLoop
        rw [hnode]
        cases propNode g B' inp v st with
        | error x => rfl
        | ok st' => exact ih _
    exact this _ _

/-- **C72.** The second-order evaluator differentiates with respect to the phase shifters it was created with. On a copy of the design, which does not contain
these objects, every evaluation that succeeds gives the same score, zero. -/
theorem C72_second_foreign {g : Graph} {B : Sim n} (hB : OwnParams B) {inp : Signal n} {c : ClassId} {m1 m2 : ModelId} {k : Key} {w : Session n}
    (h1 : m1 ∉ componentsOf g) (h2 : m2 ∉ componentsOf g) {r : ℝ} (h : (evaluate g B inp (.second c m1 m2 k) w).2 = .ok r) : r = 0 := by
  have hprop : ∀ x y, (phaseMeanBoth g B inp k m1 m2 w x y).2 = (phaseMeanBoth g B inp k m1 m2 w 0 0).2 := by
    intro x y
    have hc : ∀ m ∈ componentsOf g, (((w.setParams m1 [x]).setParams m2 [y]).params m) = (((w.setParams m1 [0]).setParams m2 [0]).params m) := by
      intro m hm
      have a1 : m ≠ m1 := fun hc => h1 (hc ▸ hm)
      have a2 : m ≠ m2 := fun hc => h2 (hc ▸ hm)
      simp [Session.setParams, a1, a2]
    have hB' := fun (c : Comp) (hm : c.uid ∈ componentsOf g) => hB w.flag ((w.setParams m1 [x]).setParams m2 [y]).params ((w.setParams m1 [0]).setParams m2 [0]).params c (hc _ hm)
    have := propagate_congr (g := g) (inp := inp) (old := w.saves) (fun m hm => (hB' m.comp (List.mem_append_left _ (List.mem_map.2 ⟨m, hm, rfl⟩))).1)
      (fun e he => (hB' e.comp (List.mem_append_right _ (List.mem_map.2 ⟨e, he, rfl⟩))).2)
    unfold phaseMeanBoth Session.run Session.propagate
    have f1 : ((w.setParams m1 [x]).setParams m2 [y]).flag = w.flag := rfl
    have f2 : ((w.setParams m1 [0]).setParams m2 [0]).flag = w.flag := rfl
    have g1 : ((w.setParams m1 [x]).setParams m2 [y]).saves = w.saves := rfl
    have g2 : ((w.setParams m1 [0]).setParams m2 [0]).saves = w.saves := rfl
    rw [f1, f2, g1, g2, this]
    cases Verif.propagate g (B w.flag ((w.setParams m1 [0]).setParams m2 [0]).params) inp w.saves with
    | error e => rfl
    | ok st =>
      simp only [Session.measure]
      cases st k <;> rfl
  unfold evaluate at h
  simp only at h
  split at h
  · simp at h
  · split at h
    · rename_i φ1 _ φ2 _ _ _
      cases hr : phaseMeanBoth g B inp k m1 m2 w φ1 φ2 with
      | mk w1 r1 =>
        rw [hr] at h
        cases r1 with
        | error x => simp at h
        | ok z =>
          simp only [hprop] at h
          have := Except.ok.inj h
          rw [← this]
          simp
    · simp at h

/-- **C72.** The second-order evaluator raises RuntimeError exactly on designs with fewer than two phase shifters, before anything is simulated.
Otherwise its score is minus the slope of the mean squared output in the first phase plus the square of the mixed second derivative. -/
theorem C72_second {g : Graph} (hw : g.WF) (ha : g.Acyclic) {B : Sim n} {inp : Signal n} {c : ClassId} {m1 m2 : ModelId} {k : Key} {w : Session n} :
    (edgeClassCount g c < 2 → evaluate g B inp (.second c m1 m2 k) w = (w, .error .runtimeError)) ∧
    (2 ≤ edgeClassCount g c → ∀ (φ1 φ2 : ℝ) (p1 p2 : List ℝ) (p : ℝ → ℝ → ℝ), w.params m1 = φ1 :: p1 → w.params m2 = φ2 :: p2 →
      (∀ x y, ∃ s, Delivers g B inp w.flag (withParams (withParams w.params m1 [x]) m2 [y]) k s ∧ p x y = (∑ i, (s i ^ 2).re) / n) →
      (evaluate g B inp (.second c m1 m2 k) w).2 =
        .ok (-(|deriv (fun x => p x φ2) φ1| + (deriv (fun y => deriv (fun x => p x y) φ1) φ2) ^ 2))) := by
  constructor
  · intro h
    rw [← edgesOfClass_length] at h
    unfold evaluate
    simp only [h, if_true]
  · intro h φ1 φ2 p1 p2 p h1 h2 hp
    rw [← edgesOfClass_length] at h
    have hm : ∀ x y, (phaseMeanBoth g B inp k m1 m2 w x y).2 = .ok (p x y) := by
      intro x y
      obtain ⟨s, ⟨F, hF, hk⟩, hs⟩ := hp x y
      unfold phaseMeanBoth
      rw [(Session.run_ok hw ha).2 ⟨F, hF, hk, rfl⟩, hs]
      rfl
    unfold evaluate
    simp only [show ¬ (edgesOfClass g c).length < 2 by omega, if_false, h1, h2]
    have h0 := hm φ1 φ2
    cases hr : phaseMeanBoth g B inp k m1 m2 w φ1 φ2 with
    | mk w1 r =>
      rw [hr] at h0
      simp only at h0
      subst h0
      simp only [hm, valueOf]

/-- **C72.** The time-lens evaluator needs the edge `(0, 1, 0)`: without it there is no score, and adding a component in series on that edge removes it. -/
theorem C72_time_lens {g : Graph} (hw : g.WF) (ha : g.Acyclic) {B : Sim n} {inp : Signal n} {k : Key} {score : Signal n → Signal n → Except Err ℝ} (w : Session n) :
    ((∀ e ∈ g.edges, e.ref ≠ ⟨0, 1, 0⟩) → ∀ r, (evaluate g B inp (.timeLens k score) w).2 ≠ .ok r) ∧
    (∀ lib g' rc i, LegalStep lib g rc g' → rc.op = .addSeries → rc.loc = .iface i → i.edge = ⟨0, 1, 0⟩ →
      ∀ r, (evaluate g' B inp (.timeLens k score) w).2 ≠ .ok r) := by
  have first : ∀ g : Graph, g.WF → g.Acyclic → (∀ e ∈ g.edges, e.ref ≠ ⟨0, 1, 0⟩) → ∀ r, (evaluate g B inp (.timeLens k score) w).2 ≠ .ok r := by
    intro g hw ha he r h
    unfold evaluate at h
    simp only at h
    cases hr : w.run g B inp (.edge ⟨0, 1, 0⟩) with
    | mk w1 r1 =>
      rw [hr] at h
      cases r1 with
      | error e => simp at h
      | ok s =>
        obtain ⟨F, hF, hk, -⟩ := (Session.run_ok hw ha).1 hr
        rcases hF.only (.edge ⟨0, 1, 0⟩) (by simp [hk]) with ⟨e, hm, hc⟩ | ⟨m, _, _, hc⟩
        · injection hc with hc; exact he e hm hc.symm
        · cases hc
  refine ⟨first g hw ha, ?_⟩
  intro lib g' rc i hs hop hloc hi
  obtain ⟨w', a'⟩ := history_dag hw ha (.step .nil hs)
  refine first g' w' a' ?_
  cases legal_kind hs with
  | series j _ hl hj hnid _ _ h =>
    rw [hloc] at hl
    injection hl with hl
    subst hl
    obtain ⟨e, he, hr, h'', h1, hnodes, hperm⟩ := addSeries_shape hw hj hnid rc.draw.ec rc.draw.nc
    rw [h] at h1; injection h1 with h1; subst h1
    rw [hi] at hr
    have hids : rc.draw.nid ≠ e.src ∧ rc.draw.nid ≠ e.dst := ⟨fun hc => hnid (hc ▸ hw.src_mem e he), fun hc => hnid (hc ▸ hw.dst_mem e he)⟩
    have hsrc : e.src = 0 := congrArg EdgeRef.src hr.symm
    have hdst : e.dst = 1 := congrArg EdgeRef.dst hr.symm
    intro x hx hc
    rcases List.mem_append.1 (hperm.mem_iff.1 hx) with hx | hx
    · have x1 : x.src = 0 := congrArg EdgeRef.src hc
      have x2 : x.dst = 1 := congrArg EdgeRef.dst hc
      split at hx
      · simp only [List.mem_cons, List.not_mem_nil, or_false] at hx
        rcases hx with rfl | rfl
        · exact hids.2 (x2.trans hdst.symm)
        · exact hids.1 (x1.trans hsrc.symm)
      · simp only [List.mem_cons, List.not_mem_nil, or_false] at hx
        rcases hx with rfl | rfl
        · exact hids.2 (x2.trans hdst.symm)
        · exact hids.1 (x1.trans hsrc.symm)
    · unfold removeEdge at hx
      have := (List.mem_filter.1 hx).2
      simp only [ne_eq, decide_not, Bool.not_eq_eq_eq_not, Bool.not_true, decide_eq_false_iff_not] at this
      exact this (hc.trans hr)
  | parallel u v o ho => rw [hop] at ho; cases ho
  | remove i ho => rw [hop] at ho; cases ho
  | swapNode v ho => rw [hop] at ho; cases ho
  | swapEdge v ho => rw [hop] at ho; cases ho

/-! ### Cases meeting the hypotheses -/

namespace Toy

/-- Source, one phase shifter of class 50 (protected), detector. -/
def g : Graph :=
  { nodes := [⟨0, Fixture.src, 1⟩, ⟨1, Fixture.snk, 2⟩]
    edges := [⟨0, 1, 0, ⟨5, 50, true, .singlePath, 1⟩, 50⟩] }

theorem g_wf : g.WF where
  ids_nodup := by decide
  refs_nodup := by decide
  src_mem := by decide
  dst_mem := by decide

theorem g_topo : g.IsTopo [0, 1] where
  nodup := by decide
  mem_iff := by intro v; rw [show g.ids = [0, 1] by decide]
  forward := by decide

/-- The edge multiplies by its parameter; noise adds one. -/
noncomputable def sim : Sim 1 := fun f p =>
  { node := fun _ ins _ out => .ok (List.replicate (max 1 out) (ins.headD (fun _ => 0)))
    edge := fun c s => .ok (fun i => ((p c.uid).headD 0 : ℝ) * s i)
    noise := fun _ => if f then some (fun s => .ok (fun i => s i + 1)) else none }

theorem sim_own : OwnParams sim := by
  intro f p p' c h
  refine ⟨rfl, ?_, rfl⟩
  unfold sim
  simp only [h]

noncomputable def one : Signal 1 := fun _ => 1

/-- The state at the detector. -/
noncomputable def out (f : Bool) (p : ModelId → List ℝ) : Signal 1 := fun _ => ((p 5).headD 0 : ℝ) + (if f then 1 else 0)

theorem delivers (f : Bool) (p : ModelId → List ℝ) : Delivers g sim one f p (.node 1) (out f p) := by
  have : ∃ w', (⟨p, f, Store.empty⟩ : Session 1).run g sim one (.node 1) = (w', .ok (out f p)) := by
    have ho : g.topoSort = .ok [0, 1] := by decide +kernel
    unfold Session.run Session.propagate Verif.propagate
    simp only [ho]
    cases f
    · refine ⟨_, Prod.ext rfl ?_⟩
      have : out false p = fun i => ((p 5).headD 0 : ℝ) * one i := by funext i; simp [out, one]
      rw [this]
      rfl
    · refine ⟨_, Prod.ext rfl ?_⟩
      have : out true p = fun i => ((p 5).headD 0 : ℝ) * one i + 1 := by funext i; simp [out, one]
      rw [this]
      rfl
  obtain ⟨w', h⟩ := this
  obtain ⟨F, hF, hk, -⟩ := (Session.run_ok g_wf g_topo.acyclic).1 h
  exact ⟨F, hF, hk⟩

/-- Parameter 2, no noise. -/
noncomputable def w0 : Session 1 := ⟨fun _ => [2], false, Store.empty⟩

/-- The phase evaluator finds slope one. -/
example : (evaluate g sim one (.phase 50 (.node 1)) w0).2 = .ok (-1) := by
  have := C72_phase (n := 1) g_wf g_topo.acyclic (B := sim) (inp := one) (c := 50) (k := .node 1) (w := w0) (e := ⟨0, 1, 0, ⟨5, 50, true, .singlePath, 1⟩, 50⟩)
    (by decide) rfl (by decide) (φ := 2) (ps := []) rfl (p := fun x => x) (fun x => ⟨_, delivers _ _, by simp [out, withParams, w0]⟩)
  rw [this]
  simp

/-- The signal-to-noise evaluator prefers noise (`-1/2`), and leaves it switched on: the score of a plain evaluator goes from 2 to 3. -/
theorem snr_switches : (evaluate g sim one (.snr (.node 1)) w0).2 = .ok (-1 / 2) ∧
    (evaluate g sim one (.plain (.node 1) (fun s => .ok (s 0).re)) w0).2 = .ok 2 ∧
    (evaluate g sim one (.plain (.node 1) (fun s => .ok (s 0).re)) (evaluate g sim one (.snr (.node 1)) w0).1).2 = .ok 3 := by
  have h1 : (evaluate g sim one (.snr (.node 1)) w0).2 = .ok (-1 / 2) := by
    refine (C72_snr (by decide) g_wf g_topo.acyclic).2 ⟨_, _, delivers _ _, delivers _ _, ?_, ?_⟩
    · intro i; simp [out, w0]
    · have : (2 : ℂ) + 1 = 3 := by norm_num
      simp [out, w0, this]
      norm_num
  refine ⟨h1, (C72_plain g_wf g_topo.acyclic).2 ⟨_, delivers _ _, by simp [out, w0]⟩, ?_⟩
  have := (C72_sequence (B := sim) (inp := one) (xs := []) (w := w0) (by simp) (by simp) (g := g) (E := .plain (.node 1) (fun s => .ok (s 0).re))
    (fun h => h)).2 g (.node 1) _ h1
  refine this.trans ((C72_plain g_wf g_topo.acyclic).2 ⟨_, delivers _ _, ?_⟩)
  simp [out, w0]
  norm_num

/-- **C72.** After a change of parameters the waveform evaluator still gives the score of the old ones (2, not 7). -/
theorem stored_stale : ∃ w : Session 1, (∀ m, w.params m = [2]) ∧
    (evaluate g sim one (.stored (.node 1) (fun s => .ok (s 0).re)) (w.setParams 5 [7])).2 = .ok 2 ∧
    (evaluate g sim one (.plain (.node 1) (fun s => .ok (s 0).re)) (w.setParams 5 [7])).2 = .ok 7 := by
  obtain ⟨F, hF, hk⟩ := delivers false w0.params
  refine ⟨{ w0 with saves := F }, fun _ => rfl, ?_, (C72_plain g_wf g_topo.acyclic).2 ⟨_, delivers _ _, by simp [out, Session.setParams, w0]⟩⟩
  unfold evaluate Session.measure
  simp only [Session.setParams, hk]
  simp [out, w0]

/-- Source, phase shifter, detector, with connectors in between. -/
def g3 : Graph :=
  { nodes := [⟨0, Fixture.src, 1⟩, ⟨1, Fixture.split 2, 40⟩, ⟨2, Fixture.split 3, 40⟩, ⟨3, Fixture.snk, 2⟩]
    edges := [⟨0, 1, 0, Fixture.laser 4, 10⟩, ⟨1, 2, 0, ⟨5, 50, true, .singlePath, 1⟩, 50⟩, ⟨2, 3, 0, Fixture.diode 7, 20⟩] }

theorem g3_wf : g3.WF where
  ids_nodup := by decide
  refs_nodup := by decide
  src_mem := by decide
  dst_mem := by decide

theorem g3_topo : g3.IsTopo [0, 1, 2, 3] where
  nodup := by decide
  mem_iff := by intro v; rw [show g3.ids = [0, 1, 2, 3] by decide]
  forward := by decide

/-- `g3` with a component in series on the edge `(0, 1, 0)`. -/
def g3s : Graph :=
  { nodes := [⟨0, Fixture.src, 1⟩, ⟨1, Fixture.split 2, 40⟩, ⟨2, Fixture.split 3, 40⟩, ⟨3, Fixture.snk, 2⟩, ⟨9, Fixture.split 9, 40⟩]
    edges := [⟨0, 9, 0, Fixture.laser 4, 10⟩, ⟨1, 2, 0, ⟨5, 50, true, .singlePath, 1⟩, 50⟩, ⟨2, 3, 0, Fixture.diode 7, 20⟩, ⟨9, 1, 0, Fixture.fiber 8, 30⟩] }

/-- The hypotheses on evolution: class 50 is not in the library, and series insertion on the edge `(0, 1, 0)` is a legal step. -/
theorem ser_legal : LegalStep Fixture.lib g3 ⟨.addSeries, .iface ⟨1, ⟨0, 1, 0⟩⟩, ⟨9, Fixture.fiber 8, Fixture.split 9⟩⟩ g3s :=
  ⟨⟨_, g3_topo, by decide⟩, ⟨by decide, by decide, by decide⟩, by decide +kernel⟩

example : ∃ rs g', History Fixture.lib g3 rs g' ∧ rs ≠ [] ∧ edgeClassCount g' 50 = 1 :=
  ⟨_, _, .step .nil ser_legal, by simp, (C72_phase_runtime (n := 1) (B := sim) (inp := one) (k := .node 1) w0).2.1 _ _ _ g3_wf g3_topo.acyclic (.step .nil ser_legal)
    (by decide) (by decide) (by decide) (by decide) (by decide)⟩

example : ∀ r, (evaluate g3s sim one (.timeLens (.node 1) (fun _ s => .ok (s 0).re)) w0).2 ≠ .ok r :=
  (C72_time_lens g3_wf g3_topo.acyclic w0).2 _ _ _ _ ser_legal rfl rfl rfl

/-- Two phase shifters in a row, for the second-order evaluator; the evaluator holds components 105 and 106 of the original. -/
def g2 : Graph :=
  { nodes := [⟨0, Fixture.src, 1⟩, ⟨1, Fixture.split 3, 40⟩, ⟨2, Fixture.snk, 2⟩]
    edges := [⟨0, 1, 0, ⟨5, 50, true, .singlePath, 1⟩, 50⟩, ⟨1, 2, 0, ⟨6, 50, true, .singlePath, 1⟩, 50⟩] }

example : ∃ r, (evaluate g2 sim one (.second 50 105 106 (.node 2)) w0).2 = .ok r := by
  have ho : g2.topoSort = .ok [0, 1, 2] := by decide +kernel
  unfold evaluate
  simp only [show ¬ (edgesOfClass g2 50).length < 2 by decide, if_false, w0, phaseMeanBoth, Session.run, Session.propagate, Verif.propagate, ho]
  exact ⟨_, rfl⟩

theorem g2_wf : g2.WF where
  ids_nodup := by decide
  refs_nodup := by decide
  src_mem := by decide
  dst_mem := by decide

theorem g2_topo : g2.IsTopo [0, 1, 2] where
  nodup := by decide
  mem_iff := by intro v; rw [show g2.ids = [0, 1, 2] by decide]
  forward := by decide

/-- With its own phase shifters: the output is `x y`, its mean square `x² y²`, and the score at (2, 2) is `-(16 + 16²)`. -/
example : (evaluate g2 sim one (.second 50 5 6 (.node 2)) w0).2 = .ok (-272) := by
  have hd : ∀ x y : ℝ, Delivers g2 sim one false (withParams (withParams w0.params 5 [x]) 6 [y]) (.node 2) (fun i => y * (x * one i)) := by
    intro x y
    have : ∃ w', (⟨withParams (withParams w0.params 5 [x]) 6 [y], false, Store.empty⟩ : Session 1).run g2 sim one (.node 2) = (w', .ok (fun i => y * (x * one i))) := by
      have ho : g2.topoSort = .ok [0, 1, 2] := by decide +kernel
      unfold Session.run Session.propagate Verif.propagate
      simp only [ho]
      exact ⟨_, Prod.ext rfl rfl⟩
    obtain ⟨w', h⟩ := this
    obtain ⟨F, hF, hk, -⟩ := (Session.run_ok g2_wf g2_topo.acyclic).1 h
    exact ⟨F, hF, hk⟩
  have := (C72_second (n := 1) g2_wf g2_topo.acyclic (B := sim) (inp := one) (c := 50) (m1 := 5) (m2 := 6) (k := .node 2) (w := w0)).2 (by decide) 2 2 [] []
    (fun x y => x ^ 2 * y ^ 2) rfl rfl (fun x y => ⟨_, hd x y, by
      have : ((y : ℂ) * (x * 1)) ^ 2 = ((x ^ 2 * y ^ 2 : ℝ) : ℂ) := by push_cast; ring
      simp only [one, this, Complex.ofReal_re, Finset.univ_unique, Finset.sum_const, Finset.card_singleton, one_smul, Nat.cast_one, div_one]⟩)
  rw [this]
  have h1 : ∀ c a : ℝ, deriv (fun x : ℝ => x ^ 2 * c) a = 2 * a * c := by
    intro c a
    rw [deriv_mul_const (by fun_prop)]
    simp
  simp only [h1]
  have h2 : deriv (fun y : ℝ => 2 * 2 * y ^ 2) 2 = 16 := by
    have := ((hasDerivAt_pow 2 (2 : ℝ)).const_mul (2 * 2 : ℝ)).deriv
    norm_num at this ⊢
  rw [h2]
  norm_num

/-- Cases of the other theorems, on the designs above. -/
example : (evaluate g sim one (.plain (.node 1) (fun s => .ok (s 0).re)) w0).2 = .ok 2 :=
  (C72_plain g_wf g_topo.acyclic).2 ⟨_, delivers _ _, by simp [out, w0]⟩
example : (evaluate g sim one (.snr (.node 1)) w0).2 = .ok (1 - 3 / 2) :=
  (C72_snr (by norm_num) g_wf g_topo.acyclic).2 ⟨_, _, delivers _ _, delivers _ _, by simp [out, w0], by norm_num [out, w0]⟩
example := C72_leaves (g := g) (B := sim) (inp := one) (E := .phase 50 (.node 1)) (w := w0) (fun _ _ _ => ⟨2, rfl⟩)
example := (C72_fresh (g := g) (B := sim) (inp := one) (E := .plain (.node 1) (fun s => .ok (s 0).re)) w0).1 id
example := (C72_sequence (B := sim) (inp := one) (xs := [(g, .phase 50 (.node 1)), (g3, .plain (.node 3) (fun s => .ok (s 0).re))]) (w := w0) (by
  intro x hx
  simp only [List.mem_cons, List.not_mem_nil, or_false] at hx
  rcases hx with rfl | rfl
  · exact fun e _ _ => ⟨2, rfl⟩
  · trivial) (by
  intro x hx
  simp only [List.mem_cons, List.not_mem_nil, or_false] at hx
  rcases hx with rfl | rfl <;> exact id) (g := g) (E := .plain (.node 1) (fun s => .ok (s 0).re)) id).1
example := (C72_stored (g := g) (B := sim) (inp := one) (k := .node 1) (score := fun s => .ok (s 0).re) w0).1 rfl
example := C72_undrawn_class g3_wf g3_topo.acyclic (.step .nil ser_legal) (c := 50) (by decide) (by decide) (by decide) (by decide)
example (r : ℝ) (h : (evaluate g2 sim one (.second 50 105 106 (.node 2)) w0).2 = .ok r) : r = 0 :=
  C72_second_foreign sim_own (by decide) (by decide) h

end Toy

/-- **C72.** The signal-to-noise evaluator leaves the noise switched on and so changes later scores; the waveform evaluator returns scores of parameters no longer
set. -/
theorem C72_findings : (∃ (g : Graph) (B : Sim 1) (inp : Signal 1) (w : Session 1) (E E' : Evaluator 1), E'.IsSnr ∧ ¬ E.IsStored ∧
      (evaluate g B inp E w).2 = .ok 2 ∧ (evaluate g B inp E (evaluate g B inp E' w).1).2 = .ok 3) ∧
    (∃ (g : Graph) (B : Sim 1) (inp : Signal 1) (w : Session 1) (k : Key) (score : Signal 1 → Except Err ℝ),
      (evaluate g B inp (.stored k score) w).2 = .ok 2 ∧ (propagateAndEvaluate g B inp (.stored k score) w).2 = .ok 7) := by
  constructor
  · exact ⟨Toy.g, Toy.sim, Toy.one, Toy.w0, .plain (.node 1) (fun s => .ok (s 0).re), .snr (.node 1), trivial, fun h => h, Toy.snr_switches.2.1, Toy.snr_switches.2.2⟩
  · obtain ⟨w, -, h2, h3⟩ := Toy.stored_stale
    exact ⟨Toy.g, Toy.sim, Toy.one, _, .node 1, _, h2, ((C72_stored _).2.2 _).2 h3⟩

end Verif
