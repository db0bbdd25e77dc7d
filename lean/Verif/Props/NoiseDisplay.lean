import Verif.Spec.NoiseDisplay
import Verif.Props.Caches
import Verif.Props.Propagate
import Verif.Props.Signal
/-!
# C120: what the displays of noise show
-/

namespace Verif

theorem npMax_ok {n : Nat} (hn : 0 < n) (v : Fin n → ℝ) : ∃ m, npMax v = .ok m ∧ IsPeak v m := by
  unfold npMax
  rw [dif_pos hn]
  refine ⟨_, rfl, fun i => Finset.le_sup' v (Finset.mem_univ i), ?_⟩
  obtain ⟨i, _, hi⟩ := Finset.exists_mem_eq_sup' (⟨⟨0, hn⟩, Finset.mem_univ _⟩ : (Finset.univ : Finset (Fin n)).Nonempty) v
  exact ⟨i, hi.symm⟩

/-- C120: a level in decibels says how large a value is compared with the reference, and nothing else; only without a reference (nothing but zero) does it say nothing. -/
theorem C120_level {p m : ℝ} (hp : 0 ≤ p) (hm : 0 ≤ m) : (m ≠ 0 → (decibelOf p m).Says (p / m)) ∧ (m = 0 → ∀ r, ¬ (decibelOf p m).Says r) := by
  constructor
  · intro h
    unfold decibelOf
    rw [if_neg h]
    by_cases h0 : p = 0
    · rw [if_pos h0, h0]
      simp [Plotted.Says]
    · rw [if_neg h0]
      have hpos : 0 < p / m := div_pos (lt_of_le_of_ne hp (Ne.symm h0)) (lt_of_le_of_ne hm (Ne.symm h))
      refine ⟨hpos, ?_⟩
      rw [show 10 * Real.logb 10 (p / m) / 10 = Real.logb 10 (p / m) by ring]
      exact Real.rpow_logb (by norm_num) (by norm_num) hpos
  · intro h r
    unfold decibelOf
    rw [if_pos h]
    split <;> simp [Plotted.Says]

theorem psd_pos_axis {n : Nat} (s : Signal n) (dt : ℝ) {df : ℝ} (h : 0 < df) (i : Fin n) : 0 ≤ psd_ s dt df i := (C54_psd s dt h.ne').2 h i

theorem getOutput_world {S : Type} (f : Bool) (g : Graph) (B : Bool → Behav S) (inp : S) (node : Option Key) (w w' : World S) :
    (getOutput f g B inp node w).2 = (getOutput f g B inp node w').2 := by
  have : ∀ old old', propagate g (B f) inp old = propagate g (B f) inp old' := fun _ _ => rfl
  unfold getOutput
  dsimp only
  cases node with
  | some k =>
    dsimp only
    rw [this w.saves w'.saves]
    cases propagate g (B f) inp w'.saves <;> rfl
  | none =>
    dsimp only
    cases outputNode g with
    | error e => rfl
    | ok v =>
      dsimp only
      rw [this w.saves w'.saves]
      cases propagate g (B f) inp w'.saves <;> rfl

/-- The place that is read is one place. -/
theorem target_unique {g : Graph} {node : Option Key} {k k' : Key} (a3 : Target g node k) (b3 : Target g node k') : k = k' := by
  have hfirst : ∀ (l l' : List NodeId) (v v' : NodeId) (m m' : List NodeId), l ++ v :: m = l' ++ v' :: m' →
      (∀ e ∈ g.edges, e.src ≠ v) → (∀ e ∈ g.edges, e.src ≠ v') → (∀ u ∈ l, ∃ e ∈ g.edges, e.src = u) →
      (∀ u ∈ l', ∃ e ∈ g.edges, e.src = u) → v = v' := by
    intro l
    induction l with
    | nil =>
      intro l' v v' m m' h hv hv' _ hl'
      cases l' with
      | nil => injection h
      | cons a l' =>
        injection h with h _
        obtain ⟨e, he, hs⟩ := hl' a (by simp)
        exact absurd (hs.trans h.symm) (hv e he)
    | cons b l ih =>
      intro l' v v' m m' h hv hv' hl hl'
      cases l' with
      | nil =>
        injection h with h _
        obtain ⟨e, he, hs⟩ := hl b (by simp)
        exact absurd (hs.trans h) (hv' e he)
      | cons a l' =>
        injection h with _ h
        exact ih l' v v' m m' h hv hv' (fun u hu => hl u (by simp [hu])) (fun u hu => hl' u (by simp [hu]))
  rcases a3 with a3 | ⟨a3, pre, v, post, p1, p2, p3, p4⟩ <;>
    rcases b3 with b3 | ⟨b3, pre', v', post', q1, q2, q3, q4⟩
  · rw [a3] at b3; injection b3
  · rw [a3] at b3; cases b3
  · rw [a3] at b3; cases b3
  · rw [p4, q4, hfirst pre pre' v v' post post' (p1.symm.trans q1) p2 q2 p3 q3]

/-- C120: `display_noise_contributions` draws the power and the spectrum of the output with noise, without noise, and of the difference of the two states; all spectra in
decibels relative to the peak of the noisy one.  The switch of noise is afterwards as before. -/
theorem C120_contributions {n : Nat} (hn : 0 < n) {P : Prop_ n} {g : Graph} (hw : g.WF) {B : Bool → Behav (Signal n)} {inp : Signal n} {node : Option Key}
    {w w' : World (Signal n)} {cs : List (NoiseCurve n)} (h : displayContributions P g B inp node w = (w', .ok cs)) :
    w'.flag = w.flag ∧ ∃ k F F' x y m, Target g node k ∧ IsFlow g (B true) inp F ∧ IsFlow g (B false) inp F' ∧ F k = some x ∧ F' k = some y ∧
      IsPeak (psd_ x P.dt P.df) m ∧
      cs = [⟨fun i => ‖x i‖ ^ 2, fun i => decibelOf (psd_ x P.dt P.df i) m⟩, ⟨fun i => ‖y i‖ ^ 2, fun i => decibelOf (psd_ y P.dt P.df i) m⟩,
        ⟨fun i => ‖x i - y i‖ ^ 2, fun i => decibelOf (psd_ (fun j => x j - y j) P.dt P.df i) m⟩] := by
  unfold displayContributions at h
  split at h
  · cases h
  · next w1 x h1 =>
    split at h
    · cases h
    · next w2 y h2 =>
      split at h
      · cases h
      · next w3 d h3 =>
        obtain ⟨m, hm, hpk⟩ := npMax_ok hn (psd_ x P.dt P.df)
        rw [hm] at h
        dsimp only at h
        injection h with e1 e2
        injection e2 with e2
        subst e1
        obtain ⟨a1, a2, k, a3, a4⟩ := C20_output_switch hw h1
        obtain ⟨b1, b2, k', b3, b4⟩ := C20_output_switch hw h2
        obtain ⟨c1, _⟩ := C20_noise_difference hw h3
        have hd : d = x - y := by
          unfold getNoise at h3
          split at h3
          · cases h3
          · next v1 x' g1 =>
            split at h3
            · cases h3
            · next v2 y' g2 =>
              have q1 := getOutput_world true g B inp node w2 w
              rw [g1, h1] at q1
              have q2 := getOutput_world false g B inp node v1 w1
              rw [g2, h2] at q2
              injection q1 with q1
              injection q2 with q2
              injection h3 with _ h3
              injection h3 with h3
              rw [← h3, q1, q2]
        have hk : k = k' := target_unique a3 b3
        subst hk
        refine ⟨c1.trans (b1.trans a1), k, _, _, x, y, m, a3, a2, b2, a4, b4, hpk, ?_⟩
        rw [← e2, hd]
        rfl

/-- C120: hence the three powers do not add up: what is missing is the beat of the noise with the signal. -/
theorem C120_beat (x y : ℂ) : ‖x‖ ^ 2 = ‖y‖ ^ 2 + ‖x - y‖ ^ 2 + 2 * (y.re * (x - y).re + y.im * (x - y).im) := by
  rw [Complex.sq_norm, Complex.sq_norm, Complex.sq_norm, Complex.normSq_apply, Complex.normSq_apply, Complex.normSq_apply, Complex.sub_re, Complex.sub_im]
  ring

/-- What one of the two displays of a noise object shows of a state. -/
theorem ownCurve_spec {n : Nat} (hn : 0 < n) (P : Prop_ n) (y : Signal n) :
    ∃ c m, ownCurve P y = .ok c ∧ IsPeak (psd_ y P.dt P.df) m ∧ (∀ i, c.level i = decibelOf (psd_ y P.dt P.df i) m) ∧
      (∀ i j : Fin n, (j : Nat) = (i + n / 2) % n → c.time i = ‖y j‖ ^ 2) := by
  obtain ⟨m, hm, hpk⟩ := npMax_ok hn (psd_ y P.dt P.df)
  unfold ownCurve
  rw [hm]
  refine ⟨_, m, rfl, hpk, fun i => rfl, fun i j hj => ?_⟩
  have : j = rotIdx (n / 2) i := Fin.ext hj
  rw [this]
  rfl

variable {n : Nat} {Q R : Type} {N : NoiseRules Q (Signal n) R (Signal n)} {grid : PropId → Prop_ n}

/-- C120 (finding): `display_noisy_signal` shows the spectrum of the noisy signal over the right frequencies, but its power half a window away from the times of the axis. -/
theorem C120_noisy (hn : 2 ≤ n) {w w' : NoiseWorld Q (Signal n) R} {x y : Signal n} {p : PropId} (h : addNoise N w x p = (w', .ok y)) :
    ∃ c m, displayNoisy N grid w x p = (w', .ok c) ∧ IsPeak (psd_ y (grid p).dt (grid p).df) m ∧ (∀ i, c.level i = decibelOf (psd_ y (grid p).dt (grid p).df i) m) ∧
      ∀ i j : Fin n, (j : Nat) = (i + n / 2) % n → c.time i = ‖y j‖ ^ 2 ∧
        ((grid p).t j - (grid p).t i = (n / 2 : ℕ) * (grid p).dt ∨ (grid p).t i - (grid p).t j = (n - n / 2 : ℕ) * (grid p).dt) := by
  obtain ⟨c, m, h1, h2, h3, h4⟩ := ownCurve_spec (by omega) (grid p) y
  refine ⟨c, m, ?_, h2, h3, fun i j hj => ⟨h4 i j hj, ?_⟩⟩
  · unfold displayNoisy
    rw [h]
    dsimp only
    rw [h1]
  · have ht : ∀ a : Fin n, (grid p).t a = -(grid p).window / 2 + (a : ℕ) * (grid p).dt := fun a => rfl
    rw [ht, ht]
    have hi := i.isLt
    rcases Nat.lt_or_ge (i + n / 2) n with hlt | hge
    · left
      rw [Nat.mod_eq_of_lt hlt] at hj
      rw [hj]
      push_cast
      ring
    · right
      rw [Nat.mod_eq_sub_mod hge, Nat.mod_eq_of_lt (by omega)] at hj
      have : (i : ℕ) = j + (n - n / 2) := by omega
      rw [this]
      push_cast
      ring

/-- C120: what is shown is what the signal gets when it is propagated with this propagator afterwards. -/
theorem C120_same {w : NoiseWorld Q (Signal n) R} (x s : Signal n) (p : PropId) (hon : w.obj.on = true) (hsim : w.simulate = true) :
    (addNoise N (displayNoisy N grid w x p).1 s p).2 = (addNoise N w s p).2 ∧ (addNoise N (displayNoise N grid w x p).1 s p).2 = (addNoise N w s p).2 := by
  have e1 : (displayNoisy N grid w x p).1 = (addNoise N w x p).1 := by
    unfold displayNoisy
    split <;> next h => rw [h]
  have e2 : (displayNoise N grid w x p).1 = (addNoise N w x p).1 := by
    unfold displayNoise
    split <;> next h => rw [h]
  have hkeep : (addNoise N w x p).1.obj.on = true ∧ (addNoise N w x p).1.simulate = true := by
    unfold addNoise usePropagator setPropagator resampleNoise
    simp only [hon, hsim, Bool.not_true, Bool.or_self, Bool.false_eq_true, if_false]
    split <;> split <;> simp [hon, hsim]
  have := (C39_repeatable (N := N) w x p hon hsim [] (by simp) s) hkeep.1 hkeep.2
  rw [e1, e2]
  exact ⟨this.1, this.1⟩

/-- C120 (finding): the total noise is shown in the same way, half a window off; switched off, it is zero over all times and the spectrum has no values (zero by zero). -/
theorem C120_noise (hn : 0 < n) {w w' : NoiseWorld Q (Signal n) R} {x y : Signal n} {p : PropId} (h : addNoise N w x p = (w', .ok y)) :
    (∃ c m, displayNoise N grid w x p = (w', .ok c) ∧ IsPeak (psd_ (fun j => y j - x j) (grid p).dt (grid p).df) m ∧
      (∀ i, c.level i = decibelOf (psd_ (fun j => y j - x j) (grid p).dt (grid p).df i) m) ∧ ∀ i j : Fin n, (j : Nat) = (i + n / 2) % n → c.time i = ‖y j - x j‖ ^ 2) ∧
    (w.obj.on = false ∨ w.simulate = false → displayNoise N grid w x p = (w, .ok ⟨fun _ => 0, fun _ => .nan⟩)) := by
  constructor
  · obtain ⟨c, m, h1, h2, h3, h4⟩ := ownCurve_spec hn (grid p) (fun j => y j - x j)
    refine ⟨c, m, ?_, h2, h3, h4⟩
    unfold displayNoise
    rw [h]
    dsimp only
    rw [show y - x = fun j => y j - x j from rfl, h1]
  · intro hoff
    have hz : ∀ dt df i, psd_ (fun _ : Fin n => (0 : ℂ)) dt df i = 0 := by
      intro dt df i
      simp [psd_, fftShift, npFft]
    unfold displayNoise
    rw [C39_off w x p hoff]
    dsimp only
    rw [show x - x = fun _ => (0 : ℂ) by funext j; simp]
    obtain ⟨m, hm, hpk⟩ := npMax_ok hn (psd_ (fun _ : Fin n => (0 : ℂ)) (grid p).dt (grid p).df)
    obtain ⟨i, hi⟩ := hpk.2
    rw [hz] at hi
    unfold ownCurve
    rw [hm]
    dsimp only
    congr 2
    congr 1
    · funext j
      simp [ifftShift, power_]
    · funext j
      rw [hz, ← hi]
      simp [decibelOf]

theorem allVecs_ok {ss : List (NoiseSrc Q (Signal n))} {vs : List (Signal n)} : allVecs ss = .ok vs ↔ ss.map (·.vec) = vs.map some := by
  induction ss generalizing vs with
  | nil => cases vs <;> simp [allVecs]
  | cons a ss ih =>
    unfold allVecs
    cases hv : a.vec with
    | none => cases vs <;> simp [hv]
    | some v =>
      dsimp only
      cases hr : allVecs ss with
      | error e =>
        constructor
        · intro h; cases h
        · intro h
          cases vs with
          | nil => simp at h
          | cons u us =>
            rw [List.map_cons, List.map_cons] at h
            injection h with _ h
            rw [ih.2 h] at hr
            cases hr
      | ok us =>
        have := (ih (vs := us)).1 hr
        constructor
        · intro h
          injection h with h
          rw [← h, List.map_cons, List.map_cons, this, hv]
        · intro h
          cases vs with
          | nil => simp at h
          | cons u us' =>
            rw [List.map_cons, List.map_cons] at h
            injection h with h1 h
            rw [ih.2 h] at hr
            injection hr with hr
            rw [hv] at h1
            injection h1 with h1
            rw [h1, hr]

theorem maxOfMax_ok (hn : 0 < n) (P : Prop_ n) (vs : List (Signal n)) (hv : vs ≠ []) :
    ∃ m, maxOfMax P vs = .ok m ∧ (∀ v ∈ vs, ∀ i, psd_ v P.dt P.df i ≤ m) ∧ ∃ v ∈ vs, ∃ i, psd_ v P.dt P.df i = m := by
  induction vs with
  | nil => exact absurd rfl hv
  | cons v vs ih =>
    obtain ⟨m, hm, hle, i, hi⟩ := npMax_ok hn (psd_ v P.dt P.df)
    cases vs with
    | nil => exact ⟨m, by simp [maxOfMax, hm], by simpa using hle, v, by simp, i, hi⟩
    | cons u us =>
      obtain ⟨m', hm', hle', v', hv', i', hi'⟩ := ih (by simp)
      refine ⟨max m m', by rw [maxOfMax, hm]; dsimp only; rw [hm'], ?_, ?_⟩
      · intro a ha j
        rcases List.mem_cons.1 ha with rfl | ha
        · exact (hle j).trans (le_max_left _ _)
        · exact (hle' a ha j).trans (le_max_right _ _)
      · rcases le_total m m' with hmm | hmm
        · exact ⟨v', List.mem_cons_of_mem _ hv', i', by rw [hi', max_eq_right hmm]⟩
        · exact ⟨v, by simp, i, by rw [hi, max_eq_left hmm]⟩

/-- C120: `display_noise_sources_absolute` shows each source as it was drawn, without what it is scaled with when it is added to a signal; all in decibels relative to
the highest peak.  The vectors are those in the object (finding: if it was used with a propagator before, whatever propagator is given now). -/
theorem C120_sources (hn : 0 < n) {w : NoiseWorld Q (Signal n) R} {p q : PropId} (hq : w.obj.prop = some q) {vs : List (Signal n)} (hne : vs ≠ [])
    (hvs : w.obj.srcs.map (·.vec) = vs.map some) :
    ∃ m, displaySources N grid w p = (w, .ok (vs.map (fun v => ⟨fun i => ‖v i‖ ^ 2, fun i => decibelOf (psd_ v (grid p).dt (grid p).df i) m⟩))) ∧
      (∀ v ∈ vs, ∀ i, psd_ v (grid p).dt (grid p).df i ≤ m) ∧ ∃ v ∈ vs, ∃ i, psd_ v (grid p).dt (grid p).df i = m := by
  obtain ⟨m, h1, h2, h3⟩ := maxOfMax_ok hn (grid p) vs hne
  refine ⟨m, ?_, h2, h3⟩
  unfold displaySources
  dsimp only
  rw [if_neg (by rw [hq]; simp), allVecs_ok.2 hvs]
  dsimp only
  rw [h1]
  rfl

theorem drawAll_vecs (p : PropId) (ss : List (NoiseSrc Q (Signal n))) (r : R) :
    ∃ vs, (drawAll N p ss r).1.map (·.vec) = vs.map some ∧ List.Forall₂ (fun s v => ∃ r, v = (N.draw s.kind s.par p r).1) ss vs := by
  induction ss generalizing r with
  | nil => exact ⟨[], rfl, .nil⟩
  | cons s ss ih =>
    obtain ⟨vs, h1, h2⟩ := ih (N.draw s.kind s.par p r).2
    refine ⟨(N.draw s.kind s.par p r).1 :: vs, ?_, .cons ⟨r, rfl⟩ h2⟩
    simp only [drawAll, List.map_cons, h1]

/-- C120: an object that was never used draws its sources for the given propagator; with noise switched off for the class there is nothing to show, a `TypeError`. -/
theorem C120_sources_fresh (hn : 0 < n) {w : NoiseWorld Q (Signal n) R} (p : PropId) (h0 : w.obj.prop = none) (hs : w.obj.srcs ≠ [])
    (hvec : ∀ s ∈ w.obj.srcs, s.vec = none) :
    (w.simulate = false → (displaySources N grid w p).2 = .error .typeError) ∧
    (w.simulate = true → ∃ vs m, (displaySources N grid w p).2 = .ok (vs.map (fun v => ⟨fun i => ‖v i‖ ^ 2, fun i => decibelOf (psd_ v (grid p).dt (grid p).df i) m⟩)) ∧
      List.Forall₂ (fun s v => ∃ r, v = (N.draw s.kind s.par p r).1) w.obj.srcs vs) := by
  constructor
  · intro hsim
    have e : setPropagator N w p = { w with obj := { w.obj with prop := some p } } := by
      unfold setPropagator resampleNoise
      simp [hsim]
    unfold displaySources
    dsimp only
    rw [if_pos h0, e]
    dsimp only
    cases hl : w.obj.srcs with
    | nil => exact absurd hl hs
    | cons a l =>
      have ha := hvec a (by rw [hl]; simp)
      simp [allVecs, ha]
  · intro hsim
    have e : ∃ r, (setPropagator N w p).obj.srcs = (drawAll N p w.obj.srcs r).1 := by
      unfold setPropagator resampleNoise
      simp only [hsim, Bool.not_true, Bool.false_eq_true, if_false]
      exact ⟨_, rfl⟩
    obtain ⟨r, e⟩ := e
    obtain ⟨vs, h1, h2⟩ := drawAll_vecs (N := N) p w.obj.srcs r
    have hne : vs ≠ [] := by
      rintro rfl
      exact hs (List.forall₂_nil_right_iff.1 h2)
    obtain ⟨m, h3, _⟩ := maxOfMax_ok hn (grid p) vs hne
    refine ⟨vs, m, ?_, h2⟩
    unfold displaySources
    dsimp only
    rw [if_pos h0, e, allVecs_ok.2 h1]
    dsimp only
    rw [h3]
    rfl

/-! ### Cases -/

section cases
open Complex

/-- Adds the vectors to the signal; every draw is a pulse at the first sample. -/
noncomputable def pulseRules : NoiseRules Unit (Signal 4) Nat (Signal 4) :=
  ⟨fun _ _ _ r => (fun i => if i = 0 then 2 else 0, r + 1), fun s => s, fun _ x vs => vs.foldl (fun y v => y + v.2.2) x⟩

/-- Noise of a pulse at the first of four samples: the display puts it at the third. -/
example : ∃ c, (displayNoise pulseRules (fun _ => ⟨1, 1⟩) ⟨NoiseObj.new .absolutePower () none true, true, 0⟩ (fun _ => 1) 7).2 = .ok c ∧ c.time 2 = 4 ∧ c.time 0 = 0 := by
  have h : addNoise pulseRules ⟨NoiseObj.new .absolutePower () none true, true, 0⟩ (fun _ => 1) 7 =
      (⟨⟨some 7, none, [⟨.absolutePower, (), some (fun i => if i = 0 then 2 else 0)⟩], true⟩, true, 1⟩, .ok ((fun _ => 1) + fun i : Fin 4 => if i = 0 then 2 else 0)) := by
    rfl
  obtain ⟨⟨c, m, h1, _, _, h4⟩, _⟩ := C120_noise (grid := fun _ => ⟨1, 1⟩) (by norm_num) h
  refine ⟨c, by rw [h1], ?_, ?_⟩
  · rw [h4 2 0 (by decide)]
    norm_num
  · rw [h4 0 2 (by decide)]
    simp

/-- Hypotheses of `C120_sources` and of `C120_sources_fresh`. -/
example : (⟨some 7, none, [⟨.absolutePower, (), some (fun _ => 1)⟩], true⟩ : NoiseObj Unit (Signal 4)).srcs.map (·.vec) = [fun _ => (1 : ℂ)].map some ∧
    (NoiseObj.new (V := Signal 4) .absolutePower () none true).prop = none ∧ ∀ s ∈ (NoiseObj.new (V := Signal 4) .absolutePower () none true).srcs, s.vec = none := by
  refine ⟨rfl, rfl, ?_⟩
  simp [NoiseObj.new]

/-- Half the power is about three decibels down: `10 log₁₀ (1/2)`; at a quarter of the amplitude of the signal the noise has a sixteenth of its power, but takes away or adds
up to half of it. -/
example : (decibelOf 1 2).Says (1 / 2) ∧ ‖(3 / 4 : ℂ)‖ ^ 2 = ‖(1 : ℂ)‖ ^ 2 + ‖(3 / 4 : ℂ) - 1‖ ^ 2 + 2 * (1 * (3 / 4 - 1 : ℂ).re + 0 * (3 / 4 - 1 : ℂ).im) := by
  refine ⟨(C120_level (by norm_num) (by norm_num)).1 (by norm_num), ?_⟩
  have := C120_beat (3 / 4 : ℂ) 1
  simpa using this

/-- Light that takes the first way in to every way out; the component of class 30 adds noise while it is on. -/
noncomputable def noisyDemo (b : Bool) : Behav (Signal 4) where
  node := fun _ ins _ out => .ok (List.replicate (max 1 out) (ins.headD 0))
  edge := fun _ s => .ok s
  noise := fun c => if b = true ∧ c.cls = 30 then some (fun s => .ok (s + 1)) else none

theorem noisyDemo_enough (g : Graph) (b : Bool) : Enough g (noisyDemo b) where
  node := fun n _ ins _ => ⟨_, rfl, by simp⟩
  edge := fun e _ s => ⟨_, rfl⟩
  noise := fun e _ f hf s => by
    unfold noisyDemo at hf
    simp only at hf
    split at hf
    · injection hf with hf
      exact ⟨s + 1, by rw [← hf]⟩
    · cases hf

theorem noisyDemo_reads (b : Bool) (w : World (Signal 4)) : ∃ w' s, getOutput b Fixture.g noisyDemo 1 none w = (w', .ok s) := by
  obtain ⟨st, h⟩ := (C17_propagate_acyclic Fixture.g_wf (noisyDemo_enough _ b) 1 w.saves).1 Fixture.g_acyclic
  have hf : IsFlow Fixture.g (noisyDemo b) 1 st := by
    unfold propagate at h
    split at h
    · cases h
    · rename_i o ho
      exact propagateWith_flow Fixture.g_wf (Graph.topoSort_sound Fixture.g_wf ho) h
  obtain ⟨_, s, _, _, hs⟩ := hf.sinks ⟨3, Fixture.snk, 2⟩ (by decide) ⟨by decide, by decide⟩
  refine ⟨⟨w.flag, st⟩, s, ?_⟩
  unfold getOutput
  simp only [show outputNode Fixture.g = .ok 3 by decide, h]
  have : st (.node 3) = some s := hs
  simp only [this]

/-- A design on which the contributions are drawn: hypothesis of `C120_contributions`. -/
example (P : Prop_ 4) (w : World (Signal 4)) : ∃ w' cs, displayContributions P Fixture.g noisyDemo 1 none w = (w', .ok cs) := by
  obtain ⟨w1, x, h1⟩ := noisyDemo_reads true w
  obtain ⟨w2, y, h2⟩ := noisyDemo_reads false w1
  obtain ⟨w3, x', h3⟩ := noisyDemo_reads true w2
  obtain ⟨w4, y', h4⟩ := noisyDemo_reads false w3
  obtain ⟨m, hm, _⟩ := npMax_ok (by norm_num) (psd_ x P.dt P.df)
  unfold displayContributions getNoise
  simp only [h1, h2, h3, h4, hm]
  exact ⟨_, _, rfl⟩

end cases

end Verif
