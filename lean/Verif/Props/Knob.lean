import Verif.Spec.Knob
import Verif.Props.Fringe
import Verif.Props.Total
/-!
# C126: how the reading of a meter depends on one component of a design
-/

namespace Verif
open Complex Graph

variable {n : Nat}

theorem knob_mix {P : Prop_ n} (hdt : P.dt ≠ 0) {a b : ℂ} (hab : a + b = 1) {g : Graph} (hw : g.WF) {o1 o2 o3 : Comp → Optic n} {conn : Comp → Connector}
    {hasNoise : Comp → Bool} {inp : Signal n} {old1 old2 old3 st1 st2 st3 : Store (Signal n)} {e0 : Edge} (hk : ∀ x y1 y2, Fed g (physics P o1 conn hasNoise) inp st1 e0 x → (o1 e0.comp).apply P x = .ok y1 → (o2 e0.comp).apply P x = .ok y2 → (o3 e0.comp).apply P x = .ok (mix a b y1 y2))
    (hf : ∀ e ∈ g.edges, e ≠ e0 → o2 e.comp = o1 e.comp ∧ o3 e.comp = o1 e.comp)
    (hl : ∀ e ∈ g.edges, g.Reach e0.dst e.src → ¬ (o1 e.comp).Saturates ∧ ((o1 e.comp).IsDetector → g.outEdges e.dst = [])) (h0 : e0 ∈ g.edges)
    (h1 : propagate g (physics P o1 conn hasNoise) inp old1 = .ok st1) (h2 : propagate g (physics P o2 conn hasNoise) inp old2 = .ok st2)
    (h3 : propagate g (physics P o3 conn hasNoise) inp old3 = .ok st3) :
    ∀ e ∈ g.edges, ∃ t1 t2, Fed g (physics P o1 conn hasNoise) inp st1 e t1 ∧ Fed g (physics P o2 conn hasNoise) inp st2 e t2 ∧
      Fed g (physics P o3 conn hasNoise) inp st3 e (mix a b t1 t2) ∧ (¬ g.Reach e0.dst e.src → t1 = t2) ∧
      (¬ g.Reach e0.dst e.src ∨ ¬ (o1 e.comp).IsDetector → ∃ s1 s2, st1 (.edge e.ref) = some s1 ∧ st2 (.edge e.ref) = some s2 ∧ st3 (.edge e.ref) = some (mix a b s1 s2) ∧
        (¬ g.Reach e0.dst e.src → e ≠ e0 → s1 = s2)) := by
  obtain ⟨⟨order, ho⟩, F1⟩ := (propagate_iff hw).1 h1
  have F2 := ((propagate_iff hw).1 h2).2
  have F3 := ((propagate_iff hw).1 h3).2
  have ht := topoSort_sound hw ho
  have hself : ¬ g.Reach e0.dst e0.src := not_reach_of_idx ht (ht.forward e0 h0)
  intro e he
  generalize hm : order.idxOf e.src = m
  induction m using Nat.strong_induction_on generalizing e with
  | _ m ih =>
    obtain ⟨t1, y1, ⟨v, hv, hid, l1, i, a1, a2, a3⟩, p1, q1⟩ := fed_exists F1 he
    obtain ⟨t2, y2, ⟨v', hv', hid', l2, i', b1, b2, b3⟩, p2, q2⟩ := fed_exists F2 he
    obtain ⟨t3, y3, f3, p3, q3⟩ := fed_exists F3 he
    obtain rfl : v' = v := List.inj_on_of_nodup_map hw.ids_nodup hv' hv (hid'.trans hid.symm)
    have hii : i' = i := (List.getElem?_inj (List.getElem?_eq_some_iff.1 b2).1 (outEdges_nodup hw _)).1 (b2.trans a2.symm)
    subst hii
    have hin : ∀ d ∈ g.inEdges v'.id, ∃ s1 s2, st1 (.edge d.ref) = some s1 ∧ st2 (.edge d.ref) = some s2 ∧ st3 (.edge d.ref) = some (mix a b s1 s2) ∧
        (¬ g.Reach e0.dst d.src → d ≠ e0 → s1 = s2) := by
      intro d hd
      have hdm := mem_inEdges.1 hd
      obtain ⟨_, _, _, _, _, _, k⟩ := ih _ (by rw [← hm, ← hid, ← hdm.2]; exact ht.forward d hdm.1) d hdm.1 rfl
      refine k ?_
      by_cases hr : g.Reach e0.dst d.src
      · refine .inr fun hdet => ?_
        have h0 := (hl d hdm.1 hr).2 hdet
        have : e ∈ g.outEdges d.dst := mem_outEdges.2 ⟨he, by rw [hdm.2, hid]⟩
        rw [h0] at this
        cases this
      · exact .inl hr
    have hup : ¬ g.Reach e0.dst e.src → t1 = t2 := by
      intro hr
      have hst : ∀ d ∈ g.inEdges v'.id, st1 (.edge d.ref) = st2 (.edge d.ref) := by
        intro d hd
        have hdm := mem_inEdges.1 hd
        obtain ⟨s1, s2, k1, k2, -, k4⟩ := hin d hd
        rw [k1, k2, k4 (fun hc => hr ?_) (fun hc => hr ?_)]
        · exact hc.tail ⟨d, hdm.1, rfl, by rw [hdm.2, hid]⟩
        · rw [← hc, hdm.2, hid]
          exact .refl
      obtain ⟨i1, c1, c2⟩ := a1
      obtain ⟨i2, d1, d2⟩ := b1
      have hii : i1 = i2 := by
        rcases c1 with ⟨k, rfl⟩ | ⟨k, c1⟩ <;> rcases d1 with ⟨k', rfl⟩ | ⟨k', d1⟩
        · rfl
        · exact absurd k k'
        · exact absurd k' k
        · rw [List.map_congr_left hst, d1] at c1
          exact (map_some_inj c1).symm
      subst hii
      have c2 : (conn v'.comp).apply P i1 _ _ = .ok l1 := c2
      have d2 : (conn v'.comp).apply P i1 _ _ = .ok l2 := d2
      rw [c2] at d2
      injection d2 with d2
      rw [← d2, a3] at b3
      injection b3
    have f3' : Fed g (physics P o3 conn hasNoise) inp st3 e (mix a b t1 t2) :=
      ⟨v', hv, hid, _, i', outputs_mix hdt hab (fun d hd => (hin d hd).imp fun s1 h => h.imp fun s2 h => ⟨h.1, h.2.1, h.2.2.1⟩) a1 b1, a2,
        by simp [List.getElem?_zipWith, a3, b3]⟩
    obtain rfl := fed_unique hw f3 f3'
    refine ⟨t1, t2, ⟨v', hv, hid, l1, i', a1, a2, a3⟩, ⟨v', hv, hid, l2, i', b1, b2, b3⟩, f3', hup, fun hc => ⟨y1, y2, q1, q2, ?_⟩⟩
    rw [q3]
    by_cases hee : e = e0
    · subst hee
      have ht12 := hup hself
      subst ht12
      rw [mix_self hab, hk _ _ _ ⟨v', hv, hid, l1, i', a1, a2, a3⟩ p1 p2] at p3
      injection p3 with p3
      exact ⟨by rw [p3], fun _ hne => absurd rfl hne⟩
    · rw [(hf e he hee).1] at p2
      rw [(hf e he hee).2] at p3
      by_cases hr : g.Reach e0.dst e.src
      · have hnd : ¬ (o1 e.comp).IsDetector := by
          rcases hc with hc | hc
          · exact absurd hr hc
          · exact hc
        have := apply_mix_self hdt hab hnd (hl e he hr).1 p1 p2
        rw [p3] at this
        injection this with this
        exact ⟨by rw [this], fun hc => absurd hr hc⟩
      · have h12 := hup hr
        subst h12
        rw [mix_self hab, p1] at p3
        rw [p1] at p2
        injection p2 with p2; injection p3 with p3
        subst p2 p3
        exact ⟨by rw [mix_self hab], fun _ _ => rfl⟩

/-- **C126.** What a component emits, and nothing else about it, decides what arrives elsewhere, and does so linearly: in a design that is linear downstream of a component, there are for every edge a
light `A` (what arrives with the component blocked) and a linear map `L` such that, whatever stands in its place and emits `y`, the light arriving is `A + L y`.  What the component is given is
the same for all of them, and so is whether the design runs. -/
theorem C126_transfer (hn : 2 ≤ n) {P : Prop_ n} (hwin : 0 < P.window) {g : Graph} (hw : g.WF) {optic : Comp → Optic n} {conn : Comp → Connector} {hasNoise : Comp → Bool}
    {e0 d : Edge} (hK : KnobAt g optic e0) (hd : d ∈ g.edges) {inp : Signal n} {old st : Store (Signal n)}
    (h : propagate g (physics P optic conn hasNoise) inp old = .ok st) :
    ∃ (A : Signal n) (L : Signal n →ₗ[ℂ] Signal n) (x : Signal n), Fed g (physics P optic conn hasNoise) inp st e0 x ∧
      ∀ (o : Optic n) (y : Signal n), o.apply P x = .ok y → ∀ old', ∃ st', propagate g (physics P (setOptic optic e0.comp o) conn hasNoise) inp old' = .ok st' ∧
        st' (.edge e0.ref) = some y ∧ Fed g (physics P (setOptic optic e0.comp o) conn hasNoise) inp st' d (fun t => A t + L y t) := by
  have hdt := dt_ne_zero hn hwin
  obtain ⟨⟨order, ho⟩, F0⟩ := (propagate_iff hw).1 h
  have ht := topoSort_sound hw ho
  have hself : ¬ g.Reach e0.dst e0.src := not_reach_of_idx ht (ht.forward e0 hK.mem)
  have hsame : ∀ (o : Optic n), ∀ e ∈ g.edges, e ≠ e0 → setOptic optic e0.comp o e.comp = optic e.comp := fun o e he hne => by
    unfold setOptic
    rw [if_neg fun hc => hne (hK.own e he hc)]
  have hat : ∀ o : Optic n, setOptic optic e0.comp o e0.comp = o := fun o => by unfold setOptic; rw [if_pos rfl]
  have hlin : ∀ (o : Optic n), ∀ e ∈ g.edges, g.Reach e0.dst e.src →
      ¬ (setOptic optic e0.comp o e.comp).Saturates ∧ ((setOptic optic e0.comp o e.comp).IsDetector → g.outEdges e.dst = []) := fun o e he hr => by
    rw [hsame o e he (fun hc => hself (hc ▸ hr))]
    exact hK.linear e he hr
  have hrun : ∀ (o : Optic n) x y, o.apply P x = .ok y → ∀ old', ∃ st', propagate g (physics P (setOptic optic e0.comp o) conn hasNoise) inp old' = .ok st' := fun o x y hxy old' => by
    refine rerun hw h (fun e he s s1 hs t => ?_) old'
    by_cases hee : e = e0
    · subst hee
      rw [hat]
      exact apply_total hdt hxy t
    · rw [hsame o e he hee]
      exact apply_total hdt hs t
  -- with a source in its place
  have hsrc : ∀ y : Signal n, ∃ st' l, propagate g (physics P (setOptic optic e0.comp (.source y)) conn hasNoise) inp Store.empty = .ok st' ∧
      Fed g (physics P (setOptic optic e0.comp (.source y)) conn hasNoise) inp st' d l := fun y => by
    obtain ⟨st', h'⟩ := hrun (.source y) (fun _ => 0) y rfl Store.empty
    obtain ⟨l, -, hl, -⟩ := fed_exists ((propagate_iff hw).1 h').2 hd
    exact ⟨st', l, h', hl⟩
  choose S F hS hF using hsrc
  have haff : ∀ (a b : ℂ), a + b = 1 → ∀ y1 y2, F (mix a b y1 y2) = mix a b (F y1) (F y2) := by
    intro a b hab y1 y2
    obtain ⟨t1, t2, k1, k2, k3, -⟩ := knob_mix hdt hab hw (e0 := e0) (fun x z1 z2 _ q1 q2 => by
        rw [hat] at q1 q2 ⊢
        simp only [Optic.apply] at q1 q2 ⊢
        injection q1 with q1; injection q2 with q2
        rw [q1, q2]) (fun e he hne => ⟨by rw [hsame _ e he hne, hsame _ e he hne], by rw [hsame _ e he hne, hsame _ e he hne]⟩) (hlin _) hK.mem
      (hS y1) (hS y2) (hS (mix a b y1 y2)) d hd
    rw [fed_unique hw (hF y1) k1, fed_unique hw (hF y2) k2, fed_unique hw (hF _) k3]
  have hscale : ∀ (c : ℂ) y, F (c • y) - F 0 = c • (F y - F 0) := by
    intro c y
    have e : c • y = mix c (1 - c) y 0 := by funext t; simp [mix]
    rw [e, haff c (1 - c) (by ring)]
    funext t
    simp only [mix, Pi.sub_apply, Pi.smul_apply, smul_eq_mul]
    ring
  let L : Signal n →ₗ[ℂ] Signal n :=
    { toFun := fun y => F y - F 0
      map_add' := by
        intro y1 y2
        have e : y1 + y2 = mix (1 / 2) (1 / 2) ((2 : ℂ) • y1) ((2 : ℂ) • y2) := by
          funext t
          simp only [mix, Pi.add_apply, Pi.smul_apply, smul_eq_mul]
          ring
        rw [e, haff _ _ (by norm_num)]
        have k1 := hscale 2 y1
        have k2 := hscale 2 y2
        funext t
        have k1 := congrFun k1 t
        have k2 := congrFun k2 t
        simp only [Pi.sub_apply, Pi.smul_apply, smul_eq_mul, Pi.add_apply, mix] at k1 k2 ⊢
        linear_combination (1 / 2) * k1 + (1 / 2) * k2
      map_smul' := hscale }
  obtain ⟨x, y0, hx, hxy, -⟩ := fed_exists F0 hK.mem
  refine ⟨F 0, L, x, hx, fun o y hoy old' => ?_⟩
  obtain ⟨st', h'⟩ := hrun o x y hoy old'
  have F' := ((propagate_iff hw).1 h').2
  -- what it is given
  obtain ⟨u1, u2, k1, k2, -, k4, -⟩ := knob_mix hdt (a := 1) (b := 0) (by ring) hw (e0 := e0) (o1 := optic) (o2 := setOptic optic e0.comp o) (o3 := optic)
    (fun x z1 z2 _ q1 _ => by rw [q1]; congr 1; funext t; simp [mix]) (fun e he hne => ⟨hsame o e he hne, rfl⟩) hK.linear hK.mem h h' h e0 hK.mem
  have hx' : Fed g (physics P (setOptic optic e0.comp o) conn hasNoise) inp st' e0 x := by
    rw [fed_unique hw hx k1, k4 hself]
    exact k2
  obtain ⟨x', y', f1, f2, f3⟩ := fed_exists F' hK.mem
  obtain rfl := fed_unique hw f1 hx'
  rw [hat, hoy] at f2
  injection f2 with f2
  subst f2
  refine ⟨st', h', f3, ?_⟩
  obtain ⟨t1, t2, j1, j2, j3, -⟩ := knob_mix hdt (a := 1) (b := 0) (by ring) hw (e0 := e0) (o1 := setOptic optic e0.comp o) (o2 := setOptic optic e0.comp (.source y))
    (o3 := setOptic optic e0.comp (.source y)) (fun z z1 z2 hz q1 q2 => by
      rw [hat] at q1 q2 ⊢
      rw [fed_unique hw hz hx', hoy] at q1
      simp only [Optic.apply] at q2 ⊢
      injection q1 with q1
      rw [← q1]
      congr 1
      funext t
      simp [mix])
    (fun e he hne => ⟨by rw [hsame _ e he hne, hsame _ e he hne], by rw [hsame _ e he hne, hsame _ e he hne]⟩) (hlin o) hK.mem h' (hS y) (hS y) d hd
  have e1 : mix 1 0 t1 t2 = t1 := by funext t; simp [mix]
  rw [e1] at j3
  have e2 : (fun t => F 0 t + L y t) = t1 := by
    rw [← fed_unique hw (hF y) j3]
    funext t
    show F 0 t + (F y - F 0) t = F y t
    simp
  rw [e2]
  exact j1

/-! ### Phases and amplitudes -/

theorem meter_reads {P : Prop_ n} {g : Graph} (hw : g.WF) {optic : Comp → Optic n} {conn : Comp → Connector} {hasNoise : Comp → Bool} {d : Edge} {s : Node} (hM : MeterAt g optic conn d s)
    {inp : Signal n} {st : Store (Signal n)} (hF : IsFlow g (physics P optic conn hasNoise) inp st) {l : Signal n} (hl : Fed g (physics P optic conn hasNoise) inp st d l) :
    st (.node s.id) = some (fun t => ((‖l t‖ ^ 2 : ℝ) : ℂ)) := by
  have hdm : d ∈ g.edges := (mem_inEdges.1 (by rw [hM.into]; simp : d ∈ g.inEdges s.id)).1
  obtain ⟨t3, y, f3, p3, q3⟩ := fed_exists hF hdm
  obtain rfl := fed_unique hw f3 hl
  rw [sink_reads hM.out hM.into hM.last hM.plain hF, q3, measure_field hM.meter p3]

theorem meter_keeps {g : Graph} {optic : Comp → Optic n} {conn : Comp → Connector} {e0 d : Edge} {s : Node} (hK : KnobAt g optic e0) (hM : MeterAt g optic conn d s) (hne : d ≠ e0) (o : Optic n) :
    MeterAt g (setOptic optic e0.comp o) conn d s := by
  have hdm : d ∈ g.edges := (mem_inEdges.1 (by rw [hM.into]; simp : d ∈ g.inEdges s.id)).1
  refine ⟨?_, hM.out, hM.into, hM.last, hM.plain⟩
  unfold setOptic
  rw [if_neg fun hc => hne (hK.own d hdm hc)]
  exact hM.meter

/-- **C126.** Every phase of a component, turned, makes a sinusoidal fringe at every sample of every meter behind linear components, and three readings tell all: those at 0, a quarter and half a turn. -/
theorem C126_phase (hn : 2 ≤ n) {P : Prop_ n} (hwin : 0 < P.window) {g : Graph} (hw : g.WF) {optic : Comp → Optic n} {conn : Comp → Connector} {hasNoise : Comp → Bool}
    {e0 d : Edge} {s : Node} (hK : KnobAt g optic e0) (hM : MeterAt g optic conn d s) (hne : d ≠ e0) {o : ℝ → Optic n} (ho : PhaseKnob P o) {inp : Signal n} {old st : Store (Signal n)}
    (h : propagate g (physics P optic conn hasNoise) inp old = .ok st) :
    ∃ r : ℝ → Fin n → ℝ,
      (∀ φ old', ∃ st', propagate g (physics P (setOptic optic e0.comp (o φ)) conn hasNoise) inp old' = .ok st' ∧ st' (.node s.id) = some (fun t => ((r φ t : ℝ) : ℂ))) ∧
      ∀ φ t, 0 ≤ r φ t ∧ r φ t = (r 0 t + r Real.pi t) / 2 + (r 0 t - r Real.pi t) / 2 * Real.cos φ + (r (Real.pi / 2) t - (r 0 t + r Real.pi t) / 2) * Real.sin φ := by
  have hdm : d ∈ g.edges := (mem_inEdges.1 (by rw [hM.into]; simp : d ∈ g.inEdges s.id)).1
  obtain ⟨A, L, x, -, hL⟩ := C126_transfer hn hwin hw hK hdm h
  obtain ⟨u, v, huv⟩ := ho x
  refine ⟨fun φ t => ‖(A t + L u t) + turn φ * L v t‖ ^ 2, fun φ old' => ?_, fun φ t => ⟨by positivity, ?_⟩⟩
  · obtain ⟨st', k1, -, k3⟩ := hL (o φ) _ (huv φ) old'
    refine ⟨st', k1, ?_⟩
    rw [meter_reads hw (meter_keeps hK hM hne (o φ)) ((propagate_iff hw).1 k1).2 k3]
    have e : (fun t => u t + turn φ * v t) = u + turn φ • v := by funext t; simp
    rw [e, map_add, map_smul]
    simp only [Pi.add_apply, Pi.smul_apply, smul_eq_mul, add_assoc]
  · dsimp only
    rw [fringe_power, fringe_power, fringe_power, fringe_power, Real.cos_zero, Real.sin_zero, Real.cos_pi, Real.sin_pi, Real.cos_pi_div_two, Real.sin_pi_div_two]
    ring

/-- **C126.** The derivative of a reading (and of its mean) by a phase is half the difference of the readings a quarter turn ahead and behind, exactly; and two readings half a turn apart have the
same sum wherever they are taken. -/
theorem C126_shift (hn : 2 ≤ n) {P : Prop_ n} (hwin : 0 < P.window) {g : Graph} (hw : g.WF) {optic : Comp → Optic n} {conn : Comp → Connector} {hasNoise : Comp → Bool}
    {e0 d : Edge} {s : Node} (hK : KnobAt g optic e0) (hM : MeterAt g optic conn d s) (hne : d ≠ e0) {o : ℝ → Optic n} (ho : PhaseKnob P o) {inp : Signal n} {old st : Store (Signal n)}
    (h : propagate g (physics P optic conn hasNoise) inp old = .ok st) :
    ∃ r : ℝ → Fin n → ℝ,
      (∀ φ old', ∃ st', propagate g (physics P (setOptic optic e0.comp (o φ)) conn hasNoise) inp old' = .ok st' ∧ st' (.node s.id) = some (fun t => ((r φ t : ℝ) : ℂ))) ∧
      (∀ φ t, HasDerivAt (fun ψ => r ψ t) ((r (φ + Real.pi / 2) t - r (φ - Real.pi / 2) t) / 2) φ) ∧
      (∀ φ, HasDerivAt (fun ψ => npMean (r ψ)) ((npMean (r (φ + Real.pi / 2)) - npMean (r (φ - Real.pi / 2))) / 2) φ) ∧
      ∀ φ ψ t, r φ t + r (φ + Real.pi) t = r ψ t + r (ψ + Real.pi) t := by
  obtain ⟨r, h1, h2⟩ := C126_phase hn hwin hw hK hM hne ho h
  have hd : ∀ φ t, HasDerivAt (fun ψ => r ψ t) ((r (φ + Real.pi / 2) t - r (φ - Real.pi / 2) t) / 2) φ := by
    intro φ t
    have e : (fun ψ => r ψ t) = fun ψ => (r 0 t + r Real.pi t) / 2 + (r 0 t - r Real.pi t) / 2 * Real.cos ψ + (r (Real.pi / 2) t - (r 0 t + r Real.pi t) / 2) * Real.sin ψ :=
      funext fun ψ => (h2 ψ t).2
    rw [(h2 (φ + Real.pi / 2) t).2, (h2 (φ - Real.pi / 2) t).2, Real.cos_add_pi_div_two, Real.sin_add_pi_div_two, Real.cos_sub_pi_div_two, Real.sin_sub_pi_div_two, e]
    exact ((((Real.hasDerivAt_cos φ).const_mul ((r 0 t - r Real.pi t) / 2)).const_add ((r 0 t + r Real.pi t) / 2)).add
      ((Real.hasDerivAt_sin φ).const_mul (r (Real.pi / 2) t - (r 0 t + r Real.pi t) / 2))).congr_deriv (by ring)
  refine ⟨r, h1, hd, fun φ => ?_, fun φ ψ t => ?_⟩
  · have e : (npMean (r (φ + Real.pi / 2)) - npMean (r (φ - Real.pi / 2))) / 2 = (∑ t, (r (φ + Real.pi / 2) t - r (φ - Real.pi / 2) t) / 2) / n := by
      unfold npMean
      rw [← Finset.sum_div, Finset.sum_sub_distrib]
      ring
    rw [e]
    exact (HasDerivAt.fun_sum fun t _ => hd φ t).div_const _
  · rw [(h2 φ t).2, (h2 (φ + Real.pi) t).2, (h2 ψ t).2, (h2 (ψ + Real.pi) t).2, Real.cos_add_pi, Real.sin_add_pi, Real.cos_add_pi, Real.sin_add_pi]
    ring

theorem parabola (a b : ℂ) (z : ℝ) : ‖a + (z : ℂ) * b‖ ^ 2 = ‖a‖ ^ 2 + 2 * ((starRingEnd ℂ) a * b).re * z + ‖b‖ ^ 2 * z ^ 2 := by
  rw [Complex.sq_norm, Complex.sq_norm, Complex.sq_norm, Complex.normSq_apply, Complex.normSq_apply, Complex.normSq_apply]
  simp only [Complex.add_re, Complex.add_im, Complex.mul_re, Complex.mul_im, Complex.conj_re, Complex.conj_im, Complex.ofReal_re, Complex.ofReal_im]
  ring

/-- **C126.** Every amplitude of a component enters every sample of every meter behind linear components as a parabola that is open upwards; so between two settings of it the reading (and its
mean) never exceeds the larger of the readings there: for power, an attenuator is best at one of its limits. -/
theorem C126_gain (hn : 2 ≤ n) {P : Prop_ n} (hwin : 0 < P.window) {g : Graph} (hw : g.WF) {optic : Comp → Optic n} {conn : Comp → Connector} {hasNoise : Comp → Bool}
    {e0 d : Edge} {s : Node} (hK : KnobAt g optic e0) (hM : MeterAt g optic conn d s) (hne : d ≠ e0) {γ : ℝ → ℝ} {o : ℝ → Optic n} (ho : GainKnob P γ o) {inp : Signal n}
    {old st : Store (Signal n)} (h : propagate g (physics P optic conn hasNoise) inp old = .ok st) :
    ∃ (r : ℝ → Fin n → ℝ) (a b c : Fin n → ℝ),
      (∀ p old', ∃ st', propagate g (physics P (setOptic optic e0.comp (o p)) conn hasNoise) inp old' = .ok st' ∧ st' (.node s.id) = some (fun t => ((r p t : ℝ) : ℂ))) ∧
      (∀ p t, 0 ≤ r p t ∧ r p t = a t + b t * γ p + c t * γ p ^ 2 ∧ 0 ≤ c t) ∧
      ∀ p p1 p2, γ p1 ≤ γ p → γ p ≤ γ p2 → (∀ t, r p t ≤ max (r p1 t) (r p2 t)) ∧ npMean (r p) ≤ max (npMean (r p1)) (npMean (r p2)) := by
  have hdm : d ∈ g.edges := (mem_inEdges.1 (by rw [hM.into]; simp : d ∈ g.inEdges s.id)).1
  obtain ⟨A, L, x, -, hL⟩ := C126_transfer hn hwin hw hK hdm h
  obtain ⟨u, v, huv⟩ := ho x
  have hp : ∀ p t, ‖(A t + L u t) + (γ p : ℂ) * L v t‖ ^ 2 = ‖A t + L u t‖ ^ 2 + (2 * ((starRingEnd ℂ) (A t + L u t) * L v t).re) * γ p + ‖L v t‖ ^ 2 * γ p ^ 2 :=
    fun p t => parabola _ _ _
  have hconv : ∀ (a b c z z1 z2 : ℝ), 0 ≤ c → z1 ≤ z → z ≤ z2 → a + b * z + c * z ^ 2 ≤ max (a + b * z1 + c * z1 ^ 2) (a + b * z2 + c * z2 ^ 2) := by
    intro a b c z z1 z2 hc h1 h2
    by_contra hcon
    rw [not_le, max_lt_iff] at hcon
    obtain ⟨l1, l2⟩ := hcon
    have q1 : 0 < (z - z1) * (b + c * (z + z1)) := by nlinarith
    have q2 : (z2 - z) * (b + c * (z + z2)) < 0 := by nlinarith
    have p1 : 0 < b + c * (z + z1) := by
      by_contra hh
      nlinarith [mul_nonneg (sub_nonneg.2 h1) (neg_nonneg.2 (not_lt.1 hh))]
    have p2 : b + c * (z + z2) < 0 := by
      by_contra hh
      nlinarith [mul_nonneg (sub_nonneg.2 h2) (not_lt.1 hh)]
    nlinarith
  refine ⟨fun p t => ‖(A t + L u t) + (γ p : ℂ) * L v t‖ ^ 2, _, _, _, fun p old' => ?_, fun p t => ⟨by positivity, hp p t, by positivity⟩, fun p p1 p2 h1 h2 => ⟨fun t => ?_, ?_⟩⟩
  · obtain ⟨st', k1, -, k3⟩ := hL (o p) _ (huv p) old'
    refine ⟨st', k1, ?_⟩
    rw [meter_reads hw (meter_keeps hK hM hne (o p)) ((propagate_iff hw).1 k1).2 k3]
    have e : (fun t => u t + (γ p : ℂ) * v t) = u + (γ p : ℂ) • v := by funext t; simp
    rw [e, map_add, map_smul]
    simp only [Pi.add_apply, Pi.smul_apply, smul_eq_mul, add_assoc]
  · dsimp only
    rw [hp, hp, hp]
    exact hconv _ _ _ _ _ _ (by positivity) h1 h2
  · have hm : ∀ p, npMean (fun t => ‖(A t + L u t) + (γ p : ℂ) * L v t‖ ^ 2) = npMean (fun t => ‖A t + L u t‖ ^ 2) +
        npMean (fun t => 2 * ((starRingEnd ℂ) (A t + L u t) * L v t).re) * γ p + npMean (fun t => ‖L v t‖ ^ 2) * γ p ^ 2 := by
      intro p
      unfold npMean
      simp_rw [hp]
      rw [Finset.sum_add_distrib, Finset.sum_add_distrib, ← Finset.sum_mul, ← Finset.sum_mul]
      ring
    rw [hm, hm, hm]
    refine hconv _ _ _ _ _ _ ?_ h1 h2
    unfold npMean
    positivity

/-! ### Which parameters are phases and amplitudes -/

theorem lti_split (H G : Signal n) (c : ℂ) (x : Signal n) : lti (fun k => H k + c * G k) x = fun t => lti H x t + c * lti G x t := by
  have e : (fun k => (H k + c * G k) * npFft x k) = fun k => H k * npFft x k + c * (G k * npFft x k) := by funext k; ring
  unfold lti
  rw [e, npIfft_add, npIfft_smul]

/-- The list of a mask with one value of a bin left open. -/
theorem mask_pattern (n m : Nat) (vals : List ℝ) (k : Nat) : ∃ pat : List (Option ℝ), ∀ z, wsMask n (wsRepeat m (vals.set k z)) = pat.map (fun o => o.getD z) := by
  let pv : List (Option ℝ) := (vals.map some).set k none
  have h1 : ∀ z, vals.set k z = pv.map (fun o => o.getD z) := fun z => by
    simp only [pv, List.map_set, List.map_map, Option.getD_none]
    congr 1
    simp
  let pr : List (Option ℝ) := pv.flatMap (List.replicate m)
  have h2 : ∀ z, wsRepeat m (vals.set k z) = pr.map (fun o => o.getD z) := fun z => by
    rw [h1]
    simp only [wsRepeat, pr, List.map_flatMap, List.flatMap_map, List.map_replicate]
  let left : ℤ := ((n : ℤ) - pr.length) / 2
  let right : ℤ := n - (-((-((n : ℤ) - pr.length)) / 2))
  refine ⟨if left < 0 then (pr.take right.toNat).drop (-left).toNat
    else List.replicate left.toNat (some extinction) ++ pr ++ List.replicate ((n : ℤ) - right).toNat (some extinction), fun z => ?_⟩
  rw [h2]
  unfold wsMask
  simp only [List.length_map]
  split
  · rw [List.map_drop, List.map_take]
  · rw [List.map_append, List.map_append, List.map_replicate, List.map_replicate]
    simp only [Option.getD_some]
    rfl

/-- Every value of the mask is the open one or does not depend on it; whether the shapes fit does not depend on it. -/
theorem broadcast_pattern {n : Nat} (pat : List (Option ℝ)) : (∃ q : Fin n → Option ℝ, ∀ z, broadcast n (pat.map (fun o => o.getD z)) = .ok (fun j => (q j).getD z)) ∨
    ∀ z, broadcast n (pat.map (fun o => o.getD z)) = .error .valueError := by
  by_cases hl : pat.length = n
  · left
    refine ⟨fun j => pat[j.val]'(by rw [hl]; exact j.isLt), fun z => ?_⟩
    unfold broadcast
    rw [dif_pos (by simpa using hl)]
    simp
  · match pat, hl with
    | [q], hl =>
      refine .inl ⟨fun _ => q, fun z => ?_⟩
      unfold broadcast
      rw [dif_neg (by simpa using hl)]
      rfl
    | [], hl =>
      refine .inr fun z => ?_
      unfold broadcast
      rw [dif_neg (by simpa using hl)]
      rfl
    | _ :: _ :: _, hl =>
      refine .inr fun z => ?_
      unfold broadcast
      rw [dif_neg (by simpa using hl)]
      rfl

theorem set_same (vals : List ℝ) (k : Nat) : vals.set k (vals.getD k 0) = vals := by
  rcases lt_or_ge k vals.length with hk | hk
  · rw [List.getD_eq_getElem _ _ hk, List.set_getElem_self]
  · rw [List.set_eq_of_length_le hk]

/-- A mask that fits does so whatever the value of a bin, and each of its entries is that value or does not depend on it. -/
theorem mask_open {m : Nat} {vals : List ℝ} {a : Fin n → ℝ} (k : Nat) (h : broadcast n (wsMask n (wsRepeat m vals)) = .ok a) :
    ∃ q : Fin n → Option ℝ, ∀ z, broadcast n (wsMask n (wsRepeat m (vals.set k z))) = .ok (fun j => (q j).getD z) := by
  obtain ⟨pat, hp⟩ := mask_pattern n m vals k
  rcases broadcast_pattern (n := n) pat with ⟨q, hq⟩ | hq
  · exact ⟨q, fun z => by rw [hp, hq]⟩
  · have := hq (vals.getD k 0)
    rw [← hp, set_same, h] at this
    cases this

theorem waveShaper_parts {P : Prop_ n} {amps phases : List ℝ} {x y : Signal n} (h : waveShaper P amps phases x = .ok y) :
    ∃ a p, broadcast n (wsMask n (wsRepeat (wsBinLen P) amps)) = .ok a ∧ broadcast n (wsMask n (wsRepeat (wsBinLen P) phases)) = .ok p := by
  unfold waveShaper at h
  split at h
  · exact ⟨_, _, by assumption, by assumption⟩
  · cases h
  · cases h

theorem waveShaper_lti {P : Prop_ n} (hdt : P.dt ≠ 0) {amps phases : List ℝ} {a p : Fin n → ℝ} (ha : broadcast n (wsMask n (wsRepeat (wsBinLen P) amps)) = .ok a)
    (hp : broadcast n (wsMask n (wsRepeat (wsBinLen P) phases)) = .ok p) (x : Signal n) :
    waveShaper P amps phases x = .ok (lti (fun k => (dbAmp (-4.5) : ℂ) * ifftShift (fun j => (a j : ℂ) * exp (I * (p j : ℂ))) k) x) := by
  unfold waveShaper
  rw [ha, hp]
  dsimp only
  rw [freqMul_lti _ hdt, dbScale_lti]

theorem sum_set (f : Nat → ℝ) (k : Nat) (z : ℝ) (l : List ℝ) (i : Nat) : (((l.set k z).zipIdx i).map (fun p => p.1 * f p.2)).sum =
    (((l.set k 0).zipIdx i).map (fun p => p.1 * f p.2)).sum + z * (if k < l.length then f (i + k) else 0) := by
  induction l generalizing k i with
  | nil => simp
  | cons a l ih =>
    cases k with
    | zero => simp; ring
    | succ k =>
      simp only [List.set_cons_succ, List.zipIdx_cons, List.map_cons, List.sum_cons, List.length_cons, Nat.add_lt_add_iff_right]
      rw [ih, show i + 1 + k = i + (k + 1) by omega]
      ring

theorem waveform_set (k : Nat) (l : List ℝ) (t : ℝ) : ∃ v : ℝ, ∀ z, getWaveform (l.set k z) t = getWaveform (l.set k 0) t + z * v := by
  refine ⟨if k < l.length then bernstein_ t (0 + k) (l.length - 1) else 0, fun z => ?_⟩
  unfold getWaveform
  rw [sum_set (fun j => bernstein_ t j ((l.set k z).length - 1))]
  simp only [List.length_set]

/-- **C126.** The phase of a phase shifter, the bias of an intensity modulator and every phase of a waveshaper are phases in the sense of `C126_phase`; the attenuation of an attenuator (as an
amplitude), every amplitude of a waveshaper and every amplitude coefficient of a programmable filter are amplitudes in the sense of `C126_gain`. -/
theorem C126_knobs (hn : 2 ≤ n) {P : Prop_ n} (hwin : 0 < P.window) :
    PhaseKnob P (fun φ => .phaseShifter φ) ∧ (∀ depth freq, PhaseKnob P (fun φ => .intensityMod depth freq φ)) ∧ GainKnob P dbAmp (fun att => .voa att) ∧
    (∀ (amps phases : List ℝ) (k : Nat), pfBwInt P ≠ 0 → GainKnob P id (fun z => .progFilter (amps.set k z) phases)) ∧
    ∀ amps phases, (∃ x y, waveShaper P amps phases x = .ok y) → ∀ k, PhaseKnob P (fun φ => .waveShaper amps (phases.set k φ)) ∧ GainKnob P id (fun z => .waveShaper (amps.set k z) phases) := by
  have hdt := dt_ne_zero hn hwin
  refine ⟨fun x => ⟨fun _ => 0, x, fun φ => ?_⟩, fun depth freq x => ⟨fun j => x j / 2 * (dbAmp (-4) : ℂ),
    fun j => x j / 2 * exp (I * ((depth * Real.cos (2 * Real.pi * freq * P.t j) : ℝ) : ℂ)) * (dbAmp (-4) : ℂ), fun φ => ?_⟩, fun x => ⟨fun _ => 0, x, fun att => ?_⟩, fun amps phases k hb x => ?_, ?_⟩
  · rw [turns_phaseShifter hn hwin φ x]
    simp
  · show Except.ok _ = Except.ok _
    congr 1
    funext j
    simp only [intensityMod, dbScale, turn]
    rw [show (I * ((depth * Real.cos (2 * Real.pi * freq * P.t j) + φ : ℝ) : ℂ)) = I * ((depth * Real.cos (2 * Real.pi * freq * P.t j) : ℝ) : ℂ) + φ * I by push_cast; ring, Complex.exp_add]
    ring
  · show Except.ok _ = Except.ok _
    congr 1
    funext j
    simp only [voa, dbScale]
    ring
  · choose v hv using fun t => waveform_set k amps t
    refine ⟨lti (fun i => (dbAmp (-4.5) : ℂ) * ifftShift (fun j => ((getWaveform (amps.set k 0) (pfT P j) * pfMask P j : ℝ) : ℂ) * exp (I * ((getWaveform phases (pfT P j) * pfMask P j : ℝ) : ℂ))) i) x,
      lti (fun i => (dbAmp (-4.5) : ℂ) * ifftShift (fun j => ((v (pfT P j) * pfMask P j : ℝ) : ℂ) * exp (I * ((getWaveform phases (pfT P j) * pfMask P j : ℝ) : ℂ))) i) x, fun z => ?_⟩
    show progFilter P (amps.set k z) phases x = _
    unfold progFilter
    rw [if_neg hb]
    dsimp only
    rw [freqMul_lti _ hdt, dbScale_lti, ← lti_split]
    congr 2
    funext i
    unfold ifftShift
    dsimp only
    rw [hv]
    simp only [id]
    push_cast
    ring
  · rintro amps phases ⟨x0, y0, h0⟩ k
    obtain ⟨a, p, ha, hp⟩ := waveShaper_parts h0
    constructor
    · intro x
      obtain ⟨q, hq⟩ := mask_open k hp
      refine ⟨lti (fun i => (dbAmp (-4.5) : ℂ) * ifftShift (fun j => (a j : ℂ) * ((q j).elim 0 fun z => exp (I * (z : ℂ)))) i) x,
        lti (fun i => (dbAmp (-4.5) : ℂ) * ifftShift (fun j => (a j : ℂ) * ((q j).elim 1 fun _ => 0)) i) x, fun φ => ?_⟩
      show waveShaper P amps (phases.set k φ) x = _
      rw [waveShaper_lti hdt ha (hq φ), ← lti_split]
      congr 2
      funext i
      unfold ifftShift turn
      dsimp only
      cases q (rotIdx (n / 2) i) with
      | none => simp only [Option.getD_none, Option.elim_none]; rw [mul_comm I]; ring
      | some z => simp only [Option.getD_some, Option.elim_some]; ring
    · intro x
      obtain ⟨q, hq⟩ := mask_open k ha
      refine ⟨lti (fun i => (dbAmp (-4.5) : ℂ) * ifftShift (fun j => ((q j).elim 0 fun z => (z : ℂ)) * exp (I * (p j : ℂ))) i) x,
        lti (fun i => (dbAmp (-4.5) : ℂ) * ifftShift (fun j => ((q j).elim 1 fun _ => 0) * exp (I * (p j : ℂ))) i) x, fun z => ?_⟩
      show waveShaper P (amps.set k z) phases x = _
      rw [waveShaper_lti hdt (hq z) hp, ← lti_split]
      congr 2
      funext i
      unfold ifftShift
      dsimp only
      cases q (rotIdx (n / 2) i) with
      | none => simp only [Option.getD_none, Option.elim_none, id]; ring
      | some z' => simp only [Option.getD_some, Option.elim_some, id]; ring

namespace KnobExample
open Fixture FringeExample

/-- The phase shifter of the two-armed design of C125: the arm beside it is a modulator. -/
theorem arm_knob (x : Signal 4) : KnobAt coupler (FringeExample.optic x 0) ⟨1, 2, 0, Fixture.fiber 5, 30⟩ := ⟨by decide, by decide, fun e he h => (coupler_shifter x).linear e he h⟩

theorem arm_meter (x : Signal 4) : MeterAt coupler (FringeExample.optic x 0) FringeExample.conn ⟨2, 3, 0, diode 7, 20⟩ ⟨3, snk, 2⟩ := ⟨rfl, by decide, by decide, by decide, rfl⟩

/-- `C126_transfer`: the light to a meter depends on what is in the arm by a linear map of what it emits. -/
example (x inp : Signal 4) : ∃ (A : Signal 4) (L : Signal 4 →ₗ[ℂ] Signal 4) (z : Signal 4), ∀ (o : Optic 4) y, o.apply demoProp z = .ok y → ∀ old, ∃ st,
    propagate coupler (physics demoProp (setOptic (FringeExample.optic x 0) (Fixture.fiber 5) o) FringeExample.conn (fun _ => false)) inp old = .ok st ∧
      Fed coupler (physics demoProp (setOptic (FringeExample.optic x 0) (Fixture.fiber 5) o) FringeExample.conn (fun _ => false)) inp st ⟨2, 3, 0, diode 7, 20⟩ (A + L y) := by
  obtain ⟨st, h⟩ := coupler_runs x inp 0 Store.empty
  obtain ⟨A, L, z, -, hL⟩ := C126_transfer (by norm_num) (by norm_num [demoProp]) coupler_wf (arm_knob x) (d := ⟨2, 3, 0, diode 7, 20⟩) (by decide) h
  exact ⟨A, L, z, fun o y hy old => (hL o y hy old).imp fun st k => ⟨k.1, k.2.2⟩⟩

/-- `C126_phase` with `C126_knobs`: a modulator in the arm, its bias turned. -/
example (x inp : Signal 4) : ∃ r : ℝ → Fin 4 → ℝ,
    (∀ φ old, ∃ st, propagate coupler (physics demoProp (setOptic (FringeExample.optic x 0) (Fixture.fiber 5) (.intensityMod 1 2 φ)) FringeExample.conn (fun _ => false)) inp old = .ok st ∧
      st (.node 3) = some (fun t => ((r φ t : ℝ) : ℂ))) ∧
    ∀ φ t, r φ t = (r 0 t + r Real.pi t) / 2 + (r 0 t - r Real.pi t) / 2 * Real.cos φ + (r (Real.pi / 2) t - (r 0 t + r Real.pi t) / 2) * Real.sin φ := by
  obtain ⟨st, h⟩ := coupler_runs x inp 0 Store.empty
  have hk := C126_knobs (n := 4) (by norm_num) (P := demoProp) (by norm_num [demoProp])
  obtain ⟨r, h1, h2⟩ := C126_phase (by norm_num) (by norm_num [demoProp]) coupler_wf (arm_knob x) (arm_meter x) (by decide) (hk.2.1 1 2) h
  exact ⟨r, h1, fun φ t => (h2 φ t).2⟩

/-- `C126_shift`: the same bias. -/
example (x inp : Signal 4) : ∃ r : ℝ → Fin 4 → ℝ,
    (∀ φ old, ∃ st, propagate coupler (physics demoProp (setOptic (FringeExample.optic x 0) (Fixture.fiber 5) (.intensityMod 1 2 φ)) FringeExample.conn (fun _ => false)) inp old = .ok st ∧
      st (.node 3) = some (fun t => ((r φ t : ℝ) : ℂ))) ∧
    ∀ φ, HasDerivAt (fun ψ => npMean (r ψ)) ((npMean (r (φ + Real.pi / 2)) - npMean (r (φ - Real.pi / 2))) / 2) φ := by
  obtain ⟨st, h⟩ := coupler_runs x inp 0 Store.empty
  have hk := C126_knobs (n := 4) (by norm_num) (P := demoProp) (by norm_num [demoProp])
  obtain ⟨r, h1, -, h3, -⟩ := C126_shift (by norm_num) (by norm_num [demoProp]) coupler_wf (arm_knob x) (arm_meter x) (by decide) (hk.2.1 1 2) h
  exact ⟨r, h1, h3⟩

/-- `C126_knobs`: a waveshaper of two bins; the second phase. -/
example : PhaseKnob demoProp (fun φ => .waveShaper [1 / 2, 1 / 3] [0, φ]) := by
  have hr : ∃ y, waveShaper demoProp [1 / 2, 1 / 3] [0, 1] (fun _ => 0) = .ok y := by
    refine (waveShaper_runs (n := 4) (by norm_num) [1 / 2, 1 / 3] [0, 1] rfl _).2 ?_
    simp only [List.length_cons, List.length_nil]
    generalize wsBinLen demoProp = m
    omega
  exact ((C126_knobs (n := 4) (by norm_num) (P := demoProp) (by norm_num [demoProp])).2.2.2.2 _ _ ⟨_, hr⟩ 1).1

theorem dbAmp_le {a b : ℝ} (h : a ≤ b) : dbAmp a ≤ dbAmp b := Real.rpow_le_rpow_of_exponent_le (by norm_num) (by linarith)

/-- `C126_gain` with `C126_knobs`: an attenuator in the arm; of all attenuations from -60 dB to 0 dB one of the limits gives the largest mean power. -/
example (x inp : Signal 4) : ∃ r : ℝ → Fin 4 → ℝ,
    (∀ att old, ∃ st, propagate coupler (physics demoProp (setOptic (FringeExample.optic x 0) (Fixture.fiber 5) (.voa att)) FringeExample.conn (fun _ => false)) inp old = .ok st ∧
      st (.node 3) = some (fun t => ((r att t : ℝ) : ℂ))) ∧
    ∀ att, -60 ≤ att → att ≤ 0 → npMean (r att) ≤ max (npMean (r (-60))) (npMean (r 0)) := by
  obtain ⟨st, h⟩ := coupler_runs x inp 0 Store.empty
  have hk := C126_knobs (n := 4) (by norm_num) (P := demoProp) (by norm_num [demoProp])
  obtain ⟨r, -, -, -, h1, -, h2⟩ := C126_gain (by norm_num) (by norm_num [demoProp]) coupler_wf (arm_knob x) (arm_meter x) (by decide) hk.2.2.1 h
  exact ⟨r, h1, fun att l1 l2 => (h2 att (-60) 0 (dbAmp_le l1) (dbAmp_le l2)).2⟩

end KnobExample

end Verif
