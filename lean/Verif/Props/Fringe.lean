import Verif.Spec.Fringe
import Verif.Props.Response
import Verif.Props.Upstream
import Verif.Props.Energy
import Verif.Props.Interferometer
/-!
# C125: one phase in any design makes a sinusoidal fringe; what PhaseSensitivity makes of it
-/

namespace Verif
open Complex Graph

variable {n : Nat}

/-! ### Running again -/

/-- Whether a component raises does not depend on the light. -/
theorem apply_total {P : Prop_ n} (hdt : P.dt ≠ 0) {o : Optic n} {x y : Signal n} (h : o.apply P x = .ok y) (x' : Signal n) : ∃ y', o.apply P x' = .ok y' := by
  by_cases h1 : o.IsDetector
  · cases o with
    | measure => exact ⟨_, rfl⟩
    | photodiode D =>
      simp only [Optic.apply, Photodiode.propagate, filteredTime] at h ⊢
      split at h
      · cases h
      · exact ⟨_, rfl⟩
    | _ => exact absurd h1 id
  · by_cases h2 : o.IsModulator
    · obtain ⟨m, hm⟩ := apply_mod (P := P) h2
      exact ⟨_, hm x'⟩
    · by_cases h3 : o.Saturates
      · cases o with
        | edfa E => exact ⟨_, rfl⟩
        | photodiode D => exact absurd trivial h1
        | _ => exact absurd h3 id
      · by_cases h4 : ∃ z, o = .source z
        · obtain ⟨z, rfl⟩ := h4
          exact ⟨_, rfl⟩
        · rcases apply_lti hdt h1 h2 h3 (fun z hz => h4 ⟨z, hz⟩) with ⟨H, hH⟩ | ⟨er, her⟩
          · exact ⟨_, hH x'⟩
          · rw [her] at h
            cases h

theorem rerun {P : Prop_ n} {g : Graph} (hw : g.WF) {optic optic' : Comp → Optic n} {conn : Comp → Connector} {hasNoise : Comp → Bool} {inp : Signal n}
    {old st : Store (Signal n)} (h : propagate g (physics P optic conn hasNoise) inp old = .ok st)
    (hok : ∀ e ∈ g.edges, ∀ s s1, (optic e.comp).apply P s = .ok s1 → ∀ t, ∃ t1, (optic' e.comp).apply P t = .ok t1) (old' : Store (Signal n)) :
    ∃ st', propagate g (physics P optic' conn hasNoise) inp old' = .ok st' := by
  obtain ⟨⟨order, ho⟩, hF⟩ := (propagate_iff hw).1 h
  refine (C17_propagate_acyclic hw ⟨run_nodes hw hF, ?_, ?_⟩ inp old').1 (topoSort_sound hw ho).acyclic
  · intro e he s
    obtain ⟨_, _, _, _, _, t, s1, _, _, _, _, k4, -⟩ := hF.edges e he
    exact hok e he t s1 k4 s
  · intro e _ f hf s
    simp only [physics] at hf
    split at hf
    · injection hf with hf
      exact ⟨s, by rw [← hf]⟩
    · cases hf

/-! ### Light is affine in the gain of one component -/

theorem fed_exists {P : Prop_ n} {g : Graph} {optic : Comp → Optic n} {conn : Comp → Connector} {hasNoise : Comp → Bool} {inp : Signal n} {st : Store (Signal n)}
    (hF : IsFlow g (physics P optic conn hasNoise) inp st) {e : Edge} (he : e ∈ g.edges) :
    ∃ s y, Fed g (physics P optic conn hasNoise) inp st e s ∧ (optic e.comp).apply P s = .ok y ∧ st (.edge e.ref) = some y := by
  obtain ⟨v, hv, hid, outs, i, s, s1, s2, k1, k2, k3, k4, k5, k6⟩ := hF.edges e he
  exact ⟨s, s2, ⟨v, hv, hid, outs, i, k1, k2, k3⟩, onEdge_physics.1 ⟨s1, k4, k5⟩, k6⟩

theorem fed_unique {S : Type} {g : Graph} (hw : g.WF) {B : Behav S} {inp : S} {st : Store S} {e : Edge} {s t : S} (h1 : Fed g B inp st e s) (h2 : Fed g B inp st e t) : s = t := by
  obtain ⟨v, hv, hid, outs, i, a1, a2, a3⟩ := h1
  obtain ⟨v', hv', hid', outs', i', b1, b2, b3⟩ := h2
  obtain rfl : v' = v := List.inj_on_of_nodup_map hw.ids_nodup hv' hv (hid'.trans hid.symm)
  obtain rfl := outputs_unique a1 b1
  have : i' = i := (List.getElem?_inj (List.getElem?_eq_some_iff.1 b2).1 (outEdges_nodup hw _)).1 (b2.trans a2.symm)
  subst this
  rw [a3] at b3
  injection b3

theorem mix_self {a b : ℂ} (hab : a + b = 1) (x : Signal n) : mix a b x x = x := by
  funext i
  unfold mix
  rw [← add_mul, hab, one_mul]

theorem zip_mix_self {a b : ℂ} (hab : a + b = 1) (l : List (Signal n)) : l.zipWith (mix a b) l = l := by
  rw [List.zipWith_self]
  simp [mix_self hab]

theorem apply_mix_self {P : Prop_ n} (hdt : P.dt ≠ 0) {a b : ℂ} (hab : a + b = 1) {o : Optic n} (h1 : ¬ o.IsDetector) (h3 : ¬ o.Saturates)
    {x y x' y' : Signal n} (hx : o.apply P x = .ok x') (hy : o.apply P y = .ok y') : o.apply P (mix a b x y) = .ok (mix a b x' y') := by
  by_cases hs : ∃ z, o = .source z
  · obtain ⟨z, rfl⟩ := hs
    simp only [Optic.apply] at hx hy ⊢
    injection hx with hx; injection hy with hy
    rw [← hx, ← hy, mix_self hab]
  · have hs' : ∀ z, o ≠ .source z := fun z hz => hs ⟨z, hz⟩
    have := apply_mix hdt a b h1 h3 (fun _ => 0) (fun _ => 0) (by rw [mapSource_pass _ hs']; exact hx) (by rw [mapSource_pass _ hs']; exact hy)
    rwa [mapSource_pass _ hs'] at this

/-- What the states of three runs have to do with each other at the in-edges, they have at the outputs of a node. -/
theorem outputs_mix {P : Prop_ n} (hdt : P.dt ≠ 0) {a b : ℂ} (hab : a + b = 1) {g : Graph} {o1 o2 o3 : Comp → Optic n} {conn : Comp → Connector}
    {hasNoise : Comp → Bool} {inp : Signal n} {st1 st2 st3 : Store (Signal n)} {v : Node}
    (hd : ∀ d ∈ g.inEdges v.id, ∃ s1 s2, st1 (.edge d.ref) = some s1 ∧ st2 (.edge d.ref) = some s2 ∧ st3 (.edge d.ref) = some (mix a b s1 s2))
    {l1 l2 : List (Signal n)} (h1 : Outputs g (physics P o1 conn hasNoise) inp st1 v l1) (h2 : Outputs g (physics P o2 conn hasNoise) inp st2 v l2) :
    Outputs g (physics P o3 conn hasNoise) inp st3 v (l1.zipWith (mix a b) l2) := by
  obtain ⟨i1, a1, c1⟩ := h1
  obtain ⟨i2, a2, c2⟩ := h2
  refine ⟨i1.zipWith (mix a b) i2, ?_, conn_mix hdt a b (conn v.comp) (by rw [inputs_length a1, inputs_length a2]) c1 c2⟩
  rcases a1 with ⟨k, rfl⟩ | ⟨k, a1⟩ <;> rcases a2 with ⟨k', rfl⟩ | ⟨k', a2⟩
  · exact .inl ⟨k, zip_mix_self hab _⟩
  · exact absurd k k'
  · exact absurd k' k
  · refine .inr ⟨k, ?_⟩
    have : ∀ (es : List Edge) (l l2 : List (Signal n)), (∀ d ∈ es, ∃ s1 s2, st1 (.edge d.ref) = some s1 ∧ st2 (.edge d.ref) = some s2 ∧ st3 (.edge d.ref) = some (mix a b s1 s2)) →
        es.map (fun e => st1 (.edge e.ref)) = l.map some → es.map (fun e => st2 (.edge e.ref)) = l2.map some →
        es.map (fun e => st3 (.edge e.ref)) = (l.zipWith (mix a b) l2).map some := by
      intro es
      induction es with
      | nil =>
        intro l l2 _ h1 h2
        cases l with
        | nil => rfl
        | cons _ _ => cases h1
      | cons e es ih =>
        intro l l2 hall h1 h2
        cases l with
        | nil => cases h1
        | cons x l =>
          cases l2 with
          | nil => cases h2
          | cons y l2 =>
            simp only [List.map_cons, List.cons.injEq] at h1 h2
            obtain ⟨s1, s2, k1, k2, k3⟩ := hall e (by simp)
            rw [h1.1] at k1
            rw [h2.1] at k2
            injection k1 with k1
            injection k2 with k2
            subst k1 k2
            simp only [List.map_cons, List.zipWith_cons_cons, k3, ih l l2 (fun d hd => hall d (by simp [hd])) h1.2 h2.2]
    exact this _ _ _ hd a1 a2

theorem gain_mix {P : Prop_ n} (hdt : P.dt ≠ 0) {a b : ℂ} (hab : a + b = 1) {g : Graph} (hw : g.WF) {o1 o2 o3 : Comp → Optic n} {conn : Comp → Connector}
    {hasNoise : Comp → Bool} {e0 : Edge} {z1 z2 : ℂ} (hz1 : ∀ x, (o1 e0.comp).apply P x = .ok (fun t => z1 * x t)) (hz2 : ∀ x, (o2 e0.comp).apply P x = .ok (fun t => z2 * x t))
    (hz3 : ∀ x, (o3 e0.comp).apply P x = .ok (fun t => (a * z1 + b * z2) * x t)) (hf : ∀ e ∈ g.edges, e ≠ e0 → o2 e.comp = o1 e.comp ∧ o3 e.comp = o1 e.comp)
    (hl : ∀ e ∈ g.edges, g.Reach e0.dst e.src → ¬ (o1 e.comp).Saturates ∧ ((o1 e.comp).IsDetector → g.outEdges e.dst = [])) (h0 : e0 ∈ g.edges)
    {inp : Signal n} {old1 old2 old3 st1 st2 st3 : Store (Signal n)}
    (h1 : propagate g (physics P o1 conn hasNoise) inp old1 = .ok st1) (h2 : propagate g (physics P o2 conn hasNoise) inp old2 = .ok st2)
    (h3 : propagate g (physics P o3 conn hasNoise) inp old3 = .ok st3) :
    ∀ e ∈ g.edges, ∃ t1 t2, Fed g (physics P o1 conn hasNoise) inp st1 e t1 ∧ Fed g (physics P o2 conn hasNoise) inp st2 e t2 ∧
      Fed g (physics P o3 conn hasNoise) inp st3 e (mix a b t1 t2) ∧ (¬ g.Reach e0.dst e.src → t1 = t2) ∧
      (¬ g.Reach e0.dst e.src ∨ ¬ (o1 e.comp).IsDetector → ∃ s1 s2, st1 (.edge e.ref) = some s1 ∧ st2 (.edge e.ref) = some s2 ∧ st3 (.edge e.ref) = some (mix a b s1 s2) ∧
        (¬ g.Reach e0.dst e.src → e ≠ e0 → s1 = s2)) := by
  obtain ⟨⟨order, ho⟩, F1⟩ := (propagate_iff hw).1 h1
  have F2 := ((propagate_iff hw).1 h2).2
  have F3 := ((propagate_iff hw).1 h3).2
  have ht := topoSort_sound hw ho
  have hself : ¬ g.Reach e0.dst e0.src := not_reach_of_idx ht (ht.forward e0 h0)
  intro e he
  generalize hm : order.idxOf e.src = m
  induction m using Nat.strong_induction_on generalizing e with
  | _ m ih =>
    obtain ⟨t1, y1, ⟨v, hv, hid, l1, i, a1, a2, a3⟩, p1, q1⟩ := fed_exists F1 he
    obtain ⟨t2, y2, ⟨v', hv', hid', l2, i', b1, b2, b3⟩, p2, q2⟩ := fed_exists F2 he
    obtain ⟨t3, y3, f3, p3, q3⟩ := fed_exists F3 he
    obtain rfl : v' = v := List.inj_on_of_nodup_map hw.ids_nodup hv' hv (hid'.trans hid.symm)
    have hii : i' = i := (List.getElem?_inj (List.getElem?_eq_some_iff.1 b2).1 (outEdges_nodup hw _)).1 (b2.trans a2.symm)
    subst hii
    have hin : ∀ d ∈ g.inEdges v'.id, ∃ s1 s2, st1 (.edge d.ref) = some s1 ∧ st2 (.edge d.ref) = some s2 ∧ st3 (.edge d.ref) = some (mix a b s1 s2) ∧
        (¬ g.Reach e0.dst d.src → d ≠ e0 → s1 = s2) := by
      intro d hd
      have hdm := mem_inEdges.1 hd
      obtain ⟨_, _, _, _, _, _, k⟩ := ih _ (by rw [← hm, ← hid, ← hdm.2]; exact ht.forward d hdm.1) d hdm.1 rfl
      refine k ?_
      by_cases hr : g.Reach e0.dst d.src
      · refine .inr fun hdet => ?_
        have h0 := (hl d hdm.1 hr).2 hdet
        have : e ∈ g.outEdges d.dst := mem_outEdges.2 ⟨he, by rw [hdm.2, hid]⟩
        rw [h0] at this
        cases this
      · exact .inl hr
    have hup : ¬ g.Reach e0.dst e.src → t1 = t2 := by
      intro hr
      have hst : ∀ d ∈ g.inEdges v'.id, st1 (.edge d.ref) = st2 (.edge d.ref) := by
        intro d hd
        have hdm := mem_inEdges.1 hd
        obtain ⟨s1, s2, k1, k2, -, k4⟩ := hin d hd
        rw [k1, k2, k4 (fun hc => hr ?_) (fun hc => hr ?_)]
        · exact hc.tail ⟨d, hdm.1, rfl, by rw [hdm.2, hid]⟩
        · rw [← hc, hdm.2, hid]
          exact .refl
      obtain ⟨i1, c1, c2⟩ := a1
      obtain ⟨i2, d1, d2⟩ := b1
      have hii : i1 = i2 := by
        rcases c1 with ⟨k, rfl⟩ | ⟨k, c1⟩ <;> rcases d1 with ⟨k', rfl⟩ | ⟨k', d1⟩
        · rfl
        · exact absurd k k'
        · exact absurd k' k
        · rw [List.map_congr_left hst, d1] at c1
          exact (map_some_inj c1).symm
      subst hii
      have c2 : (conn v'.comp).apply P i1 _ _ = .ok l1 := c2
      have d2 : (conn v'.comp).apply P i1 _ _ = .ok l2 := d2
      rw [c2] at d2
      injection d2 with d2
      rw [← d2, a3] at b3
      injection b3
    have f3' : Fed g (physics P o3 conn hasNoise) inp st3 e (mix a b t1 t2) :=
      ⟨v', hv, hid, _, i', outputs_mix hdt hab (fun d hd => (hin d hd).imp fun s1 h => h.imp fun s2 h => ⟨h.1, h.2.1, h.2.2.1⟩) a1 b1, a2,
        by simp [List.getElem?_zipWith, a3, b3]⟩
    obtain rfl := fed_unique hw f3 f3'
    refine ⟨t1, t2, ⟨v', hv, hid, l1, i', a1, a2, a3⟩, ⟨v', hv, hid, l2, i', b1, b2, b3⟩, f3', hup, fun hc => ⟨y1, y2, q1, q2, ?_⟩⟩
    rw [q3]
    by_cases hee : e = e0
    · subst hee
      have ht12 := hup hself
      subst ht12
      rw [hz1] at p1
      rw [hz2] at p2
      rw [hz3] at p3
      injection p1 with p1; injection p2 with p2; injection p3 with p3
      refine ⟨?_, fun _ hne => absurd rfl hne⟩
      rw [← p1, ← p2, ← p3, mix_self hab]
      congr 1
      funext t
      unfold mix
      ring
    · rw [(hf e he hee).1] at p2
      rw [(hf e he hee).2] at p3
      by_cases hr : g.Reach e0.dst e.src
      · have hnd : ¬ (o1 e.comp).IsDetector := by
          rcases hc with hc | hc
          · exact absurd hr hc
          · exact hc
        have := apply_mix_self hdt hab hnd (hl e he hr).1 p1 p2
        rw [p3] at this
        injection this with this
        exact ⟨by rw [this], fun hc => absurd hr hc⟩
      · have h12 := hup hr
        subst h12
        rw [mix_self hab, p1] at p3
        rw [p1] at p2
        injection p2 with p2; injection p3 with p3
        subst p2 p3
        exact ⟨by rw [mix_self hab], fun _ _ => rfl⟩

/-! ### The fringe -/

theorem measure_field {P : Prop_ n} {o : Optic n} (ho : o = .measure) {x y : Signal n} (h : o.apply P x = .ok y) : y = fun t => ((‖x t‖ ^ 2 : ℝ) : ℂ) := by
  subst ho
  simp only [Optic.apply] at h
  injection h with h
  rw [← h]
  rfl

theorem sink_reads {P : Prop_ n} {g : Graph} {optic : Comp → Optic n} {conn : Comp → Connector} {hasNoise : Comp → Bool} {s : Node} {d : Edge} (hs : s ∈ g.nodes)
    (hin : g.inEdges s.id = [d]) (hout : g.outEdges s.id = []) (hc : conn s.comp = .terminal) {inp : Signal n} {st : Store (Signal n)}
    (hF : IsFlow g (physics P optic conn hasNoise) inp st) : st (.node s.id) = st (.edge d.ref) := by
  obtain ⟨outs, y, ⟨ins, h1, h2⟩, h3, h4⟩ := hF.sinks s hs ⟨List.mem_map.2 ⟨s, hs, rfl⟩, fun e he hes => by
    have : e ∈ g.outEdges s.id := mem_outEdges.2 ⟨he, hes⟩
    rw [hout] at this
    cases this⟩
  have h2 : (conn s.comp).apply P ins _ _ = .ok outs := h2
  rw [hc] at h2
  simp only [Connector.apply] at h2
  injection h2 with h2
  subst h2
  rcases h1 with ⟨h0, -⟩ | ⟨-, h1⟩
  · rw [hin] at h0; cases h0
  · rw [hin] at h1
    cases ins with
    | nil => cases h1
    | cons x l =>
      simp only [List.map_cons, List.cons.injEq] at h1
      simp only [List.getElem?_cons_zero, Option.some.injEq] at h3
      rw [h4, h1.1, h3]

/-- **C125.** One variable phase in any design makes a two-beam fringe.  The light at the power meter is a part `A` that has not passed the phase shifter and a part `B` that has, whatever the
layout between: the reading is the power of `A` plus `B` turned by the phase.  `A` and `B` do not depend on the phase, and the design runs for one phase exactly if it runs for all. -/
theorem C125_fringe (hn : 2 ≤ n) {P : Prop_ n} (hwin : 0 < P.window) {g : Graph} (hw : g.WF) {optic : ℝ → Comp → Optic n} {conn : Comp → Connector} {hasNoise : Comp → Bool}
    {e0 d : Edge} {s : Node} (hS : OneShifter P g optic conn e0 d s) {inp : Signal n} {φ₀ : ℝ} {old st : Store (Signal n)}
    (h : propagate g (physics P (optic φ₀) conn hasNoise) inp old = .ok st) :
    ∃ A B : Signal n, ∀ φ old', ∃ st', propagate g (physics P (optic φ) conn hasNoise) inp old' = .ok st' ∧
      Fed g (physics P (optic φ) conn hasNoise) inp st' d (fun t => A t + turn φ * B t) ∧
      st' (.node s.id) = some (fun t => ((‖A t + turn φ * B t‖ ^ 2 : ℝ) : ℂ)) := by
  have hdt := dt_ne_zero hn hwin
  have hrun : ∀ φ old', ∃ st', propagate g (physics P (optic φ) conn hasNoise) inp old' = .ok st' := fun φ old' => by
    refine rerun hw h (fun e he x y hxy t => ?_) old'
    by_cases hee : e = e0
    · subst hee
      exact ⟨_, hS.turns φ t⟩
    · rw [hS.fixed e he hee φ]
      rw [hS.fixed e he hee φ₀] at hxy
      exact apply_total hdt hxy t
  have hdm : d ∈ g.edges := (mem_inEdges.1 (by rw [hS.into]; simp : d ∈ g.inEdges s.id)).1
  obtain ⟨st1, h1⟩ := hrun 0 Store.empty
  obtain ⟨st2, h2⟩ := hrun Real.pi Store.empty
  have hpi : turn Real.pi = -1 := by unfold turn; exact Complex.exp_pi_mul_I
  obtain ⟨t1, -, f1, -, -⟩ := fed_exists ((propagate_iff hw).1 h1).2 hdm
  obtain ⟨t2, -, f2, -, -⟩ := fed_exists ((propagate_iff hw).1 h2).2 hdm
  refine ⟨fun t => (t1 t + t2 t) / 2, fun t => (t1 t - t2 t) / 2, fun φ old' => ?_⟩
  obtain ⟨st3, h3⟩ := hrun φ old'
  have hmix := gain_mix hdt (a := (1 + turn φ) / 2) (b := (1 - turn φ) / 2) (by ring) hw (o1 := optic 0) (o2 := optic Real.pi) (o3 := optic φ) (e0 := e0) (z1 := 1) (z2 := -1)
    (by have := hS.turns 0; rw [TurnsPhase, turn_zero] at this; exact this) (by have := hS.turns Real.pi; rw [TurnsPhase, hpi] at this; exact this)
    (by have := hS.turns φ
        rw [TurnsPhase] at this
        intro x
        rw [this x]
        congr 1
        funext t
        ring)
    (fun e he hne => ⟨hS.fixed e he hne _, hS.fixed e he hne _⟩) hS.linear hS.shifter h1 h2 h3
  obtain ⟨u1, u2, k1, k2, k3, -, -⟩ := hmix d hdm
  obtain rfl := fed_unique hw k1 f1
  obtain rfl := fed_unique hw k2 f2
  have hfield : mix ((1 + turn φ) / 2) ((1 - turn φ) / 2) u1 u2 = fun t => (u1 t + u2 t) / 2 + turn φ * ((u1 t - u2 t) / 2) := by
    funext t
    unfold mix
    ring
  rw [hfield] at k3
  refine ⟨st3, h3, k3, ?_⟩
  have F3 := ((propagate_iff hw).1 h3).2
  obtain ⟨t3, y, f3, p3, q3⟩ := fed_exists F3 hdm
  obtain rfl := fed_unique hw f3 k3
  rw [sink_reads hS.out hS.into hS.last hS.plain F3, q3, measure_field (by rw [hS.fixed d hdm hS.apart φ]; exact hS.meter) p3]

/-! ### What PhaseSensitivity sees -/

theorem fringe_power (a b : ℂ) (φ : ℝ) :
    ‖a + turn φ * b‖ ^ 2 = ‖a‖ ^ 2 + ‖b‖ ^ 2 + (2 * ((starRingEnd ℂ) a * b).re * Real.cos φ - 2 * ((starRingEnd ℂ) a * b).im * Real.sin φ) := by
  have ht : turn φ = ⟨Real.cos φ, Real.sin φ⟩ := by
    unfold turn
    rw [Complex.exp_mul_I]
    apply Complex.ext <;> simp [← Complex.ofReal_cos, ← Complex.ofReal_sin]
  rw [ht, Complex.sq_norm, Complex.sq_norm, Complex.sq_norm, Complex.normSq_apply, Complex.normSq_apply, Complex.normSq_apply]
  simp only [Complex.add_re, Complex.add_im, Complex.mul_re, Complex.mul_im, Complex.conj_re, Complex.conj_im]
  nlinarith [Real.sin_sq_add_cos_sq φ]

theorem fringe_mean (A B : Signal n) (φ : ℝ) :
    npMean (fun t => ‖A t + turn φ * B t‖ ^ 2) = npMean (fun t => ‖A t‖ ^ 2 + ‖B t‖ ^ 2) +
      (npMean (fun t => 2 * ((starRingEnd ℂ) (A t) * B t).re) * Real.cos φ - npMean (fun t => 2 * ((starRingEnd ℂ) (A t) * B t).im) * Real.sin φ) := by
  unfold npMean
  simp_rw [fringe_power]
  rw [Finset.sum_add_distrib, Finset.sum_sub_distrib, ← Finset.sum_mul, ← Finset.sum_mul]
  ring

/-- The swing of a sinusoid never exceeds its mean if the sinusoid is never negative. -/
theorem sinusoid (p q : ℝ) : ∃ R δ : ℝ, 0 ≤ R ∧ ∀ φ, p * Real.cos φ - q * Real.sin φ = R * Real.cos (φ - δ) := by
  refine ⟨‖(⟨p, -q⟩ : ℂ)‖, Complex.arg ⟨p, -q⟩, norm_nonneg _, fun φ => ?_⟩
  rw [Real.cos_sub]
  have h1 : ‖(⟨p, -q⟩ : ℂ)‖ * Real.cos (Complex.arg ⟨p, -q⟩) = p := Complex.norm_mul_cos_arg _
  have h2 : ‖(⟨p, -q⟩ : ℂ)‖ * Real.sin (Complex.arg ⟨p, -q⟩) = -q := Complex.norm_mul_sin_arg _
  linear_combination (-(Real.cos φ)) * h1 - Real.sin φ * h2

/-- What `evaluate` makes of a design whose mean reading is `M`. -/
theorem phase_eval {P : Prop_ n} {g : Graph} {optic : ℝ → Comp → Optic n} {conn : Comp → Connector} {hasNoise : Comp → Bool} {e0 : Edge} {v : NodeId} {φ : ℝ}
    {B : Sim n} {inp : Signal n} {w : Session n} (hB : ∀ x, B w.flag (w.setParams e0.comp.uid [x]).params = physics P (optic x) conn hasNoise)
    {M : ℝ → ℝ} (hM : ∀ x old, ∃ st y, propagate g (physics P (optic x) conn hasNoise) inp old = .ok st ∧ st (.node v) = some y ∧ npMean (fun t => (y t).re) = M x)
    {cls : ClassId} (hcls : edgesOfClass g cls = [e0]) (hw0 : w.params e0.comp.uid = [φ]) :
    ∃ w', evaluate g B inp (.phase cls (.node v)) w = (w', .ok (-|deriv M φ|)) ∧ w'.params = w.params := by
  have key : ∀ x, ∃ st, phaseMean g B inp (.node v) e0.comp.uid w x = ({ (w.setParams e0.comp.uid [x]) with saves := st }, .ok (M x)) := by
    intro x
    obtain ⟨st, y, hst, hr, hm⟩ := hM x w.saves
    refine ⟨st, ?_⟩
    have hp : (w.setParams e0.comp.uid [x]).propagate g B inp = ({ (w.setParams e0.comp.uid [x]) with saves := st }, .ok ()) := by
      unfold Session.propagate
      have : Verif.propagate g (B (w.setParams e0.comp.uid [x]).flag (w.setParams e0.comp.uid [x]).params) inp (w.setParams e0.comp.uid [x]).saves = .ok st := by
        rw [show (w.setParams e0.comp.uid [x]).flag = w.flag from rfl, hB x]; exact hst
      rw [this]
    unfold phaseMean Session.run
    rw [hp]
    simp only [Session.measure, hr, hm]
  obtain ⟨st, hst⟩ := key φ
  refine ⟨({ (w.setParams e0.comp.uid [φ]) with saves := st } : Session n).setParams e0.comp.uid [φ], ?_, ?_⟩
  · unfold evaluate
    simp only [hcls, hw0, hst]
    have hf : (fun x => valueOf (phaseMean g B inp (.node v) e0.comp.uid w x).2) = M := by
      funext x
      obtain ⟨st, h⟩ := key x
      rw [h]; rfl
    rw [hf]
  · funext m
    simp only [Session.setParams]
    split
    · rename_i h; rw [h, hw0]
    · rfl

/-- **C125.** The score of `PhaseSensitivity` on any such design: the mean reading is a sinusoid in the phase, of mean `c` and swing `R ≤ c`, and the score is minus the swing times the sine of
the distance from the crest; the parameters are afterwards what they were. -/
theorem C125_score (hn : 2 ≤ n) {P : Prop_ n} (hwin : 0 < P.window) {g : Graph} (hw : g.WF) {optic : ℝ → Comp → Optic n} {conn : Comp → Connector} {hasNoise : Comp → Bool}
    {e0 d : Edge} {s : Node} (hS : OneShifter P g optic conn e0 d s) {inp : Signal n} {φ₀ : ℝ} {old st : Store (Signal n)}
    (h : propagate g (physics P (optic φ₀) conn hasNoise) inp old = .ok st) :
    ∃ c R δ : ℝ, 0 ≤ R ∧ R ≤ c ∧
      (∀ x old, ∃ st y, propagate g (physics P (optic x) conn hasNoise) inp old = .ok st ∧ st (.node s.id) = some y ∧ npMean (fun t => (y t).re) = c + R * Real.cos (x - δ)) ∧
      ∀ {B : Sim n} {w : Session n} {φ : ℝ} {cls : ClassId}, (∀ x, B w.flag (w.setParams e0.comp.uid [x]).params = physics P (optic x) conn hasNoise) →
        edgesOfClass g cls = [e0] → w.params e0.comp.uid = [φ] →
        ∃ w', evaluate g B inp (.phase cls (.node s.id)) w = (w', .ok (-(R * |Real.sin (φ - δ)|))) ∧ w'.params = w.params := by
  obtain ⟨A, B, hAB⟩ := C125_fringe hn hwin hw hS h
  obtain ⟨R, δ, hR, hsin⟩ := sinusoid (npMean (fun t => 2 * ((starRingEnd ℂ) (A t) * B t).re)) (npMean (fun t => 2 * ((starRingEnd ℂ) (A t) * B t).im))
  have hM : ∀ x old, ∃ st y, propagate g (physics P (optic x) conn hasNoise) inp old = .ok st ∧ st (.node s.id) = some y ∧
      npMean (fun t => (y t).re) = npMean (fun t => ‖A t‖ ^ 2 + ‖B t‖ ^ 2) + R * Real.cos (x - δ) := by
    intro x old
    obtain ⟨st, h1, -, h3⟩ := hAB x old
    refine ⟨st, _, h1, h3, ?_⟩
    simp only [Complex.ofReal_re]
    rw [fringe_mean, hsin]
  refine ⟨_, R, δ, hR, ?_, hM, fun {_ w φ cls} hB hcls hw0 => ?_⟩
  · have h0 : 0 ≤ npMean (fun t => ‖A t + turn (δ + Real.pi) * B t‖ ^ 2) := by
      unfold npMean
      positivity
    rw [fringe_mean, hsin, add_sub_cancel_left, Real.cos_pi] at h0
    linarith
  · obtain ⟨w', h1, h2⟩ := phase_eval hB hM hcls hw0
    refine ⟨w', ?_, h2⟩
    rw [h1]
    have hd : HasDerivAt (fun x => npMean (fun t => ‖A t‖ ^ 2 + ‖B t‖ ^ 2) + R * Real.cos (x - δ)) (R * (-Real.sin (φ - δ) * 1)) φ := by
      exact (((hasDerivAt_id φ).sub_const δ).cos.const_mul R).const_add _
    rw [hd.deriv, abs_mul, mul_one, abs_neg, abs_of_nonneg hR]

theorem cos_extreme {R u : ℝ} (hR : 0 ≤ R) : R * |Real.sin u| = 0 ↔ (∀ y, R * Real.cos y ≤ R * Real.cos u) ∨ ∀ y, R * Real.cos u ≤ R * Real.cos y := by
  rcases hR.eq_or_lt with rfl | hR'
  · simp
  · rw [mul_eq_zero, abs_eq_zero, or_iff_right hR'.ne', Real.sin_eq_zero_iff_cos_eq]
    constructor
    · rintro (h | h)
      · exact .inl fun y => by rw [h]; exact mul_le_mul_of_nonneg_left (Real.cos_le_one y) hR
      · exact .inr fun y => by rw [h]; exact mul_le_mul_of_nonneg_left (Real.neg_one_le_cos y) hR
    · rintro (h | h)
      · left
        have := le_of_mul_le_mul_left (h 0) hR'
        rw [Real.cos_zero] at this
        exact le_antisymm (Real.cos_le_one u) this
      · right
        have := le_of_mul_le_mul_left (h Real.pi) hR'
        rw [Real.cos_pi] at this
        exact le_antisymm this (Real.neg_one_le_cos u)

/-- **C125.** The score can be read off the meter, without derivatives: with `M` the mean reading as a function of the phase, it is minus half the difference of the readings a quarter turn ahead and
a quarter turn behind.  It is zero exactly where the reading is at its largest or its smallest, the same half a turn further on, and with the reading it makes a circle: what the score lacks to the
whole swing is how far the reading is from its mean. -/
theorem C125_readings (hn : 2 ≤ n) {P : Prop_ n} (hwin : 0 < P.window) {g : Graph} (hw : g.WF) {optic : ℝ → Comp → Optic n} {conn : Comp → Connector} {hasNoise : Comp → Bool}
    {e0 d : Edge} {s : Node} (hS : OneShifter P g optic conn e0 d s) {inp : Signal n} {φ₀ : ℝ} {old st : Store (Signal n)}
    (h : propagate g (physics P (optic φ₀) conn hasNoise) inp old = .ok st) {M : ℝ → ℝ}
    (hM : ∀ x st y, propagate g (physics P (optic x) conn hasNoise) inp Store.empty = .ok st → st (.node s.id) = some y → npMean (fun t => (y t).re) = M x)
    {B : Sim n} {w : Session n} {φ : ℝ} {cls : ClassId} (hB : ∀ x, B w.flag (w.setParams e0.comp.uid [x]).params = physics P (optic x) conn hasNoise)
    (hcls : edgesOfClass g cls = [e0]) (hw0 : w.params e0.comp.uid = [φ]) :
    ∃ w' v, evaluate g B inp (.phase cls (.node s.id)) w = (w', .ok v) ∧ v = -(|M (φ + Real.pi / 2) - M (φ - Real.pi / 2)| / 2) ∧
      (v = 0 ↔ (∀ x, M x ≤ M φ) ∨ ∀ x, M φ ≤ M x) ∧
      v ^ 2 + (M φ - (M 0 + M Real.pi) / 2) ^ 2 = ((M 0 - M Real.pi) / 2) ^ 2 + ((M (Real.pi / 2) - M (-(Real.pi / 2))) / 2) ^ 2 := by
  obtain ⟨c, R, δ, hR, hRc, hread, hev⟩ := C125_score hn hwin hw hS h
  obtain ⟨w', h1, -⟩ := hev hB hcls hw0
  have hMx : ∀ x, M x = c + R * Real.cos (x - δ) := by
    intro x
    obtain ⟨st, y, k1, k2, k3⟩ := hread x Store.empty
    rw [← hM x st y k1 k2, k3]
  refine ⟨w', _, h1, ?_, ?_, ?_⟩
  · rw [hMx, hMx, show φ + Real.pi / 2 - δ = (φ - δ) + Real.pi / 2 by ring, show φ - Real.pi / 2 - δ = (φ - δ) - Real.pi / 2 by ring, Real.cos_add_pi_div_two, Real.cos_sub_pi_div_two,
      show c + R * -Real.sin (φ - δ) - (c + R * Real.sin (φ - δ)) = -(2 * (R * Real.sin (φ - δ))) by ring, abs_neg, abs_mul, abs_mul, abs_of_nonneg hR, abs_two]
    ring
  · rw [neg_eq_zero, cos_extreme hR]
    simp only [hMx, add_le_add_iff_left]
    constructor
    · rintro (h | h)
      · exact .inl fun x => h (x - δ)
      · exact .inr fun x => h (x - δ)
    · rintro (h | h)
      · exact .inl fun y => by simpa using h (y + δ)
      · exact .inr fun y => by simpa using h (y + δ)
  · simp only [hMx]
    rw [show Real.pi / 2 - δ = Real.pi / 2 - δ from rfl, Real.cos_pi_div_two_sub, show -(Real.pi / 2) - δ = -(δ + Real.pi / 2) by ring, Real.cos_neg, Real.cos_add_pi_div_two,
      Real.cos_pi_sub, zero_sub, Real.cos_neg, neg_sq, mul_pow, sq_abs]
    have e1 := Real.sin_sq_add_cos_sq (φ - δ)
    have e2 := Real.sin_sq_add_cos_sq δ
    linear_combination R ^ 2 * e1 - R ^ 2 * e2

/-! ### No design beats the even interferometer -/

theorem turns_plain (hn : 2 ≤ n) {P : Prop_ n} {o : Optic n} {φ : ℝ} (h : TurnsPhase P o φ) : (∀ x, o ≠ .source x) ∧ o ≠ .measure := by
  have hpos : 0 < n := by omega
  refine ⟨fun x hx => ?_, fun hx => ?_⟩
  · subst hx
    have h1 := h (fun _ => 0)
    have h2 := h (fun _ => 1)
    simp only [Optic.apply] at h1 h2
    injection h1 with h1
    injection h2 with h2
    have := congrFun (h1.symm.trans h2) ⟨0, hpos⟩
    have hn := congrArg norm this
    simp [turn_norm] at hn
  · subst hx
    have h1 := h (fun _ => 2)
    simp only [Optic.apply, Verif.measure] at h1
    injection h1 with h1
    have := congrArg norm (congrFun h1 ⟨0, hpos⟩)
    rw [norm_mul, turn_norm] at this
    norm_num at this

/-- **C125.** No passive design scores below minus half the mean power its sources emit: what C88 found the even interferometer to reach is the best there is. -/
theorem C125_bound (hn : 2 ≤ n) {P : Prop_ n} (hwin : 0 < P.window) {g : Graph} (hw : g.WF) {optic : ℝ → Comp → Optic n} {conn : Comp → Connector} {hasNoise : Comp → Bool}
    {e0 d : Edge} {s : Node} (hS : OneShifter P g optic conn e0 d s) (hnet : Network g (optic 0) conn) (hsp : ∀ m ∈ g.nodes, ∀ a, conn m.comp ≠ .freqSplitter a)
    (hpas : ∀ e ∈ g.edges, g.inEdges e.src ≠ [] → (optic 0 e.comp).GainAtMost P 1)
    (hfan : ∀ m ∈ g.nodes, g.outEdges m.id ≠ [] → (g.inEdges m.id).length ≤ (g.outEdges m.id).length)
    {inp : Signal n} {φ₀ : ℝ} {old st : Store (Signal n)} (h : propagate g (physics P (optic φ₀) conn hasNoise) inp old = .ok st)
    {B : Sim n} {w : Session n} {φ : ℝ} {cls : ClassId} (hB : ∀ x, B w.flag (w.setParams e0.comp.uid [x]).params = physics P (optic x) conn hasNoise)
    (hcls : edgesOfClass g cls = [e0]) (hw0 : w.params e0.comp.uid = [φ]) :
    ∃ w' v, evaluate g B inp (.phase cls (.node s.id)) w = (w', .ok v) ∧ -(energyIn g (optic 0) / n / 2) ≤ v ∧ v ≤ 0 := by
  obtain ⟨c, R, δ, hR, hRc, hread, hev⟩ := C125_score hn hwin hw hS h
  obtain ⟨w', h1, -⟩ := hev hB hcls hw0
  have hnpos : (0 : ℝ) < n := by exact_mod_cast (by omega : 0 < n)
  -- the crest
  obtain ⟨st, y, k1, k2, k3⟩ := hread δ Store.empty
  rw [sub_self, Real.cos_zero, mul_one] at k3
  have hsame : ∀ e ∈ g.edges, e ≠ e0 → optic δ e.comp = optic 0 e.comp := fun e he hne => hS.fixed e he hne δ
  have hp := turns_plain hn (hS.turns δ)
  have hp0 := turns_plain hn (hS.turns 0)
  have hent : g.inEdges e0.src ≠ [] := fun hc => by
    obtain ⟨x, hx⟩ := hnet.entry e0 hS.shifter hc
    exact hp0.1 x hx
  have hnet' : Network g (optic δ) conn := by
    refine ⟨fun e he hin => ?_, hnet.inner, fun e he hm => ?_⟩
    · by_cases hee : e = e0
      · subst hee; exact absurd hin hent
      · rw [hsame e he hee]; exact hnet.entry e he hin
    · by_cases hee : e = e0
      · subst hee; exact absurd hm hp.2
      · rw [hsame e he hee] at hm; exact hnet.meters e he hm
  have hpas' : ∀ e ∈ g.edges, g.inEdges e.src ≠ [] → (optic δ e.comp).GainAtMost P 1 := by
    intro e he hin
    by_cases hee : e = e0
    · subst hee
      intro x z hz
      rw [hS.turns δ x] at hz
      injection hz with hz
      rw [delivered_eq hp.2, ← hz, one_mul]
      unfold energy
      refine le_of_eq (Finset.sum_congr rfl fun i _ => ?_)
      rw [norm_mul, turn_norm, one_mul]
    · rw [hsame e he hee]; exact hpas e he hin
  have hen := C71_no_gain hn hwin hw hnet' hsp hpas' hfan k1
  have hin : energyIn g (optic δ) = energyIn g (optic 0) := by
    unfold energyIn
    congr 1
    apply List.map_congr_left
    intro e he
    rw [List.mem_filter] at he
    have hne : e ≠ e0 := fun hc => hent (by simpa [hc] using he.2)
    rw [hsame e he.1 hne]
  have hdm : d ∈ g.edges ∧ d.dst = s.id := mem_inEdges.1 (by rw [hS.into]; simp : d ∈ g.inEdges s.id)
  have hF := ((propagate_iff hw).1 k1).2
  have hmeas : optic δ d.comp = .measure := by rw [hsame d hdm.1 hS.apart]; exact hS.meter
  obtain ⟨t, z, -, p1, p2⟩ := fed_exists hF hdm.1
  have hy : y = z := by
    rw [sink_reads hS.out hS.into hS.last hS.plain hF, p2] at k2
    injection k2 with k2
    exact k2.symm
  have hz := measure_field hmeas p1
  have hle : edgeEnergy (optic δ) st d ≤ energyOut g (optic δ) st := by
    unfold energyOut
    refine List.single_le_sum (fun x hx => ?_) _ (List.mem_map.2 ⟨d, List.mem_filter.2 ⟨hdm.1, by simp [hdm.2, hS.last]⟩, rfl⟩)
    obtain ⟨e, -, rfl⟩ := List.mem_map.1 hx
    exact edgeEnergy_nonneg _ _ _
  have hed : edgeEnergy (optic δ) st d = n * npMean (fun t => (y t).re) := by
    unfold edgeEnergy npMean
    rw [p2]
    simp only [hmeas, Optic.delivered]
    rw [mul_div_cancel₀ _ hnpos.ne', hy, hz]
    refine Finset.sum_congr rfl fun i _ => ?_
    rw [Complex.ofReal_re, Complex.norm_real, Real.norm_of_nonneg (by positivity)]
  rw [k3] at hed
  have hfin : c + R ≤ energyIn g (optic 0) / n := by
    rw [le_div_iff₀ hnpos]
    linarith
  refine ⟨w', _, h1, ?_, ?_⟩
  · have h2 := Real.abs_sin_le_one (φ - δ)
    have h3 : R * |Real.sin (φ - δ)| ≤ R * 1 := mul_le_mul_of_nonneg_left h2 hR
    linarith
  · have := mul_nonneg hR (abs_nonneg (Real.sin (φ - δ)))
    linarith

/-! ### Where the phase cannot be seen -/

theorem behind_reach {g : Graph} {optic : Comp → Optic n} {e0 e : Edge} (hb : Behind g optic e0 e) : e = e0 ∨ g.Reach e0.dst e.src := by
  induction hb with
  | self => exact .inl rfl
  | @next e he hs hin hall ih =>
    obtain ⟨d, hd⟩ := List.exists_mem_of_ne_nil _ hin
    have hdm := mem_inEdges.1 hd
    right
    rcases ih d hd with rfl | h
    · rw [hdm.2]; exact .refl
    · exact h.tail ⟨d, hdm.1, rfl, hdm.2⟩

/-- Light that has come through the phase shifter turns with it. -/
theorem behind_turns {P : Prop_ n} (hdt : P.dt ≠ 0) {g : Graph} (hw : g.WF) {optic : ℝ → Comp → Optic n} {conn : Comp → Connector} {hasNoise : Comp → Bool}
    {e0 d : Edge} {s : Node} (hS : OneShifter P g optic conn e0 d s) {inp : Signal n} {φ : ℝ} {old0 old st0 st : Store (Signal n)}
    (h0 : propagate g (physics P (optic 0) conn hasNoise) inp old0 = .ok st0) (h : propagate g (physics P (optic φ) conn hasNoise) inp old = .ok st)
    {e : Edge} (hb : Behind g (optic 0) e0 e) : (e ≠ e0 → ∃ t, Fed g (physics P (optic 0) conn hasNoise) inp st0 e t ∧ Fed g (physics P (optic φ) conn hasNoise) inp st e (mix (turn φ) 0 t t)) ∧
      (¬ (optic 0 e.comp).IsDetector ∨ e = e0 → ∃ y, st0 (.edge e.ref) = some y ∧ st (.edge e.ref) = some (mix (turn φ) 0 y y)) := by
  have F0 := ((propagate_iff hw).1 h0).2
  have F := ((propagate_iff hw).1 h).2
  obtain ⟨order, ho⟩ := ((propagate_iff hw).1 h).1
  have ht := topoSort_sound hw ho
  induction hb with
  | self =>
    refine ⟨fun hc => absurd rfl hc, fun _ => ?_⟩
    have hself : ¬ g.Reach e0.dst e0.src := not_reach_of_idx ht (ht.forward e0 hS.shifter)
    have hmix := gain_mix hdt (a := 1) (b := 0) (by ring) hw (o1 := optic 0) (o2 := optic φ) (o3 := optic 0) (e0 := e0) (z1 := 1) (z2 := turn φ)
      (by have := hS.turns 0; rw [TurnsPhase, turn_zero] at this; exact this) (hS.turns φ)
      (by have := hS.turns 0
          rw [TurnsPhase, turn_zero] at this
          intro x
          rw [this x]
          congr 1
          funext t
          ring)
      (fun e he hne => ⟨hS.fixed e he hne _, rfl⟩) hS.linear hS.shifter h0 h h0
    obtain ⟨t1, t2, k1, k2, -, k4, -⟩ := hmix e0 hS.shifter
    have := k4 hself
    subst this
    obtain ⟨x0, y0, f0, p0, q0⟩ := fed_exists F0 hS.shifter
    obtain ⟨x, y, f, p, q⟩ := fed_exists F hS.shifter
    obtain rfl := fed_unique hw f0 k1
    obtain rfl := fed_unique hw f k2
    rw [hS.turns] at p0 p
    injection p0 with p0
    injection p with p
    refine ⟨y0, q0, ?_⟩
    rw [q, ← p0, ← p, turn_zero]
    congr 1
    funext t
    unfold mix
    ring
  | @next e he hs hin hall ih =>
    have hb : Behind g (optic 0) e0 e := .next he hs hin hall
    obtain ⟨t0, y0, ⟨v, hv, hid, l0, i, a1, a2, a3⟩, p0, q0⟩ := fed_exists F0 he
    obtain ⟨t, y, f, p, q⟩ := fed_exists F he
    have hd : ∀ d ∈ g.inEdges v.id, ∃ s1, st0 (.edge d.ref) = some s1 ∧ st (.edge d.ref) = some (mix (turn φ) 0 s1 s1) := by
      intro d' hd'
      rw [hid] at hd'
      have hdm := mem_inEdges.1 hd'
      refine (ih d' hd').2 ?_
      rcases behind_reach (hall d' hd') with hc | hc
      · exact .inr hc
      · refine .inl fun hdet => ?_
        have h0 := (hS.linear d' hdm.1 hc).2 hdet
        have : e ∈ g.outEdges d'.dst := mem_outEdges.2 ⟨he, hdm.2.symm⟩
        rw [h0] at this
        cases this
    obtain ⟨ins, c1, c2⟩ := a1
    have hO : Outputs g (physics P (optic φ) conn hasNoise) inp st v (l0.zipWith (mix (turn φ) 0) l0) := by
      refine ⟨ins.zipWith (mix (turn φ) 0) ins, ?_, conn_mix hdt _ _ (conn v.comp) rfl c2 c2⟩
      rcases c1 with ⟨k, -⟩ | ⟨k, c1⟩
      · rw [hid] at k; exact absurd k hin
      · refine .inr ⟨k, ?_⟩
        rw [List.zipWith_self, List.map_map]
        have : ∀ (es : List Edge) (l : List (Signal n)), (∀ d ∈ es, ∃ s1, st0 (.edge d.ref) = some s1 ∧ st (.edge d.ref) = some (mix (turn φ) 0 s1 s1)) →
            es.map (fun e => st0 (.edge e.ref)) = l.map some → es.map (fun e => st (.edge e.ref)) = l.map (some ∘ fun x => mix (turn φ) 0 x x) := by
          intro es
          induction es with
          | nil => intro l _ h; cases l with
            | nil => rfl
            | cons _ _ => cases h
          | cons x es ih =>
            intro l hall h
            cases l with
            | nil => cases h
            | cons z l =>
              simp only [List.map_cons, List.cons.injEq] at h
              obtain ⟨s1, k1, k2⟩ := hall x (by simp)
              rw [h.1] at k1
              injection k1 with k1
              subst k1
              simp only [List.map_cons, k2, Function.comp_apply, ih l (fun d hd => hall d (by simp [hd])) h.2]
        exact this _ _ hd c1
    have hfed : Fed g (physics P (optic φ) conn hasNoise) inp st e (mix (turn φ) 0 t0 t0) :=
      ⟨v, hv, hid, _, i, hO, a2, by simp [a3]⟩
    refine ⟨fun _ => ⟨t0, ⟨v, hv, hid, l0, i, ⟨ins, c1, c2⟩, a2, a3⟩, hfed⟩, fun hc => ⟨y0, q0, ?_⟩⟩
    have hne : e ≠ e0 := by
      rintro rfl
      obtain ⟨d', hd'⟩ := List.exists_mem_of_ne_nil _ hin
      have hdm := mem_inEdges.1 hd'
      have hlt : order.idxOf d'.src < order.idxOf e.src := by rw [← hdm.2]; exact ht.forward d' hdm.1
      have hlt2 := ht.forward e hS.shifter
      rcases behind_reach (hall d' hd') with rfl | hc
      · exact absurd hlt (lt_irrefl _)
      · exact not_reach_of_idx ht (hlt.trans hlt2) hc
    obtain rfl := fed_unique hw f hfed
    rw [hS.fixed e he hne] at p
    have hnd : ¬ (optic 0 e.comp).IsDetector := by
      rcases hc with hc | hc
      · exact hc
      · exact absurd hc hne
    have hr : g.Reach e0.dst e.src := (behind_reach hb).resolve_left hne
    have := apply_mix hdt (turn φ) 0 hnd (hS.linear e he hr).1 (fun _ => 0) (fun _ => 0) (by rw [mapSource_pass _ hs]; exact p0) (by rw [mapSource_pass _ hs]; exact p0)
    rw [mapSource_pass _ hs, p] at this
    injection this with this
    rw [q, this]

/-- **C125.** A phase that all the light to the meter has passed, or none of it, is not seen: the reading is the same for every phase and the score is zero. -/
theorem C125_blind (hn : 2 ≤ n) {P : Prop_ n} (hwin : 0 < P.window) {g : Graph} (hw : g.WF) {optic : ℝ → Comp → Optic n} {conn : Comp → Connector} {hasNoise : Comp → Bool}
    {e0 d : Edge} {s : Node} (hS : OneShifter P g optic conn e0 d s) (hb : Behind g (optic 0) e0 d ∨ ¬ g.Reach e0.dst d.src) {inp : Signal n} {φ₀ : ℝ} {old st : Store (Signal n)}
    (h : propagate g (physics P (optic φ₀) conn hasNoise) inp old = .ok st) :
    (∃ y, ∀ x old, ∃ st, propagate g (physics P (optic x) conn hasNoise) inp old = .ok st ∧ st (.node s.id) = some y) ∧
    ∀ {B : Sim n} {w : Session n} {φ : ℝ} {cls : ClassId}, (∀ x, B w.flag (w.setParams e0.comp.uid [x]).params = physics P (optic x) conn hasNoise) →
      edgesOfClass g cls = [e0] → w.params e0.comp.uid = [φ] → ∃ w', evaluate g B inp (.phase cls (.node s.id)) w = (w', .ok 0) ∧ w'.params = w.params := by
  have hdt := dt_ne_zero hn hwin
  obtain ⟨A, C, hAC⟩ := C125_fringe hn hwin hw hS h
  have hdm : d ∈ g.edges := (mem_inEdges.1 (by rw [hS.into]; simp : d ∈ g.inEdges s.id)).1
  obtain ⟨st0, h0, f0, r0⟩ := hAC 0 Store.empty
  have hy : ∀ x, ∀ t, ‖A t + turn x * C t‖ ^ 2 = ‖A t + turn 0 * C t‖ ^ 2 := by
    intro x t
    obtain ⟨st1, h1, f1, r1⟩ := hAC x Store.empty
    rcases hb with hb | hb
    · obtain ⟨u, k1, k2⟩ := (behind_turns hdt hw hS h0 h1 hb).1 hS.apart
      have e1 := fed_unique hw f0 k1
      have e2 := fed_unique hw f1 k2
      rw [← e1] at e2
      have := congrFun e2 t
      rw [this]
      unfold mix
      rw [zero_mul, add_zero, norm_mul, turn_norm, one_mul]
    · have hmix := gain_mix hdt (a := 1) (b := 0) (by ring) hw (o1 := optic 0) (o2 := optic x) (o3 := optic 0) (e0 := e0) (z1 := 1) (z2 := turn x)
        (by have := hS.turns 0; rw [TurnsPhase, turn_zero] at this; exact this) (hS.turns x)
        (by have := hS.turns 0
            rw [TurnsPhase, turn_zero] at this
            intro x
            rw [this x]
            congr 1
            funext t
            ring)
        (fun e he hne => ⟨hS.fixed e he hne _, rfl⟩) hS.linear hS.shifter h0 h1 h0
      obtain ⟨t1, t2, k1, k2, -, k4, -⟩ := hmix d hdm
      have e1 := fed_unique hw f0 k1
      have e2 := fed_unique hw f1 k2
      rw [← k4 hb, ← e1] at e2
      have := congrFun e2 t
      rw [this]
  have hread : ∀ x old, ∃ st, propagate g (physics P (optic x) conn hasNoise) inp old = .ok st ∧ st (.node s.id) = some (fun t => ((‖A t + turn 0 * C t‖ ^ 2 : ℝ) : ℂ)) := by
    intro x old
    obtain ⟨st, k1, -, k3⟩ := hAC x old
    refine ⟨st, k1, ?_⟩
    rw [k3]
    simp_rw [hy x]
  refine ⟨⟨_, hread⟩, fun {_ w φ cls} hB hcls hw0 => ?_⟩
  obtain ⟨w', k1, k2⟩ := phase_eval (M := fun _ => npMean (fun t => (((‖A t + turn 0 * C t‖ ^ 2 : ℝ) : ℂ)).re)) hB
    (fun x old => by obtain ⟨st, a, b⟩ := hread x old; exact ⟨st, _, a, b, rfl⟩) hcls hw0
  refine ⟨w', ?_, k2⟩
  rw [k1]
  simp

/-! ### Worked cases -/

namespace FringeExample
open Fixture

/-- A laser, a phase shifter and a modulator in two arms, a coupler with two outputs, a power meter at each. -/
def coupler : Graph :=
  { nodes := [⟨0, src, 1⟩, ⟨1, split 2, 40⟩, ⟨2, split 3, 40⟩, ⟨3, snk, 2⟩, ⟨4, snk, 3⟩]
    edges := [⟨0, 1, 0, laser 4, 10⟩, ⟨1, 2, 0, Fixture.fiber 5, 30⟩, ⟨1, 2, 1, shaper 6, 31⟩, ⟨2, 3, 0, diode 7, 20⟩, ⟨2, 4, 0, diode 8, 20⟩] }

theorem coupler_wf : coupler.WF where
  ids_nodup := by decide
  refs_nodup := by decide
  src_mem := by decide
  dst_mem := by decide

theorem coupler_topo : coupler.IsTopo [0, 1, 2, 3, 4] where
  nodup := by decide
  mem_iff := by intro v; rw [show coupler.ids = [0, 1, 2, 3, 4] by decide]
  forward := by decide

noncomputable def optic (x : Signal 4) (φ : ℝ) (c : Comp) : Optic 4 :=
  if c.uid = 4 then .source x else if c.uid = 5 then .phaseShifter φ else if c.uid = 6 then .phaseMod 1 2 0 else .measure

noncomputable def conn (c : Comp) : Connector := if c.uid = 2 then .splitter [1 / 2] else if c.uid = 3 then .splitter [1 / 2] else .terminal

theorem coupler_runs (x inp : Signal 4) (φ : ℝ) (old : Store (Signal 4)) : ∃ st, propagate coupler (physics demoProp (optic x φ) conn (fun _ => false)) inp old = .ok st := by
  refine (C17_propagate_acyclic coupler_wf ⟨?_, ?_, ?_⟩ inp old).1 coupler_topo.acyclic
  · intro m hm ins hin
    simp only [coupler, List.mem_cons, List.not_mem_nil, or_false] at hm
    rcases hm with rfl | rfl | rfl | rfl | rfl
    · exact ⟨ins, rfl, by rw [hin]; decide⟩
    · refine ⟨(splitWeights [1 / 2]).zipIdx.map (fun p => fun t => splitRow 1 2 p.1 p.2 (ins.map (· t))), ?_, by simp [splitWeights]; decide⟩
      show splitSignals [1 / 2] 1 2 ins = _
      have hh : ins.length = 1 := hin
      unfold splitSignals
      rw [if_neg (by simp [hh, splitWeights]), if_neg (by norm_num [splitWeights])]
    · refine ⟨(splitWeights [1 / 2]).zipIdx.map (fun p => fun t => splitRow 2 2 p.1 p.2 (ins.map (· t))), ?_, by simp [splitWeights]; decide⟩
      show splitSignals [1 / 2] 2 2 ins = _
      have hh : ins.length = 2 := hin
      unfold splitSignals
      rw [if_neg (by simp [hh, splitWeights]), if_neg (by norm_num [splitWeights])]
    · exact ⟨ins, rfl, by rw [hin]; decide⟩
    · exact ⟨ins, rfl, by rw [hin]; decide⟩
  · intro e he s
    simp only [coupler, List.mem_cons, List.not_mem_nil, or_false] at he
    rcases he with rfl | rfl | rfl | rfl | rfl <;> exact ⟨_, rfl⟩
  · intro e _ f hf s
    simp [physics] at hf

theorem coupler_shifter (x : Signal 4) : OneShifter demoProp coupler (optic x) conn ⟨1, 2, 0, Fixture.fiber 5, 30⟩ ⟨2, 3, 0, diode 7, 20⟩ ⟨3, snk, 2⟩ where
  shifter := by decide
  turns := fun φ => turns_phaseShifter (by norm_num) (by norm_num [demoProp]) φ
  fixed := by
    intro e he hne φ
    simp only [coupler, List.mem_cons, List.not_mem_nil, or_false] at he
    rcases he with rfl | rfl | rfl | rfl | rfl
    · rfl
    · exact absurd rfl hne
    · rfl
    · rfl
    · rfl
  linear := by
    intro e he _
    simp only [coupler, List.mem_cons, List.not_mem_nil, or_false] at he
    rcases he with rfl | rfl | rfl | rfl | rfl
    · exact ⟨id, fun h => absurd h id⟩
    · exact ⟨id, fun h => absurd h id⟩
    · exact ⟨id, fun h => absurd h id⟩
    · exact ⟨id, fun _ => by decide⟩
    · exact ⟨id, fun _ => by decide⟩
  meter := rfl
  apart := by decide
  out := by decide
  into := by decide
  last := by decide
  plain := rfl

/-- The phase is the parameter of component 5. -/
noncomputable def sim (x : Signal 4) : Sim 4 := fun _ p => physics demoProp (optic x ((p 5).headD 0)) conn (fun _ => false)

/-- `C125_fringe`. -/
example (x inp : Signal 4) : ∃ A B : Signal 4, ∀ φ old, ∃ st, propagate coupler (physics demoProp (optic x φ) conn (fun _ => false)) inp old = .ok st ∧
    st (.node 3) = some (fun t => ((‖A t + turn φ * B t‖ ^ 2 : ℝ) : ℂ)) := by
  obtain ⟨st, h⟩ := coupler_runs x inp 0 Store.empty
  obtain ⟨A, B, hAB⟩ := C125_fringe (by norm_num) (by norm_num [demoProp]) coupler_wf (coupler_shifter x) h
  exact ⟨A, B, fun φ old => (hAB φ old).imp fun st h => ⟨h.1, h.2.2⟩⟩

/-- `C125_score`, `C125_bound`: with the arm beside it modulated, too, the score is a sinusoid in the phase and not below minus half the power of the laser. -/
example (x inp : Signal 4) : ∃ c R δ : ℝ, 0 ≤ R ∧ R ≤ c ∧ ∀ (w : Session 4) φ, w.params 5 = [φ] → ∃ w' : Session 4,
    evaluate coupler (sim x) inp (.phase 30 (.node 3)) w = (w', .ok (-(R * |Real.sin (φ - δ)|))) ∧ w'.params = w.params ∧ R * |Real.sin (φ - δ)| ≤ energy x / 4 / 2 := by
  obtain ⟨st, h⟩ := coupler_runs x inp 0 Store.empty
  obtain ⟨c, R, δ, h1, h2, -, h4⟩ := C125_score (by norm_num) (by norm_num [demoProp]) coupler_wf (coupler_shifter x) h
  refine ⟨c, R, δ, h1, h2, fun w φ hφ => ?_⟩
  have hB : ∀ y, sim x w.flag (w.setParams (Fixture.fiber 5).uid [y]).params = physics demoProp (optic x y) conn (fun _ => false) := fun y => rfl
  obtain ⟨w', k1, k2⟩ := h4 hB (cls := 30) (by decide) hφ
  refine ⟨w', k1, k2, ?_⟩
  have hG := C71_gains (n := 4) (by norm_num) (P := demoProp) (by norm_num [demoProp])
  obtain ⟨w'', v, k3, k4, -⟩ := C125_bound (by norm_num) (by norm_num [demoProp]) coupler_wf (coupler_shifter x)
    ⟨by
      intro e he hin
      simp only [coupler, List.mem_cons, List.not_mem_nil, or_false] at he
      rcases he with rfl | rfl | rfl | rfl | rfl
      · exact ⟨x, rfl⟩
      · exact absurd hin (by decide)
      · exact absurd hin (by decide)
      · exact absurd hin (by decide)
      · exact absurd hin (by decide),
     by
      intro m hm hin hout
      simp only [coupler, List.mem_cons, List.not_mem_nil, or_false] at hm
      rcases hm with rfl | rfl | rfl | rfl | rfl
      · exact absurd (by decide) hin
      · exact .inl ⟨_, rfl⟩
      · exact .inl ⟨_, rfl⟩
      · exact absurd (by decide) hout
      · exact absurd (by decide) hout,
     by
      intro e he hm
      simp only [coupler, List.mem_cons, List.not_mem_nil, or_false] at he
      rcases he with rfl | rfl | rfl | rfl | rfl
      · cases hm
      · cases hm
      · cases hm
      · decide
      · decide⟩
    (by
      intro m hm a ha
      simp only [coupler, List.mem_cons, List.not_mem_nil, or_false] at hm
      rcases hm with rfl | rfl | rfl | rfl | rfl <;> cases ha)
    (by
      intro e he hin
      simp only [coupler, List.mem_cons, List.not_mem_nil, or_false] at he
      rcases he with rfl | rfl | rfl | rfl | rfl
      · exact absurd (by decide) hin
      · exact hG.2.2.2.2.2.2.2.2.1 0
      · exact hG.2.2.2.1 1 2 0
      · exact hG.2.2.2.2.2.2.2.2.2.2.1
      · exact hG.2.2.2.2.2.2.2.2.2.2.1)
    (by decide) h hB (cls := 30) (by decide) hφ
  have hv : v = -(R * |Real.sin (φ - δ)|) := by
    have := k3.symm.trans k1
    simp only [Prod.mk.injEq, Except.ok.injEq] at this
    exact this.2
  have hE : energyIn coupler (optic x 0) = energy x := by
    unfold energyIn
    rw [show coupler.edges.filter (fun e => coupler.inEdges e.src = []) = [⟨0, 1, 0, laser 4, 10⟩] by decide]
    simp only [List.map_cons, List.map_nil, List.sum_cons, List.sum_nil, add_zero]
    rfl
  rw [hv, hE] at k4
  norm_num at k4
  linarith

/-- `C125_readings`. -/
example (x inp : Signal 4) (w : Session 4) {φ : ℝ} (hφ : w.params 5 = [φ]) : ∃ (M : ℝ → ℝ) (w' : Session 4),
    evaluate coupler (sim x) inp (.phase 30 (.node 3)) w = (w', .ok (-(|M (φ + Real.pi / 2) - M (φ - Real.pi / 2)| / 2))) := by
  obtain ⟨st, h⟩ := coupler_runs x inp 0 Store.empty
  obtain ⟨c, R, δ, -, -, h3, -⟩ := C125_score (by norm_num) (by norm_num [demoProp]) coupler_wf (coupler_shifter x) h
  refine ⟨fun x => c + R * Real.cos (x - δ), ?_⟩
  obtain ⟨w', v, k1, k2, -⟩ := C125_readings (M := fun x => c + R * Real.cos (x - δ)) (by norm_num) (by norm_num [demoProp]) coupler_wf (coupler_shifter x) h (by
    intro a st' y p q
    obtain ⟨st'', y', p', q', r'⟩ := h3 a Store.empty
    rw [p] at p'
    injection p' with p'
    rw [← p', q] at q'
    injection q' with q'
    rw [q', r']) (B := sim x) (w := w) (φ := φ) (cls := 30) (fun y => rfl) (by decide) hφ
  exact ⟨w', by rw [k1, k2]⟩

/-- On one path, laser, phase shifter, meter, the phase is not seen (`C125_blind`). -/
noncomputable def single (x : Signal 4) (φ : ℝ) (c : Comp) : Optic 4 := if c.uid = 4 then .source x else if c.uid = 6 then .phaseShifter φ else .measure

theorem single_runs (x inp : Signal 4) (φ : ℝ) (old : Store (Signal 4)) :
    ∃ st, propagate RhythmExample.lane (physics demoProp (single x φ) (fun _ => .terminal) (fun _ => false)) inp old = .ok st := by
  refine (C17_propagate_acyclic RhythmExample.lane_wf ⟨?_, ?_, ?_⟩ inp old).1 RhythmExample.lane_topo.acyclic
  · intro m hm ins hin
    refine ⟨ins, rfl, ?_⟩
    rw [hin]
    simp only [RhythmExample.lane, List.mem_cons, List.not_mem_nil, or_false] at hm
    rcases hm with rfl | rfl | rfl | rfl <;> decide
  · intro e he s
    simp only [RhythmExample.lane, List.mem_cons, List.not_mem_nil, or_false] at he
    rcases he with rfl | rfl | rfl <;> exact ⟨_, rfl⟩
  · intro e _ f hf s
    simp [physics] at hf

theorem single_shifter (x : Signal 4) : OneShifter demoProp RhythmExample.lane (single x) (fun _ => .terminal) ⟨1, 2, 0, shaper 6, 31⟩ ⟨2, 3, 0, diode 7, 20⟩ ⟨3, snk, 2⟩ where
  shifter := by decide
  turns := fun φ => turns_phaseShifter (by norm_num) (by norm_num [demoProp]) φ
  fixed := by
    intro e he hne φ
    simp only [RhythmExample.lane, List.mem_cons, List.not_mem_nil, or_false] at he
    rcases he with rfl | rfl | rfl
    · rfl
    · exact absurd rfl hne
    · rfl
  linear := by
    intro e he _
    simp only [RhythmExample.lane, List.mem_cons, List.not_mem_nil, or_false] at he
    rcases he with rfl | rfl | rfl
    · exact ⟨id, fun h => absurd h id⟩
    · exact ⟨id, fun h => absurd h id⟩
    · exact ⟨id, fun _ => by decide⟩
  meter := rfl
  apart := by decide
  out := by decide
  into := by decide
  last := by decide
  plain := rfl

example (x inp : Signal 4) (w : Session 4) {φ : ℝ} (hφ : w.params 6 = [φ]) :
    ∃ w', evaluate RhythmExample.lane (fun _ p => physics demoProp (single x ((p 6).headD 0)) (fun _ => .terminal) (fun _ => false)) inp (.phase 31 (.node 3)) w = (w', .ok 0) ∧
      w'.params = w.params := by
  obtain ⟨st, h⟩ := single_runs x inp 0 Store.empty
  have hb : Behind RhythmExample.lane (single x 0) ⟨1, 2, 0, shaper 6, 31⟩ ⟨2, 3, 0, diode 7, 20⟩ := by
    refine .next (by decide) (fun y hy => by cases hy) (by decide) fun d hd => ?_
    have : d = ⟨1, 2, 0, shaper 6, 31⟩ := by
      rw [show RhythmExample.lane.inEdges 2 = [⟨1, 2, 0, shaper 6, 31⟩] by decide] at hd
      simpa using hd
    rw [this]
    exact .self
  exact (C125_blind (by norm_num) (by norm_num [demoProp]) RhythmExample.lane_wf (single_shifter x) (.inl hb) h).2 (fun y => rfl) (by decide) hφ

end FringeExample

end Verif
