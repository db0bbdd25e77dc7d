import Verif.Spec.Response
import Verif.Props.Symmetry
import Verif.Props.Dark
import Verif.Props.Dispersion
import Verif.Props.Energy
import Verif.Props.Rhythm
import Verif.Props.Interferometer
import Verif.Model.Evaluators
/-!
# C124: designs without modulators are filters; what FilterDesign makes of them
-/

namespace Verif
open Complex Graph

variable {n : Nat}

theorem lti_zero (G : Signal n) : lti G (fun _ => 0) = fun _ => 0 := by
  have := lti_smul G 0 (fun _ => 0)
  simpa using this

theorem lti_list {ι : Type} (G : Signal n) (L : List ι) (f : ι → Signal n) :
    lti G (fun t => (L.map (fun a => f a t)).sum) = fun t => (L.map (fun a => lti G (f a) t)).sum := by
  induction L with
  | nil => simpa using lti_zero G
  | cons a L ih =>
    simp only [List.map_cons, List.sum_cons]
    rw [lti_add, ih]

theorem lti_comm (G H x : Signal n) : lti G (lti H x) = lti H (lti G x) := by
  unfold lti
  rw [npFft_npIfft, npFft_npIfft]
  congr 1
  funext k
  ring

theorem lti_fft (H x : Signal n) (m : Fin n) : npFft (lti H x) m = H m * npFft x m := by
  unfold lti
  rw [npFft_npIfft]

theorem conn_lti {P : Prop_ n} (hdt : P.dt ≠ 0) (G : Signal n) (k : Connector) {s outs : List (Signal n)} {nIn nOut : Nat}
    (h : k.apply P s nIn nOut = .ok outs) : k.apply P (s.map (lti G)) nIn nOut = .ok (outs.map (lti G)) := by
  refine conn_map (lti G) (fun nIn nOut w j s => ?_) (fun s => ?_) (fun H x => ?_) k h
  · have e : ∀ t, splitRow nIn nOut w j (s.map (· t)) =
        (s.zipIdx.map (fun p => ((Real.sqrt w / Real.sqrt nOut : ℝ) : ℂ) * splitPhase nIn nOut p.2 j * p.1 t)).sum := fun t => by
      unfold splitRow
      rw [List.zipIdx_map, List.map_map]
      rfl
    have e' : ∀ t, splitRow nIn nOut w j ((s.map (lti G)).map (· t)) =
        (s.zipIdx.map (fun p => ((Real.sqrt w / Real.sqrt nOut : ℝ) : ℂ) * splitPhase nIn nOut p.2 j * lti G p.1 t)).sum := fun t => by
      unfold splitRow
      rw [List.zipIdx_map, List.map_map, List.zipIdx_map, List.map_map]
      rfl
    simp_rw [e, e']
    rw [lti_list G s.zipIdx (fun p t => ((Real.sqrt w / Real.sqrt nOut : ℝ) : ℂ) * splitPhase nIn nOut p.2 j * p.1 t)]
    simp_rw [lti_smul]
  · unfold sumSignals
    rw [lti_list G s (fun x => x)]
    funext t
    rw [List.map_map]
    rfl
  · rw [freqMul_lti _ hdt, freqMul_lti _ hdt, lti_comm]

theorem acts_lti {P : Prop_ n} (hdt : P.dt ≠ 0) (G : Signal n) : Acts P (lti G) (lti G) (fun o => o.Linear) where
  pass := by
    intro o ho _ hsrc x y h
    rcases apply_lti hdt ho.1 ho.2.1 ho.2.2 hsrc with ⟨H, hH⟩ | ⟨e, he⟩
    · rw [hH] at h ⊢
      injection h with h
      rw [← h, lti_comm]
    · rw [he] at h
      cases h
  det := fun o ho hd => absurd hd ho.1
  conn := fun k _ _ _ _ h => conn_lti hdt G k h

/-! ### Running does not depend on the light -/

theorem conn_length {P : Prop_ n} (k : Connector) {s s' outs : List (Signal n)} {a b : Nat} (hl : s'.length = s.length) (h : k.apply P s a b = .ok outs) :
    ∃ outs', k.apply P s' a b = .ok outs' ∧ outs'.length = outs.length := by
  cases k with
  | terminal =>
    simp only [Connector.apply] at h ⊢
    injection h with h
    exact ⟨s', rfl, by rw [hl, h]⟩
  | splitter r =>
    simp only [Connector.apply, splitSignals] at h ⊢
    rw [hl]
    split at h
    · cases h
    · split at h
      · cases h
      · rename_i h1 h2
        injection h with h
        rw [if_neg h1, if_neg h2]
        exact ⟨_, rfl, by rw [← h]; simp⟩
  | freqSplitter r =>
    simp only [Connector.apply] at h ⊢
    injection h with h
    exact ⟨_, rfl, by rw [← h]; simp [freqSplit]⟩

theorem linear_fed {o : Optic n} (ho : o.Linear) (x : Signal n) : (o.mapSource (fun _ => x)).Linear := by
  cases o <;> exact ho

theorem run_nodes {P : Prop_ n} {g : Graph} (hw : g.WF) {optic : Comp → Optic n} {conn : Comp → Connector} {hasNoise : Comp → Bool} {inp : Signal n} {st : Store (Signal n)}
    (hF : IsFlow g (physics P optic conn hasNoise) inp st) : ∀ m ∈ g.nodes, ∀ ins : List (Signal n), ins.length = max 1 (g.inEdges m.id).length →
    ∃ outs, (conn m.comp).apply P ins (g.inEdges m.id).length (g.outEdges m.id).length = .ok outs ∧ max 1 (g.outEdges m.id).length ≤ outs.length := by
  intro m hm ins hin
  obtain ⟨outs, ins0, h1, h2⟩ := hF.outputs hw hm
  obtain ⟨outs', h3, h4⟩ := conn_length (conn m.comp) (hin.trans (inputs_length h1).symm) h2
  refine ⟨outs', h3, ?_⟩
  rw [h4]
  have huniq : ∀ o, Outputs g (physics P optic conn hasNoise) inp st m o → o = outs := fun o ho => outputs_unique ho ⟨ins0, h1, h2⟩
  by_cases hs : g.IsSink m.id
  · obtain ⟨o, s, k1, k2, -⟩ := hF.sinks m hm hs
    have := huniq o k1
    subst this
    have h0 : g.outEdges m.id = [] := by
      rw [List.eq_nil_iff_forall_not_mem]
      exact fun e he => hs.2 e (mem_outEdges.1 he).1 (mem_outEdges.1 he).2
    rw [h0]
    have := (List.getElem?_eq_some_iff.1 k2).1
    simp only [List.length_nil]
    omega
  · have hne : (g.outEdges m.id) ≠ [] := by
      intro h0
      refine hs ⟨List.mem_map.2 ⟨m, hm, rfl⟩, fun e he hc => ?_⟩
      have : e ∈ g.outEdges m.id := mem_outEdges.2 ⟨he, hc⟩
      rw [h0] at this
      cases this
    have hpos := List.length_pos_of_ne_nil hne
    let e := (g.outEdges m.id)[(g.outEdges m.id).length - 1]'(by omega)
    have he : (g.outEdges m.id)[(g.outEdges m.id).length - 1]? = some e := List.getElem?_eq_getElem _
    have hem := mem_outEdges.1 (List.mem_of_getElem? he)
    obtain ⟨v, hv, hid, o, j, s, s1, s2, k1, k2, k3, -⟩ := hF.edges e hem.1
    have hvm : v = m := by
      have := hw.ids_nodup
      exact List.inj_on_of_nodup_map this hv hm (by rw [hid, hem.2])
    subst hvm
    have := huniq o k1
    subst this
    rw [hem.2] at k2
    have hj : j = (g.outEdges v.id).length - 1 :=
      (List.getElem?_inj (List.getElem?_eq_some_iff.1 k2).1 (outEdges_nodup hw _)).1 (k2.trans he.symm)
    have := (List.getElem?_eq_some_iff.1 k3).1
    omega

theorem fed_runs (hn : 2 ≤ n) {P : Prop_ n} (hwin : 0 < P.window) {g : Graph} (hw : g.WF) {optic : Comp → Optic n} {conn : Comp → Connector}
    {hasNoise : Comp → Bool} (hl : ∀ e ∈ g.edges, (optic e.comp).Linear) {inp : Signal n} {old st : Store (Signal n)}
    (h : propagate g (physics P optic conn hasNoise) inp old = .ok st) (x : Signal n) (old' : Store (Signal n)) :
    ∃ st', propagate g (physics P (fedWith optic x) conn hasNoise) inp old' = .ok st' := by
  obtain ⟨⟨order, ho⟩, hF⟩ := (propagate_iff hw).1 h
  have ht := topoSort_sound hw ho
  refine (C17_propagate_acyclic hw ⟨?_, ?_, ?_⟩ inp old').1 ht.acyclic
  · exact run_nodes hw hF
  · intro e he s
    show ∃ s', (fedWith optic x e.comp).apply P s = .ok s'
    obtain ⟨v, hv, hid, o, j, t, s1, s2, k1, k2, k3, k4, -⟩ := hF.edges e he
    have k4 : (optic e.comp).apply P t = .ok s1 := k4
    have hL := hl e he
    unfold fedWith
    by_cases hs : ∃ y, optic e.comp = .source y
    · obtain ⟨y, hy⟩ := hs
      rw [hy]
      exact ⟨x, rfl⟩
    · have hs' : ∀ y, optic e.comp ≠ .source y := fun y hy => hs ⟨y, hy⟩
      have hsame : (optic e.comp).mapSource (fun _ => x) = optic e.comp := by
        cases ho : optic e.comp with
        | source y => exact absurd ho (hs' y)
        | _ => rfl
      rw [hsame]
      rcases apply_lti (dt_ne_zero hn hwin) hL.1 hL.2.1 hL.2.2 hs' with ⟨H, hH⟩ | ⟨er, her⟩
      · exact ⟨_, hH s⟩
      · rw [her] at k4
        cases k4
  · intro e _ f hf s
    simp only [physics] at hf
    split at hf
    · injection hf with hf
      exact ⟨s, by rw [← hf]⟩
    · cases hf

theorem fed_map (optic : Comp → Optic n) (x : Signal n) (T : Signal n → Signal n) : (fun c => (fedWith optic x c).mapSource T) = fedWith optic (T x) := by
  funext c
  unfold fedWith
  cases optic c <;> rfl

/-- The pulse with all lines of the spectrum alike. -/
noncomputable def spark : Signal n := npIfft (fun _ => 1)

theorem lti_spark (x : Signal n) : lti (npFft x) spark = x := by
  unfold lti spark
  rw [npFft_npIfft]
  simp only [mul_one]
  exact npIfft_npFft x

theorem plumbed_fed {g : Graph} {optic : Comp → Optic n} {conn : Comp → Connector} (hp : Plumbed g optic conn) (x : Signal n) : Plumbed g (fedWith optic x) conn where
  entry := fun e he hs => by
    obtain ⟨y, hy⟩ := hp.entry e he hs
    exact ⟨x, by unfold fedWith; rw [hy]; rfl⟩
  joined := hp.joined
  exit := fun e he hd => hp.exit e he (by
    unfold fedWith at hd
    cases ho : optic e.comp <;> rw [ho] at hd <;> exact hd)

/-- **C124.** A design without modulators, detectors and saturating amplifiers is a filter: if it runs at all it runs on every light, and to every place belongs one response, such that each line of
the spectrum there is that line of the source times the response. -/
theorem C124_response (hn : 2 ≤ n) {P : Prop_ n} (hwin : 0 < P.window) {g : Graph} (hw : g.WF) {optic : Comp → Optic n} {conn : Comp → Connector}
    {hasNoise : Comp → Bool} (hp : Plumbed g optic conn) (hl : ∀ e ∈ g.edges, (optic e.comp).Linear) {inp : Signal n} {old st : Store (Signal n)}
    (h : propagate g (physics P optic conn hasNoise) inp old = .ok st) :
    ∃ H : Key → Signal n, IsResponse P g optic conn hasNoise inp H := by
  obtain ⟨st0, h0⟩ := fed_runs hn hwin hw hl h spark Store.empty
  refine ⟨fun k => npFft ((st0 k).getD fun _ => 0), fun x old' => ?_⟩
  obtain ⟨st', h1, h2, h3, h4⟩ := (acts_lti (dt_ne_zero hn hwin) (npFft x)).propagate hw (plumbed_fed hp spark)
    (fun e he => linear_fed (hl e he) spark) old' h0
  rw [fed_map, lti_spark] at h1
  refine ⟨st', h1, fun k s hs m => ?_⟩
  have key : ∀ s0, st0 k = some s0 → s = lti (npFft x) s0 := by
    intro s0 hs0
    cases k with
    | edge r =>
      rcases ((propagate_iff hw).1 h0).2.only (.edge r) (by rw [hs0]; simp) with ⟨e, he, hk⟩ | ⟨_, _, _, hk⟩
      · rw [hk] at hs hs0
        have := (h2 e he s0 hs0).2 (linear_fed (hl e he) spark).1
        rw [hs] at this
        injection this
      · cases hk
    | node v =>
      have hnr : ¬ ReadBy g (fedWith optic spark) v := by
        rintro ⟨e, he, hd⟩
        have hm := mem_inEdges.1 (List.mem_of_mem_head? he)
        exact (linear_fed (hl e hm.1) spark).1 hd
      have := (h3 v s0 hs0).2 hnr
      rw [hs] at this
      injection this
  cases hk : st0 k with
  | none => rw [h4 k hk] at hs; cases hs
  | some s0 =>
    rw [key s0 hk, lti_fft]
    simp only [hk, Option.getD_some]
    ring

/-! ### What components keep, designs keep -/

theorem states_invariant {P : Prop_ n} {g : Graph} (hw : g.WF) {optic : Comp → Optic n} {conn : Comp → Connector} {hasNoise : Comp → Bool} (hp : Plumbed g optic conn)
    {Q : Signal n → Prop} (hsrc : ∀ e ∈ g.edges, ∀ x, optic e.comp = .source x → Q x)
    (hedge : ∀ e ∈ g.edges, (∀ x, optic e.comp ≠ .source x) → ∀ x y, Q x → (optic e.comp).apply P x = .ok y → Q y)
    (hnode : ∀ v ∈ g.nodes, ∀ ins outs a b, (∀ x ∈ ins, Q x) → (conn v.comp).apply P ins a b = .ok outs → ∀ y ∈ outs, Q y) {inp : Signal n} {old st : Store (Signal n)}
    (h : propagate g (physics P optic conn hasNoise) inp old = .ok st) {k : Key} {s : Signal n} (hs : st k = some s) : Q s := by
  obtain ⟨⟨order, ho⟩, hF⟩ := (propagate_iff hw).1 h
  have ht := topoSort_sound hw ho
  have houts : ∀ v ∈ g.nodes, g.inEdges v.id ≠ [] → (∀ d ∈ g.inEdges v.id, ∀ y, st (.edge d.ref) = some y → Q y) →
      ∀ outs, Outputs g (physics P optic conn hasNoise) inp st v outs → ∀ y ∈ outs, Q y := by
    rintro v hv hne hd outs ⟨ins, h1, h2⟩
    rcases h1 with ⟨h0, -⟩ | ⟨-, h1⟩
    · exact absurd h0 hne
    · refine hnode v hv ins outs _ _ (fun x hx => ?_) h2
      have : some x ∈ ins.map some := List.mem_map.2 ⟨x, hx, rfl⟩
      rw [← h1] at this
      obtain ⟨d, hd1, hd2⟩ := List.mem_map.1 this
      exact hd d hd1 x hd2
  have hedges : ∀ (m : Nat) (e : Edge), e ∈ g.edges → order.idxOf e.src = m → ∀ y, st (.edge e.ref) = some y → Q y := by
    intro m
    induction m using Nat.strong_induction_on with
    | _ m ih =>
      intro e he hk y hy
      obtain ⟨v, hv, hid, outs, j, t, s1, s2, h1, h2, h3, h4, h5, h6⟩ := hF.edges e he
      have h7 : (optic e.comp).apply P t = .ok s2 := onEdge_physics.1 ⟨s1, h4, h5⟩
      rw [h6] at hy
      injection hy with hy
      subst hy
      by_cases hx : ∃ x, optic e.comp = .source x
      · obtain ⟨x, hx⟩ := hx
        have := hsrc e he x hx
        rw [hx] at h7
        simp only [Optic.apply] at h7
        injection h7 with h7
        rw [← h7]
        exact this
      · have hne : g.inEdges v.id ≠ [] := by
          intro h0
          obtain ⟨x, hx'⟩ := hp.entry e he fun e' he' hc => by
            have : e' ∈ g.inEdges v.id := mem_inEdges.2 ⟨he', by rw [hid, hc]⟩
            rw [h0] at this
            cases this
          exact hx ⟨x, hx'⟩
        refine hedge e he (fun x hx' => hx ⟨x, hx'⟩) t s2 (houts v hv hne (fun d hdm z hz => ?_) outs h1 t (List.mem_of_getElem? h3)) h7
        have hdm := mem_inEdges.1 hdm
        exact ih _ (by rw [← hk, ← hid, ← hdm.2]; exact ht.forward d hdm.1) d hdm.1 rfl z hz
  rcases hF.only k (by rw [hs]; simp) with ⟨e, he, rfl⟩ | ⟨v, hv, hsink, rfl⟩
  · exact hedges _ e he rfl s hs
  · obtain ⟨outs, y, h1, h2, h3⟩ := hF.sinks v hv hsink
    rw [h3] at hs
    injection hs with hs
    subst hs
    refine houts v hv (fun h0 => ?_) (fun d hdm z hz => hedges _ d (mem_inEdges.1 hdm).1 rfl z hz) outs h1 y (List.mem_of_getElem? h2)
    rcases hp.joined v.id (List.mem_map.2 ⟨v, hv, rfl⟩) with ⟨e, he, hd⟩ | ⟨e, he, hd⟩
    · have : e ∈ g.inEdges v.id := mem_inEdges.2 ⟨he, hd⟩
      rw [h0] at this
      cases this
    · exact hsink.2 e he hd

/-- Sums and multiples of what a node gets. -/
theorem node_closed {P : Prop_ n} {k : Connector} (hk : ∀ a, k ≠ .freqSplitter a) {Q : Signal n → Prop} (h0 : Q fun _ => 0) (hadd : ∀ x y, Q x → Q y → Q fun i => x i + y i)
    (hmul : ∀ (c : ℂ) x, Q x → Q fun i => c * x i) {ins outs : List (Signal n)} {a b : Nat} (hin : ∀ x ∈ ins, Q x) (h : k.apply P ins a b = .ok outs) : ∀ y ∈ outs, Q y := by
  cases k with
  | terminal =>
    simp only [Connector.apply] at h
    injection h with h
    rw [← h]
    exact hin
  | splitter r =>
    simp only [Connector.apply, splitSignals] at h
    split at h
    · cases h
    · split at h
      · cases h
      · injection h with h
        rw [← h]
        intro y hy
        obtain ⟨p, -, rfl⟩ := List.mem_map.1 hy
        have key : ∀ (L : List (Signal n)) (m : Nat), (∀ x ∈ L, Q x) →
            Q fun t => (((L.map (· t)).zipIdx m).map (fun q => ((Real.sqrt p.1 / Real.sqrt b : ℝ) : ℂ) * splitPhase a b q.2 p.2 * q.1)).sum := by
          intro L
          induction L with
          | nil => exact fun m _ => by simpa using h0
          | cons x L ih =>
            intro m hL
            simp only [List.map_cons, List.zipIdx_cons, List.sum_cons]
            exact hadd _ _ (hmul _ _ (hL x (by simp))) (ih (m + 1) fun z hz => hL z (by simp [hz]))
        exact key ins 0 hin
  | freqSplitter r => exact absurd rfl (hk r)

theorem flat_apply {P : Prop_ n} (hdt : P.dt ≠ 0) {o : Optic n} (ho : o.Flat) (hs : ∀ x, o ≠ .source x) : ∃ c : ℂ, ∀ x, o.apply P x = .ok fun i => c * x i := by
  cases o with
  | voa a => exact ⟨dbAmp a, fun x => by simp only [Optic.apply, voa]; congr 1; funext i; unfold dbScale; ring⟩
  | phaseShifter a =>
    exact ⟨exp (I * (a : ℂ)), fun x => by simp only [Optic.apply, phaseShifter, Bool.false_eq_true, if_false]; rw [freqMul_const _ hdt]⟩
  | waveguide => exact ⟨1, fun x => by simp only [Optic.apply, waveguide, one_mul]⟩
  | source x => exact absurd rfl (hs x)
  | _ => exact absurd ho id

/-- **C124.** Splitters, attenuators and phase shifters alone make no filter: everywhere the light is a multiple of that of the source. -/
theorem C124_flat (hn : 2 ≤ n) {P : Prop_ n} (hwin : 0 < P.window) {g : Graph} (hw : g.WF) {optic : Comp → Optic n} {conn : Comp → Connector}
    {hasNoise : Comp → Bool} (hp : Plumbed g optic conn) (hf : ∀ e ∈ g.edges, (optic e.comp).Flat) (hsp : ∀ v ∈ g.nodes, ∀ a, conn v.comp ≠ .freqSplitter a)
    {x : Signal n} (hx : ∀ e ∈ g.edges, ∀ y, optic e.comp = .source y → y = x) {inp : Signal n} {old st : Store (Signal n)}
    (h : propagate g (physics P optic conn hasNoise) inp old = .ok st) {k : Key} {s : Signal n} (hs : st k = some s) : ∃ c : ℂ, s = fun i => c * x i := by
  have h0 : ∃ c : ℂ, (fun _ : Fin n => (0 : ℂ)) = fun i => c * x i := ⟨0, by simp⟩
  have hadd : ∀ y z : Signal n, (∃ c : ℂ, y = fun i => c * x i) → (∃ c : ℂ, z = fun i => c * x i) → ∃ c : ℂ, (fun i => y i + z i) = fun i => c * x i := by
    rintro y z ⟨c, rfl⟩ ⟨d, rfl⟩
    exact ⟨c + d, by funext i; ring⟩
  have hmul : ∀ (b : ℂ) (y : Signal n), (∃ c : ℂ, y = fun i => c * x i) → ∃ c : ℂ, (fun i => b * y i) = fun i => c * x i := by
    rintro b y ⟨c, rfl⟩
    exact ⟨b * c, by funext i; ring⟩
  refine states_invariant (Q := fun s => ∃ c : ℂ, s = fun i => c * x i) hw hp (fun e he y hy => ⟨1, ?_⟩) (fun e he hns y z hy hz => ?_)
    (fun v hv ins outs a b hin ho => node_closed (hsp v hv) h0 hadd hmul hin ho) h hs
  · rw [hx e he y hy]
    simp
  · obtain ⟨c, hc⟩ := flat_apply (P := P) (dt_ne_zero hn hwin) (hf e he) hns
    rw [hc] at hz
    injection hz with hz
    rw [← hz]
    exact hmul c y hy

/-! ### Delays in steps: the response repeats -/

/-- Light only at every `d`-th sample. -/
def OnSteps (d : ℕ) (x : Signal n) : Prop := ∀ i : Fin n, ¬ d ∣ (i : ℕ) → x i = 0

theorem onSteps_delayed {d : ℕ} (hd : d ∣ n) {x : Signal n} (hx : OnSteps d x) (j : ℤ) : OnSteps d (delayed (j * d) x) := by
  intro i hi
  refine hx _ fun hc => hi ?_
  have hpos : (0 : ℤ) < n := by
    have := i.isLt
    omega
  have h1 : (d : ℤ) ∣ ((i.val : ℤ) - j * d) % n := by
    have h2 : (((((i.val : ℤ) - j * d) % n).toNat : ℕ) : ℤ) = ((i.val : ℤ) - j * d) % n := Int.toNat_of_nonneg (Int.emod_nonneg _ hpos.ne')
    rw [← h2]
    exact_mod_cast hc
  have h3 : (d : ℤ) ∣ (i.val : ℤ) - j * d := by
    rw [← Int.mul_ediv_add_emod ((i.val : ℤ) - j * d) n]
    exact dvd_add (Dvd.dvd.mul_right (by exact_mod_cast hd) _) h1
  have h4 : (d : ℤ) ∣ (i.val : ℤ) := by
    have := dvd_add h3 (Dvd.intro_left j rfl : (d : ℤ) ∣ j * d)
    simpa using this
  exact_mod_cast h4

theorem delayLine_steps (hn : 2 ≤ n) {P : Prop_ n} (hwin : 0 < P.window) (j : ℤ) :
    ∃ c : ℂ, ∀ x, delayLine P (j * P.dt * (((n : ℝ) - 1) / n) ^ 2) x = fun i => c * delayed (-j) x i := by
  obtain ⟨c, -, h⟩ := C79_delay_line hn hwin (j * P.dt * (((n : ℝ) - 1) / n) ^ 2)
  have hd := dt_ne_zero hn hwin
  have h1 := two_le_cast hn
  have hn' : (n : ℝ) ≠ 0 := by exact_mod_cast (by omega : n ≠ 0)
  have e : -(j * P.dt * (((n : ℝ) - 1) / n) ^ 2 / P.dt * ((n : ℝ) / (n - 1)) ^ 2) = ((-j : ℤ) : ℝ) := by
    push_cast
    field_simp
  refine ⟨c, fun x => ?_⟩
  rw [h, e, fracDelay_int]

theorem spark_steps {d : ℕ} : OnSteps d (spark : Signal n) := by
  intro i hi
  have hi0 : (i : ℕ) ≠ 0 := fun h => hi (by rw [h]; exact dvd_zero d)
  have hn : 0 < n := Nat.lt_of_le_of_lt (Nat.zero_le _) i.isLt
  let δ : Signal n := fun j => if j = ⟨0, hn⟩ then 1 else 0
  have h : npFft δ = fun _ => 1 := by
    funext k
    unfold npFft
    rw [Finset.sum_eq_single ⟨0, hn⟩]
    · simp [δ]
    · intro j _ hj
      simp [δ, hj]
    · simp
  have : (spark : Signal n) = δ := by
    unfold spark
    rw [← h, npIfft_npFft]
  rw [this]
  simp only [δ]
  rw [if_neg fun h => hi0 (by rw [h])]

theorem onSteps_periodic {d r : ℕ} (hdr : d * r = n) {x : Signal n} (hx : OnSteps d x) {m m' : Fin n} (hm : (m' : ℕ) = m + r) : npFft x m' = npFft x m := by
  have hn : n ≠ 0 := by
    have := m.isLt
    omega
  unfold npFft
  refine Finset.sum_congr rfl fun i _ => ?_
  by_cases hi : d ∣ (i : ℕ)
  · obtain ⟨q, hq⟩ := hi
    congr 1
    have hnC : (n : ℂ) ≠ 0 := by exact_mod_cast hn
    have hnn : (n : ℂ) = d * r := by exact_mod_cast hdr.symm
    have e : -(2 * Real.pi * I * ((i : ℕ) : ℂ) * ((m' : ℕ) : ℂ) / (n : ℂ)) = -(2 * Real.pi * I * ((i : ℕ) : ℂ) * ((m : ℕ) : ℂ) / (n : ℂ)) - (q : ℤ) * (2 * Real.pi * I) := by
      rw [hm, hq]
      push_cast
      field_simp
      rw [hnn]
      ring
    rw [e]
    exact Complex.exp_periodic.sub_int_mul_eq q
  · rw [hx i hi, zero_mul, zero_mul]

/-- **C124.** A design of splitters, attenuators, phase shifters and delay lines whose delays are multiples of `d` steps of the grid, `d r = n`, has a response that repeats after `r` lines:
its free spectral range. -/
theorem C124_fsr (hn : 2 ≤ n) {P : Prop_ n} (hwin : 0 < P.window) {g : Graph} (hw : g.WF) {optic : Comp → Optic n} {conn : Comp → Connector}
    {hasNoise : Comp → Bool} (hp : Plumbed g optic conn) {d r : ℕ} (hdr : d * r = n) (hf : ∀ e ∈ g.edges, (optic e.comp).Stepped P d)
    (hsp : ∀ v ∈ g.nodes, ∀ a, conn v.comp ≠ .freqSplitter a) {inp : Signal n} {old st : Store (Signal n)} (h : propagate g (physics P optic conn hasNoise) inp old = .ok st) :
    ∃ H : Key → Signal n, (∀ (k : Key) (m m' : Fin n), (m' : ℕ) = m + r → H k m' = H k m) ∧ IsResponse P g optic conn hasNoise inp H := by
  have hl : ∀ e ∈ g.edges, (optic e.comp).Linear := fun e he => by
    have := hf e he
    cases ho : optic e.comp <;> rw [ho] at this <;> first | exact ⟨id, id, id⟩ | exact absurd this id
  have hdt := dt_ne_zero hn hwin
  have hmul : ∀ (b : ℂ) (y : Signal n), OnSteps d y → OnSteps d fun i => b * y i := fun b y hy i hi => by simp only [hy i hi, mul_zero]
  obtain ⟨st0, h0⟩ := fed_runs hn hwin hw hl h spark Store.empty
  obtain ⟨H, hH⟩ := C124_response hn hwin hw hp hl h
  have hst : ∀ k s, st0 k = some s → OnSteps d s := by
    intro k s hs
    refine states_invariant (Q := OnSteps d) hw (plumbed_fed hp spark) (fun e he y hy => ?_) (fun e he hns y z hy hz => ?_)
      (fun v hv ins outs a b hin ho => node_closed (hsp v hv) (fun _ _ => rfl) (fun x y hx hy i hi => by simp only [hx i hi, hy i hi, add_zero]) hmul hin ho) h0 hs
    · have : y = spark := by
        unfold fedWith at hy
        cases ho : optic e.comp <;> rw [ho] at hy <;> cases hy
        rfl
      rw [this]
      exact spark_steps
    · have hsame : fedWith optic spark e.comp = optic e.comp := by
        unfold fedWith
        cases ho : optic e.comp with
        | source y => exact absurd (by unfold fedWith; rw [ho]; rfl) (hns spark)
        | _ => rfl
      rw [hsame] at hz hns
      have hfe := hf e he
      cases ho : optic e.comp with
      | delayLine τ =>
        rw [ho] at hfe hz
        obtain ⟨j, hj⟩ := hfe
        obtain ⟨c, hc⟩ := delayLine_steps hn hwin (j * d)
        simp only [Optic.apply] at hz
        injection hz with hz
        rw [← hz, hj, hc]
        rw [show -(j * (d : ℤ)) = -j * d by ring]
        exact hmul c _ (onSteps_delayed ⟨r, hdr.symm⟩ hy _)
      | intDelayLine τ =>
        rw [ho] at hfe hz
        obtain ⟨j, hj⟩ := hfe
        obtain ⟨c, hc⟩ := delayLine_steps hn hwin (j * d)
        simp only [Optic.apply, intDelayLine] at hz
        injection hz with hz
        rw [← hz, hj, hc]
        rw [show -(j * (d : ℤ)) = -j * d by ring]
        exact hmul c _ (onSteps_delayed ⟨r, hdr.symm⟩ hy _)
      | _ =>
        have hflat : (optic e.comp).Flat := by rw [ho] at hfe ⊢; first | exact trivial | exact absurd hfe id
        obtain ⟨c, hc⟩ := flat_apply (P := P) hdt hflat hns
        rw [hc] at hz
        injection hz with hz
        rw [← hz]
        exact hmul c y hy
  refine ⟨fun k => if st0 k = none then fun _ => 0 else H k, fun k m m' hm => ?_, fun x old' => ?_⟩
  · simp only
    cases hk : st0 k with
    | none => simp
    | some s =>
      simp only [reduceCtorEq, if_false]
      obtain ⟨st1, h1, h2⟩ := hH spark Store.empty
      rw [h0] at h1
      injection h1 with h1
      subst h1
      have e : ∀ m, npFft s m = H k m := fun m => by
        rw [h2 k s hk m]
        unfold spark
        rw [npFft_npIfft, mul_one]
      rw [← e m', ← e m]
      exact onSteps_periodic hdr (hst k s hk) hm
  · obtain ⟨st', h1, h2⟩ := hH x old'
    refine ⟨st', h1, fun k s hs m => ?_⟩
    have hne : st0 k ≠ none := by
      have hF0 := ((propagate_iff hw).1 h0).2
      have hF1 := ((propagate_iff hw).1 h1).2
      rcases hF1.only k (by rw [hs]; simp) with ⟨e, he, rfl⟩ | ⟨v, hv, hsink, rfl⟩
      · obtain ⟨_, _, _, _, _, _, _, s2, _, _, _, _, _, h6⟩ := hF0.edges e he
        rw [h6]; simp
      · obtain ⟨_, y, _, _, h3⟩ := hF0.sinks v hv hsink
        rw [h3]; simp
    simp only [if_neg hne]
    exact h2 k s hs m

/-! ### No gain at any frequency -/

/-- **C124.** Where no component amplifies and no node has more inputs than outputs, the response amplifies no frequency: with one source it is at most one everywhere at an output,
with several the number of sources bounds its square. -/
theorem C124_passive (hn : 2 ≤ n) {P : Prop_ n} (hwin : 0 < P.window) {g : Graph} (hw : g.WF) {optic : Comp → Optic n} {conn : Comp → Connector}
    {hasNoise : Comp → Bool} (hnet : Network g optic conn) (hsp : ∀ m ∈ g.nodes, ∀ a, conn m.comp ≠ .freqSplitter a) (hl : ∀ e ∈ g.edges, (optic e.comp).Linear)
    (hpas : ∀ e ∈ g.edges, g.inEdges e.src ≠ [] → (∀ x, optic e.comp ≠ .source x) ∧ (optic e.comp).GainAtMost P 1)
    (hfan : ∀ m ∈ g.nodes, g.outEdges m.id ≠ [] → (g.inEdges m.id).length ≤ (g.outEdges m.id).length)
    {inp : Signal n} {H : Key → Signal n} (hH : IsResponse P g optic conn hasNoise inp H) {e : Edge} (he : e ∈ g.edges) (hout : g.outEdges e.dst = []) (m : Fin n) :
    ‖H (.edge e.ref) m‖ ^ 2 ≤ (g.edges.filter (fun e => g.inEdges e.src = [])).length := by
  let x : Signal n := npIfft fun k => if k = m then 1 else 0
  have hxf : ∀ k, npFft x k = if k = m then 1 else 0 := fun k => by simp only [x]; rw [npFft_npIfft]
  obtain ⟨st, h1, h2⟩ := hH x Store.empty
  have hkeep : ∀ o : Optic n, (∀ y, o ≠ .source y) → o.mapSource (fun _ => x) = o := fun o ho => by
    cases o with
    | source y => exact absurd rfl (ho y)
    | _ => rfl
  have hnet' : Network g (fedWith optic x) conn := by
    refine ⟨fun e he h0 => ?_, hnet.inner, fun e he hm => hnet.meters e he ?_⟩
    · obtain ⟨y, hy⟩ := hnet.entry e he h0
      exact ⟨x, by unfold fedWith; rw [hy]; rfl⟩
    · unfold fedWith at hm
      cases ho : optic e.comp <;> rw [ho] at hm <;> first | rfl | cases hm
  have hE := C71_no_gain hn hwin hw hnet' hsp (fun e he h0 => by
    unfold fedWith
    rw [hkeep _ (hpas e he h0).1]
    exact (hpas e he h0).2) hfan h1
  have hdel : ∀ e ∈ g.edges, ∀ y, (fedWith optic x e.comp).delivered y = energy y := fun e he y => by
    have := (linear_fed (hl e he) x).1
    unfold fedWith at this ⊢
    cases ho : (optic e.comp).mapSource (fun _ => x) with
    | measure => rw [ho] at this; exact absurd trivial this
    | photodiode D => rw [ho] at this; exact absurd trivial this
    | _ => rfl
  have hin : energyIn g (fedWith optic x) = (g.edges.filter (fun e => g.inEdges e.src = [])).length * energy x := by
    unfold energyIn
    rw [List.map_congr_left (g := fun _ => energy x)]
    · simp
    · intro e he
      simp only [List.mem_filter, decide_eq_true_eq] at he
      obtain ⟨y, hy⟩ := hnet.entry e he.1 he.2
      unfold fedWith
      rw [hy]
      rfl
  obtain ⟨_, _, _, _, _, _, _, s, _, _, _, _, _, hs⟩ := ((propagate_iff hw).1 h1).2.edges e he
  have hle : energy s ≤ energyOut g (fedWith optic x) st := by
    unfold energyOut
    have hmem : edgeEnergy (fedWith optic x) st e ∈ (g.edges.filter (fun e => g.outEdges e.dst = [])).map (edgeEnergy (fedWith optic x) st) :=
      List.mem_map.2 ⟨e, List.mem_filter.2 ⟨he, by simpa using hout⟩, rfl⟩
    have hval : edgeEnergy (fedWith optic x) st e = energy s := by
      unfold edgeEnergy
      rw [hs]
      exact hdel e he s
    rw [← hval]
    refine List.single_le_sum (fun a ha => ?_) _ hmem
    obtain ⟨e', he', rfl⟩ := List.mem_map.1 ha
    have he' := (List.mem_filter.1 he').1
    unfold edgeEnergy
    cases hst : st (.edge e'.ref) with
    | none => exact le_refl 0
    | some y =>
      simp only
      rw [hdel e' he' y]
      exact Finset.sum_nonneg fun i _ => by positivity
  have hes : n * energy s = ‖H (.edge e.ref) m‖ ^ 2 * (n * energy x) := by
    rw [← energy_npFft, ← energy_npFft]
    unfold energy
    rw [Finset.mul_sum]
    refine Finset.sum_congr rfl fun k _ => ?_
    rw [h2 _ s hs k, hxf k]
    by_cases hk : k = m
    · rw [hk]
      simp
    · simp [hk]
  have hx1 : n * energy x = 1 := by
    rw [← energy_npFft]
    unfold energy
    rw [Finset.sum_eq_single m]
    · rw [hxf]
      simp
    · intro k _ hk
      rw [hxf, if_neg hk]
      simp
    · simp
  have hn0 : (0 : ℝ) ≤ n := Nat.cast_nonneg n
  calc ‖H (.edge e.ref) m‖ ^ 2 = n * energy s := by rw [hes, hx1, mul_one]
    _ ≤ n * ((g.edges.filter (fun e => g.inEdges e.src = [])).length * energy x) := by
        rw [← hin]
        exact mul_le_mul_of_nonneg_left (hle.trans hE) hn0
    _ = (g.edges.filter (fun e => g.inEdges e.src = [])).length * (n * energy x) := by ring
    _ = _ := by rw [hx1, mul_one]

/-! ### The score of `FilterDesign` -/

theorem ifftShift_delayed (x : Signal n) : ifftShift x = delayed (-((n / 2 : ℕ) : ℤ)) x := by
  funext i
  unfold ifftShift delayed
  congr 1
  apply Fin.ext
  simp only [rotIdx]
  have : ((i.val : ℤ) - -((n / 2 : ℕ) : ℤ)) % n = (((i.val + n / 2) % n : ℕ) : ℤ) := by
    push_cast
    congr 1
    ring
  rw [this, Int.toNat_natCast]

theorem impulse_even (hn : 2 ≤ n) {P : Prop_ n} (hwin : 0 < P.window) (y : Signal n) (m : Fin n) : ‖npFft (impulse P y) m‖ * ‖(P.dt : ℂ)‖ = 1 := by
  have hdt : (P.dt : ℂ) ≠ 0 := by exact_mod_cast dt_ne_zero hn hwin
  unfold impulse
  rw [ifftShift_delayed, delayed_fft, norm_mul, norm_inv, norm_kerZ, inv_one, mul_one, ← norm_mul]
  have : npFft (ifft_ (fun _ => 1) P.dt) m * (P.dt : ℂ) = 1 := by
    have e : (ifft_ (fun _ => 1) P.dt : Signal n) = fun i => (P.dt : ℂ)⁻¹ * npIfft (fun _ => 1) i := by
      funext i
      unfold ifft_
      rw [div_eq_inv_mul]
    rw [e, npFft_smul, npFft_npIfft]
    field_simp
  rw [this, norm_one]

/-- **C124.** On the light of an `Impulse`, `FilterDesign` scores a design by the modulus of its response alone: minus the part of it that lies where the target is one. -/
theorem C124_score (hn : 2 ≤ n) {P : Prop_ n} (hwin : 0 < P.window) {g : Graph} {optic : Comp → Optic n} {conn : Comp → Connector} {hasNoise : Comp → Bool} {inp : Signal n}
    {H : Key → Signal n} (hH : IsResponse P g optic conn hasNoise inp H) (y : Signal n) {old st : Store (Signal n)}
    (h : propagate g (physics P (fedWith optic (impulse P y)) conn hasNoise) inp old = .ok st) {k : Key} {s : Signal n} (hs : st k = some s) (T : Fin n → ℝ) :
    filterDesignScore P T s = percentTotal (fun i => ‖fftShift (H k) i‖) T := by
  obtain ⟨st', h1, h2⟩ := hH (impulse P y) old
  rw [h] at h1
  injection h1 with h1
  subst h1
  unfold filterDesignScore
  congr 1
  funext i
  unfold fftShift fft_
  rw [norm_mul, h2 k s hs, norm_mul, mul_assoc, impulse_even hn hwin, mul_one]

/-- **C124.** So a design of splitters, attenuators and phase shifters gets the mean of the target and nothing else, whatever its topology and settings: delays have to come first. -/
theorem C124_no_filter (hn : 2 ≤ n) {P : Prop_ n} (hwin : 0 < P.window) {g : Graph} (hw : g.WF) {optic : Comp → Optic n} {conn : Comp → Connector}
    {hasNoise : Comp → Bool} (hp : Plumbed g optic conn) (hf : ∀ e ∈ g.edges, (optic e.comp).Flat) (hsp : ∀ v ∈ g.nodes, ∀ a, conn v.comp ≠ .freqSplitter a)
    {y : Signal n} (hx : ∀ e ∈ g.edges, ∀ x, optic e.comp = .source x → x = impulse P y) {inp : Signal n} {old st : Store (Signal n)}
    (h : propagate g (physics P optic conn hasNoise) inp old = .ok st) {k : Key} {s : Signal n} (hs : st k = some s) (T : Fin n → ℝ) :
    filterDesignScore P T s = if s = fun _ => 0 then .error .zeroDivision else .ok (-(∑ i, T i) / n) := by
  obtain ⟨c, hc⟩ := C124_flat hn hwin hw hp hf hsp hx h hs
  have hn' : (n : ℝ) ≠ 0 := by exact_mod_cast (by omega : n ≠ 0)
  have hval : ∀ i, ‖fftShift (fft_ s P.dt) i‖ = ‖c‖ := fun i => by
    unfold fftShift fft_
    rw [hc, npFft_smul, norm_mul, norm_mul, mul_assoc, impulse_even hn hwin, mul_one]
  have hne : ∃ i, impulse P y i ≠ 0 := by
    by_contra hz
    push Not at hz
    have h0 := impulse_even hn hwin y ⟨0, by omega⟩
    rw [show impulse P y = fun _ => 0 from funext hz] at h0
    unfold npFft at h0
    simp at h0
  have hzero : (s = fun _ => 0) ↔ c = 0 := by
    constructor
    · intro h0
      obtain ⟨i, hi⟩ := hne
      have := congrFun (hc.symm.trans h0) i
      exact (mul_eq_zero.1 this).resolve_right hi
    · intro h0
      rw [hc, h0]
      simp
  have hsum : ∑ i, ‖fftShift (fft_ s P.dt) i‖ = n * ‖c‖ := by
    rw [Finset.sum_congr rfl fun i _ => hval i]
    simp
  unfold filterDesignScore percentTotal
  rw [hsum]
  by_cases hc0 : c = 0
  · rw [if_pos (by rw [hc0]; simp), if_pos (hzero.2 hc0)]
  · have hcn : ‖c‖ ≠ 0 := norm_ne_zero_iff.2 hc0
    rw [if_neg (mul_ne_zero hn' hcn), if_neg fun h0 => hc0 (hzero.1 h0)]
    congr 1
    simp_rw [hval]
    rw [← Finset.mul_sum]
    field_simp

namespace ResponseExample
open Fixture RhythmExample

theorem arms_plumbed (x : Signal 4) {o0 o1 last : Optic 4} (r : ℝ) (h0 : ¬ o0.IsDetector) (h1 : ¬ o1.IsDetector) : Plumbed g (Arms.optic x o0 o1 last) (Arms.conn r) where
  entry := by
    intro e he hs
    simp only [g, List.mem_cons, List.not_mem_nil, or_false] at he
    rcases he with rfl | rfl | rfl | rfl
    · exact ⟨x, rfl⟩
    · exact absurd rfl (hs ⟨0, 1, 0, laser 4, 10⟩ (by decide))
    · exact absurd rfl (hs ⟨0, 1, 0, laser 4, 10⟩ (by decide))
    · exact absurd rfl (hs ⟨1, 2, 0, Fixture.fiber 5, 30⟩ (by decide))
  joined := by decide
  exit := by
    intro e he hd
    simp only [g, List.mem_cons, List.not_mem_nil, or_false] at he
    rcases he with rfl | rfl | rfl | rfl
    · exact absurd hd id
    · exact absurd hd h0
    · exact absurd hd h1
    · intro m hm hid
      simp only [g, List.mem_cons, List.not_mem_nil, or_false] at hm
      rcases hm with rfl | rfl | rfl | rfl
      · exact absurd hid (by decide)
      · exact absurd hid (by decide)
      · exact absurd hid (by decide)
      · exact ⟨⟨by decide, by decide⟩, rfl⟩

theorem arms_split (r : ℝ) : ∀ v ∈ g.nodes, ∀ a, Arms.conn r v.comp ≠ .freqSplitter a := by
  intro v hv a
  simp only [g, List.mem_cons, List.not_mem_nil, or_false] at hv
  rcases hv with rfl | rfl | rfl | rfl <;> exact fun h => by cases h

theorem two_steps : (Optic.delayLine (9 / 8) : Optic 4).Stepped demoProp 2 := ⟨1, by rw [dt_one]; norm_num⟩

/-- Two steps of delay against a phase shift: the response repeats after two of the four lines, and the score is that of the response. -/
example (x inp : Signal 4) (T : Fin 4 → ℝ) : ∃ H : Key → Signal 4, (∀ k, H k 2 = H k 0 ∧ H k 3 = H k 1) ∧
    ∃ st s, propagate g (physics demoProp (fedWith (Arms.optic x (.delayLine (9 / 8)) (.phaseShifter 1) .waveguide) (impulse demoProp x)) (Arms.conn (1 / 4)) (fun _ => false)) inp
      Store.empty = .ok st ∧ st (.node 3) = some s ∧ filterDesignScore demoProp T s = percentTotal (fun i => ‖fftShift (H (.node 3)) i‖) T := by
  obtain ⟨st, h⟩ := Arms.runs (P := demoProp) x (r := 1 / 4) (by norm_num) (by norm_num) (o0 := .delayLine (9 / 8)) (o1 := .phaseShifter 1) (last := .waveguide)
    (fun y => ⟨_, rfl⟩) (fun y => ⟨_, rfl⟩) (fun y => ⟨_, rfl⟩) (fun _ => false) inp Store.empty
  obtain ⟨H, h1, h2⟩ := C124_fsr (by norm_num) Arms.demo2.2 g_wf (arms_plumbed x (1 / 4) id id) (d := 2) (r := 2) (by norm_num) (by
    intro e he
    simp only [g, List.mem_cons, List.not_mem_nil, or_false] at he
    rcases he with rfl | rfl | rfl | rfl
    · exact trivial
    · exact two_steps
    · exact trivial
    · exact trivial) (arms_split _) h
  refine ⟨H, fun k => ⟨h1 k 0 2 rfl, h1 k 1 3 rfl⟩, ?_⟩
  obtain ⟨st', h3, -⟩ := h2 (impulse demoProp x) Store.empty
  obtain ⟨_, s, _, _, hs⟩ := ((propagate_iff g_wf).1 h3).2.sinks ⟨3, snk, 2⟩ (by decide) ⟨by decide, by decide⟩
  exact ⟨st', s, h3, hs, C124_score (by norm_num) Arms.demo2.2 h2 x h3 hs T⟩

/-- A phase shift against an attenuator makes no filter. -/
example (inp : Signal 4) (T : Fin 4 → ℝ) : ∃ st s c, propagate g (physics demoProp (Arms.optic (impulse demoProp inp) (.voa (-3)) (.phaseShifter 1) .waveguide) (Arms.conn (1 / 4)) (fun _ => false)) inp
      Store.empty = .ok st ∧ st (.node 3) = some s ∧ (s = fun i => c * impulse demoProp inp i) ∧
      ∀ v, filterDesignScore demoProp T s = .ok v → v = -(T 0 + T 1 + T 2 + T 3) / 4 := by
  obtain ⟨st, h⟩ := Arms.runs (P := demoProp) (impulse demoProp inp) (r := 1 / 4) (by norm_num) (by norm_num) (o0 := .voa (-3)) (o1 := .phaseShifter 1) (last := .waveguide)
    (fun y => ⟨_, rfl⟩) (fun y => ⟨_, rfl⟩) (fun y => ⟨_, rfl⟩) (fun _ => false) inp Store.empty
  obtain ⟨_, s, _, _, hs⟩ := ((propagate_iff g_wf).1 h).2.sinks ⟨3, snk, 2⟩ (by decide) ⟨by decide, by decide⟩
  have hf : ∀ e ∈ g.edges, (Arms.optic (impulse demoProp inp) (.voa (-3)) (.phaseShifter 1) .waveguide e.comp).Flat := by
    intro e he
    simp only [g, List.mem_cons, List.not_mem_nil, or_false] at he
    rcases he with rfl | rfl | rfl | rfl <;> exact trivial
  have hx : ∀ e ∈ g.edges, ∀ x, Arms.optic (impulse demoProp inp) (.voa (-3)) (.phaseShifter 1) .waveguide e.comp = .source x → x = impulse demoProp inp := by
    intro e he x hx
    simp only [g, List.mem_cons, List.not_mem_nil, or_false] at he
    rcases he with rfl | rfl | rfl | rfl
    · injection hx with hx
      exact hx.symm
    all_goals cases hx
  have hp := arms_plumbed (impulse demoProp inp) (o0 := .voa (-3)) (o1 := .phaseShifter 1) (last := .waveguide) (1 / 4) id id
  obtain ⟨c, hc⟩ := C124_flat (by norm_num) Arms.demo2.2 g_wf hp hf (arms_split _) hx h hs
  refine ⟨st, s, c, h, hs, hc, fun v hv => ?_⟩
  rw [C124_no_filter (by norm_num) Arms.demo2.2 g_wf hp hf (arms_split _) hx h hs T] at hv
  split at hv
  · cases hv
  · injection hv with hv
    rw [← hv, Fin.sum_univ_four]
    norm_num

noncomputable def laneConn (c : Comp) : Connector := if c.uid = 8 ∨ c.uid = 9 then .splitter [] else .terminal

/-- A laser behind a fibre and a delay line: a filter, with no gain at any frequency. -/
example (x inp : Signal 4) : ∃ H : Key → Signal 4, IsResponse demoProp lane (Mzi.optic x (.delayLine 5) (.fiber 1000)) laneConn (fun _ => false) inp H ∧
    ∀ m, ‖H (.edge ⟨2, 3, 0⟩) m‖ ^ 2 ≤ 1 := by
  have hen : Enough lane (physics demoProp (Mzi.optic x (.delayLine 5) (.fiber 1000)) laneConn (fun _ => false)) := by
    refine ⟨?_, ?_, ?_⟩
    · intro m hm ins hin
      simp only [lane, List.mem_cons, List.not_mem_nil, or_false] at hm
      rcases hm with rfl | rfl | rfl | rfl
      · exact ⟨ins, rfl, by rw [hin]; decide⟩
      · have hh : ins.length = 1 := hin
        obtain ⟨y, rfl⟩ := List.length_eq_one_iff.1 hh
        exact ⟨[y], split_through y, show max 1 (lane.outEdges _).length ≤ 1 by decide⟩
      · have hh : ins.length = 1 := hin
        obtain ⟨y, rfl⟩ := List.length_eq_one_iff.1 hh
        exact ⟨[y], split_through y, show max 1 (lane.outEdges _).length ≤ 1 by decide⟩
      · exact ⟨ins, rfl, by rw [hin]; decide⟩
    · intro e he s
      simp only [lane, List.mem_cons, List.not_mem_nil, or_false] at he
      rcases he with rfl | rfl | rfl <;> exact ⟨_, rfl⟩
    · intro e _ f hf s
      simp [physics] at hf
  obtain ⟨st, h⟩ := (C17_propagate_acyclic lane_wf hen inp Store.empty).1 lane_topo.acyclic
  have hp : Plumbed lane (Mzi.optic x (.delayLine 5) (.fiber 1000)) laneConn := by
    refine ⟨fun e he hs => ?_, (lane_plumbed x).joined, fun e he hd => ?_⟩
    · simp only [lane, List.mem_cons, List.not_mem_nil, or_false] at he
      rcases he with rfl | rfl | rfl
      · exact ⟨x, rfl⟩
      · exact absurd rfl (hs ⟨0, 1, 0, laser 4, 10⟩ (by decide))
      · exact absurd rfl (hs ⟨1, 2, 0, shaper 6, 31⟩ (by decide))
    · simp only [lane, List.mem_cons, List.not_mem_nil, or_false] at he
      rcases he with rfl | rfl | rfl <;> exact absurd hd id
  have hl : ∀ e ∈ lane.edges, (Mzi.optic x (.delayLine 5) (.fiber 1000) e.comp).Linear := by
    intro e he
    simp only [lane, List.mem_cons, List.not_mem_nil, or_false] at he
    rcases he with rfl | rfl | rfl <;> exact ⟨id, id, id⟩
  have hnet : Network lane (Mzi.optic x (.delayLine 5) (.fiber 1000)) laneConn := by
    refine ⟨fun e he h0 => ?_, fun m hm h0 h1 => ?_, fun e he hm => ?_⟩
    · simp only [lane, List.mem_cons, List.not_mem_nil, or_false] at he
      rcases he with rfl | rfl | rfl
      · exact ⟨x, rfl⟩
      · exact absurd h0 (by decide)
      · exact absurd h0 (by decide)
    · simp only [lane, List.mem_cons, List.not_mem_nil, or_false] at hm
      rcases hm with rfl | rfl | rfl | rfl
      · exact absurd (show lane.inEdges 0 = [] by decide) h0
      · exact .inl ⟨[], rfl⟩
      · exact .inl ⟨[], rfl⟩
      · exact absurd (show lane.outEdges 3 = [] by decide) h1
    · simp only [lane, List.mem_cons, List.not_mem_nil, or_false] at he
      rcases he with rfl | rfl | rfl <;> cases hm
  obtain ⟨H, hH⟩ := C124_response (by norm_num) Arms.demo2.2 lane_wf hp hl h
  have hg := C71_gains (n := 4) (by norm_num) Arms.demo2.2
  refine ⟨H, hH, fun m => ?_⟩
  have := C124_passive (by norm_num) Arms.demo2.2 lane_wf hnet (by
    intro v hv a
    simp only [lane, List.mem_cons, List.not_mem_nil, or_false] at hv
    rcases hv with rfl | rfl | rfl | rfl <;> exact fun h => by cases h) hl (by
    intro e he h0
    simp only [lane, List.mem_cons, List.not_mem_nil, or_false] at he
    rcases he with rfl | rfl | rfl
    · exact absurd (show lane.inEdges 0 = [] by decide) h0
    · exact ⟨fun y hy => (by cases hy), hg.2.2.2.2.2.1 5⟩
    · exact ⟨fun y hy => (by cases hy), hg.1 1000⟩) (by decide) hH (e := ⟨2, 3, 0, diode 7, 20⟩) (by decide) (by decide) m
  refine this.trans (le_of_eq ?_)
  rw [show (lane.edges.filter (fun e => lane.inEdges e.src = [])).length = 1 by decide]
  norm_num

end ResponseExample

end Verif
