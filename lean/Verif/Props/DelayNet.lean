import Verif.Spec.DelayNet
import Verif.Props.Ways
import Verif.Props.Response
import Verif.Props.Interferometer
/-!
# C130: the response of networks of splitters, delay lines, phase shifters and attenuators
-/

namespace Verif
open Graph

variable {n : Nat}

theorem line_linear {o : Optic n} (h : o.InDelayNet) : ¬ o.IsDetector ∧ ¬ o.Saturates := by
  cases o <;> first | exact ⟨id, id⟩ | exact absurd h id

/-- What a component of such a network does to each line of the spectrum. -/
theorem line_apply (hn : 2 ≤ n) {P : Prop_ n} (hwin : 0 < P.window) {o : Optic n} (h : o.InDelayNet) (hs : ∀ x, o ≠ .source x) {x y : Signal n} (ha : o.apply P x = .ok y) (k : Fin n) :
    npFft y k = o.lineGain * turn (2 * Real.pi * (ifftShift P.f k + P.central) * o.lineDelay) * npFft x k := by
  cases o with
  | voa a =>
    simp only [Optic.apply, Except.ok.injEq] at ha
    have e : voa a x = fun i => (dbAmp a : ℂ) * x i := by funext i; simp [voa, dbScale, mul_comm]
    rw [← ha, e, npFft_smul]
    simp [Optic.lineGain, Optic.lineDelay, turn_zero]
  | phaseShifter φ =>
    rw [turns_phaseShifter hn hwin φ x] at ha
    injection ha with ha
    rw [← ha, npFft_smul]
    simp [Optic.lineGain, Optic.lineDelay, turn_zero]
  | waveguide =>
    simp only [Optic.apply, waveguide, Except.ok.injEq] at ha
    rw [← ha]
    simp [Optic.lineGain, Optic.lineDelay, turn_zero]
  | delayLine τ =>
    obtain ⟨y', h1, h2⟩ := delays_delayLine hn hwin τ x
    rw [h1] at ha
    injection ha with ha
    rw [← ha, h2]
    simp [Optic.lineGain, Optic.lineDelay]
  | intDelayLine τ =>
    obtain ⟨y', h1, h2⟩ := delays_delayLine hn hwin (τ * (1 / 10 ^ 12)) x
    have e : (Optic.intDelayLine τ : Optic n).apply P x = (Optic.delayLine (τ * (1 / 10 ^ 12))).apply P x := rfl
    rw [e, h1] at ha
    injection ha with ha
    rw [← ha, h2]
    simp [Optic.lineGain, Optic.lineDelay]
  | source x => exact absurd rfl (hs x)
  | _ => exact absurd h id

theorem zipIdx_only {α : Type} [DecidableEq α] (κ : Nat → ℂ) (z : ℂ) {d : α} {E : List α} (hE : E.Nodup) {i : Nat} (hi : E[i]? = some d) (m : Nat) :
    (((E.map fun d' => if d' = d then z else 0).zipIdx m).map fun p => κ p.2 * p.1).sum = κ (m + i) * z := by
  induction E generalizing i m with
  | nil => simp at hi
  | cons a E ih =>
    rw [List.nodup_cons] at hE
    cases i with
    | zero =>
      simp only [List.getElem?_cons_zero, Option.some.injEq] at hi
      subst hi
      have h0 : (((E.map fun d' => if d' = a then z else 0).zipIdx (m + 1)).map fun p => κ p.2 * p.1).sum = 0 := by
        apply List.sum_eq_zero
        intro q hq
        obtain ⟨p, hp, rfl⟩ := List.mem_map.1 hq
        have hm := List.fst_mem_of_mem_zipIdx hp
        obtain ⟨b, hb, hbp⟩ := List.mem_map.1 hm
        have : b ≠ a := fun h => hE.1 (h ▸ hb)
        rw [if_neg this] at hbp
        rw [← hbp, mul_zero]
      rw [List.map_cons, List.zipIdx_cons, List.map_cons, List.sum_cons, h0]
      simp
    | succ i =>
      rw [List.getElem?_cons_succ] at hi
      have : a ≠ d := fun h => hE.1 (h ▸ List.mem_of_getElem? hi)
      rw [List.map_cons, List.zipIdx_cons, List.map_cons, List.sum_cons, ih hE.2 hi, if_neg this]
      simp only [mul_zero, zero_add]
      congr 2
      omega

/-- What a terminal or splitter hands on of the light of one in-edge is a multiple of it. -/
theorem handsOn_gain {P : Prop_ n} {g : Graph} (hw : g.WF) {conn : Comp → Connector} (hsp : ∀ v ∈ g.nodes, ∀ a, conn v.comp ≠ .freqSplitter a) {d e : Edge} (hd : d ∈ g.edges)
    {s t : Signal n} (h : HandsOn P g conn d s e t) : ∃ c, PortGain g conn d e c ∧ t = fun i => c * s i := by
  obtain ⟨v, hv, hid, hj, outs, j, a1, a2, a3⟩ := h
  have hdi : d ∈ g.inEdges e.src := mem_inEdges.2 ⟨hd, hj⟩
  have hnd : (g.inEdges e.src).Nodup := (List.Nodup.of_map _ hw.refs_nodup).filter _
  obtain ⟨i, hi⟩ := List.mem_iff_getElem?.1 hdi
  rw [onlyFrom, hj] at a1
  cases hc : conn v.comp with
  | terminal =>
    rw [hc] at a1
    simp only [Connector.apply, Except.ok.injEq] at a1
    refine ⟨_, ⟨v, hv, hid, i, j, hi, a2, .inl ⟨hc, rfl⟩⟩, ?_⟩
    rw [← a1, List.getElem?_map] at a3
    by_cases hij : i = j
    · subst hij
      rw [hi] at a3
      simp only [Option.map_some, if_true, Option.some.injEq] at a3
      rw [← a3]
      simp
    · obtain ⟨d', hd', k⟩ := Option.map_eq_some_iff.1 a3
      have hne : d' ≠ d := by
        rintro rfl
        exact hij ((List.getElem?_inj (List.getElem?_eq_some_iff.1 hi).1 hnd).1 (hi.trans hd'.symm))
      rw [if_neg hne] at k
      rw [← k, if_neg hij]
      simp
  | splitter r =>
    rw [hc] at a1
    simp only [Connector.apply, splitSignals, List.length_map] at a1
    split at a1
    · cases a1
    · split at a1
      · cases a1
      · injection a1 with a1
        rw [← a1, List.getElem?_map] at a3
        obtain ⟨q, hq, k⟩ := Option.map_eq_some_iff.1 a3
        rw [List.getElem?_zipIdx] at hq
        obtain ⟨w, hw1, rfl⟩ := Option.map_eq_some_iff.1 hq
        refine ⟨_, ⟨v, hv, hid, i, j, hi, a2, .inr ⟨r, w, hc, hw1, rfl⟩⟩, ?_⟩
        rw [← k]
        funext t
        have e1 : ((g.inEdges e.src).map fun d' => if d' = d then s else fun _ => 0).map (· t) = (g.inEdges e.src).map fun d' => if d' = d then s t else 0 := by
          rw [List.map_map]
          refine List.map_congr_left fun d' _ => ?_
          by_cases hh : d' = d <;> simp [hh]
        simp only [Nat.zero_add]
        rw [e1]
        unfold splitRow
        rw [zipIdx_only (fun m => ((Real.sqrt w / Real.sqrt (g.outEdges e.src).length : ℝ) : ℂ) * splitPhase (g.inEdges e.src).length (g.outEdges e.src).length m j) (s t) hnd hi 0]
        rw [Nat.zero_add, splitPhase_turn]
  | freqSplitter a => exact absurd hc (hsp v hv a)

theorem portGain_unique {g : Graph} (hw : g.WF) {conn : Comp → Connector} {d e : Edge} {c c' : ℂ} (h : PortGain g conn d e c) (h' : PortGain g conn d e c') : c = c' := by
  obtain ⟨v, hv, hid, i, j, a1, a2, a3⟩ := h
  obtain ⟨v', hv', hid', i', j', b1, b2, b3⟩ := h'
  obtain rfl : v' = v := List.inj_on_of_nodup_map hw.ids_nodup hv' hv (hid'.trans hid.symm)
  have hnd : (g.inEdges e.src).Nodup := (List.Nodup.of_map _ hw.refs_nodup).filter _
  obtain rfl : i' = i := (List.getElem?_inj (List.getElem?_eq_some_iff.1 b1).1 hnd).1 (b1.trans a1.symm)
  obtain rfl : j' = j := (List.getElem?_inj (List.getElem?_eq_some_iff.1 b2).1 (outEdges_nodup hw _)).1 (b2.trans a2.symm)
  rcases a3 with ⟨k, rfl⟩ | ⟨r, w, k1, k2, rfl⟩ <;> rcases b3 with ⟨l, rfl⟩ | ⟨r', w', l1, l2, rfl⟩
  · rfl
  · rw [k] at l1; cases l1
  · rw [l] at k1; cases k1
  · rw [k1] at l1
    injection l1 with l1
    subst l1
    rw [k2] at l2
    injection l2 with l2
    rw [l2]

theorem wayGain_unique {g : Graph} (hw : g.WF) {optic : Comp → Optic n} {conn : Comp → Connector} {w : List Edge} {a a' : ℂ} (h : WayGain g optic conn w a) (h' : WayGain g optic conn w a') : a = a' := by
  induction h generalizing a' with
  | source hs => cases h' with
    | source hs' => rfl
  | next h hc ih =>
    cases h' with
    | next k kc => rw [ih k, portGain_unique hw hc kc]

theorem allGains_perm {g : Graph} (hw : g.WF) {optic : Comp → Optic n} {conn : Comp → Connector} {e : Edge} {R R' : List (List Edge × ℂ)}
    (h : AllGains g optic conn e R) (h' : AllGains g optic conn e R') : R.Perm R' := by
  have sub : ∀ {R R' : List (List Edge × ℂ)}, AllGains g optic conn e R → AllGains g optic conn e R' → ∀ p ∈ R, p ∈ R' := by
    intro M M' h h' p hp
    obtain ⟨q, hq, hqp⟩ := List.mem_map.1 ((h'.all p.1).2 ((h.all p.1).1 (List.mem_map_of_mem hp)))
    obtain ⟨d, s, c, a1, a2, a3, a4⟩ := h.gain p hp
    obtain ⟨d', s', c', b1, b2, b3, b4⟩ := h'.gain q hq
    rw [hqp] at b1 b2
    rw [a1] at b1
    injection b1 with b1
    subst b1
    have := wayGain_unique hw a2 b2
    have := portGain_unique hw a3 b3
    rwa [show p = q from Prod.ext hqp.symm (by rw [a4, b4]; simp_all)]
  exact (List.perm_ext_iff_of_nodup (List.Nodup.of_map _ h.once) (List.Nodup.of_map _ h'.once)).2 fun p => ⟨sub h h' p, sub h' h p⟩

/-- The light on one way: each line of the source's spectrum times the factors, turned by the delay. -/
theorem along_line (hn : 2 ≤ n) {P : Prop_ n} (hwin : 0 < P.window) {g : Graph} (hw : g.WF) {optic : Comp → Optic n} {conn : Comp → Connector} (hsp : ∀ v ∈ g.nodes, ∀ a, conn v.comp ≠ .freqSplitter a)
    {x : Signal n} {w : List Edge} {s : Signal n} (h : Along P g optic conn w s) (hway : Way g optic w) (hnet : ∀ d ∈ w, (optic d.comp).InDelayNet)
    (hx : ∀ d ∈ w, ∀ y, optic d.comp = .source y → y = x) :
    ∃ a, WayGain g optic conn w a ∧ ∀ k, npFft s k = a * turn (2 * Real.pi * (ifftShift P.f k + P.central) * (w.map fun d => (optic d.comp).lineDelay).sum) * npFft x k := by
  induction h with
  | @source e y hs =>
    refine ⟨1, .source hs, fun k => ?_⟩
    rw [hx _ (List.mem_singleton_self _) _ hs]
    simp [hs, Optic.lineDelay, turn_zero]
  | @next e d w s t y h hnd hy ih =>
    cases hway with
    | next k ke ks kj =>
      obtain ⟨a, h1, h2⟩ := ih k (fun d hd => hnet d (List.mem_cons_of_mem _ hd)) (fun d hd => hx d (List.mem_cons_of_mem _ hd))
      obtain ⟨d', w', hdw, hdm⟩ := head_mem k
      injection hdw with hdw _
      subst hdw
      obtain ⟨c, hc, rfl⟩ := handsOn_gain hw hsp hdm hnd
      refine ⟨_, .next h1 hc, fun k => ?_⟩
      rw [line_apply hn hwin (hnet _ List.mem_cons_self) ks hy, npFft_smul, List.map_cons (a := e), List.sum_cons, mul_add (2 * Real.pi * (ifftShift P.f k + P.central)), turn_add]
      dsimp only
      rw [h2]
      ring

theorem npFft_list_sum {α : Type} (l : List α) (f : α → Signal n) (k : Fin n) : npFft (l.map f).sum k = (l.map fun a => npFft (f a) k).sum := by
  induction l with
  | nil => simp [npFft]
  | cons a l ih =>
    rw [List.map_cons, List.sum_cons, List.map_cons, List.sum_cons, ← ih]
    exact congrFun (npFft_add (f a) (l.map f).sum) k

/-- **C130.** The response of any network of splitters, delay lines, phase shifters, attenuators and waveguides, in closed form: each line of the spectrum of what a component is given is that line of the source's
times the sum over all ways of the product of the factors of splitters, attenuators and phase shifters on it, turned by `2π` times the optical frequency times the sum of the delays on it. -/
theorem C130_response (hn : 2 ≤ n) {P : Prop_ n} (hwin : 0 < P.window) {g : Graph} (hw : g.WF) {optic : Comp → Optic n} {conn : Comp → Connector} {hasNoise : Comp → Bool}
    (hsp : ∀ v ∈ g.nodes, ∀ a, conn v.comp ≠ .freqSplitter a)
    (hent : ∀ e ∈ g.edges, (∀ e' ∈ g.edges, e'.dst ≠ e.src) → ∃ x, optic e.comp = .source x) {inp : Signal n} {old st : Store (Signal n)}
    (h : propagate g (physics P optic conn hasNoise) inp old = .ok st) {e : Edge} (he : e ∈ g.edges) (hs : ∀ x, optic e.comp ≠ .source x)
    (hnet : ∀ d ∈ g.edges, g.Reach d.dst e.src → (optic d.comp).InDelayNet) {x : Signal n} (hx : ∀ d ∈ g.edges, ∀ y, optic d.comp = .source y → y = x) :
    (∃ R, AllGains g optic conn e R) ∧
      ∀ R, AllGains g optic conn e R → ∃ t y, (optic e.comp).apply P t = .ok y ∧ st (.edge e.ref) = some y ∧ ∀ k, npFft t k = netResponse P optic R k * npFft x k := by
  classical
  obtain ⟨⟨M, hM⟩, hsum⟩ := C129_sum hn hwin hw hent h he hs (fun d hd hr => line_linear (hnet d hd hr))
  obtain ⟨y, hy1, hy2⟩ := hsum M hM
  have key : ∀ p : List Edge × Signal n, ∃ b : ℂ, p ∈ M → (∃ d a c, p.1.head? = some d ∧ WayGain g optic conn p.1 a ∧ PortGain g conn d e c ∧ b = c * a) ∧
      ∀ k, npFft p.2 k = b * turn (2 * Real.pi * (ifftShift P.f k + P.central) * (p.1.map fun d => (optic d.comp).lineDelay).sum) * npFft x k := by
    intro p
    by_cases hp : p ∈ M
    · obtain ⟨d, s, a1, a2, a3⟩ := hM.light p hp
      have hway := ((hM.all p.1).1 (List.mem_map_of_mem hp)).1
      have hj : d.dst = e.src := by
        obtain ⟨_, _, _, hj, -⟩ := a3
        exact hj
      have hr : ∀ d' ∈ p.1, d' ∈ g.edges ∧ g.Reach d'.dst e.src := fun d' hd' => hj ▸ way_reach hway d a1 d' hd'
      obtain ⟨a, b1, b2⟩ := along_line hn hwin hw hsp a2 hway (fun d' hd' => hnet d' (hr d' hd').1 (hr d' hd').2) (fun d' hd' => hx d' (hr d' hd').1)
      obtain ⟨c, c1, c2⟩ := handsOn_gain hw hsp (hr d (List.mem_of_mem_head? a1)).1 a3
      refine ⟨c * a, fun _ => ⟨⟨d, a, c, a1, b1, c1, rfl⟩, fun k => ?_⟩⟩
      rw [c2, npFft_smul]
      dsimp only
      rw [b2]
      ring
    · exact ⟨0, fun h => absurd h hp⟩
  choose b hb using key
  have hR : AllGains g optic conn e (M.map fun p => (p.1, b p)) := by
    have hk : (M.map fun p => (p.1, b p)).map (·.1) = M.map (·.1) := by rw [List.map_map]; rfl
    refine ⟨by rw [hk]; exact hM.once, fun w => by rw [hk]; exact hM.all w, fun p hp => ?_⟩
    obtain ⟨q, hq, rfl⟩ := List.mem_map.1 hp
    exact (hb q hq).1
  refine ⟨⟨_, hR⟩, fun R hR' => ⟨_, y, hy1, hy2, fun k => ?_⟩⟩
  unfold netResponse
  rw [((allGains_perm hw hR' hR).map _).sum_eq, npFft_list_sum, List.map_map, ← List.sum_map_mul_right]
  congr 1
  exact List.map_congr_left fun p hp => (hb p hp).2 k

/-- **C130.** What `FilterDesign` scores when such a network is lit by an `Impulse` and read by an `ElectricFieldMeasurementDevice`: the modulus of that sum over ways. -/
theorem C130_score (hn : 2 ≤ n) {P : Prop_ n} (hwin : 0 < P.window) {g : Graph} (hw : g.WF) {optic : Comp → Optic n} {conn : Comp → Connector} {hasNoise : Comp → Bool}
    (hsp : ∀ v ∈ g.nodes, ∀ a, conn v.comp ≠ .freqSplitter a)
    (hent : ∀ e ∈ g.edges, (∀ e' ∈ g.edges, e'.dst ≠ e.src) → ∃ x, optic e.comp = .source x) {inp : Signal n} {old st : Store (Signal n)}
    (h : propagate g (physics P optic conn hasNoise) inp old = .ok st) {e : Edge} (he : e ∈ g.edges) (hm : optic e.comp = .waveguide)
    (hnet : ∀ d ∈ g.edges, g.Reach d.dst e.src → (optic d.comp).InDelayNet) {y : Signal n} (hx : ∀ d ∈ g.edges, ∀ z, optic d.comp = .source z → z = impulse P y)
    {R : List (List Edge × ℂ)} (hR : AllGains g optic conn e R) (T : Fin n → ℝ) :
    ∃ s, st (.edge e.ref) = some s ∧ filterDesignScore P T s = percentTotal (fun i => ‖fftShift (netResponse P optic R) i‖) T := by
  obtain ⟨t, s, h1, h2, h3⟩ := (C130_response hn hwin hw hsp hent h he (by intro z; rw [hm]; simp) hnet hx).2 R hR
  rw [hm] at h1
  simp only [Optic.apply, waveguide, Except.ok.injEq] at h1
  subst h1
  refine ⟨t, h2, ?_⟩
  unfold filterDesignScore
  congr 1
  funext i
  unfold fftShift fft_
  rw [norm_mul, h3, norm_mul, mul_assoc, impulse_even hn hwin, mul_one]

/-- **C130.** Delays make a filter only by their differences: where the delay is the same on all ways, the response has the same modulus at all frequencies. -/
theorem C130_same_delay (P : Prop_ n) (optic : Comp → Optic n) {R : List (List Edge × ℂ)} {τ : ℝ} (h : ∀ p ∈ R, (p.1.map fun d => (optic d.comp).lineDelay).sum = τ) (k : Fin n) :
    ‖netResponse P optic R k‖ = ‖(R.map (·.2)).sum‖ := by
  have : netResponse P optic R k = (R.map (·.2)).sum * turn (2 * Real.pi * (ifftShift P.f k + P.central) * τ) := by
    unfold netResponse
    rw [← List.sum_map_mul_right]
    congr 1
    exact List.map_congr_left fun p hp => by rw [h p hp]
  rw [this, norm_mul, turn_norm, mul_one]

theorem two_beams (r s x y : ℝ) : ‖(r : ℂ) * turn x + (s : ℂ) * turn y‖ ^ 2 = r ^ 2 + s ^ 2 + 2 * r * s * Real.cos (x - y) := by
  rw [Complex.sq_norm, Complex.normSq_apply]
  have hx := Real.sin_sq_add_cos_sq x
  have hy := Real.sin_sq_add_cos_sq y
  simp only [turn, Complex.add_re, Complex.add_im, Complex.re_ofReal_mul, Complex.im_ofReal_mul, Complex.exp_ofReal_mul_I_re, Complex.exp_ofReal_mul_I_im, Real.cos_sub]
  linear_combination r ^ 2 * hx + s ^ 2 * hy

/-- **C130.** Two ways make the cosine fringe of a Mach–Zehnder interferometer over frequency, with the inverse of the difference of their delays as its period. -/
theorem C130_two_ways (P : Prop_ n) (optic : Comp → Optic n) (p q : List Edge × ℂ) (k : Fin n) :
    ‖netResponse P optic [p, q] k‖ ^ 2 = ‖p.2‖ ^ 2 + ‖q.2‖ ^ 2 + 2 * ‖p.2‖ * ‖q.2‖ *
      Real.cos (2 * Real.pi * (ifftShift P.f k + P.central) * ((p.1.map fun d => (optic d.comp).lineDelay).sum - (q.1.map fun d => (optic d.comp).lineDelay).sum) + (p.2.arg - q.2.arg)) := by
  have polar : ∀ (z : ℂ) (θ : ℝ), z * turn θ = (‖z‖ : ℂ) * turn (θ + z.arg) := by
    intro z θ
    rw [turn_add, mul_comm (turn θ), ← mul_assoc]
    congr 1
    exact (Complex.norm_mul_exp_arg_mul_I z).symm
  unfold netResponse
  rw [List.map_cons, List.map_cons, List.map_nil, List.sum_cons, List.sum_cons, List.sum_nil, add_zero, polar p.2, polar q.2, two_beams]
  congr 2
  congr 1
  ring

namespace DelayNetExample
open Fixture FringeExample

/-- An interferometer with a delay line in one arm and a phase shifter in the other, lit by an impulse, with field meters at both outputs. -/
noncomputable def optic (x : Signal 4) (c : Comp) : Optic 4 :=
  if c.uid = 4 then .source (impulse demoProp x) else if c.uid = 5 then .delayLine 1 else if c.uid = 6 then .phaseShifter 2 else .waveguide

theorem runs (x inp : Signal 4) (old : Store (Signal 4)) : ∃ st, propagate coupler (physics demoProp (optic x) FringeExample.conn (fun _ => false)) inp old = .ok st := by
  obtain ⟨st, h⟩ := coupler_runs x inp 0 old
  refine rerun coupler_wf h (fun e he s s1 _ t => ?_) old
  simp only [coupler, List.mem_cons, List.not_mem_nil, or_false] at he
  rcases he with rfl | rfl | rfl | rfl | rfl <;> exact ⟨_, rfl⟩

theorem net (x : Signal 4) : ∀ e ∈ coupler.edges, (optic x e.comp).InDelayNet := by
  intro e he
  simp only [coupler, List.mem_cons, List.not_mem_nil, or_false] at he
  rcases he with rfl | rfl | rfl | rfl | rfl <;> exact trivial

theorem nosplit : ∀ v ∈ coupler.nodes, ∀ a, FringeExample.conn v.comp ≠ .freqSplitter a := by
  intro v hv a
  simp only [coupler, List.mem_cons, List.not_mem_nil, or_false] at hv
  rcases hv with rfl | rfl | rfl | rfl | rfl <;> intro h <;> cases h

theorem entry (x : Signal 4) : ∀ e ∈ coupler.edges, (∀ e' ∈ coupler.edges, e'.dst ≠ e.src) → ∃ y, optic x e.comp = .source y := by
  intro e he hs
  obtain ⟨y, hy⟩ := WaysExample.entry x 0 e he hs
  simp only [coupler, List.mem_cons, List.not_mem_nil, or_false] at he
  rcases he with rfl | rfl | rfl | rfl | rfl
  · exact ⟨_, rfl⟩
  all_goals cases hy

theorem lit (x : Signal 4) : ∀ e ∈ coupler.edges, ∀ y, optic x e.comp = .source y → y = impulse demoProp x := by
  intro e he y hy
  simp only [coupler, List.mem_cons, List.not_mem_nil, or_false] at he
  rcases he with rfl | rfl | rfl | rfl | rfl
  · injection hy with hy
    exact hy.symm
  all_goals cases hy

/-- `C130_response`, `C130_score`: the first output; two ways lead to it, with a delay of one second and of none. -/
example (x inp : Signal 4) (T : Fin 4 → ℝ) : ∃ st R s, propagate coupler (physics demoProp (optic x) FringeExample.conn (fun _ => false)) inp Store.empty = .ok st ∧
    AllGains coupler (optic x) FringeExample.conn ⟨2, 3, 0, diode 7, 20⟩ R ∧ [⟨1, 2, 0, Fixture.fiber 5, 30⟩, ⟨0, 1, 0, laser 4, 10⟩] ∈ R.map (·.1) ∧
    [⟨1, 2, 1, shaper 6, 31⟩, ⟨0, 1, 0, laser 4, 10⟩] ∈ R.map (·.1) ∧ st (.edge ⟨2, 3, 0⟩) = some s ∧
    filterDesignScore demoProp T s = percentTotal (fun i => ‖fftShift (netResponse demoProp (optic x) R) i‖) T := by
  obtain ⟨st, h⟩ := runs x inp Store.empty
  obtain ⟨⟨R, hR⟩, -⟩ := C130_response (by norm_num) (by norm_num [demoProp]) coupler_wf nosplit (entry x) h (e := ⟨2, 3, 0, diode 7, 20⟩) (by decide)
    (by intro y hy; cases hy) (fun d hd _ => net x d hd) (lit x)
  obtain ⟨s, h1, h2⟩ := C130_score (by norm_num) (by norm_num [demoProp]) coupler_wf nosplit (entry x) h (e := ⟨2, 3, 0, diode 7, 20⟩) (by decide) rfl (fun d hd _ => net x d hd) (lit x) hR T
  have h0 : Way coupler (optic x) [⟨0, 1, 0, laser 4, 10⟩] := .source (x := impulse demoProp x) (by decide) rfl
  exact ⟨st, R, s, h, hR, (hR.all _).2 ⟨.next h0 (by decide) (by intro y h; cases h) rfl, _, rfl, rfl⟩, (hR.all _).2 ⟨.next h0 (by decide) (by intro y h; cases h) rfl, _, rfl, rfl⟩, h1, h2⟩

/-- `C130_two_ways`: two ways with a quarter of the field each. -/
example (x : Signal 4) (k : Fin 4) : ‖netResponse demoProp (optic x) [([⟨1, 2, 0, Fixture.fiber 5, 30⟩, ⟨0, 1, 0, laser 4, 10⟩], 1 / 4), ([⟨1, 2, 1, shaper 6, 31⟩, ⟨0, 1, 0, laser 4, 10⟩], 1 / 4)] k‖ ^ 2 =
    1 / 8 + 1 / 8 * Real.cos (2 * Real.pi * (ifftShift demoProp.f k + demoProp.central)) := by
  have h5 : optic x (Fixture.fiber 5) = .delayLine 1 := rfl
  have h4 : optic x (laser 4) = .source (impulse demoProp x) := rfl
  have h6 : optic x (shaper 6) = .phaseShifter 2 := rfl
  rw [C130_two_ways]
  simp only [List.map_cons, List.map_nil, h4, h5, h6, Optic.lineDelay, List.sum_cons, List.sum_nil, sub_self, add_zero, sub_zero, mul_one]
  norm_num

/-- `C130_same_delay`: both ways without delay. -/
example (x : Signal 4) (k : Fin 4) : ‖netResponse demoProp (optic x) [([⟨1, 2, 1, shaper 6, 31⟩, ⟨0, 1, 0, laser 4, 10⟩], 1 / 4), ([⟨0, 1, 0, laser 4, 10⟩], -1)] k‖ = 3 / 4 := by
  have h4 : optic x (laser 4) = .source (impulse demoProp x) := rfl
  have h6 : optic x (shaper 6) = .phaseShifter 2 := rfl
  rw [C130_same_delay (τ := 0) demoProp (optic x) (by simp [h4, h6, Optic.lineDelay])]
  norm_num

end DelayNetExample

end Verif
