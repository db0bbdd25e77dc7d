import Verif.Spec.Grow
import Verif.Lemmas.Grow
import Verif.Props.Shaping
import Verif.Props.Undo
import Verif.Props.Upstream
import Verif.Props.Rewrite
/-! # C97: growing in series never has to lose anything, where the component can be switched off -/

namespace Verif
open Graph Complex

section
variable {S : Type}

/-- C97 (any component behaviour, noise included): put a component that hands on its input, with a connector that does, into an edge on the last ports
of its ends.  The design still propagates, every other edge and every output node holds what it held, and the edge that now enters the old end node
carries what the old edge carried. -/
theorem C97_insert {g g' : Graph} (hw : g.WF) {i : Iface} (hi : i ∈ g.interfaces) {e : Edge} (he : e ∈ g.edges) (hie : i.edge = e.ref)
    (hp : LastPorts g e) {nid : NodeId} (hn : nid ∉ g.ids) {ec nc : Comp} (hs : addSeries g i nid ec nc = .ok g') {B : Behav S}
    (hec : ∀ x, B.edge ec x = .ok x) (hnz : ∀ f, B.noise ec = some f → ∀ x, f x = .ok x) (hnc : ∀ x, B.node nc [x] 1 1 = .ok [x])
    {inp : S} {old st : Store S} (h : propagate g B inp old = .ok st) (old' : Store S) :
    ∃ st', propagate g' B inp old' = .ok st' ∧ (∀ x ∈ g.edges, x ≠ e → st' (.edge x.ref) = st (.edge x.ref)) ∧
      (∀ v, st' (.node v) = st (.node v)) ∧ st' (.edge ⟨nid, e.dst, 0⟩) = st (.edge e.ref) ∧ st' (.edge e.ref) = none := by
  obtain ⟨⟨order, hord⟩, hF⟩ := (propagate_iff hw).1 h
  have ha : g.Acyclic := (topoSort_sound hw hord).acyclic
  have hne : e.src ≠ e.dst := fun hc => ha e.src (.single ⟨e, he, rfl, hc.symm⟩)
  have hw' := addSeries_wf hw hi hn hs
  obtain ⟨c1, c2, n1, n2, hc, hnodes, hedges, ho1, ho2, ho3, hi1, hi2, hi3⟩ := addSeries_edges hw hi hn hs he hie hne
  have hid : ∀ x, OnEdge B ec x x := fun x => ⟨x, hec x, by
    rcases hf : B.noise ec with _ | f
    · exact .inl ⟨rfl, rfl⟩
    · exact .inr ⟨f, rfl, hnz f hf x⟩⟩
  have hthr : ∀ s s2, OnEdge B e.comp s s2 → ∃ m, OnEdge B c1 s m ∧ OnEdge B c2 m s2 := by
    intro s s2 hon
    rcases hc with ⟨-, rfl, rfl⟩ | ⟨-, rfl, rfl⟩
    · exact ⟨s, hid s, hon⟩
    · exact ⟨s2, hon, hid s2⟩
  obtain ⟨⟨l1, hl1⟩, l2, hl2⟩ := hp
  obtain ⟨m, hF', -⟩ := grown_flow hw hn he hl1 hl2 hnodes hedges ho1 ho2 ho3 hi1 hi2 hi3 hF hnc hthr
  refine ⟨_, (propagate_iff hw').2 ⟨topoSort_complete hw' (addSeries_acyclic hw ha hi hn hs), hF'⟩, ?_, ?_, ?_, ?_⟩
  · intro x hx hxe
    unfold grownStore
    rw [if_neg, if_neg, if_neg]
    · intro hc; injection hc with hc; exact hxe (ref_inj hw hx he hc)
    · intro hc; injection hc with hc; have hc' : x.dst = nid := congrArg EdgeRef.dst hc; exact hn (hc' ▸ hw.dst_mem x hx)
    · intro hc; injection hc with hc; have hc' : x.src = nid := congrArg EdgeRef.src hc; exact hn (hc' ▸ hw.src_mem x hx)
  · intro v
    simp [grownStore]
  · simp [grownStore]
  · unfold grownStore
    rw [if_neg, if_neg, if_pos rfl]
    · intro hc; injection hc with hc; have hc' : e.dst = nid := congrArg EdgeRef.dst hc; exact hn (hc' ▸ hw.dst_mem e he)
    · intro hc; injection hc with hc; have hc' : e.src = nid := congrArg EdgeRef.src hc; exact hn (hc' ▸ hw.src_mem e he)

end

variable {n : Nat}

/-- C97 (scores): the score read at an output node, or at any edge but the split one, is the same before and after, whatever the two parameter spaces:
the old components as before, the new one doing nothing, the new splitter with the parameters it is constructed with (none). -/
theorem C97_score {E E' : Type} {P : Prop_ n} {g g' : Graph} (hw : g.WF) {i : Iface} (hi : i ∈ g.interfaces) {e : Edge} (he : e ∈ g.edges) (hie : i.edge = e.ref)
    (hp : LastPorts g e) {nid : NodeId} (hn : nid ∉ g.ids) {ec nc : Comp} (hs : addSeries g i nid ec nc = .ok g')
    {optic : E → Comp → Optic n} {optic' : E' → Comp → Optic n} {conn : E → Comp → Connector} {conn' : E' → Comp → Connector} {hasNoise : Comp → Bool}
    {θ : E} {θ' : E'} (ho : ∀ x ∈ g.edges, optic' θ' x.comp = optic θ x.comp) (hc : ∀ u ∈ g.nodes, conn' θ' u.comp = conn θ u.comp)
    (hec : (optic' θ' ec).DoesNothing P) (hnc : conn' θ' nc = .splitter [])
    {inp : Signal n} {old old' : Store (Signal n)} {at_ : Key} (hat : at_ ≠ .edge e.ref) {score : Signal n → Except Err ℝ} {v : ℝ}
    (h : systemScore P g optic conn hasNoise inp old at_ score θ = .ok v) :
    systemScore P g' optic' conn' hasNoise inp old' at_ score θ' = .ok v := by
  unfold systemScore at h
  split at h
  · cases h
  rename_i st hst
  split at h
  · cases h
  rename_i s hk
  -- the old design with the new parameters
  have hst' : propagate g (physics P (optic' θ') (conn' θ') hasNoise) inp Store.empty = .ok st := by
    obtain ⟨hord, hF⟩ := (propagate_iff hw).1 hst
    refine (propagate_iff hw).2 ⟨hord, ?_, ?_, hF.only⟩
    · intro x hx
      obtain ⟨u, hu, hus, outs, j, s0, s1, s2, ⟨ins, hI, hN⟩, hport, hs0, hb, hz, hst2⟩ := hF.edges x hx
      refine ⟨u, hu, hus, outs, j, s0, s1, s2, ⟨ins, hI, ?_⟩, hport, hs0, ?_, hz, hst2⟩
      · simp only [physics] at hN ⊢
        rw [hc u hu]; exact hN
      · simp only [physics] at hb ⊢
        rw [ho x hx]; exact hb
    · intro u hu hsink
      obtain ⟨outs, s0, ⟨ins, hI, hN⟩, h0, h1⟩ := hF.sinks u hu hsink
      refine ⟨outs, s0, ⟨ins, hI, ?_⟩, h0, h1⟩
      simp only [physics] at hN ⊢
      rw [hc u hu]; exact hN
  obtain ⟨st2, hst2, h1, h2, -⟩ := C97_insert hw hi he hie hp hn hs (B := physics P (optic' θ') (conn' θ') hasNoise) hec
    (by
      intro f hf x
      simp only [physics] at hf
      split at hf
      · injection hf with hf; rw [← hf]
      · cases hf)
    (by intro x; simp only [physics]; rw [hnc]; exact split_through x) hst' old'
  have hk2 : st2 at_ = some s := by
    obtain ⟨-, hF⟩ := (propagate_iff hw).1 hst
    rcases hF.only at_ (by rw [hk]; simp) with ⟨x, hx, rfl⟩ | ⟨u, -, -, rfl⟩
    · rw [h1 x hx (fun hc => hat (by rw [hc])), hk]
    · rw [h2, hk]
  unfold systemScore
  rw [hst2]
  simp only [hk2]
  exact h

/-- In a design in which nothing branches, every edge is on last ports. -/
theorem IsLine.lastPorts {g : Graph} (hl : IsLine g) {e : Edge} (he : e ∈ g.edges) : LastPorts g e := by
  have h1 : e ∈ g.outEdges e.src := mem_outEdges.2 ⟨he, rfl⟩
  have h2 : e ∈ g.inEdges e.dst := mem_inEdges.2 ⟨he, rfl⟩
  have aux : ∀ l : List Edge, e ∈ l → l.length ≤ 1 → l = [] ++ [e] := by
    intro l hm hlen
    match l, hm, hlen with
    | [x], hm, _ => simp at hm; rw [hm]; rfl
  exact ⟨⟨[], aux _ h1 (hl e.src).1⟩, [], aux _ h2 (hl e.dst).2⟩

/-- C97 (lines): a line stays a line under every insertion, so that there insertions are always at last ports. -/
theorem C97_line {g g' : Graph} (hw : g.WF) (ha : g.Acyclic) (hl : IsLine g) {i : Iface} (hi : i ∈ g.interfaces) {nid : NodeId} (hn : nid ∉ g.ids)
    {ec nc : Comp} (hs : addSeries g i nid ec nc = .ok g') :
    IsLine g' ∧ (∃ e ∈ g.edges, i.edge = e.ref ∧ LastPorts g e) ∧ ∀ e ∈ g'.edges, LastPorts g' e := by
  obtain ⟨e, he, hie, -⟩ := mem_interfaces.1 hi
  have hne : e.src ≠ e.dst := fun hc => ha e.src (.single ⟨e, he, rfl, hc.symm⟩)
  obtain ⟨c1, c2, n1, n2, -, -, -, ho1, ho2, ho3, hi1, hi2, hi3⟩ := addSeries_edges hw hi hn hs he hie hne
  obtain ⟨⟨l1, h1⟩, l2, h2⟩ := hl.lastPorts he
  have hline : IsLine g' := by
    intro v
    have hlen : ∀ l : List Edge, ((l ++ [e]).length ≤ 1) → ((l ++ [e]).filter (fun x => decide (x.ref ≠ e.ref))) = [] := by
      intro l h
      have : l = [] := by
        rw [← List.length_eq_zero_iff]; simp at h; simpa using h
      subst this
      simp
    constructor
    · by_cases hv : v = nid
      · rw [hv, ho2]; simp
      · by_cases hv2 : v = e.src
        · rw [hv2, ho1, h1, hlen l1 (h1 ▸ (hl e.src).1)]; simp
        · rw [ho3 v hv2 hv]; exact (hl v).1
    · by_cases hv : v = nid
      · rw [hv, hi2]; simp
      · by_cases hv2 : v = e.dst
        · rw [hv2, hi1, h2, hlen l2 (h2 ▸ (hl e.dst).2)]; simp
        · rw [hi3 v hv2 hv]; exact (hl v).2
  exact ⟨hline, ⟨e, he, hie, hl.lastPorts he⟩, fun x hx => hline.lastPorts hx⟩

/-- C97 (which classes can be switched off): a fibre of length zero, an attenuator at 0 dB, delay lines without delay, a waveguide and a phase shifter at
phase zero do nothing, and these settings are allowed. -/
theorem C97_idle (hn : 2 ≤ n) {P : Prop_ n} (hwin : 0 < P.window) {S : Settings} (hpi : 0 ≤ S.pi) (rest : Part → List ℝ → Optic n) {p : Part}
    (hp : p.CanIdle) : ∃ ps, (sheet S p 1).Allows ps ∧ (p.optic S rest ps).DoesNothing P := by
  have hd := dt_ne_zero hn hwin
  have one : ∀ {s : Sheet} {lo up : ℚ}, s.number = 1 → s.locks = [false] → s.lower = entries [lo] → s.upper = entries [up] → lo ≤ 0 → 0 ≤ up →
      s.Allows [(0 : ℝ)] := by
    intro s lo up h1 h2 h3 h4 h5 h6
    refine ⟨by simp [h1], ?_, ?_⟩
    · intro k x a b hx _ hlo hup
      rw [h3] at hlo
      rw [h4] at hup
      match k with
      | 0 =>
        simp [entries] at hx hlo hup
        subst hx hlo hup
        exact ⟨by exact_mod_cast h5, by exact_mod_cast h6⟩
      | k + 1 => simp at hx
    · intro k x d hx hk _
      rw [h2] at hk
      match k with
      | 0 => simp at hk
      | k + 1 => simp at hk
  simp only [Part.CanIdle, List.mem_cons, List.not_mem_nil, or_false] at hp
  rcases hp with rfl | rfl | rfl | rfl | rfl | rfl
  · exact ⟨[0], one (lo := 0) (up := 1000 * 10 ^ 3) rfl rfl rfl rfl le_rfl (by norm_num), fun x => (C55_fiber hn hwin 0 0 x).2.1⟩
  · exact ⟨[0], one (lo := -60) (up := 0) rfl rfl rfl rfl (by norm_num) le_rfl, fun x => congrArg _ (C57_attenuator 0 0 x).2.2.1⟩
  · exact ⟨[0], one (lo := 0) (up := 2 / 10 ^ 9) rfl rfl rfl rfl le_rfl (by norm_num), fun x => congrArg _ (C55_delay_line hn hwin 0 0 x).2.2.1⟩
  · refine ⟨[0], one (lo := 0) (up := 10) rfl rfl rfl rfl le_rfl (by norm_num), fun x => congrArg Except.ok ?_⟩
    have := (C55_delay_line hn hwin 0 0 x)
    have h0 := this.2.2.2.2.2
    rw [zero_mul, this.2.2.1] at h0
    exact h0
  · refine ⟨[], ⟨rfl, ?_, ?_⟩, fun x => rfl⟩
    · intro k x lo up h; simp at h
    · intro k x d h; simp at h
  · refine ⟨[0], one (lo := -1 * S.pi) (up := 1 * S.pi) rfl rfl rfl rfl (by linarith) (by linarith), fun x => ?_⟩
    show phaseShifter P 0 false x = .ok x
    unfold phaseShifter
    rw [if_neg (by simp), freqMul_const _ hd]
    simp

/-- C97 (what can be scored can still be scored): insert a new component of a class that can be switched off, with a new power splitter, at an edge on
last ports.  Every score the old design has at an allowed setting, read at an output node, the new design has at an allowed setting. -/
theorem C97_keeps (hn : 2 ≤ n) {P : Prop_ n} (hwin : 0 < P.window) {S : Settings} (hpi : 0 ≤ S.pi) {cls : ClassId → Part} {rest : Part → List ℝ → Optic n}
    {hasNoise : Comp → Bool} {inp : Signal n} {score : Signal n → Except Err ℝ} {g g' : Graph} (hw : g.WF) {i : Iface} (hi : i ∈ g.interfaces) {e : Edge}
    (he : e ∈ g.edges) (hie : i.edge = e.ref) (hp : LastPorts g e) {nid : NodeId} (hnid : nid ∉ g.ids) {ec nc : Comp} (hnew : NewParts g ec nc)
    (hec : (cls ec.cls).CanIdle) (hnc : cls nc.cls = .splitter) (hs : addSeries g i nid ec nc = .ok g') {u : NodeId} {v : ℝ}
    (h : CanScore P S cls rest hasNoise inp (.node u) score g v) : CanScore P S cls rest hasNoise inp (.node u) score g' v := by
  obtain ⟨θ, hA, hv⟩ := h
  obtain ⟨ps, h1, h2⟩ := C97_idle hn hwin hpi rest hec
  have hval := (C91_value (P := P) (g := g) hw θ v).1 hv
  have ha : g.Acyclic := hval.1
  have hne : e.src ≠ e.dst := fun hc => ha e.src (.single ⟨e, he, rfl, hc.symm⟩)
  obtain ⟨c1, c2, n1, n2, hc12, hnodes, hedges, ho1, ho2, ho3, -, -, -⟩ := addSeries_edges hw hi hnid hs he hie hne
  obtain ⟨⟨l1, hl1⟩, -⟩ := id hp
  have hlen : ∀ w ∈ g.nodes, (g'.outEdges w.id).length = (g.outEdges w.id).length := by
    intro w hwm
    have hwn : w.id ≠ nid := fun hc => hnid (hc ▸ List.mem_map_of_mem hwm)
    by_cases hws : w.id = e.src
    · obtain ⟨e', hx, -⟩ := C92_insert_ports hw ha hi hnid hs hie (l2 := []) hl1
      rw [hws, hx, hl1]; simp
    · rw [ho3 _ hws hwn]
  obtain ⟨θ', hθ⟩ : ∃ θ' : Comp → List ℝ, θ' = fun c => if c = ec then ps else if c = nc then [] else θ c := ⟨_, rfl⟩
  have hec' : θ' ec = ps := by rw [hθ]; simp
  have hnc' : θ' nc = [] := by rw [hθ]; simp [hnew.differ.symm]
  have hold : ∀ c, c ≠ ec ∧ c ≠ nc → θ' c = θ c := by
    rintro c ⟨ha, hb⟩
    rw [hθ]; simp [ha, hb]
  refine ⟨θ', ⟨?_, ?_⟩, ?_⟩
  · intro x hx
    have hcase : x.comp = ec ∨ ∃ y ∈ g.edges, x.comp = y.comp := by
      rcases (hedges x).1 hx with ⟨hx, -⟩ | hx | hx
      · exact .inr ⟨x, hx, rfl⟩
      all_goals
        subst hx
        rcases hc12 with ⟨-, rfl, rfl⟩ | ⟨-, rfl, rfl⟩
        · first | exact .inl rfl | exact .inr ⟨e, he, rfl⟩
        · first | exact .inr ⟨e, he, rfl⟩ | exact .inl rfl
    rcases hcase with hc | ⟨y, hy, hc⟩
    · rw [hc, hec']; exact h1
    · rw [hc, hold _ (hnew.edges y hy)]; exact hA.edges y hy
  · intro w hwm
    rw [hnodes, List.mem_append] at hwm
    rcases hwm with hwm | hwm
    · rw [hold _ (hnew.nodes w hwm), hlen w hwm]; exact hA.nodes w hwm
    · rw [List.mem_singleton] at hwm
      subst hwm
      show (sheet S (cls nc.cls) (g'.outEdges nid).length).Allows (θ' nc)
      rw [hnc, hnc', ho2]
      refine ⟨rfl, ?_, ?_⟩
      · intro k x lo up hx; simp at hx
      · intro k x d hx; simp at hx
  · refine C97_score hw hi he hie hp hnid hs ?_ ?_ ?_ ?_ (by simp) hv
    · intro x hx; show (cls x.comp.cls).optic S rest (θ' x.comp) = _; rw [hold _ (hnew.edges x hx)]
    · intro w hwm; show (cls w.comp.cls).connector (θ' w.comp) = _; rw [hold _ (hnew.nodes w hwm)]
    · show ((cls ec.cls).optic S rest (θ' ec)).DoesNothing P; rw [hec']; exact h2
    · show (cls nc.cls).connector (θ' nc) = _; rw [hnc, hnc']; rfl

/-- C97 (any number of insertions): every score of the first design is a score of the last, so a lower bound on what the grown design can score is one on
what the first could: the best possible score does not get worse. -/
theorem C97_grown (hn : 2 ≤ n) {P : Prop_ n} (hwin : 0 < P.window) {S : Settings} (hpi : 0 ≤ S.pi) {cls : ClassId → Part} {rest : Part → List ℝ → Optic n}
    {hasNoise : Comp → Bool} {inp : Signal n} {score : Signal n → Except Err ℝ} {g g' : Graph} (hw : g.WF) (hg : GrownIdly cls g g') {u : NodeId} :
    (∀ v, CanScore P S cls rest hasNoise inp (.node u) score g v → CanScore P S cls rest hasNoise inp (.node u) score g' v) ∧
    (∀ b, (∀ v, CanScore P S cls rest hasNoise inp (.node u) score g' v → b ≤ v) → ∀ v, CanScore P S cls rest hasNoise inp (.node u) score g v → b ≤ v) := by
  have key : g'.WF ∧ ∀ v, CanScore P S cls rest hasNoise inp (.node u) score g v → CanScore P S cls rest hasNoise inp (.node u) score g' v := by
    induction hg with
    | refl => exact ⟨hw, fun v h => h⟩
    | step _ hi he hie hp hnid hnew hec hnc hs ih =>
      exact ⟨addSeries_wf ih.1 hi hnid hs, fun v hv => C97_keeps hn hwin hpi ih.1 hi he hie hp hnid hnew hec hnc hs (ih.2 v hv)⟩
  exact ⟨key.2, fun b hb v hv => hb v (key.2 v hv)⟩

theorem npFft_one_zero (h : 0 < n) : npFft (fun _ : Fin n => (1 : ℂ)) ⟨0, h⟩ = n := by
  rw [npFft_ker]
  simp [ker_eq_pow]

theorem freqMul_fix {H x : Signal n} {dt : ℝ} (hd : dt ≠ 0) (h : freqMul H dt x = x) (k : Fin n) (hk : npFft x k ≠ 0) : H k = 1 := by
  rw [freqMul_eq _ hd] at h
  have h2 := congrFun (congrArg npFft h) k
  rw [npFft_npIfft] at h2
  exact mul_right_cancel₀ hk (by rw [h2, one_mul])

theorem Sheet.Allows.get {s : Sheet} {ps : List ℝ} (h : s.Allows ps) {k : Nat} (hk : k < s.number) : ps[k]? = some (ps.getD k 0) := by
  have : k < ps.length := by rw [h.length]; exact hk
  rw [List.getD_eq_getElem?_getD, List.getElem?_eq_getElem this]
  simp

/-- C97 (which classes cannot): whatever the allowed setting, an intensity modulator, a square filter and an amplifier change some signal; so does a wave
shaper on a grid it accepts, a programmable filter on an even grid, and a phase modulator that is sampled more than twice per period (its depth has the
lower bound 0.001). -/
theorem C97_never_idle (hn : 3 ≤ n) {P : Prop_ n} (hwin : 0 < P.window) {S : Settings} (rest : Part → List ℝ → Optic n) (ps : List ℝ) :
    ((sheet S .intensityModulator 1).Allows ps → ¬ (Part.intensityModulator.optic S rest ps).DoesNothing P) ∧
    ((sheet S .squareFilter 1).Allows ps → ¬ (Part.squareFilter.optic S rest ps).DoesNothing P) ∧
    ((sheet S .amplifier 1).Allows ps → ¬ (Part.amplifier.optic S rest ps).DoesNothing P) ∧
    ((10 : ℝ) ^ (-(7 : ℝ) / 2) ≤ S.extinction → (sheet S .waveShaper 1).Allows ps → ¬ (Part.waveShaper.optic S rest ps).DoesNothing P) ∧
    (n % 2 = 0 → (∀ m : ℤ, (5 * 10 ^ 12 : ℝ) / 2 / P.df ≠ m + 1 / 2) → S.bases = 10 → (sheet S .programmableFilter 1).Allows ps →
      ¬ (Part.programmableFilter.optic S rest ps).DoesNothing P) ∧
    ((S.pi : ℝ) < 2 * Real.pi → 0 < S.pmMin → (S.pmMax : ℝ) * P.dt < 1 / 2 → (sheet S .phaseModulator 1).Allows ps →
      ¬ (Part.phaseModulator.optic S rest ps).DoesNothing P) := by
  have hn2 : 2 ≤ n := by omega
  have hd := dt_ne_zero hn2 hwin
  have hone : 0 < energy (fun _ : Fin n => (1 : ℂ)) := by
    unfold energy
    simp; omega
  refine ⟨fun _ h => ?_, fun hA h => ?_, fun hA h => ?_, fun hS hA h => ?_, fun he ht hB hA h => ?_, fun hpi hmin hmax hA h => ?_⟩
  · have hx := h (fun _ => 1)
    injection hx with hx
    have h1 := (C56_intensity_modulator P (ps.getD 0 0) (ps.getD 1 0) (ps.getD 2 0) (fun _ => 1) ⟨0, by omega⟩).2.2
    have h2 := congrArg (fun y => power_ y ⟨0, by omega⟩) hx
    have h2 : power_ (intensityMod P (ps.getD 0 0) (ps.getD 1 0) (ps.getD 2 0) (fun _ => 1)) ⟨0, by omega⟩ = 1 := by
      rw [h2]; simp [power_]
    rw [h2] at h1
    have h3 : power_ (fun _ : Fin n => (1 : ℂ)) ⟨0, by omega⟩ = 1 := by simp [power_]
    rw [h3, mul_one] at h1
    have h4 : (10 : ℝ) ^ (-(4 : ℝ) / 10) < 1 := Real.rpow_lt_one_of_one_lt_of_neg (by norm_num) (by norm_num)
    linarith
  · have hx := h (fun _ => 1)
    have hx : squareFilter P (ps.getD 0 0) (fun _ => 1) = .ok (fun _ => 1) := hx
    unfold squareFilter at hx
    split at hx
    · cases hx
    · rename_i hb
      injection hx with hx
      rw [dbScale_zero] at hx
      have h1 := freqMul_fix hd hx ⟨0, by omega⟩ (by rw [npFft_one_zero]; simp; omega)
      simp only [ifftShift] at h1
      have h2 := congrArg norm h1
      rw [norm_real, norm_one] at h2
      obtain ⟨ha, hb⟩ := logistic_pos_lt ((P.f (rotIdx (n / 2) ⟨0, by omega⟩) + ps.getD 0 0 / 2) * (60 / ps.getD 0 0))
      obtain ⟨hc, hd⟩ := logistic_pos_lt ((-P.f (rotIdx (n / 2) ⟨0, by omega⟩) + ps.getD 0 0 / 2) * (60 / ps.getD 0 0))
      unfold sfMask at h2
      rw [Real.norm_of_nonneg (by positivity)] at h2
      nlinarith
  · have hx := h (fun _ => 1)
    injection hx with hx
    obtain ⟨E, hE⟩ : ∃ E : Edfa, E = ⟨ps.getD 0 0, ps.getD 1 0, ps.getD 2 0, ps.getD 3 0, ps.getD 4 0, ps.getD 5 0, ps.getD 6 0, ps.getD 7 0, ps.getD 8 0⟩ := ⟨_, rfl⟩
    rw [← hE] at hx
    have hal : E.alpha = 1 := by
      have := hA.locked 7 _ (.num 1) (hA.get (k := 7) (by show 7 < 9; norm_num)) rfl rfl
      rw [hE]; simpa [Entry.toNum] using this
    have hpo : E.pOutMax = 1 / 10 := by
      have := hA.locked 5 _ (.num (1 / 10)) (hA.get (k := 5) (by show 5 < 9; norm_num)) rfl rfl
      rw [hE]; simp only [this, Entry.toNum]; norm_num
    have h1 := freqMul_fix (H := fun k => ((Real.sqrt (E.gain P (fun _ => 1) k) : ℝ) : ℂ)) hd hx ⟨0, by omega⟩ (by rw [npFft_one_zero]; simp; omega)
    have h2 : Real.sqrt (E.gain P (fun _ => 1) ⟨0, by omega⟩) = 1 := by exact_mod_cast h1
    rw [Real.sqrt_eq_one] at h2
    have hs := E.smallSignal_pos P ⟨0, by omega⟩
    have hm : npMean (power_ (fun _ : Fin n => (1 : ℂ))) = 1 := by
      unfold npMean power_
      have : (n : ℝ) ≠ 0 := by exact_mod_cast (by omega : n ≠ 0)
      simp [this]
    unfold Edfa.gain at h2
    rw [hal, hpo, hm, Real.rpow_one, div_eq_one_iff_eq (by positivity)] at h2
    linarith
  · have hl : ps.length = 2 * S.bins := hA.length
    have hlock : ∀ k, k < 2 * S.bins → (sheet S .waveShaper 1).locks[k]? = some false := by
      intro k hk
      show (List.replicate (2 * S.bins) false)[k]? = _
      rw [List.getElem?_replicate, if_pos hk]
    have hb : ∀ a ∈ ps.take S.bins, (10 : ℝ) ^ (-(7 : ℝ) / 2) ≤ a ∧ a ≤ 1 := by
      intro a ha
      obtain ⟨k, hk⟩ := List.mem_iff_getElem?.1 ha
      have hkb : k < S.bins := by
        have := (List.getElem?_eq_some_iff.1 hk).1
        rw [List.length_take] at this; omega
      rw [List.getElem?_take_of_lt hkb] at hk
      have := hA.free k a S.extinction 1 hk (hlock k (by omega))
        (by
          show (entries (List.replicate S.bins S.extinction ++ List.replicate S.bins 0))[k]? = _
          unfold entries
          rw [List.getElem?_map, List.getElem?_append_left (by simpa using hkb), List.getElem?_replicate, if_pos hkb]; rfl)
        (by
          show (entries (List.replicate S.bins 1 ++ List.replicate S.bins (2 * S.pi)))[k]? = _
          unfold entries
          rw [List.getElem?_map, List.getElem?_append_left (by simpa using hkb), List.getElem?_replicate, if_pos hkb]; rfl)
      exact ⟨hS.trans this.1, by simpa using this.2⟩
    have hx : waveShaper P (ps.take S.bins) (ps.drop S.bins) (fun _ => 1) = .ok (fun _ => 1) := h (fun _ => 1)
    obtain ⟨h1, h2⟩ := C59_wave_shaper hn hwin (ps.take S.bins) (ps.drop S.bins) (by rw [List.length_take, List.length_drop]; omega) hb (fun _ => 1)
    by_cases hc : (ps.take S.bins).length * wsBinLen P ≤ n ∨ ((ps.take S.bins).length * wsBinLen P - n) % 2 = 0
    · obtain ⟨y, hy, hle⟩ := h1 hc
      rw [hx] at hy
      injection hy with hy
      rw [← hy] at hle
      have h4 : (10 : ℝ) ^ (-(45 : ℝ) / 100) < 1 := Real.rpow_lt_one_of_one_lt_of_neg (by norm_num) (by norm_num)
      nlinarith
    · rw [h2 (by omega)] at hx
      cases hx
  · have hl : ps.length = 20 := hA.length
    have hb : ∀ a ∈ ps.take 10, 0 ≤ a ∧ a ≤ 1 := by
      intro a ha
      obtain ⟨k, hk⟩ := List.mem_iff_getElem?.1 ha
      have hkb : k < 10 := by
        have := (List.getElem?_eq_some_iff.1 hk).1
        rw [List.length_take] at this; omega
      rw [List.getElem?_take_of_lt hkb] at hk
      have := hA.free k a 0 1 hk
        (by
          show (List.replicate (2 * 10) false)[k]? = _
          rw [List.getElem?_replicate, if_pos (by omega)])
        (by
          show (entries (List.replicate S.bases 0 ++ List.replicate S.bases 0))[k]? = _
          unfold entries
          rw [hB, List.getElem?_map, List.getElem?_append_left (by simpa using hkb), List.getElem?_replicate, if_pos hkb]; rfl)
        (by
          show (entries (List.replicate S.bases 1 ++ List.replicate S.bases (2 * S.pi)))[k]? = _
          unfold entries
          rw [hB, List.getElem?_map, List.getElem?_append_left (by simpa using hkb), List.getElem?_replicate, if_pos hkb]; rfl)
      simpa using this
    have hx : progFilter P (ps.take 10) (ps.drop 10) (fun _ => 1) = .ok (fun _ => 1) := h (fun _ => 1)
    have hbw : pfBwInt P ≠ 0 := by
      intro hc
      unfold progFilter at hx
      rw [if_pos hc] at hx
      cases hx
    obtain ⟨y, hy, hle⟩ := (C60_filter_even hn2 he hwin ht hbw).2 (ps.take 10) (ps.drop 10)
      (by intro hc; have := congrArg List.length hc; rw [List.length_take, hl] at this; norm_num at this) hb (fun _ => 1)
    rw [hx] at hy
    injection hy with hy
    rw [← hy] at hle
    have h4 : (10 : ℝ) ^ (-(45 : ℝ) / 100) < 1 := Real.rpow_lt_one_of_one_lt_of_neg (by norm_num) (by norm_num)
    nlinarith
  · have hdep := hA.free 0 _ (1 / 1000) (1 * S.pi) (hA.get (k := 0) (by show 0 < 4; norm_num)) rfl rfl rfl
    have hfre := hA.free 1 _ S.pmMin S.pmMax (hA.get (k := 1) (by show 1 < 4; norm_num)) rfl rfl rfl
    obtain ⟨d, hdd⟩ : ∃ d, d = ps.getD 0 0 := ⟨_, rfl⟩
    obtain ⟨f, hff⟩ : ∃ f, f = ps.getD 1 0 := ⟨_, rfl⟩
    obtain ⟨φ, hφ⟩ : ∃ φ, φ = ps.getD 2 0 := ⟨_, rfl⟩
    have hx := h (fun _ => 1)
    injection hx with hx
    rw [← hdd, ← hff, ← hφ] at hx
    rw [← hdd] at hdep
    rw [← hff] at hfre
    push_cast at hdep
    have hz : ∀ j, Real.cos (2 * Real.pi * f * P.t j + φ) = 0 := by
      intro j
      have h1 := congrFun hx j
      unfold phaseMod at h1
      rw [dbScale_zero] at h1
      simp only [one_mul, add_zero] at h1
      rw [mul_comm I, Complex.exp_eq_one_iff] at h1
      obtain ⟨m, hm⟩ := h1
      have hm : d * Real.cos (2 * Real.pi * f * P.t j + φ) = m * (2 * Real.pi) := by
        have h2 : ((d * Real.cos (2 * Real.pi * f * P.t j + φ) : ℝ) : ℂ) = ((m * (2 * Real.pi) : ℝ) : ℂ) := by
          apply mul_right_cancel₀ I_ne_zero
          rw [hm]
          push_cast
          ring
        exact_mod_cast h2
      have hle := Real.abs_cos_le_one (2 * Real.pi * f * P.t j + φ)
      have hdpos : 0 < d := lt_of_lt_of_le (by norm_num) hdep.1
      have hab : |(m : ℝ) * (2 * Real.pi)| < 2 * Real.pi := by
        rw [← hm, abs_mul, abs_of_pos hdpos]
        nlinarith [abs_nonneg (Real.cos (2 * Real.pi * f * P.t j + φ))]
      have hpi0 := Real.pi_pos
      rw [abs_mul, abs_of_pos (by positivity : (0 : ℝ) < 2 * Real.pi)] at hab
      have hm1 : |(m : ℝ)| < 1 := by nlinarith
      have hm0 : m = 0 := by
        rw [← Int.cast_abs] at hm1
        have : |m| < 1 := by exact_mod_cast hm1
        exact Int.abs_lt_one_iff.1 this
      rw [hm0] at hm
      simp at hm
      rcases hm with hm | hm
      · linarith
      · exact hm
    have h0 := hz ⟨0, by omega⟩
    have h1 := hz ⟨1, by omega⟩
    have ht : P.t ⟨1, by omega⟩ = P.t ⟨0, by omega⟩ + P.dt := by
      unfold Prop_.t Prop_.dt Prop_.linspace Prop_.linstep
      simp
    rw [ht] at h1
    have hdt : 0 < P.dt := by
      rw [(dt_df P).1]
      have : (2 : ℝ) ≤ n := by exact_mod_cast hn2
      exact div_pos hwin (by linarith)
    have hf0 : 0 < f := lt_of_lt_of_le (by exact_mod_cast hmin) hfre.1
    have hs : Real.sin (2 * Real.pi * (f * P.dt)) = 0 := by
      have : 2 * Real.pi * (f * P.dt) = (2 * Real.pi * f * (P.t ⟨0, by omega⟩ + P.dt) + φ) - (2 * Real.pi * f * P.t ⟨0, by omega⟩ + φ) := by ring
      rw [this, Real.sin_sub, h0, h1]
      ring
    have hlt : f * P.dt < 1 / 2 := lt_of_le_of_lt (mul_le_mul_of_nonneg_right hfre.2 hdt.le) hmax
    have := Real.sin_pos_of_pos_of_lt_pi (x := 2 * Real.pi * (f * P.dt)) (by have := Real.pi_pos; positivity) (by nlinarith [Real.pi_pos])
    linarith

/-- C97 (not everywhere): into the first of two arms of a splitter with unequal ratio, no insertion is without effect, even of a component that does
nothing: the other arm gets another share of the light, because the new edge moves to the last port (C92). -/
theorem C97_ports_matter {P : Prop_ n} {g g' : Graph} (hw : g.WF) (ha : g.Acyclic) {optic : Comp → Optic n} {conn : Comp → Connector} {hasNoise : Comp → Bool}
    {a : Node} (ham : a ∈ g.nodes) {eIn e0 e1 : Edge} (hin : g.inEdges a.id = [eIn]) (hout : g.outEdges a.id = [e0, e1]) {r : ℝ} (hr : conn a.comp = .splitter [r])
    (hr2 : r ≠ 1 / 2) {φ : ℝ} (h1 : TurnsPhase P (optic e1.comp) φ)
    {i : Iface} (hi : i ∈ g.interfaces) (hie : i.edge = e0.ref) {nid : NodeId} (hn : nid ∉ g.ids) {ec nc : Comp} (hs : addSeries g i nid ec nc = .ok g')
    {inp : Signal n} {old old' st st' : Store (Signal n)} (h : propagate g (physics P optic conn hasNoise) inp old = .ok st)
    (h' : propagate g' (physics P optic conn hasNoise) inp old' = .ok st') (hlight : st (.edge eIn.ref) ≠ some (fun _ => 0)) :
    st' (.edge e1.ref) ≠ st (.edge e1.ref) := by
  obtain ⟨x, y, y', hx, -, hy, hy', hp⟩ := C92_insert_exchanges hw ha ham hin hout hr h1 hi hie hn hs h h'
  rw [hx] at hlight
  have : ∃ t, x t ≠ 0 := by
    by_contra hc
    push Not at hc
    exact hlight (congrArg some (funext hc))
  obtain ⟨t, ht⟩ := this
  rw [hy, hy']
  intro hc
  injection hc with hc
  rw [hc] at hp
  obtain ⟨p1, p2⟩ := hp t
  have hx0 : 0 < ‖x t‖ ^ 2 := by positivity
  have : (r - (1 - r)) / 2 * ‖x t‖ ^ 2 = 0 := by linarith
  rcases mul_eq_zero.1 this with h0 | h0
  · exact hr2 (by linarith)
  · exact hx0.ne' h0

namespace Idle
open Fixture

theorem second_series : addSeries g ⟨2, ⟨1, 2, 1⟩⟩ 9 (Fixture.fiber 8) (split 9) = .ok gSer := by decide +kernel

theorem second_last : LastPorts g ⟨1, 2, 1, shaper 6, 31⟩ := ⟨⟨[⟨1, 2, 0, Fixture.fiber 5, 30⟩], by decide⟩, ⟨[⟨1, 2, 0, Fixture.fiber 5, 30⟩], by decide⟩⟩

/-- A waveguide more in the second arm: the detector sees the same. -/
example (x inp : Signal 4) : ∃ st st', propagate g (physics demoProp (Arms.optic x .waveguide .waveguide .waveguide) (Arms.conn (1 / 4)) (fun _ => true)) inp Store.empty = .ok st ∧
    propagate gSer (physics demoProp (Arms.optic x .waveguide .waveguide .waveguide) (Arms.conn (1 / 4)) (fun _ => true)) inp Store.empty = .ok st' ∧
    st' (.node 3) = st (.node 3) ∧ st' (.edge ⟨1, 2, 0⟩) = st (.edge ⟨1, 2, 0⟩) := by
  obtain ⟨st, h⟩ := Arms.runs (P := demoProp) x (r := 1 / 4) (by norm_num) (by norm_num) (o0 := .waveguide) (o1 := .waveguide) (last := .waveguide)
    (fun y => ⟨_, rfl⟩) (fun y => ⟨_, rfl⟩) (fun y => ⟨_, rfl⟩) (fun _ => true) inp Store.empty
  obtain ⟨st', h', h1, h2, -⟩ := C97_insert g_wf (i := ⟨2, ⟨1, 2, 1⟩⟩) (by decide) (e := ⟨1, 2, 1, shaper 6, 31⟩) (by decide) rfl second_last (by decide) second_series
    (B := physics demoProp (Arms.optic x .waveguide .waveguide .waveguide) (Arms.conn (1 / 4)) (fun _ => true))
    (fun y => rfl) (by intro f hf y; injection hf with hf; rw [← hf]) (fun y => rfl) h Store.empty
  exact ⟨st, st', h, h', h2 3, h1 ⟨1, 2, 0, Fixture.fiber 5, 30⟩ (by decide) (by decide)⟩

/-- The classes of the components of the examples. -/
def cls : ClassId → Part
  | 1 => .terminalSource
  | 2 => .terminalSink
  | 10 => .cwLaser
  | 20 => .meter
  | 30 => .dispersiveFiber
  | 31 => .phaseShifter
  | _ => .splitter

noncomputable def rest : Part → List ℝ → Optic 4
  | .cwLaser, ps => .source (fun _ => ((ps.getD 0 0 : ℝ) : ℂ))
  | _, _ => .measure

def lineSer : Graph :=
  { nodes := [⟨0, src, 1⟩, ⟨1, split 2, 40⟩, ⟨2, split 3, 40⟩, ⟨3, snk, 2⟩, ⟨9, split 9, 40⟩]
    edges := [⟨0, 1, 0, laser 4, 10⟩, ⟨1, 9, 0, shaper 8, 31⟩, ⟨2, 3, 0, diode 7, 20⟩, ⟨9, 2, 0, Fixture.fiber 5, 30⟩] }

theorem line_series : addSeries line ⟨1, ⟨1, 2, 0⟩⟩ 9 (shaper 8) (split 9) = .ok lineSer := by decide +kernel

theorem line_line : IsLine line := by
  intro v
  by_cases h : v < 4
  · interval_cases v <;> decide
  · have h1 : line.outEdges v = [] := by
      unfold outEdges; rw [List.filter_eq_nil_iff]; intro e he hc
      exact h ((of_decide_eq_true hc) ▸ (show ∀ e ∈ line.edges, e.src < 4 by decide) e he)
    have h2 : line.inEdges v = [] := by
      unfold inEdges; rw [List.filter_eq_nil_iff]; intro e he hc
      exact h ((of_decide_eq_true hc) ▸ (show ∀ e ∈ line.edges, e.dst < 4 by decide) e he)
    rw [h1, h2]; simp

/-- The settings of the line: the laser as constructed, a metre of fibre. -/
noncomputable def θ (c : Comp) : List ℝ := if c.uid = 4 then [4 / 100, 155 / 10 ^ 8, 55, 10 ^ 2] else if c.uid = 5 then [1] else []

theorem θ_allowed : Allowed stdSettings cls line θ where
  edges := by
    intro e he
    simp only [line, List.mem_cons, List.not_mem_nil, or_false] at he
    rcases he with rfl | rfl | rfl
    · refine ⟨rfl, ?_, ?_⟩
      · intro k x lo up hx hl h1 h2
        match k with
        | 0 =>
          simp [θ, sheet, cls, entries, laser] at hx h1 h2
          subst hx h1 h2
          norm_num
        | 1 => simp [sheet, cls, laser] at hl
        | 2 => simp [sheet, cls, laser] at hl
        | 3 => simp [sheet, cls, laser] at hl
        | k + 4 => simp [θ, laser] at hx
      · intro k x d hx hl h1
        match k with
        | 0 => simp [sheet, cls, laser] at hl
        | 1 => simp [θ, sheet, cls, entries, laser] at hx h1; subst hx h1; norm_num [Entry.toNum]
        | 2 => simp [θ, sheet, cls, entries, laser] at hx h1; subst hx h1; norm_num [Entry.toNum]
        | 3 => simp [θ, sheet, cls, entries, laser] at hx h1; subst hx h1; norm_num [Entry.toNum]
        | k + 4 => simp [θ, laser] at hx
    · refine ⟨rfl, ?_, ?_⟩
      · intro k x lo up hx hl h1 h2
        match k with
        | 0 =>
          simp [θ, sheet, cls, entries, Fixture.fiber] at hx h1 h2
          subst hx h1 h2
          norm_num
        | k + 1 => simp [θ, Fixture.fiber] at hx
      · intro k x d hx hl h1
        match k with
        | 0 => simp [sheet, cls, Fixture.fiber] at hl
        | k + 1 => simp [θ, Fixture.fiber] at hx
    · exact ⟨rfl, fun k x lo up hx => by simp [θ, diode] at hx, fun k x d hx => by simp [θ, diode] at hx⟩
  nodes := by
    intro v hv
    simp only [line, List.mem_cons, List.not_mem_nil, or_false] at hv
    rcases hv with rfl | rfl | rfl | rfl
    · exact ⟨rfl, fun k x lo up hx => by simp [θ, src] at hx, fun k x d hx => by simp [θ, src] at hx⟩
    · exact ⟨rfl, fun k x lo up hx => by simp [θ, split] at hx, fun k x d hx => by simp [θ, split] at hx⟩
    · exact ⟨rfl, fun k x lo up hx => by simp [θ, split] at hx, fun k x d hx => by simp [θ, split] at hx⟩
    · exact ⟨rfl, fun k x lo up hx => by simp [θ, snk] at hx, fun k x d hx => by simp [θ, snk] at hx⟩

/-- The line has a score. -/
theorem line_scores (inp : Signal 4) (hasNoise : Comp → Bool) : ∃ v, CanScore demoProp stdSettings cls rest hasNoise inp (.node 3) (fun y => .ok ‖y 0‖) line v := by
  have he : Enough line (physics demoProp (fun c => (cls c.cls).optic stdSettings rest (θ c)) (fun c => (cls c.cls).connector (θ c)) hasNoise) := by
    refine ⟨?_, ?_, ?_⟩
    · intro m hm ins hin
      simp only [line, List.mem_cons, List.not_mem_nil, or_false] at hm
      rcases hm with rfl | rfl | rfl | rfl
      · exact ⟨ins, rfl, by rw [hin]; decide⟩
      · obtain ⟨y, rfl⟩ : ∃ y, ins = [y] := List.length_eq_one_iff.1 hin
        exact ⟨[y], split_through y, le_rfl⟩
      · obtain ⟨y, rfl⟩ : ∃ y, ins = [y] := List.length_eq_one_iff.1 hin
        exact ⟨[y], split_through y, le_rfl⟩
      · exact ⟨ins, rfl, by rw [hin]; decide⟩
    · intro e he s
      simp only [line, List.mem_cons, List.not_mem_nil, or_false] at he
      rcases he with rfl | rfl | rfl
      · exact ⟨_, rfl⟩
      · obtain ⟨y, hy, -⟩ := (C55_fiber (by norm_num) (P := demoProp) (by norm_num [demoProp]) 1 0 s).1
        exact ⟨y, hy⟩
      · exact ⟨_, rfl⟩
    · intro e _ f hf s
      simp only [physics] at hf
      split at hf
      · injection hf with hf; exact ⟨s, by rw [← hf]⟩
      · cases hf
  obtain ⟨st, h⟩ := (C17_propagate_acyclic line_wf he inp Store.empty).1 line_acyclic
  obtain ⟨-, hF⟩ := (propagate_iff line_wf).1 h
  obtain ⟨outs, s, -, -, hs⟩ := hF.sinks ⟨3, snk, 2⟩ (by decide) ⟨by decide, by decide⟩
  refine ⟨‖s 0‖, θ, θ_allowed, ?_⟩
  unfold systemScore
  rw [h]
  have hs : st (.node 3) = some s := hs
  simp only [hs]

theorem line_grown : GrownIdly cls line lineSer :=
  .step (.refl _) (i := ⟨1, ⟨1, 2, 0⟩⟩) (by decide) (e := ⟨1, 2, 0, Fixture.fiber 5, 30⟩) (by decide) rfl (line_line.lastPorts (by decide)) (by decide)
    ⟨by decide, by decide, by decide⟩ (by simp [Part.CanIdle, cls, shaper]) rfl line_series

/-- The longer line, with a phase shifter in it, can score what the line could. -/
example (inp : Signal 4) (hasNoise : Comp → Bool) : ∃ v, CanScore demoProp stdSettings cls rest hasNoise inp (.node 3) (fun y => .ok ‖y 0‖) line v ∧
    CanScore demoProp stdSettings cls rest hasNoise inp (.node 3) (fun y => .ok ‖y 0‖) lineSer v := by
  obtain ⟨v, hv⟩ := line_scores inp hasNoise
  exact ⟨v, hv, (C97_grown (by norm_num) (P := demoProp) (by norm_num [demoProp]) (by norm_num [stdSettings]) line_wf line_grown).1 v hv⟩

example := C97_line line_wf line_acyclic line_line (i := ⟨1, ⟨1, 2, 0⟩⟩) (by decide) (by decide) line_series

example : ∃ ps, (sheet stdSettings .attenuator 1).Allows ps ∧ (Part.attenuator.optic stdSettings rest ps).DoesNothing demoProp :=
  C97_idle (by norm_num) (P := demoProp) (by norm_num [demoProp]) (by norm_num [stdSettings]) rest (by simp [Part.CanIdle])

/-- An intensity modulator as constructed, and an amplifier as constructed, are allowed settings. -/
example : ∃ ps : List ℝ, (sheet stdSettings .amplifier 1).Allows ps ∧ ¬ (Part.amplifier.optic stdSettings rest ps).DoesNothing demoProp := by
  have hA : (sheet stdSettings .amplifier 1).Allows [30, 1550 / 10 ^ 9, 1520 / 10 ^ 9, 1565 / 10 ^ 9, 1 / 100, 1 / 10, 3 / 2, 1, 5] := by
    refine ⟨rfl, ?_, ?_⟩
    · intro k x lo up hx hl h1 h2
      match k with
      | 0 => simp [sheet, entries] at hx h1 h2; subst hx h1 h2; norm_num
      | 1 | 2 | 3 | 4 | 5 | 6 | 7 | 8 => simp [sheet] at hl
      | k + 9 => simp at hx
    · intro k x d hx hl h1
      match k with
      | 0 => simp [sheet] at hl
      | 1 | 2 | 3 | 4 | 5 | 6 | 7 | 8 => simp [sheet, entries] at hx h1; subst hx h1; norm_num [Entry.toNum]
      | k + 9 => simp at hx
  exact ⟨_, hA, (C97_never_idle (by norm_num) (P := demoProp) (by norm_num [demoProp]) (S := stdSettings) rest _).2.2.1 hA⟩

/-- The same waveguide in the first arm: the second arm no longer carries what it carried. -/
example (inp : Signal 4) : ∃ st st', propagate g (physics demoProp (Arms.optic (fun _ => 1) .waveguide .waveguide .waveguide) (Arms.conn (1 / 4)) (fun _ => false)) inp Store.empty = .ok st ∧
    propagate Ahead.gFirst (physics demoProp (Arms.optic (fun _ => 1) .waveguide .waveguide .waveguide) (Arms.conn (1 / 4)) (fun _ => false)) inp Store.empty = .ok st' ∧
    st' (.edge ⟨1, 2, 1⟩) ≠ st (.edge ⟨1, 2, 1⟩) := by
  obtain ⟨st, h⟩ := Arms.runs (P := demoProp) (fun _ => 1) (r := 1 / 4) (by norm_num) (by norm_num) (o0 := .waveguide) (o1 := .waveguide) (last := .waveguide)
    (fun y => ⟨_, rfl⟩) (fun y => ⟨_, rfl⟩) (fun y => ⟨_, rfl⟩) (fun _ => false) inp Store.empty
  obtain ⟨st', h'⟩ := Ahead.first_runs (fun _ => 1) inp
  refine ⟨st, st', h, h', C97_ports_matter (P := demoProp) g_wf g_acyclic (a := ⟨1, split 2, 40⟩) (by decide) (eIn := ⟨0, 1, 0, laser 4, 10⟩)
    (e0 := ⟨1, 2, 0, Fixture.fiber 5, 30⟩) (e1 := ⟨1, 2, 1, shaper 6, 31⟩) (by decide) (by decide) (r := 1 / 4) rfl (by norm_num) (turns_waveguide demoProp)
    (i := ⟨1, ⟨1, 2, 0⟩⟩) (by decide) rfl (by decide) Ahead.first_series h h' ?_⟩
  obtain ⟨-, hF⟩ := (propagate_iff g_wf).1 h
  obtain ⟨_, _, _, _, _, s0, s1, s2, _, _, _, hb, hz, hst⟩ := hF.edges ⟨0, 1, 0, laser 4, 10⟩ (by decide)
  have h2 := physics_through hz
  have hb : (Except.ok (fun _ => 1) : Except Err (Signal 4)) = .ok s1 := hb
  injection hb with hb
  intro hc
  have hst : st (.edge ⟨0, 1, 0⟩) = some s2 := hst
  have hc : st (.edge ⟨0, 1, 0⟩) = some (fun _ => 0) := hc
  rw [hst, h2, ← hb] at hc
  injection hc with hc
  exact one_ne_zero (congrFun hc 0)

end Idle

end Verif
