import Verif.Spec.Chain
import Verif.Props.Operators
import Verif.Props.Fringe
import Verif.Props.Knob
import Verif.Props.Copy
/-!
# C127: without components in parallel there is no interference
-/

namespace Verif
open Graph

theorem step_unbranched {lib g r g'} (hw : g.WF) (ha : g.Acyclic) (hs : LegalStep lib g r g') (hop' : r.op ≠ .addParallel) (hl : Unbranched g) : Unbranched g' := by
  intro v
  show g'.inDeg v ≤ 1 ∧ g'.outDeg v ≤ 1
  have hl' : ∀ v, g.inDeg v ≤ 1 ∧ g.outDeg v ≤ 1 := hl
  cases legal_kind hs with
  | series i hop _ hi hnid _ _ h =>
    obtain ⟨e, he, _, h'', h1, hnodes, hperm⟩ := addSeries_shape hw hi hnid r.draw.ec r.draw.nc
    rw [h] at h1; injection h1 with h1; subst h1
    have hg := removeEdge_perm hw he
    have hfs : ∀ x ∈ g.edges, x.src ≠ r.draw.nid := fun x hx hc => hnid (hc ▸ hw.src_mem x hx)
    have hfd : ∀ x ∈ g.edges, x.dst ≠ r.draw.nid := fun x hx hc => hnid (hc ▸ hw.dst_mem x hx)
    have e1 := hfs e he
    have e2 := hfd e he
    rw [inDeg_perm hperm, outDeg_perm hperm]
    by_cases hne : r.draw.nid = v
    · subst hne
      have z1 : (g.removeEdge e.ref).edges.countP (fun x => decide (x.dst = r.draw.nid)) = 0 :=
        List.countP_eq_zero.2 (fun x hx => by simpa using hfd x (mem_removeEdge.1 hx).1)
      have z2 : (g.removeEdge e.ref).edges.countP (fun x => decide (x.src = r.draw.nid)) = 0 :=
        List.countP_eq_zero.2 (fun x hx => by simpa using hfs x (mem_removeEdge.1 hx).1)
      split <;> simp [z1, z2, e1, e2]
    · have := hl' v
      rw [inDeg_perm hg, outDeg_perm hg, List.countP_cons, List.countP_cons] at this
      split <;> simp only [List.cons_append, List.nil_append, List.countP_cons, hne, decide_false] <;> simpa using this
  | parallel u v o hop _ _ _ _ _ => exact absurd hop hop'
  | remove i hop hloc hi h =>
    obtain ⟨e, he, hr, hd⟩ := C10_merge_degrees hw ha hi h
    by_cases hb : g.Bypassed e
    · obtain ⟨e', he', nu, mu, nv, mv, hr', iu, iv, hnode, pe, pu, pv, hin, hout⟩ := removeLocs_spec hw hi
      obtain ⟨keep, _, _, hres⟩ := removeComp_shape hw he' hr' hnode
      obtain rfl : e' = e := List.inj_on_of_nodup_map hw.refs_nodup he' he (hr'.symm.trans hr)
      rw [h] at hres; injection hres with hres
      rw [if_pos ((bypassed_iff hw he').1 hb)] at hres
      subst hres
      have := hl' v
      have hg := removeEdge_perm hw he'
      rw [inDeg_perm hg, outDeg_perm hg, List.countP_cons, List.countP_cons] at this
      rw [inDeg_perm (List.Perm.refl _), outDeg_perm (List.Perm.refl _)]
      omega
    · obtain ⟨d1, d2, d3⟩ := hd hb
      show (g'.inEdges v).length ≤ 1 ∧ (g'.outEdges v).length ≤ 1
      have a1 := hl e.src
      have a2 := hl e.dst
      by_cases hv1 : v = e.src
      · subst hv1; omega
      · by_cases hv2 : v = e.dst
        · obtain ⟨e', he', hr', g'', h'', -, hm⟩ := C06_remove_effect lib r.draw hw ha hi
          obtain rfl : e' = e := List.inj_on_of_nodup_map hw.refs_nodup he' he (hr'.symm.trans hr)
          obtain rfl : g'' = g' := by
            have h2 : applyOp lib g .remove (.iface i) r.draw = .ok g' := h
            rw [h''] at h2
            injection h2
          obtain ⟨-, -, hperm, -⟩ := hm hb
          have hne : e'.src ≠ e'.dst := ha.no_loop he'
          have gone : ∀ x ∈ g''.edges, x.src ≠ e'.dst ∧ x.dst ≠ e'.dst := by
            intro x hx
            obtain ⟨y, -, hy⟩ := List.mem_map.1 (hperm.mem_iff.1 (List.mem_map_of_mem (f := fun x => (x.src, x.dst, x.comp, x.name)) hx))
            simp only [Prod.mk.injEq] at hy
            rw [← hy.1, ← hy.2.1]
            constructor
            · split
              · exact hne
              · assumption
            · split
              · exact hne
              · assumption
          subst hv2
          have z1 : g''.inEdges e'.dst = [] := List.eq_nil_iff_forall_not_mem.2 fun x hx => (gone x (mem_inEdges.1 hx).1).2 (mem_inEdges.1 hx).2
          have z2 : g''.outEdges e'.dst = [] := List.eq_nil_iff_forall_not_mem.2 fun x hx => (gone x (mem_outEdges.1 hx).1).1 (mem_outEdges.1 hx).2
          rw [z1, z2]
          simp
        · obtain ⟨k1, k2⟩ := d3 v hv1 hv2
          rw [k1, k2]
          exact hl v
  | swapNode u _ hloc hi _ h =>
    subst h
    exact hl' v
  | swapEdge u _ _ _ _ h =>
    subst h
    have h1 := hl' v
    have key : ∀ (p : EdgeRef → Bool), (g.setEdge u (fun e => { e with comp := r.draw.ec })).edges.countP (fun e => p e.ref) =
        g.edges.countP (fun e => p e.ref) := by
      intro p
      have := congrArg (List.countP p) (setEdge_comp_refs g u r.draw.ec)
      rwa [List.countP_map, List.countP_map] at this
    have k1 := key (fun r => decide (r.dst = v))
    have k2 := key (fun r => decide (r.src = v))
    rw [inDeg_perm (List.Perm.refl _), outDeg_perm (List.Perm.refl _)] at h1 ⊢
    exact ⟨le_of_eq_of_le k1 h1.1, le_of_eq_of_le k2 h1.2⟩

/-- **C127.** Only components added in parallel make branches: from a design with a single way for the light every history without them leads to designs with a single way for the light. -/
theorem C127_unbranched {lib g0 rs g} (hw : g0.WF) (ha : g0.Acyclic) (hl : Unbranched g0) (h : History lib g0 rs g) (hn : NoParallel rs) : Unbranched g := by
  induction h with
  | nil => exact hl
  | @step rs g r g' hh hs ih =>
    obtain ⟨w, a⟩ := history_dag hw ha hh
    exact step_unbranched w a hs (hn (g, r) (by simp)) (ih fun p hp => hn p (by simp [hp]))

theorem filter_le_one {α β : Type} [DecidableEq β] {f : α → β} {l : List α} (h : (l.map f).Nodup) (b : β) : (l.filter fun a => f a = b).length ≤ 1 := by
  have h1 : ((l.filter fun a => f a = b).map f).Nodup := h.sublist (List.Sublist.map f List.filter_sublist)
  have h2 : (l.filter fun a => f a = b).map f = List.replicate (l.filter fun a => f a = b).length b := by
    rw [List.eq_replicate_iff]
    refine ⟨List.length_map _, fun c hc => ?_⟩
    obtain ⟨a, ha, rfl⟩ := List.mem_map.1 hc
    simpa using (List.mem_filter.1 ha).2
  rw [h2, List.nodup_replicate] at h1
  exact h1

/-- **C127.** The scripts start from such designs: if no two components in the dictionary of edges start at the same node and no two end at the same node, `init_graph` (on a closed description without
feedback) makes a design with a single way for the light. -/
theorem C127_start {S O : Type} (K : Kinds S O) (nodes : List (NodeId × Comp)) (hn : (nodes.map (·.1)).Nodup) (edges : List (EdgeRef × Comp)) (h : ModelId → O)
    (hclosed : ∀ e ∈ edges, e.1.src ∈ nodes.map (·.1) ∧ e.1.dst ∈ nodes.map (·.1)) (hfree : ∀ v, ¬ Relation.TransGen (fun u w => ∃ e ∈ edges, e.1.src = u ∧ e.1.dst = w) v v)
    (hs : (edges.map (·.1.src)).Nodup) (hd : (edges.map (·.1.dst)).Nodup) :
    ∃ g order h', initGraph K nodes edges h = .ok (g, order, h') ∧ g.WF ∧ g.Acyclic ∧ Unbranched g := by
  obtain ⟨g, order, h', k1, k2, k3, -, -, -, hp⟩ := (C70_init_graph K nodes hn edges h).2.2 hfree hclosed
  refine ⟨g, order, h', k1, k2, k3, fun v => ⟨?_, ?_⟩⟩
  · refine filter_le_one (f := Edge.dst) ?_ v
    have := hp.map (fun x => x.2.1)
    rw [List.map_map, List.map_map] at this
    exact this.nodup_iff.2 hd
  · refine filter_le_one (f := Edge.src) ?_ v
    have := hp.map (fun x => x.1)
    rw [List.map_map, List.map_map] at this
    exact this.nodup_iff.2 hs

variable {n : Nat}

/-- Light turned in phase goes through every component as it did, turned by some phase (by none behind sources and detectors). -/
theorem apply_turned {P : Prop_ n} (hdt : P.dt ≠ 0) {o : Optic n} {c : ℂ} (hc : ‖c‖ = 1) {x y : Signal n} (h : o.apply P x = .ok y) :
    ∃ c' : ℂ, ‖c'‖ = 1 ∧ o.apply P (fun i => c * x i) = .ok (fun i => c' * y i) ∧ (o.IsDetector → c' = 1) := by
  by_cases hd : o.IsDetector
  · exact ⟨1, by simp, by simpa using (acts_phase hdt hc).det o trivial hd x y h, fun _ => rfl⟩
  · by_cases hs : ∀ z, o ≠ .source z
    · exact ⟨c, hc, (acts_phase hdt hc).pass o trivial hd hs x y h, fun h => absurd h hd⟩
    · push Not at hs
      obtain ⟨z, rfl⟩ := hs
      exact ⟨1, by simp, by simpa [Optic.apply] using h, fun _ => rfl⟩

/-- What a node without joins hands on is turned by one phase. -/
theorem outputs_turned {P : Prop_ n} (hdt : P.dt ≠ 0) {g : Graph} {o o' : Comp → Optic n} {conn : Comp → Connector} {hasNoise : Comp → Bool} {inp : Signal n} {st st' : Store (Signal n)}
    {v : Node} (hv : (g.inEdges v.id).length ≤ 1) (hin : ∀ d ∈ g.inEdges v.id, ∃ (c : ℂ) (s : Signal n), ‖c‖ = 1 ∧ st (.edge d.ref) = some s ∧ st' (.edge d.ref) = some (fun i => c * s i))
    {l : List (Signal n)} (h : Outputs g (physics P o conn hasNoise) inp st v l) :
    ∃ c : ℂ, ‖c‖ = 1 ∧ Outputs g (physics P o' conn hasNoise) inp st' v (l.map fun x i => c * x i) := by
  obtain ⟨ins, h1, h2⟩ := h
  have h2 : (conn v.comp).apply P ins _ _ = .ok l := h2
  rcases h1 with ⟨k, rfl⟩ | ⟨k, h1⟩
  · exact ⟨1, by simp, [inp], .inl ⟨k, rfl⟩, by simp only [one_mul, List.map_id']; exact h2⟩
  · obtain ⟨d, hd⟩ := List.length_eq_one_iff.1 (le_antisymm hv (List.length_pos_of_ne_nil k))
    obtain ⟨c, s, hc, e1, e2⟩ := hin d (by rw [hd]; simp)
    rw [hd] at h1
    obtain ⟨x, rfl⟩ := List.length_eq_one_iff.1 (show ins.length = 1 by simpa using (congrArg List.length h1).symm)
    simp only [List.map_cons, List.map_nil, List.cons.injEq, and_true] at h1
    rw [e1] at h1
    injection h1 with h1
    subst h1
    refine ⟨c, hc, [fun i => c * s i], .inr ⟨k, by rw [hd]; simp [e2]⟩, ?_⟩
    exact conn_smul hdt c (conn v.comp) h2

/-- **C127.** Where light is nowhere brought together, phases are seen nowhere: exchanging components for others that differ by constant phases (as phase shifters with other settings) leaves the power as it
is at every sample on every edge and at every output, and what the detectors deliver – whatever the components are, saturating amplifiers, modulators, and detectors in the middle included. -/
theorem C127_no_joins (hn : 2 ≤ n) {P : Prop_ n} (hwin : 0 < P.window) {g : Graph} (hw : g.WF) (hl : ∀ v, (g.inEdges v).length ≤ 1) {o o' : Comp → Optic n} {conn : Comp → Connector}
    {hasNoise : Comp → Bool} (hd : ∀ e ∈ g.edges, UpToPhase P (o e.comp) (o' e.comp)) {inp : Signal n} {old st : Store (Signal n)} (old' : Store (Signal n))
    (h : propagate g (physics P o conn hasNoise) inp old = .ok st) :
    ∃ st', propagate g (physics P o' conn hasNoise) inp old' = .ok st' ∧
      (∀ k s, st k = some s → ∃ c : ℂ, ‖c‖ = 1 ∧ st' k = some (fun i => c * s i)) ∧
      ∀ e ∈ g.edges, (o e.comp).IsDetector → o' e.comp = o e.comp → st' (.edge e.ref) = st (.edge e.ref) := by
  have hdt := dt_ne_zero hn hwin
  obtain ⟨st', h'⟩ := rerun hw h (optic' := o') (fun e he s s1 hs t => by
    obtain ⟨_, -, hc⟩ := hd e he s s1 hs
    exact apply_total hdt hc t) old'
  obtain ⟨⟨order, ho⟩, F⟩ := (propagate_iff hw).1 h
  have F' := ((propagate_iff hw).1 h').2
  have ht := topoSort_sound hw ho
  have key : ∀ (k : Nat) (e : Edge), e ∈ g.edges → order.idxOf e.src = k → ∃ (c : ℂ) (s : Signal n), ‖c‖ = 1 ∧ st (.edge e.ref) = some s ∧ st' (.edge e.ref) = some (fun i => c * s i) ∧
      ((o e.comp).IsDetector → o' e.comp = o e.comp → c = 1) := by
    intro k
    induction k using Nat.strong_induction_on with
    | _ k ih =>
      intro e he hk
      obtain ⟨x, y, ⟨v, hv, hid, l, i, a1, a2, a3⟩, p, q⟩ := fed_exists F he
      obtain ⟨x', y', f', p', q'⟩ := fed_exists F' he
      obtain ⟨c, hc, hO⟩ := outputs_turned (o' := o') hdt (hl v.id) (st' := st') (fun d hd' => by
        have hdm := mem_inEdges.1 hd'
        obtain ⟨c, s, k1, k2, k3, -⟩ := ih _ (by rw [← hk, ← hid, ← hdm.2]; exact ht.forward d hdm.1) d hdm.1 rfl
        exact ⟨c, s, k1, k2, k3⟩) a1
      obtain rfl := fed_unique hw f' ⟨v, hv, hid, _, i, hO, a2, by rw [List.getElem?_map, a3]; rfl⟩
      obtain ⟨c1, hc1, h1, hd1⟩ := apply_turned hdt hc p
      obtain ⟨c2, hc2, h2⟩ := hd e he _ _ h1
      by_cases hsame : o' e.comp = o e.comp
      · rw [hsame, h1] at p'
        injection p' with p'
        exact ⟨c1, y, hc1, q, by rw [q', ← p'], fun hdet _ => hd1 hdet⟩
      · rw [h2] at p'
        injection p' with p'
        refine ⟨c2 * c1, y, by rw [norm_mul, hc1, hc2, mul_one], q, ?_, fun _ hc => absurd hc hsame⟩
        rw [q', ← p']
        congr 1
        funext i
        ring
  refine ⟨st', h', fun k s hs => ?_, fun e he hdet hsame => ?_⟩
  · rcases F.only k (by rw [hs]; simp) with ⟨e, he, rfl⟩ | ⟨v, hv, hsink, rfl⟩
    · obtain ⟨c, s', k1, k2, k3, -⟩ := key _ e he rfl
      rw [hs] at k2
      injection k2 with k2
      subst k2
      exact ⟨c, k1, k3⟩
    · obtain ⟨outs, s', a1, a2, a3⟩ := F.sinks v hv hsink
      obtain ⟨outs', s'', b1, b2, b3⟩ := F'.sinks v hv hsink
      obtain ⟨c, hc, hO⟩ := outputs_turned (o' := o') hdt (hl v.id) (st' := st') (fun d hd' => by
        have hdm := mem_inEdges.1 hd'
        obtain ⟨c, s, k1, k2, k3, -⟩ := key _ d hdm.1 rfl
        exact ⟨c, s, k1, k2, k3⟩) a1
      obtain rfl := outputs_unique b1 hO
      rw [hs] at a3
      injection a3 with a3
      subst a3
      rw [List.getElem?_map, a2] at b2
      injection b2 with b2
      exact ⟨c, hc, by rw [b3, ← b2]⟩
  · obtain ⟨c, s, -, k2, k3, k4⟩ := key _ e he rfl
    rw [k3, k2, k4 hdet hsame]
    simp

/-- **C127.** Phase shifters are such components: those of a design can all be set at once. -/
theorem C127_shifters (hn : 2 ≤ n) {P : Prop_ n} (hwin : 0 < P.window) (φ ψ : ℝ) (o : Optic n) : UpToPhase P (.phaseShifter φ) (.phaseShifter ψ) ∧ UpToPhase P o o := by
  refine ⟨fun x y h => ?_, fun x y h => ⟨1, by simp, by simpa using h⟩⟩
  simp only [Optic.apply, phaseShifter, Bool.false_eq_true, if_false] at h ⊢
  rw [freqMul_const _ (dt_ne_zero hn hwin)] at h ⊢
  injection h with h
  refine ⟨Complex.exp ((ψ - φ : ℝ) * Complex.I), Complex.norm_exp_ofReal_mul_I _, ?_⟩
  rw [← h]
  congr 1
  funext i
  rw [← mul_assoc, ← Complex.exp_add]
  congr 2
  push_cast
  ring

/-- **C127.** A design that has come from a single way for the light without a component added in parallel scores zero for sensitivity to a phase, with every setting of every component: the reading of
its meter does not depend on the phase. -/
theorem C127_blind (hn : 2 ≤ n) {P : Prop_ n} (hwin : 0 < P.window) {lib : Library} {g0 g : Graph} {rs : List (Graph × StepRec)} (hw0 : g0.WF) (ha0 : g0.Acyclic)
    (hl : Unbranched g0) (hh : History lib g0 rs g) (hno : NoParallel rs) {optic : ℝ → Comp → Optic n} {conn : Comp → Connector} {hasNoise : Comp → Bool} {e0 d : Edge} {s : Node}
    (hS : ∀ φ, optic φ e0.comp = .phaseShifter φ) (hfix : ∀ e ∈ g.edges, e ≠ e0 → ∀ φ, optic φ e.comp = optic 0 e.comp) (hm : MeterAt g (optic 0) conn d s)
    {inp : Signal n} {φ₀ : ℝ} {old st : Store (Signal n)} (h : propagate g (physics P (optic φ₀) conn hasNoise) inp old = .ok st) :
    (∃ y, ∀ x old, ∃ st, propagate g (physics P (optic x) conn hasNoise) inp old = .ok st ∧ st (.node s.id) = some y) ∧
    ∀ {B : Sim n} {w : Session n} {φ : ℝ} {cls : ClassId}, (∀ x, B w.flag (w.setParams e0.comp.uid [x]).params = physics P (optic x) conn hasNoise) → edgesOfClass g cls = [e0] →
      w.params e0.comp.uid = [φ] → ∃ w', evaluate g B inp (.phase cls (.node s.id)) w = (w', .ok 0) ∧ w'.params = w.params := by
  have hu := C127_unbranched hw0 ha0 hl hh hno
  have hw := (history_dag hw0 ha0 hh).1
  have hdm : d ∈ g.edges := (mem_inEdges.1 (by rw [hm.into]; simp : d ∈ g.inEdges s.id)).1
  have hne : d ≠ e0 := by
    rintro rfl
    have := hm.meter
    rw [hS] at this
    cases this
  have hmφ : ∀ x, optic x d.comp = .measure := fun x => by rw [hfix d hdm hne, hm.meter]
  have hrun : ∀ x old, ∃ st', propagate g (physics P (optic x) conn hasNoise) inp old = .ok st' ∧ st' (.node s.id) = st (.node s.id) := by
    intro x old'
    obtain ⟨st', h1, -, h3⟩ := C127_no_joins hn hwin hw (fun v => (hu v).1) (o' := optic x) (fun e he => by
      by_cases hee : e = e0
      · subst hee
        rw [hS, hS]
        exact (C127_shifters hn hwin φ₀ x .measure).1
      · rw [hfix e he hee x, hfix e he hee φ₀]
        exact (C127_shifters hn hwin φ₀ x _).2) old' h
    refine ⟨st', h1, ?_⟩
    rw [sink_reads hm.out hm.into hm.last hm.plain ((propagate_iff hw).1 h).2, sink_reads hm.out hm.into hm.last hm.plain ((propagate_iff hw).1 h1).2]
    exact h3 d hdm (by rw [hmφ]; trivial) (by rw [hmφ, hmφ])
  obtain ⟨_, y, -, -, hy⟩ := ((propagate_iff hw).1 h).2.sinks s hm.out ⟨List.mem_map.2 ⟨s, hm.out, rfl⟩, fun e he hes => by
    have : e ∈ g.outEdges s.id := mem_outEdges.2 ⟨he, hes⟩
    rw [hm.last] at this
    cases this⟩
  rw [hy] at hrun
  refine ⟨⟨y, hrun⟩, fun {_ w φ cls} hB hcls hw0 => ?_⟩
  obtain ⟨w', k1, k2⟩ := phase_eval (M := fun _ => npMean (fun t => (y t).re)) hB (fun x old => by obtain ⟨st, a, b⟩ := hrun x old; exact ⟨st, _, a, b, rfl⟩) hcls hw0
  refine ⟨w', ?_, k2⟩
  rw [k1]
  simp

/-- **C127.** So a design with another score has a component added in parallel in its history. -/
theorem C127_parallel_needed (hn : 2 ≤ n) {P : Prop_ n} (hwin : 0 < P.window) {lib : Library} {g0 g : Graph} {rs : List (Graph × StepRec)} (hw0 : g0.WF) (ha0 : g0.Acyclic)
    (hl : Unbranched g0) (hh : History lib g0 rs g) {optic : ℝ → Comp → Optic n} {conn : Comp → Connector} {hasNoise : Comp → Bool} {e0 d : Edge} {s : Node}
    (hS : ∀ φ, optic φ e0.comp = .phaseShifter φ) (hfix : ∀ e ∈ g.edges, e ≠ e0 → ∀ φ, optic φ e.comp = optic 0 e.comp) (hm : MeterAt g (optic 0) conn d s)
    {inp : Signal n} {φ₀ : ℝ} {old st : Store (Signal n)} (h : propagate g (physics P (optic φ₀) conn hasNoise) inp old = .ok st) {B : Sim n} {w w' : Session n} {φ : ℝ} {cls : ClassId}
    {r : Except Err ℝ} (hB : ∀ x, B w.flag (w.setParams e0.comp.uid [x]).params = physics P (optic x) conn hasNoise) (hc : edgesOfClass g cls = [e0]) (hφ : w.params e0.comp.uid = [φ])
    (he : evaluate g B inp (.phase cls (.node s.id)) w = (w', r)) (hr : r ≠ .ok 0) : ∃ p ∈ rs, p.2.op = .addParallel := by
  by_contra hcon
  push Not at hcon
  obtain ⟨w'', hw'', -⟩ := (C127_blind hn hwin hw0 ha0 hl hh hcon hS hfix hm h).2 hB hc hφ
  rw [he] at hw''
  injection hw'' with _ h2
  exact hr h2

/-- **C125.** A component of class `PhaseShifter` on an edge of its own, with nothing but linear components behind it, is what C125 and C127 ask for: its parameter is the phase by which it turns the light. -/
theorem C125_shifter (hn : 2 ≤ n) {P : Prop_ n} (hwin : 0 < P.window) {g : Graph} {optic : Comp → Optic n} {conn : Comp → Connector} {e0 d : Edge} {s : Node} {φ₀ : ℝ}
    (h0 : optic e0.comp = .phaseShifter φ₀) (hk : KnobAt g optic e0) (hm : MeterAt g optic conn d s) :
    OneShifter P g (fun φ => setOptic optic e0.comp (.phaseShifter φ)) conn e0 d s ∧ setOptic optic e0.comp (.phaseShifter φ₀) = optic ∧
      ∀ φ x, (setOptic optic e0.comp (.phaseShifter φ) e0.comp).apply P x = .ok (fun t => Complex.exp (φ * Complex.I) * x t) := by
  have hdm : d ∈ g.edges := (mem_inEdges.1 (by rw [hm.into]; simp : d ∈ g.inEdges s.id)).1
  have hne : d ≠ e0 := by
    rintro rfl
    rw [hm.meter] at h0
    cases h0
  have turns : ∀ φ x, (setOptic optic e0.comp (.phaseShifter φ) e0.comp).apply P x = .ok (fun t => Complex.exp (φ * Complex.I) * x t) := by
    intro φ x
    simp only [setOptic, if_true, Optic.apply, phaseShifter, Bool.false_eq_true, if_false]
    rw [freqMul_const _ (dt_ne_zero hn hwin)]
    congr 1; funext t; rw [mul_comm Complex.I]
  refine ⟨⟨hk.mem, ?_, ?_, ?_, ?_, hne, hm.out, hm.into, hm.last, hm.plain⟩, ?_, turns⟩
  · intro φ x
    rw [turns φ x]
    rfl
  · intro e he h φ
    have : e.comp ≠ e0.comp := fun hc => h (hk.own e he hc)
    simp [setOptic, this]
  · intro e he hr
    by_cases hc : e.comp = e0.comp
    · simp only [setOptic, hc, if_true]
      exact ⟨id, fun h => absurd h id⟩
    · simp only [setOptic, hc, if_false]
      exact hk.linear e he hr
  · have : d.comp ≠ e0.comp := fun hc => hne (hk.own d hdm hc)
    simp only [setOptic, this, if_false, hm.meter]
  · funext c
    by_cases hc : c = e0.comp
    · simp [setOptic, hc, h0]
    · simp [setOptic, hc]

namespace ChainExample
open Fixture

theorem line_unbranched : Unbranched line := by
  rintro (_ | _ | _ | _ | v)
  · decide
  · decide
  · decide
  · decide
  · simp [line, inEdges, outEdges]

/-- A second component in series, as the operator makes it at interface (1, edge 1→2). -/
def serStep : StepRec := ⟨.addSeries, .iface ⟨2, ⟨1, 2, 0⟩⟩, ⟨9, shaper 8, split 9⟩⟩
def longer : Graph :=
  { nodes := [⟨0, src, 1⟩, ⟨1, split 2, 40⟩, ⟨2, split 3, 40⟩, ⟨3, snk, 2⟩, ⟨9, split 9, 40⟩]
    edges := [⟨0, 1, 0, laser 4, 10⟩, ⟨1, 9, 0, Fixture.fiber 5, 30⟩, ⟨2, 3, 0, diode 7, 20⟩, ⟨9, 2, 0, shaper 8, 31⟩] }

theorem longer_hist : History lib line [(line, serStep)] longer :=
  .step .nil ⟨⟨_, line_topo, by decide⟩, ⟨by decide, by decide, by decide⟩, by decide +kernel⟩

/-- `C127_unbranched`: one component more in series; and the removal of a component. -/
example : Unbranched longer := C127_unbranched line_wf line_acyclic line_unbranched longer_hist (by intro p hp; simp only [List.mem_singleton] at hp; subst hp; decide)

example : Unbranched line' := C127_unbranched line_wf line_acyclic line_unbranched (.step .nil rm_legal) (by intro p hp; simp only [List.mem_singleton] at hp; subst hp; decide)

/-- A saturating amplifier. -/
noncomputable def ampl : Edfa := ⟨30, 1550 / 10 ^ 9, 1520 / 10 ^ 9, 1565 / 10 ^ 9, 1 / 100, 1 / 10, 2, 1, 5⟩

/-- The phase shifter (component 5) in the longer design, the amplifier behind it. -/
noncomputable def optic (x : Signal 4) (φ : ℝ) (c : Comp) : Optic 4 :=
  if c.uid = 4 then .source x else if c.uid = 5 then .phaseShifter φ else if c.uid = 8 then .edfa ampl else .measure

theorem longer_runs (x inp : Signal 4) (φ : ℝ) (old : Store (Signal 4)) :
    ∃ st, propagate longer (physics demoProp (optic x φ) (fun _ => .terminal) (fun _ => false)) inp old = .ok st := by
  refine (C17_propagate_acyclic (history_dag line_wf line_acyclic longer_hist).1 ⟨?_, ?_, ?_⟩ inp old).1 (history_dag line_wf line_acyclic longer_hist).2
  · intro m hm ins hin
    refine ⟨ins, rfl, ?_⟩
    rw [hin]
    simp only [longer, List.mem_cons, List.not_mem_nil, or_false] at hm
    rcases hm with rfl | rfl | rfl | rfl | rfl <;> decide
  · intro e he s
    simp only [longer, List.mem_cons, List.not_mem_nil, or_false] at he
    rcases he with rfl | rfl | rfl | rfl <;> exact ⟨_, rfl⟩
  · intro e _ f hf s
    simp [physics] at hf

theorem longer_meter (x : Signal 4) : MeterAt longer (optic x 0) (fun _ => .terminal) ⟨2, 3, 0, diode 7, 20⟩ ⟨3, snk, 2⟩ := ⟨rfl, by decide, by decide, by decide, rfl⟩

/-- `C127_start`: the dictionaries of `scripts/run_phase_sensitivity.py` (lines 72-81; `'source'` is 0, `'sink'` 3, the nodes 0 and 1 are 1 and 2). -/
example {S O : Type} (K : Kinds S O) (h : ModelId → O) : ∃ g order h', initGraph K [(0, src), (1, split 2), (2, split 3), (3, snk)]
    [(⟨0, 1, 0⟩, laser 4), (⟨1, 2, 0⟩, Fixture.fiber 5), (⟨2, 3, 1⟩, diode 7)] h = .ok (g, order, h') ∧ g.WF ∧ g.Acyclic ∧ Unbranched g :=
  C127_start K _ (by decide) _ h (by decide) (by
    have hlt : ∀ u v : Nat, Relation.TransGen (fun u w => ∃ e ∈ [((⟨0, 1, 0⟩ : EdgeRef), laser 4), (⟨1, 2, 0⟩, Fixture.fiber 5), (⟨2, 3, 1⟩, diode 7)], e.1.src = u ∧ e.1.dst = w) u v → u < v := by
      intro u v huv
      have hstep : ∀ u v : Nat, (∃ e ∈ [((⟨0, 1, 0⟩ : EdgeRef), laser 4), (⟨1, 2, 0⟩, Fixture.fiber 5), (⟨2, 3, 1⟩, diode 7)], e.1.src = u ∧ e.1.dst = v) → u < v := by
        rintro u v ⟨e, he, rfl, rfl⟩
        simp only [List.mem_cons, List.not_mem_nil, or_false] at he
        rcases he with rfl | rfl | rfl <;> decide
      induction huv with
      | single h => exact hstep _ _ h
      | tail _ h ih => exact ih.trans (hstep _ _ h)
    exact fun v hv => absurd (hlt v v hv) (lt_irrefl _)) (by decide) (by decide)

/-- `C127_no_joins` with `C127_shifters`: a quarter of a turn more leaves the power on all edges of the longer design, that of the amplified light included. -/
example (x inp : Signal 4) : ∃ st st', propagate longer (physics demoProp (optic x 0) (fun _ => .terminal) (fun _ => false)) inp Store.empty = .ok st ∧
    propagate longer (physics demoProp (optic x (Real.pi / 2)) (fun _ => .terminal) (fun _ => false)) inp Store.empty = .ok st' ∧
    ∀ k s, st k = some s → ∃ s', st' k = some s' ∧ ∀ i, ‖s' i‖ ^ 2 = ‖s i‖ ^ 2 := by
  obtain ⟨st, h⟩ := longer_runs x inp 0 Store.empty
  have hk := fun o => C127_shifters (n := 4) (by norm_num) (P := demoProp) (by norm_num [demoProp]) 0 (Real.pi / 2) o
  obtain ⟨st', h1, h2, -⟩ := C127_no_joins (by norm_num) (by norm_num [demoProp]) (history_dag line_wf line_acyclic longer_hist).1
    (fun v => (C127_unbranched line_wf line_acyclic line_unbranched longer_hist (by intro p hp; simp only [List.mem_singleton] at hp; subst hp; decide) v).1)
    (o' := optic x (Real.pi / 2)) (fun e he => by
      simp only [longer, List.mem_cons, List.not_mem_nil, or_false] at he
      rcases he with rfl | rfl | rfl | rfl
      · exact (hk _).2
      · exact (hk .measure).1
      · exact (hk _).2
      · exact (hk _).2) Store.empty h
  refine ⟨st, st', h, h1, fun k s hs => ?_⟩
  obtain ⟨c, hc, hk⟩ := h2 k s hs
  exact ⟨_, hk, fun i => by rw [norm_mul, hc, one_mul]⟩

/-- `C127_blind` (by `C127_no_joins` and `C127_shifters`): the score of the longer design is zero. -/
example (x inp : Signal 4) (w : Session 4) {φ : ℝ} (hφ : w.params 5 = [φ]) :
    ∃ w', evaluate longer (fun _ p => physics demoProp (optic x ((p 5).headD 0)) (fun _ => .terminal) (fun _ => false)) inp (.phase 30 (.node 3)) w =
      (w', .ok 0) ∧ w'.params = w.params := by
  obtain ⟨st, h⟩ := longer_runs x inp 0 Store.empty
  refine (C127_blind (by norm_num) (by norm_num [demoProp]) line_wf line_acyclic line_unbranched longer_hist
    (by intro p hp; simp only [List.mem_singleton] at hp; subst hp; decide) (e0 := ⟨1, 9, 0, Fixture.fiber 5, 30⟩) (fun φ => rfl) ?_ (longer_meter x) h).2 (fun y => ?_) (by decide) hφ
  · intro e he hin y
    simp only [longer, List.mem_cons, List.not_mem_nil, or_false] at he
    rcases he with rfl | rfl | rfl | rfl
    · rfl
    · exact absurd rfl hin
    · rfl
    · rfl
  · simp [Session.setParams, Fixture.fiber]

/-- A second arm beside the phase shifter of `line` makes the interferometer `Fixture.g`. -/
def parStep : StepRec := ⟨.addParallel, .pair 1 2, ⟨0, shaper 6, split 0⟩⟩

theorem par_hist : History lib line [(line, parStep)] g :=
  .step .nil ⟨⟨_, line_topo, by decide⟩, by show parStep.draw.ec.cls ∈ lib.edge; decide, by decide +kernel⟩

theorem arms_meter : MeterAt g (Arms.optic (fun _ => 1) (.phaseShifter 0) (.phaseShifter 0) .measure) (Arms.conn (1 / 2)) ⟨2, 3, 0, diode 7, 20⟩ ⟨3, snk, 2⟩ :=
  ⟨rfl, by decide, by decide, by decide, rfl⟩

/-- `C125_shifter`: the phase shifter of the two-armed design of C125. -/
example (x : Signal 4) : OneShifter demoProp FringeExample.coupler (fun φ => setOptic (FringeExample.optic x 0) (Fixture.fiber 5) (.phaseShifter φ)) FringeExample.conn
    ⟨1, 2, 0, Fixture.fiber 5, 30⟩ ⟨2, 3, 0, diode 7, 20⟩ ⟨3, snk, 2⟩ :=
  (C125_shifter (by norm_num) (by norm_num [demoProp]) (φ₀ := 0) rfl (KnobExample.arm_knob x) (KnobExample.arm_meter x)).1

/-- `C127_parallel_needed`: with steady light and a quarter of a turn between the arms the score is not zero, so one of the two arms was added in parallel (here by the one step there is). -/
example (inp : Signal 4) (w : Session 4) (hφ : w.params 5 = [Real.pi / 2]) : ∃ p ∈ [(line, parStep)], p.2.op = .addParallel := by
  obtain ⟨st, h⟩ := Arms.runs (P := demoProp) (fun _ => 1) (r := 1 / 2) (by norm_num) (by norm_num) (o0 := .phaseShifter 0) (o1 := .phaseShifter 0) (last := .measure)
    (fun y => ⟨_, rfl⟩) (fun y => ⟨_, rfl⟩) (fun y => ⟨_, rfl⟩) (fun _ => false) inp Store.empty
  obtain ⟨w', hv, -⟩ := C88_score g_wf (optic := fun a => Arms.optic (fun _ => 1) (.phaseShifter a) (.phaseShifter 0) .measure) (conn := Arms.conn (1 / 2)) (hasNoise := fun _ => false)
    (s := ⟨3, snk, 2⟩) Arms.two_inter (by norm_num) (by norm_num) rfl rfl (by decide) (by decide) (by decide) rfl (field := fun _ => 1) (fun _ => rfl) (fun _ => rfl)
    (fun a => turns_phaseShifter Arms.demo2.1 Arms.demo2.2 a) (fun _ => turns_phaseShifter Arms.demo2.1 Arms.demo2.2 0) (B := Arms.sim (fun _ => 1) 0) (fun a => rfl)
    (fun a old => Arms.runs (fun _ => 1) (by norm_num) (by norm_num) (fun y => ⟨_, rfl⟩) (fun y => ⟨_, rfl⟩) (fun y => ⟨_, rfl⟩) _ inp old) (cls := 30) (by decide) hφ
  refine C127_parallel_needed (by norm_num) Arms.demo2.2 line_wf line_acyclic line_unbranched par_hist (optic := fun a => Arms.optic (fun _ => 1) (.phaseShifter a) (.phaseShifter 0) .measure)
    (e0 := ⟨1, 2, 0, Fixture.fiber 5, 30⟩) (fun φ => rfl) ?_ arms_meter h (B := Arms.sim (fun _ => 1) 0) (w := w) (fun a => rfl) (cls := 30) (by decide) hφ hv ?_
  · intro e he hne φ
    simp only [g, List.mem_cons, List.not_mem_nil, or_false] at he
    rcases he with rfl | rfl | rfl | rfl
    · rfl
    · exact absurd rfl hne
    · rfl
    · rfl
  · intro hc
    injection hc with hc
    have h1 : npMean (power_ (fun _ : Fin 4 => (1 : ℂ))) = 1 := by simp [npMean, power_]
    rw [h1, sub_zero, Real.sin_pi_div_two] at hc
    norm_num at hc

end ChainExample

end Verif
