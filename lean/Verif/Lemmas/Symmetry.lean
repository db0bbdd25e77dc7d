import Verif.Lemmas.Physics
/-! # Actions on the sources carried through a propagated system -/

namespace Verif
open Complex Graph

variable {n : Nat}

/-- `T` on light and `D` on detected signals go through the components in `good`. -/
structure Acts (P : Prop_ n) (T D : Signal n → Signal n) (good : Optic n → Prop) : Prop where
  pass : ∀ o, good o → ¬ o.IsDetector → (∀ x, o ≠ .source x) → ∀ x y, o.apply P x = .ok y → o.apply P (T x) = .ok (T y)
  det : ∀ o, good o → o.IsDetector → ∀ x y, o.apply P x = .ok y → o.apply P (T x) = .ok (D y)
  conn : ∀ (c : Connector) (s outs : List (Signal n)) nIn nOut, c.apply P s nIn nOut = .ok outs → c.apply P (s.map T) nIn nOut = .ok (outs.map T)

open Classical in
/-- Which of the two applies at a key of the store. -/
noncomputable def actAt (g : Graph) (optic : Comp → Optic n) (T D : Signal n → Signal n) : Key → Signal n → Signal n
  | .edge r => if ∃ e ∈ g.edges, e.ref = r ∧ (optic e.comp).IsDetector then D else T
  | .node v => if ReadBy g optic v then D else T

theorem actAt_edge {g : Graph} (hw : g.WF) (optic : Comp → Optic n) (T D : Signal n → Signal n) {e : Edge} (he : e ∈ g.edges) :
    ((optic e.comp).IsDetector → actAt g optic T D (.edge e.ref) = D) ∧ (¬ (optic e.comp).IsDetector → actAt g optic T D (.edge e.ref) = T) := by
  unfold actAt
  refine ⟨fun h => if_pos ⟨e, he, rfl, h⟩, fun h => if_neg ?_⟩
  rintro ⟨e', he', hr, hd⟩
  have : e' = e := List.inj_on_of_nodup_map hw.refs_nodup he' he hr
  exact h (this ▸ hd)

theorem onEdge_physics {P : Prop_ n} {optic : Comp → Optic n} {conn : Comp → Connector} {hasNoise : Comp → Bool} {c : Comp} {s s2 : Signal n} :
    OnEdge (physics P optic conn hasNoise) c s s2 ↔ (optic c).apply P s = .ok s2 := by
  unfold OnEdge physics
  simp only
  cases hasNoise c with
  | false => simp
  | true =>
    simp only [if_true]
    constructor
    · rintro ⟨s1, h1, h | ⟨f, hf, h⟩⟩
      · cases h.1
      · injection hf with hf; subst hf; injection h with h; rw [h1, h]
    · exact fun h => ⟨s2, h, .inr ⟨_, rfl, rfl⟩⟩

theorem mapSource_pass (T : Signal n → Signal n) {o : Optic n} (h : ∀ x, o ≠ .source x) : o.mapSource T = o := by
  cases o with
  | source x => exact absurd rfl (h x)
  | _ => rfl

theorem ins_length {S : Type} {g : Graph} {inp : S} {st : Store S} {v ins} (h : Inputs g inp st v ins) (hne : g.inEdges v ≠ []) :
    ins.length = (g.inEdges v).length := by
  rcases h with ⟨h, _⟩ | ⟨_, h⟩
  · exact absurd h hne
  · simpa using (congrArg List.length h).symm

theorem Acts.flow {P : Prop_ n} {T D : Signal n → Signal n} {good : Optic n → Prop} (hA : Acts P T D good) {g : Graph} (hw : g.WF)
    {optic : Comp → Optic n} {conn : Comp → Connector} {hasNoise : Comp → Bool} (hp : Plumbed g optic conn)
    (hg : ∀ e ∈ g.edges, good (optic e.comp)) {inp : Signal n} {st : Store (Signal n)}
    (hF : IsFlow g (physics P optic conn hasNoise) inp st) :
    IsFlow g (physics P (fun c => (optic c).mapSource T) conn hasNoise) inp (fun k => (st k).map (actAt g optic T D k)) := by
  refine hF.transfer _ (fun m hm ins outs hin hno => ?_)
  have hnode : ∀ o s i j, (physics P o conn hasNoise).node m.comp s i j = (conn m.comp).apply P s i j := fun _ _ _ _ => rfl
  rw [hnode] at hno
  simp only [hnode]
  -- what an out-edge does
  have hedge : ∀ e ∈ g.edges, ∀ s s2, OnEdge (physics P optic conn hasNoise) e.comp s s2 →
      OnEdge (physics P (fun c => (optic c).mapSource T) conn hasNoise) e.comp (T s) (actAt g optic T D (.edge e.ref) s2) := by
    intro e he s s2 h
    rw [onEdge_physics] at h ⊢
    by_cases hs : ∃ x, optic e.comp = .source x
    · obtain ⟨x, hx⟩ := hs
      rw [(actAt_edge hw optic T D he).2 (by rw [hx]; exact id)]
      rw [hx] at h ⊢
      simp only [Optic.apply] at h
      injection h with h
      rw [← h]; rfl
    · have hs' : ∀ x, optic e.comp ≠ .source x := fun x hx => hs ⟨x, hx⟩
      rw [mapSource_pass T hs']
      by_cases hd : (optic e.comp).IsDetector
      · rw [(actAt_edge hw optic T D he).1 hd]; exact hA.det _ (hg e he) hd _ _ h
      · rw [(actAt_edge hw optic T D he).2 hd]; exact hA.pass _ (hg e he) hd hs' _ _ h
  by_cases hne : g.inEdges m.id = []
  · -- entry
    rcases hin with ⟨_, rfl⟩ | ⟨h, _⟩
    swap
    · exact absurd hne h
    refine ⟨outs, by rw [mapIns, if_pos hne]; exact hno, fun i e s s2 hi hs _ hon => ⟨s, hs, ?_⟩, fun hsink => ?_⟩
    · have he : e ∈ g.outEdges m.id := List.mem_of_getElem? hi
      have he' := mem_outEdges.1 he
      obtain ⟨x, hx⟩ := hp.entry e he'.1 (fun e' h' hd => by
        have : e' ∈ g.inEdges m.id := mem_inEdges.2 ⟨h', hd.trans he'.2⟩
        rw [hne] at this; cases this)
      rw [onEdge_physics] at hon ⊢
      rw [(actAt_edge hw optic T D he'.1).2 (by rw [hx]; exact id)]
      rw [hx] at hon ⊢
      simp only [Optic.apply] at hon
      injection hon with hon
      rw [← hon]; rfl
    · rcases hp.joined m.id (List.mem_map.2 ⟨m, hm, rfl⟩) with ⟨e, he, hd⟩ | ⟨e, he, hd⟩
      · have : e ∈ g.inEdges m.id := mem_inEdges.2 ⟨he, hd⟩
        rw [hne] at this; cases this
      · exact absurd hd (hsink.2 e he)
  · by_cases hdet : ∃ e ∈ g.inEdges m.id, (optic e.comp).IsDetector
    · obtain ⟨e0, he0, hd0⟩ := hdet
      have he0' := mem_inEdges.1 he0
      obtain ⟨hsink, hterm⟩ := hp.exit e0 he0'.1 hd0 m hm he0'.2.symm
      rw [hterm] at hno ⊢
      simp only [Connector.apply] at hno ⊢
      injection hno with hno
      refine ⟨_, rfl, fun i e s s2 hi => ?_, fun _ s h0 => ?_⟩
      · have he := mem_outEdges.1 (List.mem_of_getElem? hi)
        exact absurd he.2 (hsink.2 e he.1)
      · rw [mapIns, if_neg hne]
        have hl := ins_length hin hne
        cases hes : g.inEdges m.id with
        | nil => exact absurd hes hne
        | cons e es =>
          rw [← hno] at h0
          cases hins : ins with
          | nil => rw [hins] at h0; simp at h0
          | cons a as =>
            rw [hins] at h0
            simp only [List.getElem?_cons_zero, Option.some.injEq] at h0
            subst h0
            simp only [List.zipWith_cons_cons, List.getElem?_cons_zero, Option.some.injEq]
            have he : e ∈ g.edges := (mem_inEdges.1 (by rw [hes]; simp : e ∈ g.inEdges m.id)).1
            by_cases hd : (optic e.comp).IsDetector
            · rw [(actAt_edge hw optic T D he).1 hd]
              simp only [actAt]
              rw [if_pos ⟨e, by rw [hes]; rfl, hd⟩]
            · rw [(actAt_edge hw optic T D he).2 hd]
              simp only [actAt]
              rw [if_neg]
              rintro ⟨e', h1, h2⟩
              rw [hes] at h1
              simp only [List.head?_cons, Option.some.injEq] at h1
              exact hd (h1 ▸ h2)
    · have hdet' : ∀ e ∈ g.inEdges m.id, ¬ (optic e.comp).IsDetector := fun e he hd => hdet ⟨e, he, hd⟩
      have hmap : mapIns g (actAt g optic T D) inp m.id ins = ins.map T := by
        rw [mapIns, if_neg hne]
        have hl := ins_length hin hne
        have : ∀ (es : List Edge) (l : List (Signal n)), es.length = l.length → (∀ e ∈ es, e ∈ g.edges ∧ ¬ (optic e.comp).IsDetector) →
            es.zipWith (fun e s => actAt g optic T D (.edge e.ref) s) l = l.map T := by
          intro es
          induction es with
          | nil => intro l h _; cases l with
            | nil => rfl
            | cons a l => simp at h
          | cons e es ih =>
            intro l h h2
            cases l with
            | nil => simp at h
            | cons a l =>
              simp only [List.zipWith_cons_cons, List.map_cons]
              rw [ih l (by simpa using h) (fun e he => h2 e (by simp [he])), (actAt_edge hw optic T D (h2 e (by simp)).1).2 (h2 e (by simp)).2]
        exact this _ _ hl.symm (fun e he => ⟨(mem_inEdges.1 he).1, hdet' e he⟩)
      rw [hmap]
      refine ⟨outs.map T, hA.conn _ _ _ _ _ hno, fun i e s s2 hi hs _ hon => ⟨T s, by simp [hs], ?_⟩, fun _ s h0 => ?_⟩
      · exact hedge e (mem_outEdges.1 (List.mem_of_getElem? hi)).1 s s2 hon
      · simp only [List.getElem?_map, h0, Option.map_some]
        simp only [actAt]
        rw [if_neg]
        rintro ⟨e', h1, h2⟩
        exact hdet' e' (List.mem_of_mem_head? (by simpa using h1)) h2

/-- Result of an action on a propagated system. -/
theorem Acts.propagate {P : Prop_ n} {T D : Signal n → Signal n} {good : Optic n → Prop} (hA : Acts P T D good) {g : Graph} (hw : g.WF)
    {optic : Comp → Optic n} {conn : Comp → Connector} {hasNoise : Comp → Bool} (hp : Plumbed g optic conn)
    (hg : ∀ e ∈ g.edges, good (optic e.comp)) {inp : Signal n} {old st : Store (Signal n)} (old' : Store (Signal n))
    (h : propagate g (physics P optic conn hasNoise) inp old = .ok st) :
    ∃ st', Verif.propagate g (physics P (fun c => (optic c).mapSource T) conn hasNoise) inp old' = .ok st' ∧
      (∀ e ∈ g.edges, ∀ s, st (.edge e.ref) = some s →
        ((optic e.comp).IsDetector → st' (.edge e.ref) = some (D s)) ∧ (¬ (optic e.comp).IsDetector → st' (.edge e.ref) = some (T s))) ∧
      (∀ v s, st (.node v) = some s → (ReadBy g optic v → st' (.node v) = some (D s)) ∧ (¬ ReadBy g optic v → st' (.node v) = some (T s))) ∧
      (∀ k, st k = none → st' k = none) := by
  obtain ⟨ho, hF⟩ := (propagate_iff hw).1 h
  refine ⟨_, (propagate_iff hw).2 ⟨ho, hA.flow hw hp hg hF⟩, fun e he s hs => ⟨fun hd => ?_, fun hd => ?_⟩, fun v s hs => ⟨fun hd => ?_, fun hd => ?_⟩, fun k hk => ?_⟩
  · simp [hs, (actAt_edge hw optic T D he).1 hd]
  · simp [hs, (actAt_edge hw optic T D he).2 hd]
  · simp [hs, actAt, hd]
  · simp [hs, actAt, hd]
  · simp [hk]

/-! ### Superposition -/

/-- `a x + b y`. -/
def mix (a b : ℂ) (x y : Signal n) : Signal n := fun i => a * x i + b * y i

theorem lti_mix (H : Signal n) (a b : ℂ) (x y : Signal n) : lti H (mix a b x y) = mix a b (lti H x) (lti H y) := by
  unfold mix
  rw [lti_add, lti_smul, lti_smul]

theorem conn_mix {P : Prop_ n} (hdt : P.dt ≠ 0) (a b : ℂ) (k : Connector) {s1 s2 o1 o2 : List (Signal n)} {nIn nOut : Nat}
    (hl : s1.length = s2.length) (h1 : k.apply P s1 nIn nOut = .ok o1) (h2 : k.apply P s2 nIn nOut = .ok o2) :
    k.apply P (s1.zipWith (mix a b) s2) nIn nOut = .ok (o1.zipWith (mix a b) o2) := by
  have hat : ∀ t : Fin n, (s1.zipWith (mix a b) s2).map (· t) = (s1.map (· t)).zipWith (fun x y => a * x + b * y) (s2.map (· t)) := fun t => by
    rw [List.map_zipWith, List.zipWith_map]; rfl
  cases k with
  | terminal =>
    simp only [Connector.apply] at h1 h2 ⊢
    injection h1 with h1; injection h2 with h2; rw [h1, h2]
  | splitter r =>
    simp only [Connector.apply, splitSignals] at h1 h2 ⊢
    split at h1
    · cases h1
    rename_i c1
    split at h1
    · cases h1
    rename_i c2
    rw [← hl, if_neg c1, if_neg c2] at h2
    injection h1 with h1; injection h2 with h2
    rw [List.length_zipWith, ← hl, min_self, if_neg c1, if_neg c2, ← h1, ← h2, List.zipWith_map, List.zipWith_self]
    congr 1
    refine List.map_congr_left (fun p _ => ?_)
    funext t
    rw [hat, splitRow_add _ _ _ _ _ _ (by simpa using hl)]; rfl
  | freqSplitter r =>
    simp only [Connector.apply, freqSplit] at h1 h2 ⊢
    injection h1 with h1; injection h2 with h2
    rw [← h1, ← h2, List.zipWith_map, List.zipWith_self]
    refine congrArg Except.ok (List.map_congr_left (fun p _ => ?_))
    rw [freqMul_lti _ hdt, freqMul_lti _ hdt, freqMul_lti _ hdt, ← lti_mix]
    congr 1
    funext t
    simp only [sumSignals, hat, mix]
    have : ∀ (l m : List ℂ), l.length = m.length → (l.zipWith (fun x y => a * x + b * y) m).sum = a * l.sum + b * m.sum := by
      intro l
      induction l with
      | nil => intro m h; cases m with
        | nil => simp
        | cons _ _ => simp at h
      | cons x l ih => intro m h; cases m with
        | nil => simp at h
        | cons y m => simp only [List.zipWith_cons_cons, List.sum_cons, ih m (by simpa using h)]; ring
    exact this _ _ (by simpa using hl)

theorem inputs_unique {S : Type} {g : Graph} {inp : S} {st : Store S} {v i1 i2} (h1 : Inputs g inp st v i1) (h2 : Inputs g inp st v i2) : i1 = i2 := by
  rcases h1 with ⟨a, rfl⟩ | ⟨a, h1⟩ <;> rcases h2 with ⟨b, rfl⟩ | ⟨b, h2⟩
  · rfl
  · exact absurd a b
  · exact absurd b a
  · exact map_some_inj (h1.symm.trans h2)

theorem IsFlow.outputs {S : Type} {g : Graph} {B : Behav S} {inp : S} {st : Store S} (hF : IsFlow g B inp st) (hw : g.WF) {m : Node} (hm : m ∈ g.nodes) :
    ∃ outs, Outputs g B inp st m outs := by
  by_cases hs : g.IsSink m.id
  · obtain ⟨outs, _, h, _⟩ := hF.sinks m hm hs; exact ⟨outs, h⟩
  · have : ∃ e ∈ g.edges, e.src = m.id := by
      by_contra hc
      push Not at hc
      exact hs ⟨List.mem_map.2 ⟨m, hm, rfl⟩, hc⟩
    obtain ⟨e, he, hes⟩ := this
    obtain ⟨m', hm', hs', outs, _, _, _, _, h, _⟩ := hF.edges e he
    have : m' = m := List.inj_on_of_nodup_map hw.ids_nodup hm' hm (hs'.trans hes)
    exact ⟨outs, this ▸ h⟩

theorem outputs_unique {S : Type} {g : Graph} {B : Behav S} {inp : S} {st : Store S} {m : Node} {o1 o2} (h1 : Outputs g B inp st m o1)
    (h2 : Outputs g B inp st m o2) : o1 = o2 := by
  obtain ⟨i1, a1, b1⟩ := h1
  obtain ⟨i2, a2, b2⟩ := h2
  rw [inputs_unique a1 a2, b2] at b1
  injection b1 with b1
  exact b1.symm

theorem mapSource_isDetector (T : Signal n → Signal n) (o : Optic n) : (o.mapSource T).IsDetector ↔ o.IsDetector := by cases o <;> rfl

/-- A component that is neither detector nor saturating is linear; a source follows its field. -/
theorem apply_mix {P : Prop_ n} (hdt : P.dt ≠ 0) (a b : ℂ) {o : Optic n} (h1 : ¬ o.IsDetector) (h3 : ¬ o.Saturates) (f1 f2 : Signal n)
    {x y x' y' : Signal n} (hx : (o.mapSource (fun _ => f1)).apply P x = .ok x') (hy : (o.mapSource (fun _ => f2)).apply P y = .ok y') :
    (o.mapSource (fun _ => mix a b f1 f2)).apply P (mix a b x y) = .ok (mix a b x' y') := by
  by_cases hs : ∃ z, o = .source z
  · obtain ⟨z, rfl⟩ := hs
    simp only [Optic.mapSource, Optic.apply] at hx hy ⊢
    injection hx with hx; injection hy with hy
    rw [hx, hy]
  · have hs' : ∀ z, o ≠ .source z := fun z hz => hs ⟨z, hz⟩
    rw [mapSource_pass _ hs'] at hx hy ⊢
    by_cases hm : o.IsModulator
    · obtain ⟨m, hm⟩ := apply_mod (P := P) hm
      rw [hm] at hx hy ⊢
      injection hx with hx; injection hy with hy
      rw [← hx, ← hy]; congr 1; funext j; simp only [mix]; ring
    · rcases apply_lti hdt h1 hm h3 hs' with ⟨H, hH⟩ | ⟨e, he⟩
      · rw [hH] at hx hy ⊢
        injection hx with hx; injection hy with hy
        rw [← hx, ← hy, lti_mix]
      · rw [he] at hx; cases hx

theorem mix_flow {P : Prop_ n} (hdt : P.dt ≠ 0) (a b : ℂ) {g : Graph} (hw : g.WF) {optic : Comp → Optic n} {conn : Comp → Connector}
    {hasNoise : Comp → Bool} (hp : Plumbed g optic conn) (hl : ∀ e ∈ g.edges, ¬ (optic e.comp).IsDetector ∧ ¬ (optic e.comp).Saturates)
    (f1 f2 : Comp → Signal n) {inp : Signal n} {st1 st2 : Store (Signal n)}
    (h1 : IsFlow g (physics P (fun c => (optic c).mapSource (fun _ => f1 c)) conn hasNoise) inp st1)
    (h2 : IsFlow g (physics P (fun c => (optic c).mapSource (fun _ => f2 c)) conn hasNoise) inp st2) :
    IsFlow g (physics P (fun c => (optic c).mapSource (fun _ => mix a b (f1 c) (f2 c))) conn hasNoise) inp
      (fun k => (st1 k).map (fun x => mix a b x ((st2 k).getD 0))) := by
  refine h1.transfer (fun k x => mix a b x ((st2 k).getD 0)) (fun m hm ins outs hin hno => ?_)
  have hnode : ∀ o s i j, (physics P o conn hasNoise).node m.comp s i j = (conn m.comp).apply P s i j := fun _ _ _ _ => rfl
  obtain ⟨outs2, ins2, hin2, hno2⟩ := h2.outputs hw hm
  have hno2' := hno2
  rw [hnode] at hno hno2
  simp only [hnode]
  -- out-edges
  have hout2 : ∀ (i : Nat) (e : Edge) (s2 : Signal n), (g.outEdges m.id)[i]? = some e → st2 (.edge e.ref) = some s2 →
      ∃ s, outs2[i]? = some s ∧ ((optic e.comp).mapSource (fun _ => f2 e.comp)).apply P s = .ok s2 := by
    intro i e s2 hi hst
    have he := mem_outEdges.1 (List.mem_of_getElem? hi)
    obtain ⟨m', hm', hs', outs', i', s, s1, s2', ho, hi', hs, hap, hnz, hst'⟩ := h2.edges e he.1
    have hmm : m' = m := List.inj_on_of_nodup_map hw.ids_nodup hm' hm (hs'.trans he.2)
    subst hmm
    have hoo : outs' = outs2 := outputs_unique ho ⟨ins2, hin2, hno2'⟩
    subst hoo
    have hii : i' = i := by
      have hnd := outEdges_refs hw e.src
      rw [he.2] at hi' hnd
      have hlt : i' < ((g.outEdges m'.id).map Edge.ref).length := by
        rw [List.length_map]; exact (List.getElem?_eq_some_iff.1 hi').1
      refine (List.getElem?_inj hlt hnd).1 ?_
      rw [List.getElem?_map, List.getElem?_map, hi, hi']
    subst hii
    rw [hst'] at hst; injection hst with hst
    refine ⟨s, hs, ?_⟩
    have := (onEdge_physics (P := P) (conn := conn) (hasNoise := hasNoise) (optic := fun c => (optic c).mapSource (fun _ => f2 c)) (c := e.comp) (s := s) (s2 := s2)).1
      ⟨s1, hap, by rw [← hst]; exact hnz⟩
    exact this
  have hex2 : ∀ e ∈ g.edges, ∃ s, st2 (.edge e.ref) = some s := fun e he => by
    obtain ⟨_, _, _, _, _, _, _, s2, _, _, _, _, _, h⟩ := h2.edges e he
    exact ⟨s2, h⟩
  by_cases hne : g.inEdges m.id = []
  · have hmi : mapIns g (fun k x => mix a b x ((st2 k).getD 0)) inp m.id ins = ins := by
      rcases hin with ⟨_, h⟩ | ⟨h, _⟩
      · rw [mapIns, if_pos hne, h]
      · exact absurd hne h
    rw [hmi]
    refine ⟨outs, hno, fun i e s s2 hi hs _ hon => ⟨s, hs, ?_⟩, fun hsink => ?_⟩
    · have he := mem_outEdges.1 (List.mem_of_getElem? hi)
      obtain ⟨x, hx⟩ := hp.entry e he.1 (fun e' h' hd => by
        have : e' ∈ g.inEdges m.id := mem_inEdges.2 ⟨h', hd.trans he.2⟩
        rw [hne] at this; cases this)
      obtain ⟨t2, ht2⟩ := hex2 e he.1
      obtain ⟨u, _, hu⟩ := hout2 i e t2 hi ht2
      rw [onEdge_physics] at hon ⊢
      simp only [hx, Optic.mapSource, Optic.apply] at hon hu ⊢
      injection hon with hon; injection hu with hu
      rw [ht2, hon, hu]; rfl
    · rcases hp.joined m.id (List.mem_map.2 ⟨m, hm, rfl⟩) with ⟨e, he, hd⟩ | ⟨e, he, hd⟩
      · have : e ∈ g.inEdges m.id := mem_inEdges.2 ⟨he, hd⟩
        rw [hne] at this; cases this
      · exact absurd hd (hsink.2 e he)
  · have l1 := ins_length hin hne
    have l2 := ins_length hin2 hne
    have hmi : mapIns g (fun k x => mix a b x ((st2 k).getD 0)) inp m.id ins = ins.zipWith (mix a b) ins2 := by
      rw [mapIns, if_neg hne]
      rcases hin2 with ⟨h, _⟩ | ⟨_, hin2⟩
      · exact absurd h hne
      have : ∀ (es : List Edge) (l l2 : List (Signal n)), es.map (fun e => st2 (.edge e.ref)) = l2.map some →
          es.zipWith (fun e s => mix a b s ((st2 (.edge e.ref)).getD 0)) l = l.zipWith (mix a b) l2 := by
        intro es
        induction es with
        | nil => intro l l2 h; cases l2 with
          | nil => simp
          | cons _ _ => simp at h
        | cons e es ih =>
          intro l l2 h
          cases l2 with
          | nil => simp at h
          | cons y l2 =>
            simp only [List.map_cons, List.cons.injEq] at h
            cases l with
            | nil => simp
            | cons x l => simp only [List.zipWith_cons_cons, h.1, Option.getD_some, ih l l2 h.2]
      exact this _ _ _ hin2
    rw [hmi]
    refine ⟨outs.zipWith (mix a b) outs2, conn_mix hdt a b _ (l1.trans l2.symm) hno hno2, fun i e s s2 hi hs hst hon => ?_, fun hsink s h0 => ?_⟩
    · have he := mem_outEdges.1 (List.mem_of_getElem? hi)
      obtain ⟨t2, ht2⟩ := hex2 e he.1
      obtain ⟨u, hu, hu2⟩ := hout2 i e t2 hi ht2
      refine ⟨mix a b s u, by simp [List.getElem?_zipWith, hs, hu], ?_⟩
      rw [onEdge_physics] at hon ⊢
      simp only [ht2, Option.getD_some]
      exact apply_mix hdt a b (hl e he.1).1 (hl e he.1).2 _ _ hon hu2
    · obtain ⟨o', u, ho', hu, hst2⟩ := h2.sinks m hm hsink
      have : o' = outs2 := outputs_unique ho' ⟨ins2, hin2, hno2'⟩
      subst this
      simp [List.getElem?_zipWith, h0, hu, hst2]

end Verif
