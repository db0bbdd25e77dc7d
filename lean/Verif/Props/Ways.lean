import Verif.Spec.Ways
import Verif.Props.Fringe
import Verif.Props.Chain
import Mathlib.Algebra.Order.Chebyshev
/-!
# C129: the light in a design is the sum over all its ways
-/

namespace Verif
open Graph

variable {n : Nat}

/-- A connector that works once works on all lights, and is additive in them. -/
theorem conn_additive {P : Prop_ n} (hdt : P.dt ≠ 0) {k : Connector} {E : List Edge} {σ₀ : Edge → Signal n} {outs₀ : List (Signal n)} {nIn nOut i : Nat} {t₀ : Signal n}
    (h : k.apply P (E.map σ₀) nIn nOut = .ok outs₀) (hi : outs₀[i]? = some t₀) :
    ∃ G : (Edge → Signal n) →+ Signal n, ∀ σ, ∃ outs, k.apply P (E.map σ) nIn nOut = .ok outs ∧ outs[i]? = some (G σ) := by
  have htot : ∀ σ : Edge → Signal n, ∃ t, ∃ outs, k.apply P (E.map σ) nIn nOut = .ok outs ∧ outs[i]? = some t := by
    intro σ
    have hlen : ∀ outs, k.apply P (E.map σ) nIn nOut = .ok outs → outs.length = outs₀.length → ∃ t, ∃ outs, k.apply P (E.map σ) nIn nOut = .ok outs ∧ outs[i]? = some t := by
      intro outs h1 h2
      have hlt := (List.getElem?_eq_some_iff.1 hi).1
      exact ⟨outs[i]'(by omega), outs, h1, List.getElem?_eq_getElem _⟩
    cases k with
    | terminal =>
      simp only [Connector.apply, Except.ok.injEq] at h
      exact hlen _ rfl (by rw [← h]; simp)
    | splitter a =>
      simp only [Connector.apply, splitSignals, List.length_map] at h
      split at h
      · cases h
      · rename_i c1
        split at h
        · cases h
        · rename_i c2
          injection h with h
          refine hlen ((splitWeights a).zipIdx.map (fun p => fun t => splitRow nIn nOut p.1 p.2 ((E.map σ).map (· t)))) ?_ ?_
          · simp only [Connector.apply, splitSignals, List.length_map]
            rw [if_neg c1, if_neg c2]
          · rw [← h]; simp
    | freqSplitter a =>
      simp only [Connector.apply, Except.ok.injEq] at h
      refine hlen (freqSplit P a (E.map σ)) rfl ?_
      rw [← h]; simp [freqSplit]
  choose G hG using htot
  refine ⟨AddMonoidHom.mk' G ?_, hG⟩
  intro σ τ
  obtain ⟨o1, a1, b1⟩ := hG σ
  obtain ⟨o2, a2, b2⟩ := hG τ
  obtain ⟨o3, a3, b3⟩ := hG (σ + τ)
  have := conn_mix hdt 1 1 k (by simp) a1 a2
  rw [List.zipWith_map, List.zipWith_self] at this
  have e : (E.map fun d => mix 1 1 (σ d) (τ d)) = E.map (σ + τ) := List.map_congr_left fun d _ => by funext j; simp [mix]
  rw [e, a3] at this
  injection this with this
  rw [this, List.getElem?_zipWith, b1, b2] at b3
  simp only [Option.some.injEq] at b3
  rw [← b3]
  funext j; simp [mix]

/-- A component that is neither source nor detector nor saturating is additive in the light it is given. -/
theorem apply_additive {P : Prop_ n} (hdt : P.dt ≠ 0) {o : Optic n} (h1 : ¬ o.IsDetector) (h3 : ¬ o.Saturates) (hs : ∀ z, o ≠ .source z) {x y : Signal n} (h : o.apply P x = .ok y) :
    ∃ A : Signal n →+ Signal n, ∀ x, o.apply P x = .ok (A x) := by
  choose A hA using apply_total hdt h
  refine ⟨AddMonoidHom.mk' A ?_, hA⟩
  intro u v
  have := apply_mix hdt 1 1 h1 h3 (fun _ => 0) (fun _ => 0) (by rw [mapSource_pass _ hs]; exact hA u) (by rw [mapSource_pass _ hs]; exact hA v)
  rw [mapSource_pass _ hs] at this
  have e : mix 1 1 u v = u + v := by funext j; simp [mix]
  rw [e, hA] at this
  injection this with this
  rw [this]
  funext j; simp [mix]

/-- An additive map of assignments is the sum over the single assignments, for assignments on a list. -/
theorem additive_split (G : (Edge → Signal n) →+ Signal n) (σ : Edge → Signal n) {l : List Edge} (hl : l.Nodup) :
    G (fun d => if d ∈ l then σ d else 0) = (l.map fun d => G (fun d' => if d' = d then σ d else 0)).sum := by
  induction l with
  | nil => exact map_zero G
  | cons a l ih =>
    rw [List.nodup_cons] at hl
    rw [List.map_cons, List.sum_cons, ← ih hl.2, ← map_add]
    congr 1
    funext d
    by_cases hd : d = a
    · subst hd
      simp [hl.1]
    · simp [hd]

theorem sum_flatMap' {α : Type} (l : List α) (f : α → List (Signal n)) : (l.flatMap f).sum = (l.map fun a => (f a).sum).sum := by
  induction l with
  | nil => rfl
  | cons a l ih => rw [List.flatMap_cons, List.sum_append, ih, List.map_cons, List.sum_cons]

theorem list_sum_at {α : Type} (l : List α) (f : α → Signal n) (i : Fin n) : (l.map fun a => f a i).sum = (l.map f).sum i := by
  induction l with
  | nil => rfl
  | cons a l ih => simp only [List.map_cons, List.sum_cons, ih, Pi.add_apply]

theorem head_mem {g : Graph} {optic : Comp → Optic n} {w : List Edge} (h : Way g optic w) : ∃ d w', w = d :: w' ∧ d ∈ g.edges := by
  cases h with
  | source he hs => exact ⟨_, _, rfl, he⟩
  | next h he hs hj => exact ⟨_, _, rfl, he⟩

/-- The lights along all ways to the end of an edge. -/
structure WaysOn (P : Prop_ n) (g : Graph) (optic : Comp → Optic n) (conn : Comp → Connector) (e : Edge) (L : List (List Edge × Signal n)) : Prop where
  once : (L.map (·.1)).Nodup
  all : ∀ w, w ∈ L.map (·.1) ↔ Way g optic w ∧ w.head? = some e
  light : ∀ p ∈ L, Along P g optic conn p.1 p.2

theorem fed_ways {P : Prop_ n} (hdt : P.dt ≠ 0) {g : Graph} (hw : g.WF) {optic : Comp → Optic n} {conn : Comp → Connector} {hasNoise : Comp → Bool} {inp : Signal n} {st : Store (Signal n)}
    {e : Edge} (hin : g.inEdges e.src ≠ []) {t : Signal n} (hf : Fed g (physics P optic conn hasNoise) inp st e t)
    (hL : ∀ d ∈ g.inEdges e.src, ∃ L, WaysOn P g optic conn d L ∧ st (.edge d.ref) = some (L.map (·.2)).sum) :
    ∃ M, AllWays P g optic conn e M ∧ t = (M.map (·.2)).sum := by
  have hL' : ∀ d, ∃ L, d ∈ g.inEdges e.src → WaysOn P g optic conn d L ∧ st (.edge d.ref) = some (L.map (·.2)).sum := by
    intro d
    by_cases hd : d ∈ g.inEdges e.src
    · obtain ⟨L, h⟩ := hL d hd
      exact ⟨L, fun _ => h⟩
    · exact ⟨[], fun h => absurd h hd⟩
  choose L hL using hL'
  obtain ⟨v, hv, hid, outs, i, ⟨ins, h1, h2⟩, ho, hi⟩ := hf
  rw [hid] at h1 h2
  rcases h1 with ⟨k, -⟩ | ⟨-, h1⟩
  · exact absurd k hin
  have hins : ins = (g.inEdges e.src).map fun d => ((L d).map (·.2)).sum := by
    refine (List.map_inj_right fun _ _ h => by injection h).1 (h1.symm.trans ?_)
    rw [List.map_map]
    exact List.map_congr_left fun d hd => (hL d hd).2
  subst hins
  have h2 : (conn v.comp).apply P _ _ _ = .ok outs := h2
  obtain ⟨G, hG⟩ := conn_additive hdt h2 hi
  have hnd : (g.inEdges e.src).Nodup := (List.Nodup.of_map _ hw.refs_nodup).filter _
  let S : Edge → Signal n →+ Signal n := fun d => G.comp
    { toFun := fun s d' => if d' = d then s else 0, map_zero' := by funext d'; simp, map_add' := fun a b => by funext d'; by_cases h : d' = d <;> simp [h] }
  have hS : ∀ d s, S d s = G (fun d' => if d' = d then s else 0) := fun d s => rfl
  refine ⟨(g.inEdges e.src).flatMap fun d => (L d).map fun p => (p.1, S d p.2), ⟨?_, ?_, ?_⟩, ?_⟩
  · rw [List.map_flatMap]
    simp only [List.map_map]
    rw [List.nodup_flatMap]
    refine ⟨fun d hd => (hL d hd).1.once, ?_⟩
    refine hnd.pairwise_of_forall_ne fun a ha b hb hab => ?_
    intro w h1 h2
    have k1 := ((hL a ha).1.all w).1 h1
    have k2 := ((hL b hb).1.all w).1 h2
    rw [k1.2] at k2
    exact hab (by injection k2.2)
  · intro w
    rw [List.map_flatMap]
    simp only [List.map_map, List.mem_flatMap]
    constructor
    · rintro ⟨d, hd, h⟩
      have k := ((hL d hd).1.all w).1 h
      exact ⟨k.1, d, k.2, (mem_inEdges.1 hd).2⟩
    · rintro ⟨h, d, hd, hj⟩
      obtain ⟨d', w', rfl, hm⟩ := head_mem h
      simp only [List.head?_cons, Option.some.injEq] at hd
      subst hd
      have hd := mem_inEdges.2 ⟨hm, hj⟩
      exact ⟨d', hd, ((hL d' hd).1.all _).2 ⟨h, rfl⟩⟩
  · intro p hp
    simp only [List.mem_flatMap, List.mem_map] at hp
    obtain ⟨d, hd, q, hq, rfl⟩ := hp
    have hj := (mem_inEdges.1 hd).2
    refine ⟨d, q.2, (((hL d hd).1.all q.1).1 (List.mem_map_of_mem hq)).2, (hL d hd).1.light q hq, v, hv, hid, hj, ?_⟩
    obtain ⟨o, a, b⟩ := hG (fun d' => if d' = d then q.2 else 0)
    refine ⟨o, i, ?_, ho, b⟩
    rw [← a, onlyFrom, hj]
    rfl
  · obtain ⟨o, a, b⟩ := hG (fun d => ((L d).map (·.2)).sum)
    rw [a] at h2
    injection h2 with h2
    rw [h2, hi] at b
    injection b with b
    rw [b]
    obtain ⟨o1, a1, b1⟩ := hG (fun d => if d ∈ g.inEdges e.src then ((L d).map (·.2)).sum else 0)
    have e1 : ((g.inEdges e.src).map fun d => if d ∈ g.inEdges e.src then ((L d).map (·.2)).sum else 0) = (g.inEdges e.src).map fun d => ((L d).map (·.2)).sum :=
      List.map_congr_left fun d hd => if_pos hd
    rw [e1, a] at a1
    injection a1 with a1
    rw [← a1, h2, hi] at b1
    injection b1 with b1
    rw [← b, b1, additive_split G _ hnd, List.map_flatMap, sum_flatMap']
    congr 1
    refine List.map_congr_left fun d hd => ?_
    rw [← hS, map_list_sum, List.map_map, List.map_map]
    rfl

/-- **C129, every design has such a list.** -/
theorem ways_on {P : Prop_ n} (hdt : P.dt ≠ 0) {g : Graph} (hw : g.WF) {optic : Comp → Optic n} {conn : Comp → Connector} {hasNoise : Comp → Bool}
    (hent : ∀ e ∈ g.edges, (∀ e' ∈ g.edges, e'.dst ≠ e.src) → ∃ x, optic e.comp = .source x) {inp : Signal n} {old st : Store (Signal n)}
    (h : propagate g (physics P optic conn hasNoise) inp old = .ok st) {e : Edge} (he : e ∈ g.edges) (hl : ∀ d ∈ g.edges, d = e ∨ g.Reach d.dst e.src → ¬ (optic d.comp).IsDetector ∧ ¬ (optic d.comp).Saturates) :
    ∃ L, WaysOn P g optic conn e L ∧ st (.edge e.ref) = some (L.map (·.2)).sum := by
  obtain ⟨⟨order, ho⟩, F⟩ := (propagate_iff hw).1 h
  have ht := topoSort_sound hw ho
  obtain ⟨k, hk⟩ : ∃ k, order.idxOf e.src = k := ⟨_, rfl⟩
  induction k using Nat.strong_induction_on generalizing e with
  | _ k ih =>
    obtain ⟨t, y, hf, ha, hst⟩ := fed_exists F he
    by_cases hs : ∃ x, optic e.comp = .source x
    · obtain ⟨x, hx⟩ := hs
      rw [hx] at ha
      injection ha with ha
      refine ⟨[([e], x)], ⟨by simp, ?_, ?_⟩, by simp [hst, ← ha]⟩
      · intro w
        simp only [List.map_cons, List.map_nil, List.mem_singleton]
        constructor
        · rintro rfl
          exact ⟨.source he hx, rfl⟩
        · rintro ⟨hw, hh⟩
          cases hw with
          | source he' hs' => simpa using hh
          | next h' he' hs' hj =>
            simp only [List.head?_cons, Option.some.injEq] at hh
            subst hh
            exact absurd hx (hs' x)
      · intro p hp
        simp only [List.mem_singleton] at hp
        subst hp
        exact .source hx
    · have hs' : ∀ x, optic e.comp ≠ .source x := fun x hx => hs ⟨x, hx⟩
      have hin : g.inEdges e.src ≠ [] := by
        intro h0
        refine hs (hent e he fun e' he' hd => ?_)
        have := mem_inEdges.2 ⟨he', hd⟩
        rw [h0] at this
        cases this
      obtain ⟨M, hM, rfl⟩ := fed_ways hdt hw hin hf fun d hd => by
        obtain ⟨hdm, hj⟩ := mem_inEdges.1 hd
        refine ih _ ?_ hdm (fun d' hd' hr => hl d' hd' (.inr ?_)) rfl
        · rw [← hk, ← hj]; exact ht.forward d hdm
        · rcases hr with rfl | hr
          · rw [hj]; exact .refl
          · exact hr.trans (.single ⟨d, hdm, rfl, hj⟩)
      obtain ⟨hd1, hd2⟩ := hl e he (.inl rfl)
      obtain ⟨A, hA⟩ := apply_additive hdt hd1 hd2 hs' ha
      refine ⟨M.map fun p => (e :: p.1, A p.2), ⟨?_, ?_, ?_⟩, ?_⟩
      · rw [List.map_map]
        have : (M.map ((·.1) ∘ fun p => (e :: p.1, A p.2))) = (M.map (·.1)).map (e :: ·) := by rw [List.map_map]; rfl
        rw [this]
        exact hM.once.map fun _ _ h => by injection h
      · intro w
        have : ((M.map fun p => (e :: p.1, A p.2)).map (·.1)) = (M.map (·.1)).map (e :: ·) := by rw [List.map_map, List.map_map]; rfl
        rw [this, List.mem_map]
        constructor
        · rintro ⟨u, hu, rfl⟩
          obtain ⟨h1, d, h2, h3⟩ := (hM.all u).1 hu
          obtain ⟨d', u', rfl, hm⟩ := head_mem h1
          simp only [List.head?_cons, Option.some.injEq] at h2
          subst h2
          exact ⟨.next h1 he hs' h3, rfl⟩
        · rintro ⟨hw', hh⟩
          cases hw' with
          | source he' hx =>
            simp only [List.head?_cons, Option.some.injEq] at hh
            subst hh
            exact absurd hx (hs' _)
          | next h' he' _ hj =>
            simp only [List.head?_cons, Option.some.injEq] at hh
            subst hh
            exact ⟨_, (hM.all _).2 ⟨h', _, rfl, hj⟩, rfl⟩
      · intro p hp
        simp only [List.mem_map] at hp
        obtain ⟨q, hq, rfl⟩ := hp
        obtain ⟨d, s, h1, h2, h3⟩ := hM.light q hq
        obtain ⟨d', u', hu, -⟩ := head_mem ((hM.all q.1).1 (List.mem_map_of_mem hq)).1
        simp only at h1 h2 hu ⊢
        rw [hu] at h1 h2 ⊢
        simp only [List.head?_cons, Option.some.injEq] at h1
        subst h1
        exact .next h2 h3 (hA _)
      · rw [hA] at ha
        injection ha with ha
        rw [hst, ← ha, map_list_sum, List.map_map, List.map_map]
        rfl

theorem handsOn_unique {P : Prop_ n} {g : Graph} (hw : g.WF) {conn : Comp → Connector} {d e : Edge} {s t t' : Signal n}
    (h : HandsOn P g conn d s e t) (h' : HandsOn P g conn d s e t') : t = t' := by
  obtain ⟨v, hv, hid, -, outs, i, a1, a2, a3⟩ := h
  obtain ⟨v', hv', hid', -, outs', i', b1, b2, b3⟩ := h'
  obtain rfl : v' = v := List.inj_on_of_nodup_map hw.ids_nodup hv' hv (hid'.trans hid.symm)
  rw [a1] at b1
  injection b1 with b1
  subst b1
  have : i' = i := (List.getElem?_inj (List.getElem?_eq_some_iff.1 b2).1 (outEdges_nodup hw _)).1 (b2.trans a2.symm)
  subst this
  rw [a3] at b3
  injection b3

theorem along_unique {P : Prop_ n} {g : Graph} (hw : g.WF) {optic : Comp → Optic n} {conn : Comp → Connector} {w : List Edge} {s s' : Signal n}
    (h : Along P g optic conn w s) (h' : Along P g optic conn w s') : s = s' := by
  induction h generalizing s' with
  | source hs =>
    cases h' with
    | source hs' => rw [hs] at hs'; injection hs'
  | next h hn hy ih =>
    cases h' with
    | next k kn ky =>
      obtain rfl := ih k
      obtain rfl := handsOn_unique hw hn kn
      rw [hy] at ky
      injection ky

/-- Two lists of all ways hold the same ways with the same lights. -/
theorem allWays_perm {P : Prop_ n} {g : Graph} (hw : g.WF) {optic : Comp → Optic n} {conn : Comp → Connector} {e : Edge} {M M' : List (List Edge × Signal n)}
    (h : AllWays P g optic conn e M) (h' : AllWays P g optic conn e M') : M.Perm M' := by
  have sub : ∀ {M M' : List (List Edge × Signal n)}, AllWays P g optic conn e M → AllWays P g optic conn e M' → ∀ p ∈ M, p ∈ M' := by
    intro M M' h h' p hp
    obtain ⟨q, hq, hqp⟩ := List.mem_map.1 ((h'.all p.1).2 ((h.all p.1).1 (List.mem_map_of_mem hp)))
    obtain ⟨d, s, a1, a2, a3⟩ := h.light p hp
    obtain ⟨d', s', b1, b2, b3⟩ := h'.light q hq
    rw [hqp] at b1 b2
    rw [a1] at b1
    injection b1 with b1
    subst b1
    obtain rfl := along_unique hw a2 b2
    have := handsOn_unique hw a3 b3
    rwa [show p = q from Prod.ext hqp.symm this]
  exact (List.perm_ext_iff_of_nodup (List.Nodup.of_map _ h.once) (List.Nodup.of_map _ h'.once)).2 fun p => ⟨sub h h' p, sub h' h p⟩

/-- **C129.** The light every component of a design is given is the sum over all ways on which light can come to it, of the light that comes on that way as if there were no other: whatever the design, as long as
what lies upstream is linear (no saturating amplifiers, no detectors in the middle).  The list of ways exists, and every list of all ways will do. -/
theorem C129_sum (hn : 2 ≤ n) {P : Prop_ n} (hwin : 0 < P.window) {g : Graph} (hw : g.WF) {optic : Comp → Optic n} {conn : Comp → Connector} {hasNoise : Comp → Bool}
    (hent : ∀ e ∈ g.edges, (∀ e' ∈ g.edges, e'.dst ≠ e.src) → ∃ x, optic e.comp = .source x) {inp : Signal n} {old st : Store (Signal n)}
    (h : propagate g (physics P optic conn hasNoise) inp old = .ok st) {e : Edge} (he : e ∈ g.edges) (hs : ∀ x, optic e.comp ≠ .source x)
    (hl : ∀ d ∈ g.edges, g.Reach d.dst e.src → ¬ (optic d.comp).IsDetector ∧ ¬ (optic d.comp).Saturates) :
    (∃ M, AllWays P g optic conn e M) ∧
      ∀ M, AllWays P g optic conn e M → ∃ y, (optic e.comp).apply P (M.map (·.2)).sum = .ok y ∧ st (.edge e.ref) = some y := by
  have hdt := dt_ne_zero hn hwin
  obtain ⟨t, y, hf, ha, hst⟩ := fed_exists ((propagate_iff hw).1 h).2 he
  have hin : g.inEdges e.src ≠ [] := by
    intro h0
    obtain ⟨x, hx⟩ := hent e he fun e' he' hd => by
      have := mem_inEdges.2 ⟨he', hd⟩
      rw [h0] at this
      cases this
    exact hs x hx
  obtain ⟨M, hM, rfl⟩ := fed_ways hdt hw hin hf fun d hd => by
    obtain ⟨hdm, hj⟩ := mem_inEdges.1 hd
    refine ways_on hdt hw hent h hdm fun d' hd' hr => hl d' hd' ?_
    rcases hr with rfl | hr
    · rw [hj]; exact .refl
    · exact hr.trans (.single ⟨d, hdm, rfl, hj⟩)
  exact ⟨⟨M, hM⟩, fun M' hM' => ⟨y, by rw [((allWays_perm hw hM' hM).map _).sum_eq]; exact ha, hst⟩⟩

/-- **C129.** What a power meter reads at every sample is the power of the sum over all ways to it. -/
theorem C129_meter (hn : 2 ≤ n) {P : Prop_ n} (hwin : 0 < P.window) {g : Graph} (hw : g.WF) {optic : Comp → Optic n} {conn : Comp → Connector} {hasNoise : Comp → Bool}
    (hent : ∀ e ∈ g.edges, (∀ e' ∈ g.edges, e'.dst ≠ e.src) → ∃ x, optic e.comp = .source x) {inp : Signal n} {old st : Store (Signal n)}
    (h : propagate g (physics P optic conn hasNoise) inp old = .ok st) {e : Edge} (he : e ∈ g.edges) (hm : optic e.comp = .measure)
    (hl : ∀ d ∈ g.edges, g.Reach d.dst e.src → ¬ (optic d.comp).IsDetector ∧ ¬ (optic d.comp).Saturates) {M : List (List Edge × Signal n)} (hM : AllWays P g optic conn e M) :
    st (.edge e.ref) = some (fun i => ((‖(M.map (·.2 i)).sum‖ ^ 2 : ℝ) : ℂ)) := by
  obtain ⟨y, h1, h2⟩ := (C129_sum hn hwin hw hent h he (by intro x; rw [hm]; simp) hl).2 M hM
  rw [hm] at h1
  injection h1 with h1
  rw [h2, ← h1]
  congr 1
  funext i
  rw [list_sum_at]
  rfl

/-- **C129.** With `m` ways to it, a meter reads at most `m` times the sum of the powers that come on them: all it can gain by interference. -/
theorem C129_bound {ι : Type} (M : List (ι × Signal n)) (i : Fin n) : ‖(M.map (·.2 i)).sum‖ ^ 2 ≤ M.length * (M.map fun p => ‖p.2 i‖ ^ 2).sum := by
  have h1 : ‖(M.map (·.2 i)).sum‖ ≤ (M.map fun p => ‖p.2 i‖).sum := by
    induction M with
    | nil => simp
    | cons a M ih => simpa using (norm_add_le _ _).trans (by gcongr)
  have h2 : ((M.map fun p => ‖p.2 i‖).sum) ^ 2 ≤ M.length * (M.map fun p => ‖p.2 i‖ ^ 2).sum := by
    have := sq_sum_le_card_mul_sum_sq (s := (Finset.univ : Finset (Fin M.length))) (f := fun k => ‖(M[k]).2 i‖)
    have e1 : (M.map fun p => ‖p.2 i‖).sum = ∑ k : Fin M.length, ‖(M[k]).2 i‖ := by
      rw [← List.sum_ofFn]; congr 1; exact (List.ofFn_getElem_eq_map M _).symm
    have e2 : (M.map fun p => ‖p.2 i‖ ^ 2).sum = ∑ k : Fin M.length, ‖(M[k]).2 i‖ ^ 2 := by
      rw [← List.sum_ofFn]; congr 1; exact (List.ofFn_getElem_eq_map M _).symm
    rw [e1, e2]
    simpa using this
  exact (pow_le_pow_left₀ (norm_nonneg _) h1 2).trans h2

/-- **C129.** In a design that runs, at least one way leads to every component that is not a source. -/
theorem C129_some_way {P : Prop_ n} {g : Graph} (hw : g.WF) {optic : Comp → Optic n} {conn : Comp → Connector} {hasNoise : Comp → Bool}
    (hent : ∀ e ∈ g.edges, (∀ e' ∈ g.edges, e'.dst ≠ e.src) → ∃ x, optic e.comp = .source x) {inp : Signal n} {old st : Store (Signal n)}
    (h : propagate g (physics P optic conn hasNoise) inp old = .ok st) {e : Edge} (he : e ∈ g.edges) (hs : ∀ x, optic e.comp ≠ .source x)
    {M : List (List Edge × Signal n)} (hM : AllWays P g optic conn e M) : M ≠ [] := by
  obtain ⟨⟨order, ho⟩, -⟩ := (propagate_iff hw).1 h
  have ht := topoSort_sound hw ho
  have before : ∀ d ∈ g.edges, (∀ x, optic d.comp ≠ .source x) → ∃ d' ∈ g.edges, d'.dst = d.src := by
    intro d hd hs
    by_contra hc
    push Not at hc
    obtain ⟨x, hx⟩ := hent d hd hc
    exact hs x hx
  have key : ∀ k, ∀ d ∈ g.edges, order.idxOf d.src = k → ∃ w, Way g optic (d :: w) := by
    intro k
    induction k using Nat.strong_induction_on with
    | _ k ih =>
      intro d hd hk
      by_cases hx : ∃ x, optic d.comp = .source x
      · obtain ⟨x, hx⟩ := hx
        exact ⟨[], .source hd hx⟩
      · have hx' : ∀ x, optic d.comp ≠ .source x := fun x h => hx ⟨x, h⟩
        obtain ⟨d', hd', hj⟩ := before d hd hx'
        obtain ⟨w, hw'⟩ := ih _ (by rw [← hk, ← hj]; exact ht.forward d' hd') d' hd' rfl
        exact ⟨_, .next hw' hd hx' hj⟩
  rintro rfl
  obtain ⟨d, hd, hj⟩ := before e he hs
  obtain ⟨w, hw'⟩ := key _ d hd rfl
  have := (hM.all _).2 ⟨hw', d, rfl, hj⟩
  simp at this

/-- **C129.** Where light is nowhere brought together there is one way at most to any component. -/
theorem C129_single {P : Prop_ n} {g : Graph} {optic : Comp → Optic n} {conn : Comp → Connector} (hj : ∀ v, (g.inEdges v).length ≤ 1) {e : Edge} {M : List (List Edge × Signal n)}
    (hM : AllWays P g optic conn e M) : M.length ≤ 1 := by
  have same : ∀ d d' : Edge, d ∈ g.edges → d' ∈ g.edges → d.dst = d'.dst → d = d' := by
    intro d d' h1 h2 h3
    have a := mem_inEdges.2 ⟨h1, h3⟩
    have b := mem_inEdges.2 ⟨h2, rfl⟩
    have := hj d'.dst
    match hi : g.inEdges d'.dst, this with
    | [], _ => rw [hi] at a; cases a
    | [x], _ =>
      rw [hi, List.mem_singleton] at a b
      rw [a, b]
  have uniq : ∀ w w', Way g optic w → Way g optic w' → w.head? = w'.head? → w = w' := by
    intro w w' h
    induction h generalizing w' with
    | source he hs =>
      intro h' hh
      cases h' with
      | source he' hs' => simpa using hh
      | next k ke ks kj =>
        simp only [List.head?_cons, Option.some.injEq] at hh
        subst hh
        exact absurd hs (ks _)
    | next h1 h2 h3 h4 ih =>
      intro h' hh
      cases h' with
      | source he' hs' =>
        simp only [List.head?_cons, Option.some.injEq] at hh
        subst hh
        exact absurd hs' (h3 _)
      | next k ke ks kj =>
        simp only [List.head?_cons, Option.some.injEq] at hh
        subst hh
        obtain ⟨_, _, e1, m1⟩ := head_mem h1
        obtain ⟨_, _, e2, m2⟩ := head_mem k
        injection e1 with e1 _
        injection e2 with e2 _
        subst e1 e2
        rw [ih _ k (by rw [same _ _ m1 m2 (h4.trans kj.symm)]; rfl)]
  match M, hM with
  | [], _ => simp
  | [p], _ => simp
  | p :: q :: M, hM =>
    exfalso
    obtain ⟨h1, d1, a1, b1⟩ := (hM.all p.1).1 (by simp)
    obtain ⟨h2, d2, a2, b2⟩ := (hM.all q.1).1 (by simp)
    obtain ⟨_, _, e1, m1⟩ := head_mem h1
    obtain ⟨_, _, e2, m2⟩ := head_mem h2
    have hd : p.1 = q.1 := by
      refine uniq _ _ h1 h2 ?_
      rw [a1, a2]
      rw [e1] at a1
      rw [e2] at a2
      simp only [List.head?_cons, Option.some.injEq] at a1 a2
      subst a1 a2
      rw [same _ _ m1 m2 (b1.trans b2.symm)]
    have := hM.once
    simp [hd] at this

theorem handsOn_smul {P : Prop_ n} (hdt : P.dt ≠ 0) {g : Graph} {conn : Comp → Connector} {d e : Edge} {s t : Signal n} (h : HandsOn P g conn d s e t) (c : ℂ) :
    HandsOn P g conn d (fun i => c * s i) e (fun i => c * t i) := by
  obtain ⟨v, hv, hid, hj, outs, i, a1, a2, a3⟩ := h
  refine ⟨v, hv, hid, hj, _, i, ?_, a2, by rw [List.getElem?_map, a3]; rfl⟩
  have := conn_smul hdt c _ a1
  rw [← this, onlyFrom, onlyFrom, List.map_map]
  congr 1
  refine List.map_congr_left fun d' _ => ?_
  by_cases hd : d' = d <;> simp [hd]

theorem apply_smul {P : Prop_ n} (hdt : P.dt ≠ 0) {o : Optic n} (h1 : ¬ o.IsDetector) (h3 : ¬ o.Saturates) (hs : ∀ z, o ≠ .source z) {x y : Signal n} (h : o.apply P x = .ok y) (c : ℂ) :
    o.apply P (fun i => c * x i) = .ok (fun i => c * y i) := by
  have := apply_mix hdt c 0 h1 h3 (fun _ => 0) (fun _ => 0) (by rw [mapSource_pass _ hs]; exact h) (by rw [mapSource_pass _ hs]; exact h)
  rw [mapSource_pass _ hs] at this
  have e : ∀ z : Signal n, mix c 0 z z = fun i => c * z i := fun z => by funext i; simp [mix]
  rwa [e, e] at this

theorem way_reach {g : Graph} {optic : Comp → Optic n} {w : List Edge} (h : Way g optic w) : ∀ d, w.head? = some d → ∀ d' ∈ w, d' ∈ g.edges ∧ g.Reach d'.dst d.dst := by
  induction h with
  | source he hs =>
    intro d hd d' hd'
    simp only [List.head?_cons, Option.some.injEq] at hd
    subst hd
    rw [List.mem_singleton] at hd'
    subst hd'
    exact ⟨he, .refl⟩
  | next h1 h2 h3 h4 ih =>
    intro d hd d' hd'
    simp only [List.head?_cons, Option.some.injEq] at hd
    subst hd
    rcases List.mem_cons.1 hd' with rfl | hd'
    · exact ⟨h2, .refl⟩
    · obtain ⟨k1, k2⟩ := ih _ rfl d' hd'
      exact ⟨k1, k2.trans (.single ⟨_, h2, h4.symm, rfl⟩)⟩

/-- The light along a way when every component on it is exchanged for one that gives `c` times as much. -/
theorem along_factors {P : Prop_ n} (hdt : P.dt ≠ 0) {g : Graph} {optic optic' : Comp → Optic n} {conn : Comp → Connector} {c : Edge → ℂ} {w : List Edge} {s : Signal n}
    (h : Along P g optic conn w s) (hw : Way g optic w) (hl : ∀ d ∈ w, ¬ (optic d.comp).IsDetector ∧ ¬ (optic d.comp).Saturates)
    (hsrc : ∀ d ∈ w, ∀ x, optic d.comp = .source x → optic' d.comp = .source (fun i => c d * x i))
    (hc : ∀ d ∈ w, ∀ x y, (optic d.comp).apply P x = .ok y → (optic' d.comp).apply P x = .ok (fun i => c d * y i)) :
    Along P g optic' conn w (fun i => (w.map c).prod * s i) := by
  induction h with
  | source hs =>
    have := Along.source (P := P) (g := g) (conn := conn) (hsrc _ (List.mem_singleton_self _) _ hs)
    simpa using this
  | @next e d w s t y h hn hy ih =>
    cases hw with
    | next k ke ks kj =>
      have k1 := ih k (fun d hd => hl d (List.mem_cons_of_mem _ hd)) (fun d hd => hsrc d (List.mem_cons_of_mem _ hd)) (fun d hd => hc d (List.mem_cons_of_mem _ hd))
      have k2 := handsOn_smul hdt hn (((d :: w).map c).prod)
      obtain ⟨l1, l2⟩ := hl _ List.mem_cons_self
      have k3 := hc _ List.mem_cons_self _ _ (apply_smul hdt l1 l2 ks hy (((d :: w).map c).prod))
      have := Along.next k1 k2 k3
      convert this using 2
      rw [List.map_cons (a := e), List.prod_cons]
      ring

theorem way_same {g : Graph} {optic optic' : Comp → Optic n} (hs : ∀ d ∈ g.edges, (∃ x, optic d.comp = .source x) ↔ ∃ x, optic' d.comp = .source x) {w : List Edge} (h : Way g optic w) :
    Way g optic' w := by
  induction h with
  | source he hx =>
    obtain ⟨x, hx'⟩ := (hs _ he).1 ⟨_, hx⟩
    exact .source he hx'
  | next h1 h2 h3 h4 ih =>
    exact .next ih h2 (fun x hx => by
      obtain ⟨y, hy⟩ := (hs _ h2).2 ⟨x, hx⟩
      exact h3 y hy) h4

/-- **C129.** Exchanging components for others that give `c` times as much light (phase shifters with another setting, attenuators with another attenuation, lasers with another power, …) multiplies the
light on each way by the factors of the components on it: from the lights on the ways in one setting of a design, the readings in all others are known. -/
theorem C129_factors (hn : 2 ≤ n) {P : Prop_ n} (hwin : 0 < P.window) {g : Graph} (hw : g.WF) {optic optic' : Comp → Optic n} {conn : Comp → Connector} {hasNoise : Comp → Bool}
    (hent : ∀ e ∈ g.edges, (∀ e' ∈ g.edges, e'.dst ≠ e.src) → ∃ x, optic e.comp = .source x) {inp : Signal n} {old' st' : Store (Signal n)}
    (h : propagate g (physics P optic' conn hasNoise) inp old' = .ok st') {e : Edge} (he : e ∈ g.edges) (hm : optic' e.comp = .measure)
    (hl : ∀ d ∈ g.edges, g.Reach d.dst e.src → (¬ (optic d.comp).IsDetector ∧ ¬ (optic d.comp).Saturates) ∧ ¬ (optic' d.comp).IsDetector ∧ ¬ (optic' d.comp).Saturates)
    {c : Edge → ℂ} (hs : ∀ d ∈ g.edges, (∃ x, optic d.comp = .source x) ↔ ∃ x, optic' d.comp = .source x)
    (hc : ∀ d ∈ g.edges, g.Reach d.dst e.src → ∀ x y, (optic d.comp).apply P x = .ok y → (optic' d.comp).apply P x = .ok (fun i => c d * y i))
    {M : List (List Edge × Signal n)} (hM : AllWays P g optic conn e M) :
    st' (.edge e.ref) = some (fun i => ((‖(M.map fun p => (p.1.map c).prod * p.2 i).sum‖ ^ 2 : ℝ) : ℂ)) := by
  have hdt := dt_ne_zero hn hwin
  have hM' : AllWays P g optic' conn e (M.map fun p => (p.1, fun i => (p.1.map c).prod * p.2 i)) := by
    have hk : (M.map fun p => (p.1, fun i => (p.1.map c).prod * p.2 i)).map (·.1) = M.map (·.1) := by rw [List.map_map]; rfl
    refine ⟨by rw [hk]; exact hM.once, fun w => ?_, fun p hp => ?_⟩
    · rw [hk, hM.all w]
      exact and_congr_left' ⟨way_same hs, way_same fun d hd => (hs d hd).symm⟩
    · obtain ⟨q, hq, rfl⟩ := List.mem_map.1 hp
      obtain ⟨d, s, a1, a2, a3⟩ := hM.light q hq
      have hway := ((hM.all q.1).1 (List.mem_map_of_mem hq)).1
      have hj : d.dst = e.src := by
        obtain ⟨_, _, _, hj, -⟩ := a3
        exact hj
      have hr : ∀ d' ∈ q.1, d' ∈ g.edges ∧ g.Reach d'.dst e.src := fun d' hd' => hj ▸ way_reach hway d a1 d' hd'
      refine ⟨d, _, a1, along_factors hdt a2 hway (fun d' hd' => (hl d' (hr d' hd').1 (hr d' hd').2).1) (fun d' hd' x hx => ?_)
        (fun d' hd' => hc d' (hr d' hd').1 (hr d' hd').2), handsOn_smul hdt a3 _⟩
      obtain ⟨x', hx'⟩ := (hs d' (hr d' hd').1).1 ⟨x, hx⟩
      have := hc d' (hr d' hd').1 (hr d' hd').2 x x (by rw [hx]; rfl)
      rw [hx'] at this
      injection this with this
      rw [hx', this]
  have hent' : ∀ e ∈ g.edges, (∀ e' ∈ g.edges, e'.dst ≠ e.src) → ∃ x, optic' e.comp = .source x := fun e he k => (hs e he).1 (hent e he k)
  rw [C129_meter hn hwin hw hent' h he hm (fun d hd k => (hl d hd k).2) hM']
  simp only [List.map_map]
  rfl

/-- **C129, the interference pattern of any design.** When all phase shifters are turned at once, each by any amount, the light on each way is turned by the sum of the turns on it: the readings at all settings of
all phase shifters are known from the lights on the ways at one setting. -/
theorem C129_pattern (hn : 2 ≤ n) {P : Prop_ n} (hwin : 0 < P.window) {g : Graph} (hw : g.WF) {optic : Comp → Optic n} {conn : Comp → Connector} {hasNoise : Comp → Bool}
    (hent : ∀ e ∈ g.edges, (∀ e' ∈ g.edges, e'.dst ≠ e.src) → ∃ x, optic e.comp = .source x) {inp : Signal n} {old st : Store (Signal n)}
    (h : propagate g (physics P optic conn hasNoise) inp old = .ok st) {e : Edge} (he : e ∈ g.edges) (hm : optic e.comp = .measure)
    (hl : ∀ d ∈ g.edges, g.Reach d.dst e.src → ¬ (optic d.comp).IsDetector ∧ ¬ (optic d.comp).Saturates) :
    ∃ M, AllWays P g optic conn e M ∧ ∀ (Δ : Comp → ℝ) (old' : Store (Signal n)), ∃ st', propagate g (physics P (turnedBy Δ optic) conn hasNoise) inp old' = .ok st' ∧
      st' (.edge e.ref) = some (fun i => ((‖(M.map fun p => Complex.exp (turnOf Δ optic p.1 * Complex.I) * p.2 i).sum‖ ^ 2 : ℝ) : ℂ)) := by
  classical
  have hdt := dt_ne_zero hn hwin
  obtain ⟨M, hM⟩ := (C129_sum hn hwin hw hent h he (by intro x; rw [hm]; simp) hl).1
  refine ⟨M, hM, fun Δ old' => ?_⟩
  let c : Edge → ℂ := fun d => if ∃ φ, optic d.comp = .phaseShifter φ then Complex.exp (Δ d.comp * Complex.I) else 1
  have hfac : ∀ d : Edge, ∀ x y, (optic d.comp).apply P x = .ok y → (turnedBy Δ optic d.comp).apply P x = .ok (fun i => c d * y i) := by
    intro d x y hy
    by_cases hd : ∃ φ, optic d.comp = .phaseShifter φ
    · obtain ⟨φ, hφ⟩ := hd
      have hcd : c d = Complex.exp (Δ d.comp * Complex.I) := if_pos ⟨φ, hφ⟩
      rw [hφ] at hy
      simp only [turnedBy, hφ]
      simp only [Optic.apply, phaseShifter, Bool.false_eq_true, if_false, freqMul_const _ hdt, Except.ok.injEq] at hy ⊢
      rw [← hy, hcd]
      funext i
      rw [← mul_assoc, ← Complex.exp_add]
      congr 2
      push_cast
      ring
    · have hcd : c d = 1 := if_neg hd
      have : turnedBy Δ optic d.comp = optic d.comp := by
        unfold turnedBy
        split
        · rename_i φ hφ
          exact absurd ⟨φ, hφ⟩ hd
        · rfl
      rw [this, hy, hcd]
      simp
  obtain ⟨st', h'⟩ := rerun hw h (optic' := turnedBy Δ optic) (fun d hd s s1 k t => apply_total hdt (hfac d s s1 k) t) old'
  refine ⟨st', h', ?_⟩
  have key := C129_factors (optic' := turnedBy Δ optic) (c := c) hn hwin hw hent h' he (by simp [turnedBy, hm]) (fun d hd hr => ⟨hl d hd hr, ?_⟩) (fun d hd => ?_) (fun d hd hr => hfac d) hM
  · rw [key]
    have : ∀ w : List Edge, (w.map c).prod = Complex.exp (turnOf Δ optic w * Complex.I) := by
      intro w
      induction w with
      | nil => simp [turnOf]
      | cons d w ih =>
        rw [List.map_cons, List.prod_cons, ih]
        by_cases hd : ∃ φ, optic d.comp = .phaseShifter φ
        · have hcd : c d = Complex.exp (Δ d.comp * Complex.I) := if_pos hd
          have ht : turnOf Δ optic (d :: w) = Δ d.comp + turnOf Δ optic w := by
            unfold turnOf
            rw [List.filter_cons_of_pos (by simpa using hd), List.map_cons, List.sum_cons]
          rw [hcd, ht, ← Complex.exp_add]
          congr 1
          push_cast
          ring
        · have hcd : c d = 1 := if_neg hd
          have ht : turnOf Δ optic (d :: w) = turnOf Δ optic w := by
            unfold turnOf
            rw [List.filter_cons_of_neg (by simpa using hd)]
          rw [hcd, ht, one_mul]
    simp only [this]
  · have := hl d hd hr
    unfold turnedBy
    split
    · exact ⟨id, id⟩
    · exact this
  · unfold turnedBy
    split
    · rename_i φ hφ
      rw [hφ]
      simp
    · rfl

namespace WaysExample
open Fixture FringeExample

theorem entry (x : Signal 4) (φ : ℝ) : ∀ e ∈ coupler.edges, (∀ e' ∈ coupler.edges, e'.dst ≠ e.src) → ∃ y, FringeExample.optic x φ e.comp = .source y := by
  intro e he hs
  simp only [coupler, List.mem_cons, List.not_mem_nil, or_false] at he
  rcases he with rfl | rfl | rfl | rfl | rfl
  · exact ⟨x, rfl⟩
  · exact absurd rfl (hs ⟨0, 1, 0, laser 4, 10⟩ (by decide))
  · exact absurd rfl (hs ⟨0, 1, 0, laser 4, 10⟩ (by decide))
  · exact absurd rfl (hs ⟨1, 2, 0, Fixture.fiber 5, 30⟩ (by decide))
  · exact absurd rfl (hs ⟨1, 2, 0, Fixture.fiber 5, 30⟩ (by decide))

theorem upstream (x : Signal 4) (φ : ℝ) : ∀ d ∈ coupler.edges, coupler.Reach d.dst 2 → ¬ (FringeExample.optic x φ d.comp).IsDetector ∧ ¬ (FringeExample.optic x φ d.comp).Saturates := by
  intro d hd hr
  have hend : ∀ v, (∀ e ∈ coupler.edges, e.src ≠ v) → v ≠ 2 → ¬ coupler.Reach v 2 := by
    intro v h1 h2 h3
    rcases Relation.ReflTransGen.cases_head h3 with h | ⟨u, ⟨e, he, hs, -⟩, -⟩
    · exact h2 h
    · exact h1 e he hs
  simp only [coupler, List.mem_cons, List.not_mem_nil, or_false] at hd
  rcases hd with rfl | rfl | rfl | rfl | rfl
  · exact ⟨id, id⟩
  · exact ⟨id, id⟩
  · exact ⟨id, id⟩
  · exact absurd hr (hend 3 (by decide) (by decide))
  · exact absurd hr (hend 4 (by decide) (by decide))

/-- The way through the phase shifter and the way through the modulator. -/
theorem two_ways (x : Signal 4) (φ : ℝ) : Way coupler (FringeExample.optic x φ) [⟨1, 2, 0, Fixture.fiber 5, 30⟩, ⟨0, 1, 0, laser 4, 10⟩] ∧
    Way coupler (FringeExample.optic x φ) [⟨1, 2, 1, shaper 6, 31⟩, ⟨0, 1, 0, laser 4, 10⟩] := by
  have h0 : Way coupler (FringeExample.optic x φ) [⟨0, 1, 0, laser 4, 10⟩] := .source (x := x) (by decide) rfl
  exact ⟨.next h0 (by decide) (by intro y h; cases h) rfl, .next h0 (by decide) (by intro y h; cases h) rfl⟩

/-- `C129_sum`, `C129_meter`, `C129_some_way`, `C129_bound`: the meter behind a coupler reads the power of the sum over two ways at least, one through the phase shifter and one through the modulator. -/
example (x inp : Signal 4) (φ : ℝ) : ∃ st M, AllWays demoProp coupler (FringeExample.optic x φ) FringeExample.conn ⟨2, 3, 0, diode 7, 20⟩ M ∧ 2 ≤ M.length ∧
    st (.edge ⟨2, 3, 0⟩) = some (fun i => ((‖(M.map (·.2 i)).sum‖ ^ 2 : ℝ) : ℂ)) ∧ M ≠ [] ∧
    propagate coupler (physics demoProp (FringeExample.optic x φ) FringeExample.conn (fun _ => false)) inp Store.empty = .ok st := by
  obtain ⟨st, h⟩ := coupler_runs x inp φ Store.empty
  have hs : ∀ y, FringeExample.optic x φ (diode 7) ≠ .source y := by intro y h; cases h
  obtain ⟨⟨M, hM⟩, -⟩ := C129_sum (by norm_num) (by norm_num [demoProp]) coupler_wf (entry x φ) h (e := ⟨2, 3, 0, diode 7, 20⟩) (by decide) hs (upstream x φ)
  refine ⟨st, M, hM, ?_, C129_meter (by norm_num) (by norm_num [demoProp]) coupler_wf (entry x φ) h (e := ⟨2, 3, 0, diode 7, 20⟩) (by decide) rfl (upstream x φ) hM,
    C129_some_way coupler_wf (entry x φ) h (e := ⟨2, 3, 0, diode 7, 20⟩) (by decide) hs hM, h⟩
  have h1 := (hM.all _).2 ⟨(two_ways x φ).1, _, rfl, rfl⟩
  have h2 := (hM.all _).2 ⟨(two_ways x φ).2, _, rfl, rfl⟩
  match M, h1, h2 with
  | [], h1, _ => simp at h1
  | [p], h1, h2 =>
    simp only [List.map_cons, List.map_nil, List.mem_singleton] at h1 h2
    rw [← h1] at h2
    exact absurd h2 (by decide)
  | p :: q :: M, _, _ => simp

/-- `C129_pattern` and `C129_factors`: all settings of the phase shifter. -/
example (x inp : Signal 4) : ∃ M, AllWays demoProp coupler (FringeExample.optic x 0) FringeExample.conn ⟨2, 3, 0, diode 7, 20⟩ M ∧ ∀ (Δ : Comp → ℝ) (old' : Store (Signal 4)), ∃ st',
    propagate coupler (physics demoProp (turnedBy Δ (FringeExample.optic x 0)) FringeExample.conn (fun _ => false)) inp old' = .ok st' ∧
      st' (.edge ⟨2, 3, 0⟩) = some (fun i => ((‖(M.map fun p => Complex.exp (turnOf Δ (FringeExample.optic x 0) p.1 * Complex.I) * p.2 i).sum‖ ^ 2 : ℝ) : ℂ)) := by
  obtain ⟨st, h⟩ := coupler_runs x inp 0 Store.empty
  exact C129_pattern (by norm_num) (by norm_num [demoProp]) coupler_wf (entry x 0) h (e := ⟨2, 3, 0, diode 7, 20⟩) (by decide) rfl (upstream x 0)

/-- The way through the phase shifter is turned with it, the way through the modulator is not. -/
example (x : Signal 4) (Δ : Comp → ℝ) : turnOf Δ (FringeExample.optic x 0) [⟨1, 2, 0, Fixture.fiber 5, 30⟩, ⟨0, 1, 0, laser 4, 10⟩] = Δ (Fixture.fiber 5) ∧
    turnOf Δ (FringeExample.optic x 0) [⟨1, 2, 1, shaper 6, 31⟩, ⟨0, 1, 0, laser 4, 10⟩] = 0 := by
  have h5 : FringeExample.optic x 0 (Fixture.fiber 5) = .phaseShifter 0 := rfl
  have h4 : FringeExample.optic x 0 (laser 4) = .source x := rfl
  have h6 : FringeExample.optic x 0 (shaper 6) = .phaseMod 1 2 0 := rfl
  simp [turnOf, h4, h5, h6]

/-- `C129_single`: a design in a line. -/
example (x : Signal 4) {e : Edge} {M : List (List Edge × Signal 4)} (hM : AllWays demoProp ChainExample.longer (ChainExample.optic x 0) (fun _ => .terminal) e M) : M.length ≤ 1 :=
  C129_single (fun v => (C127_unbranched line_wf line_acyclic ChainExample.line_unbranched ChainExample.longer_hist
    (by intro p hp; simp only [List.mem_singleton] at hp; subst hp; decide) v).1) hM

end WaysExample

end Verif
