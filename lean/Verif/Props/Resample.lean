import Verif.Spec.Resample
import Verif.Props.TuningMore
import Verif.Props.Caches
/-! # C106: drawing all noise of a graph anew -/

namespace Verif
variable {P V R S : Type}

/-- The objects `is`, one after the other. -/
def resampleList (N : NoiseRules P V R S) : List Nat → NoiseHeap P V R → NoiseHeap P V R × Except Err Unit
  | [], h => (h, .ok ())
  | i :: is, h =>
    match h.resampleOne N i with
    | (h1, .error x) => (h1, .error x)
    | (h1, .ok _) => resampleList N is h1

theorem nodes_list (N : NoiseRules P V R S) (ns : List (Option Nat)) (h : NoiseHeap P V R) : resampleNodes N ns h = resampleList N (ns.filterMap id) h := by
  induction ns generalizing h with
  | nil => rfl
  | cons n ns ih =>
    cases n with
    | none => exact ih h
    | some i =>
      simp only [List.filterMap_cons, id, resampleNodes, resampleList]
      rcases h.resampleOne N i with ⟨h1, x | _⟩
      · rfl
      · exact ih h1

theorem edges_list (N : NoiseRules P V R S) (es : List (Option (Option Nat))) (h : NoiseHeap P V R) :
    resampleEdges N (some true) es h = resampleList N ((es.filterMap id).filterMap id) h := by
  induction es generalizing h with
  | nil => rfl
  | cons e es ih =>
    rcases e with _ | _ | i
    · exact ih h
    · exact ih h
    · simp only [List.filterMap_cons, id, resampleEdges, resampleList]
      rcases h.resampleOne N i with ⟨h1, x | _⟩
      · rfl
      · exact ih h1

theorem edges_skip (N : NoiseRules P V R S) (es : List (Option (Option Nat))) (h : NoiseHeap P V R) : resampleEdges N (some false) es h = (h, .ok ()) := by
  induction es with
  | nil => rfl
  | cons e es ih => exact ih

theorem list_append (N : NoiseRules P V R S) (a b : List Nat) (h : NoiseHeap P V R) :
    resampleList N (a ++ b) h = match resampleList N a h with
      | (h1, .error x) => (h1, .error x)
      | (h1, .ok _) => resampleList N b h1 := by
  induction a generalizing h with
  | nil => rfl
  | cons i a ih =>
    simp only [List.cons_append, resampleList]
    rcases h.resampleOne N i with ⟨h1, x | _⟩
    · rfl
    · exact ih h1

/-- The state in which the loops begin. -/
def seededHeap (N : NoiseRules P V R S) (seed : Option Nat) (h : NoiseHeap P V R) : NoiseHeap P V R :=
  ⟨h.objs, h.simulate, match seed with | some s => N.reseed s | none => h.rng⟩

theorem all_begin (N : NoiseRules P V R S) (g : NoisyGraph) (seed : Option Nat) (h : NoiseHeap P V R) :
    resampleAllNoise N g seed h = match resampleNodes N g.nodes (seededHeap N seed h) with
      | (h1, .error x) => (h1, .error x)
      | (h1, .ok _) => resampleEdges N g.onEdges g.edges h1 := by cases seed <;> rfl

theorem all_list (N : NoiseRules P V R S) (g : NoisyGraph) (hf : g.onEdges.isSome) (seed : Option Nat) (h : NoiseHeap P V R) :
    resampleAllNoise N g seed h = resampleList N g.held (seededHeap N seed h) := by
  rw [all_begin, nodes_list, NoisyGraph.held, list_append]
  rcases resampleList N (g.nodes.filterMap id) (seededHeap N seed h) with ⟨h1, x | _⟩
  · rfl
  · dsimp only
    obtain ⟨b, hb⟩ := Option.isSome_iff_exists.1 hf
    rw [hb]
    cases b with
    | true => rw [edges_list, if_pos rfl]
    | false => rw [edges_skip, if_neg (by decide)]; rfl

/-! ### one object -/

theorem drawAll_stream (N : NoiseRules P V R S) (p : PropId) (ss : List (NoiseSrc P V)) (r : R) :
    (drawAll N p ss r).1.map (·.vec) = (drawStream N (ss.map fun s => (s.kind, s.par, p)) r).1.map some ∧
    (drawAll N p ss r).2 = (drawStream N (ss.map fun s => (s.kind, s.par, p)) r).2 ∧
    (drawAll N p ss r).1.map (fun s => (s.kind, s.par)) = ss.map (fun s => (s.kind, s.par)) := by
  induction ss generalizing r with
  | nil => exact ⟨rfl, rfl, rfl⟩
  | cons s ss ih =>
    obtain ⟨h1, h2, h3⟩ := ih (N.draw s.kind s.par p r).2
    refine ⟨?_, ?_, ?_⟩ <;> simp only [drawAll, drawStream, List.map_cons]
    · rw [h1]
    · exact h2
    · rw [h3]

/-- What a renewal leaves of an object. -/
structure SameObj (o o' : NoiseObj P V) : Prop where
  prop : o'.prop = o.prop
  seed : o'.seed = o.seed
  on : o'.on = o.on
  srcs : o'.srcs.map (fun s => (s.kind, s.par)) = o.srcs.map (fun s => (s.kind, s.par))

theorem SameObj.refl (o : NoiseObj P V) : SameObj o o := ⟨rfl, rfl, rfl, rfl⟩

theorem SameObj.trans {o1 o2 o3 : NoiseObj P V} (a : SameObj o1 o2) (b : SameObj o2 o3) : SameObj o1 o3 :=
  ⟨b.prop.trans a.prop, b.seed.trans a.seed, b.on.trans a.on, b.srcs.trans a.srcs⟩

theorem one_off (N : NoiseRules P V R S) {h : NoiseHeap P V R} (hs : h.simulate = false) (i : Nat) : h.resampleOne N i = (h, .ok ()) := by
  rcases h with ⟨objs, sim, rng⟩
  have hs' : sim = false := hs
  subst hs'
  simp only [NoiseHeap.resampleOne, resampleNoise, Bool.not_false, if_true, Prod.mk.injEq, NoiseHeap.mk.injEq, and_true]
  funext j
  split
  · next e => rw [e]
  · rfl

theorem one_none (N : NoiseRules P V R S) {h : NoiseHeap P V R} (hs : h.simulate = true) {i : Nat} (hp : (h.objs i).prop = none) :
    h.resampleOne N i = (h, .error .valueError) := by
  rcases h with ⟨objs, sim, rng⟩
  have hs' : sim = true := hs
  subst hs'
  have hp' : (objs i).prop = none := hp
  simp only [NoiseHeap.resampleOne, resampleNoise, hp', Bool.not_true, Bool.false_eq_true, if_false, Prod.mk.injEq, NoiseHeap.mk.injEq, and_true]
  funext j
  split
  · next e => rw [e]
  · rfl

theorem one_some (N : NoiseRules P V R S) {h : NoiseHeap P V R} (hs : h.simulate = true) {i : Nat} {p : PropId} (hp : (h.objs i).prop = some p) :
    ∃ o, h.resampleOne N i = (⟨fun j => if j = i then o else h.objs j, true, (drawStream N ((h.objs i).srcs.map fun s => (s.kind, s.par, p)) h.rng).2⟩, .ok ()) ∧
      SameObj (h.objs i) o ∧ o.vecs = (drawStream N ((h.objs i).srcs.map fun s => (s.kind, s.par, p)) h.rng).1.map some := by
  rcases h with ⟨objs, sim, rng⟩
  have hs' : sim = true := hs
  subst hs'
  have hp' : (objs i).prop = some p := hp
  obtain ⟨h1, h2, h3⟩ := drawAll_stream N p (objs i).srcs rng
  refine ⟨{ objs i with srcs := (drawAll N p (objs i).srcs rng).1 }, ?_, ⟨rfl, rfl, rfl, h3⟩, h1⟩
  simp only [NoiseHeap.resampleOne, resampleNoise, hp', Bool.not_true, Bool.false_eq_true, if_false]
  rw [h2]

theorem one_frame (N : NoiseRules P V R S) (h : NoiseHeap P V R) (i : Nat) :
    (h.resampleOne N i).1.simulate = h.simulate ∧ (∀ j, SameObj (h.objs j) ((h.resampleOne N i).1.objs j)) ∧
    ∀ j, j ≠ i → (h.resampleOne N i).1.objs j = h.objs j := by
  cases hs : h.simulate with
  | false => rw [one_off N hs]; exact ⟨hs, fun _ => SameObj.refl _, fun _ _ => rfl⟩
  | true =>
    cases hp : (h.objs i).prop with
    | none => rw [one_none N hs hp]; exact ⟨hs, fun _ => SameObj.refl _, fun _ _ => rfl⟩
    | some p =>
      obtain ⟨o, h1, h2, -⟩ := one_some N hs hp
      rw [h1]
      refine ⟨rfl, fun j => ?_, fun j hj => if_neg hj⟩
      dsimp only
      split
      · next e => rw [e]; exact h2
      · exact SameObj.refl _

/-! ### lists of objects -/

theorem list_frame (N : NoiseRules P V R S) (is : List Nat) (h : NoiseHeap P V R) :
    (resampleList N is h).1.simulate = h.simulate ∧ (∀ j, SameObj (h.objs j) ((resampleList N is h).1.objs j)) ∧
    ∀ j, j ∉ is → (resampleList N is h).1.objs j = h.objs j := by
  induction is generalizing h with
  | nil => exact ⟨rfl, fun _ => SameObj.refl _, fun _ _ => rfl⟩
  | cons i is ih =>
    obtain ⟨a1, a2, a3⟩ := one_frame N h i
    simp only [resampleList]
    rcases hr : h.resampleOne N i with ⟨h1, x | _⟩ <;> rw [hr] at a1 a2 a3
    · exact ⟨a1, a2, fun j hj => a3 j (fun e => hj (e ▸ List.mem_cons_self))⟩
    · obtain ⟨b1, b2, b3⟩ := ih h1
      exact ⟨b1.trans a1, fun j => (a2 j).trans (b2 j),
        fun j hj => (b3 j fun e => hj (List.mem_cons_of_mem _ e)).trans (a3 j fun e => hj (e ▸ List.mem_cons_self))⟩

theorem list_off (N : NoiseRules P V R S) (is : List Nat) {h : NoiseHeap P V R} (hs : h.simulate = false) : resampleList N is h = (h, .ok ()) := by
  induction is with
  | nil => rfl
  | cons i is ih =>
    simp only [resampleList]
    rw [one_off N hs]
    exact ih

theorem list_ok (N : NoiseRules P V R S) (is : List Nat) {h : NoiseHeap P V R} (hs : h.simulate = true) :
    ((resampleList N is h).2 = .ok () ∧ ∀ i ∈ is, (h.objs i).prop.isSome) ∨ ((resampleList N is h).2 = .error .valueError ∧ ∃ i ∈ is, (h.objs i).prop = none) := by
  induction is generalizing h with
  | nil => exact .inl ⟨rfl, by simp⟩
  | cons i is ih =>
    simp only [resampleList]
    cases hp : (h.objs i).prop with
    | none => rw [one_none N hs hp]; exact .inr ⟨rfl, i, List.mem_cons_self, hp⟩
    | some p =>
      obtain ⟨o, h1, h2, -⟩ := one_some N hs hp
      have hf := one_frame N h i
      rw [h1] at hf ⊢
      rcases ih (h := ⟨fun j => if j = i then o else h.objs j, true, (drawStream N ((h.objs i).srcs.map fun s => (s.kind, s.par, p)) h.rng).2⟩) rfl
        with ⟨k1, k2⟩ | ⟨k1, j, k2, k3⟩
      · refine .inl ⟨k1, fun j hj => ?_⟩
        rcases List.mem_cons.1 hj with rfl | hj
        · rw [hp]; rfl
        · rw [← (hf.2.1 j).prop]; exact k2 j hj
      · exact .inr ⟨k1, j, List.mem_cons_of_mem _ k2, by rw [← (hf.2.1 j).prop]; exact k3⟩

theorem stream_append (N : NoiseRules P V R S) (a b : List (NoiseKind × P × PropId)) (r : R) :
    drawStream N (a ++ b) r = ((drawStream N a r).1 ++ (drawStream N b (drawStream N a r).2).1, (drawStream N b (drawStream N a r).2).2) := by
  induction a generalizing r with
  | nil => rfl
  | cons x a ih =>
    obtain ⟨k, q, p⟩ := x
    simp only [List.cons_append, drawStream, ih]

/-- What the objects ask for together. -/
def asked (h : NoiseHeap P V R) (is : List Nat) : List (NoiseKind × P × PropId) :=
  is.flatMap fun i => (h.objs i).srcs.map fun s => (s.kind, s.par, (h.objs i).prop.getD 0)

theorem asks_congr {o o' : NoiseObj P V} (h : SameObj o o') :
    (o'.srcs.map fun s => (s.kind, s.par, o'.prop.getD 0)) = o.srcs.map fun s => (s.kind, s.par, o.prop.getD 0) := by
  have := congrArg (List.map fun x : NoiseKind × P => (x.1, x.2, o.prop.getD 0)) h.srcs
  rw [List.map_map, List.map_map] at this
  rw [h.prop]
  exact this

theorem list_stream (N : NoiseRules P V R S) (is : List Nat) {h : NoiseHeap P V R} (hs : h.simulate = true) (hp : ∀ i ∈ is, (h.objs i).prop.isSome) (hd : is.Nodup) :
    (is.flatMap fun i => ((resampleList N is h).1.objs i).vecs) = (drawStream N (asked h is) h.rng).1.map some ∧
    (resampleList N is h).1.rng = (drawStream N (asked h is) h.rng).2 := by
  induction is generalizing h with
  | nil => exact ⟨rfl, rfl⟩
  | cons i is ih =>
    obtain ⟨p, hpi⟩ := Option.isSome_iff_exists.1 (hp i List.mem_cons_self)
    obtain ⟨o, h1, h2, h3⟩ := one_some N hs hpi
    obtain ⟨h', hh'⟩ : ∃ h', h' = (⟨fun j => if j = i then o else h.objs j, true, (drawStream N ((h.objs i).srcs.map fun s => (s.kind, s.par, p)) h.rng).2⟩ : NoiseHeap P V R) :=
      ⟨_, rfl⟩
    have hf := one_frame N h i
    rw [h1, ← hh'] at hf
    have hr : resampleList N (i :: is) h = resampleList N is h' := by
      simp only [resampleList]
      rw [h1, ← hh']
    have hni : i ∉ is := (List.nodup_cons.1 hd).1
    obtain ⟨k1, k2⟩ := ih (h := h') (by rw [hh']) (fun j hj => by rw [(hf.2.1 j).prop]; exact hp j (List.mem_cons_of_mem _ hj)) (List.nodup_cons.1 hd).2
    have ha : asked h' is = asked h is := by
      unfold asked
      congr 1
      funext j
      exact asks_congr (hf.2.1 j)
    have hr2 : h'.rng = (drawStream N ((h.objs i).srcs.map fun s => (s.kind, s.par, (h.objs i).prop.getD 0)) h.rng).2 := by rw [hh', hpi]; rfl
    have hv : ((resampleList N is h').1.objs i).vecs = (drawStream N ((h.objs i).srcs.map fun s => (s.kind, s.par, (h.objs i).prop.getD 0)) h.rng).1.map some := by
      rw [(list_frame N is h').2.2 i hni, hh', hpi]
      simp only [if_true]
      exact h3
    have hc : asked h (i :: is) = ((h.objs i).srcs.map fun s => (s.kind, s.par, (h.objs i).prop.getD 0)) ++ asked h is := List.flatMap_cons
    rw [hr, hc, stream_append]
    refine ⟨?_, ?_⟩
    · rw [List.flatMap_cons, k1, hv, ha, hr2, List.map_append]
    · rw [k2, ha, hr2]

/-- Two states that agree on propagators and sources of the objects, and on switch and generator, still do so afterwards, and the outcome is the same; the
objects that were renewed have the same vectors. -/
theorem list_agree (N : NoiseRules P V R S) (is : List Nat) {h k : NoiseHeap P V R} (hs : h.simulate = k.simulate) (hr : h.rng = k.rng)
    (ho : ∀ i ∈ is, (h.objs i).asks = (k.objs i).asks ∧ (h.objs i).prop = (k.objs i).prop) (done : List Nat)
    (hd : ∀ i ∈ done, (h.objs i).vecs = (k.objs i).vecs) :
    (resampleList N is h).2 = (resampleList N is k).2 ∧ (resampleList N is h).1.rng = (resampleList N is k).1.rng ∧
    (h.simulate = true → (resampleList N is h).2 = .ok () → ∀ i, i ∈ done ∨ i ∈ is → ((resampleList N is h).1.objs i).vecs = ((resampleList N is k).1.objs i).vecs) := by
  induction is generalizing h k done with
  | nil => exact ⟨rfl, hr, fun _ _ i hi => hd i (hi.resolve_right (by simp))⟩
  | cons i is ih =>
    cases hsim : h.simulate with
    | false =>
      rw [list_off N _ hsim, list_off N _ (hs ▸ hsim)]
      exact ⟨rfl, hr, fun h => absurd h (by decide)⟩
    | true =>
      have hsk : k.simulate = true := hs ▸ hsim
      obtain ⟨o1, o2⟩ := ho i List.mem_cons_self
      simp only [resampleList]
      cases hp : (h.objs i).prop with
      | none =>
        rw [one_none N hsim hp, one_none N hsk (o2 ▸ hp)]
        exact ⟨rfl, hr, fun _ e => by cases e⟩
      | some p =>
        have hpk : (k.objs i).prop = some p := o2 ▸ hp
        obtain ⟨a, a1, a2, a3⟩ := one_some N hsim hp
        obtain ⟨b, b1, b2, b3⟩ := one_some N hsk hpk
        have hq : ((h.objs i).srcs.map fun s => (s.kind, s.par, p)) = (k.objs i).srcs.map fun s => (s.kind, s.par, p) := by
          have := congrArg (List.map fun x : NoiseKind × P × Option PropId => (x.1, x.2.1, p)) o1
          unfold NoiseObj.asks at this
          rw [List.map_map, List.map_map] at this
          exact this
        have fa := one_frame N h i
        have fb := one_frame N k i
        rw [a1] at fa ⊢
        rw [b1] at fb ⊢
        have hasks : ∀ {o o' : NoiseObj P V}, SameObj o o' → o'.asks = o.asks := by
          intro o o' e
          have := congrArg (List.map fun x : NoiseKind × P => (x.1, x.2, o.prop)) e.srcs
          rw [List.map_map, List.map_map] at this
          unfold NoiseObj.asks
          rw [e.prop]
          exact this
        have := ih (h := ⟨fun j => if j = i then a else h.objs j, true, (drawStream N ((h.objs i).srcs.map fun s => (s.kind, s.par, p)) h.rng).2⟩)
          (k := ⟨fun j => if j = i then b else k.objs j, true, (drawStream N ((k.objs i).srcs.map fun s => (s.kind, s.par, p)) k.rng).2⟩) rfl
          (by rw [hq, hr])
          (fun j hj => by
            obtain ⟨c1, c2⟩ := ho j (List.mem_cons_of_mem _ hj)
            exact ⟨(hasks (fa.2.1 j)).trans (c1.trans (hasks (fb.2.1 j)).symm), (fa.2.1 j).prop.trans (c2.trans (fb.2.1 j).prop.symm)⟩)
          (i :: done)
          (fun j hj => by
            dsimp only
            by_cases e : j = i
            · rw [if_pos e, if_pos e, a3, b3, hq, hr]
            · rw [if_neg e, if_neg e]
              exact hd j ((List.mem_cons.1 hj).resolve_left e))
        refine ⟨this.1, this.2.1, fun _ e j hj => this.2.2 rfl e j ?_⟩
        rcases hj with hj | hj
        · exact .inl (List.mem_cons_of_mem _ hj)
        · rcases List.mem_cons.1 hj with rfl | hj
          · exact .inl List.mem_cons_self
          · exact .inr hj

/-! ### the theorems -/

/-- **C106 (finding).** On a graph of this repository with an edge, `resample_all_noise` raises `AttributeError` and draws nothing, whatever the seed and the noise
switch; with a seed it has by then reset numpy's generator. -/
theorem C106_written (N : NoiseRules P V R S) (nodes : Nat) {edges : List (Option Nat)} (he : edges ≠ []) (seed : Option Nat) (h : NoiseHeap P V R) :
    (resampleAllNoise N (writtenGraph nodes edges) seed h).2 = .error .attributeError ∧
    (resampleAllNoise N (writtenGraph nodes edges) seed h).1.objs = h.objs ∧
    (resampleAllNoise N (writtenGraph nodes edges) seed h).1.simulate = h.simulate ∧
    (resampleAllNoise N (writtenGraph nodes edges) seed h).1.rng = (match seed with | some s => N.reseed s | none => h.rng) := by
  have hn : (writtenGraph nodes edges).nodes.filterMap id = [] := by
    unfold writtenGraph
    induction nodes with
    | zero => rfl
    | succ n ih => exact ih
  rw [all_begin, nodes_list, hn]
  cases edges with
  | nil => exact absurd rfl he
  | cons e es => cases seed <;> exact ⟨rfl, rfl, rfl, rfl⟩

variable (N : NoiseRules P V R S) {g : NoisyGraph} (hf : g.onEdges.isSome) (seed : Option Nat) (h : NoiseHeap P V R)
include hf

/-- **C106.** What `resample_all_noise` never touches, once graphs say whether noise on edges counts: the switch, all objects outside the graph; and of the objects of
the graph the propagator, their own seed, whether they are on, and what their sources are. -/
theorem C106_frame : (resampleAllNoise N g seed h).1.simulate = h.simulate ∧
    (∀ i, i ∉ g.held → (resampleAllNoise N g seed h).1.objs i = h.objs i) ∧
    ∀ i, ((resampleAllNoise N g seed h).1.objs i).prop = (h.objs i).prop ∧ ((resampleAllNoise N g seed h).1.objs i).seed = (h.objs i).seed ∧
      ((resampleAllNoise N g seed h).1.objs i).on = (h.objs i).on ∧
      ((resampleAllNoise N g seed h).1.objs i).srcs.map (fun s => (s.kind, s.par)) = (h.objs i).srcs.map (fun s => (s.kind, s.par)) := by
  rw [all_list N g hf]
  obtain ⟨a1, a2, a3⟩ := list_frame N g.held (seededHeap N seed h)
  exact ⟨a1, a3, fun i => ⟨(a2 i).prop, (a2 i).seed, (a2 i).on, (a2 i).srcs⟩⟩

/-- **C106.** With the noise switch off nothing is drawn and nothing raised; a seed is still handed to numpy. -/
theorem C106_off (hs : h.simulate = false) : (resampleAllNoise N g seed h).2 = .ok () ∧ (resampleAllNoise N g seed h).1.objs = h.objs ∧
    (resampleAllNoise N g seed h).1.rng = (match seed with | some s => N.reseed s | none => h.rng) := by
  rw [all_list N g hf, list_off N _ (by exact hs)]
  exact ⟨rfl, rfl, rfl⟩

/-- **C106.** With the switch on it returns exactly if every object of the graph has been used with a propagator; otherwise it raises `ValueError`. -/
theorem C106_outcome (hs : h.simulate = true) :
    ((resampleAllNoise N g seed h).2 = .ok () ↔ ∀ i ∈ g.held, (h.objs i).prop ≠ none) ∧
    ((resampleAllNoise N g seed h).2 = .error .valueError ↔ ∃ i ∈ g.held, (h.objs i).prop = none) := by
  rw [all_list N g hf]
  rcases list_ok N g.held (h := seededHeap N seed h) hs with ⟨k1, k2⟩ | ⟨k1, i, k2, k3⟩
  · rw [k1]
    refine ⟨iff_of_true rfl fun i hi e => ?_, iff_of_false (by simp) ?_⟩
    · have := k2 i hi
      simp [seededHeap, e] at this
    · rintro ⟨i, hi, e⟩
      have := k2 i hi
      simp [seededHeap, e] at this
  · rw [k1]
    exact ⟨iff_of_false (by simp) fun hall => hall i k2 k3, iff_of_true rfl ⟨i, k2, k3⟩⟩

/-- **C106.** When it stops at an object without propagator, the objects that come only after it keep their noise. -/
theorem C106_stops (hs : h.simulate = true) {a b : List Nat} {i : Nat} (hg : g.held = a ++ i :: b) (hi : (h.objs i).prop = none) :
    (resampleAllNoise N g seed h).2 = .error .valueError ∧ (∀ j, j ∉ a → (resampleAllNoise N g seed h).1.objs j = h.objs j) := by
  have h1 := ((C106_outcome N hf seed h hs).2).2 ⟨i, by rw [hg]; simp, hi⟩
  refine ⟨h1, fun j hj => ?_⟩
  rw [all_list N g hf, hg, list_append]
  have fa := list_frame N a (seededHeap N seed h)
  rcases hr : resampleList N a (seededHeap N seed h) with ⟨h', x | _⟩ <;> rw [hr] at fa
  · exact fa.2.2 j hj
  · dsimp only
    simp only [resampleList]
    rw [one_none N (fa.1.trans hs) ((fa.2.1 i).prop.trans hi)]
    exact fa.2.2 j hj

/-- **C106.** When it returns with the switch on (and no object belongs to two components), the new vectors of all sources of the graph, object after object and source
after source, are consecutive draws of one random generator: from the seed if one is given, else from where it was. -/
theorem C106_stream (hs : h.simulate = true) (hd : g.held.Nodup) (hp : ∀ i ∈ g.held, (h.objs i).prop ≠ none) :
    let requests := g.held.flatMap fun i => (h.objs i).srcs.map fun s => (s.kind, s.par, (h.objs i).prop.getD 0)
    let start := match seed with | some s => N.reseed s | none => h.rng
    (g.held.flatMap fun i => ((resampleAllNoise N g seed h).1.objs i).srcs.map (·.vec)) = (drawStream N requests start).1.map some ∧
    (resampleAllNoise N g seed h).1.rng = (drawStream N requests start).2 := by
  intro requests start
  rw [all_list N g hf]
  exact list_stream N g.held (h := seededHeap N seed h) hs (fun i hi => Option.isSome_iff_ne_none.2 (hp i hi)) hd

omit h in
/-- **C106.** With a seed the result is reproducible: it depends neither on the noise and random numbers so far, nor on objects outside the graph, nor on the seeds of the
objects; also when objects belong to several components. -/
theorem C106_seeded (s : Nat) {h k : NoiseHeap P V R} (hs : h.simulate = true) (hk : k.simulate = true)
    (ho : ∀ i ∈ g.held, (h.objs i).prop = (k.objs i).prop ∧ (h.objs i).srcs.map (fun s => (s.kind, s.par)) = (k.objs i).srcs.map (fun s => (s.kind, s.par))) :
    (resampleAllNoise N g (some s) h).2 = (resampleAllNoise N g (some s) k).2 ∧
    (resampleAllNoise N g (some s) h).1.rng = (resampleAllNoise N g (some s) k).1.rng ∧
    ((resampleAllNoise N g (some s) h).2 = .ok () →
      ∀ i ∈ g.held, ((resampleAllNoise N g (some s) h).1.objs i).srcs = ((resampleAllNoise N g (some s) k).1.objs i).srcs) := by
  rw [all_list N g hf, all_list N g hf]
  have hag := list_agree N g.held (h := seededHeap N (some s) h) (k := seededHeap N (some s) k) (hs.trans hk.symm) rfl (fun i hi => by
    obtain ⟨a, b⟩ := ho i hi
    refine ⟨?_, a⟩
    have := congrArg (List.map fun x : NoiseKind × P => (x.1, x.2, (h.objs i).prop)) b
    rw [List.map_map, List.map_map] at this
    show (h.objs i).srcs.map (fun s => (s.kind, s.par, (h.objs i).prop)) = (k.objs i).srcs.map (fun s => (s.kind, s.par, (k.objs i).prop))
    rw [← a]
    exact this) [] (by simp)
  refine ⟨hag.1, hag.2.1, fun e i hi => ?_⟩
  have hv := hag.2.2 hs e i (.inr hi)
  have ha := ((list_frame N g.held (seededHeap N (some s) h)).2.1 i).srcs
  have hb := ((list_frame N g.held (seededHeap N (some s) k)).2.1 i).srcs
  have hab := ha.trans ((ho i hi).2.trans hb.symm)
  refine List.ext_getElem? fun n => ?_
  have e1 := congrArg (·[n]?) hab
  have e2 := congrArg (·[n]?) hv
  simp only [NoiseObj.vecs, List.getElem?_map] at e1 e2
  rcases h1 : ((resampleList N g.held (seededHeap N (some s) h)).1.objs i).srcs[n]? with _ | ⟨a1, a2, a3⟩ <;>
  rcases h2 : ((resampleList N g.held (seededHeap N (some s) k)).1.objs i).srcs[n]? with _ | ⟨b1, b2, b3⟩ <;>
  rw [h1, h2] at e1 e2 <;> simp_all

omit hf in
omit g N in
/-- **C106 (finding).** So both tuning functions, with their default settings, end in `AttributeError` on every graph of this repository: the genetic algorithm after the first
population, the gradient descent before its first step; also with the other mistakes of their source mended. -/
theorem C106_tuning {K : Type} [Field K] [LinearOrder K] (N : NoiseRules P V R S) {nodes : Nat} {edges : List (Option Nat)} (he : edges ≠ []) (src : TuneSrc) (e : TuneEnv K)
    (hr : ∀ b k, ∃ h, e.resample b k = (resampleAllNoise N (writtenGraph nodes edges) none h).2) (s : TuneSt K) :
    (∀ g : TuneGa K, g.perInd = false → g.periodGen = 1 → 0 < g.nGen → 0 < g.n → Scores e → (∀ k v, (e.gen k v).length = s.vals.length) →
      ∃ s', tuneGa src e g s = .error .attributeError s' ∧ s'.evals.length = s.evals.length + g.n) ∧
    (∀ (a : TuneAdam K) (pop : List (K × List K)), a.perInd = false → a.period = 1 → 0 < a.nBatches → pop ≠ [] →
      tuneAdam src e a pop.length (some pop) s = .error .attributeError { s with switch := a.noise }) := by
  have hx : ∀ b k, e.resample b k = .error .attributeError := by
    intro b k
    obtain ⟨h, hh⟩ := hr b k
    rw [hh]
    exact (C106_written N nodes he none h).1
  obtain ⟨-, h2, h3⟩ := C83_no_renewal src e hx s
  refine ⟨fun g a1 a2 a3 a4 a5 a6 => ?_, fun a pop a1 a2 => h3 a pop (.inr (by omega))⟩
  obtain ⟨s', b1, -, -, b4⟩ := h2 g a1 a2 a3 a4 a5 a6
  exact ⟨s', b1, b4⟩

/-! Cases of the theorems: a laser and a photodiode, both used before with propagator 7, an amplifier that is new, and an object of another graph. -/

/-- The objects; the generator stands at 40. -/
def noisyBench : NoiseHeap Nat (Nat × Nat) Nat where
  objs := fun i =>
    if i = 0 then ⟨some 7, none, [⟨.fwhm, 5, some (7, 1)⟩, ⟨.osnr, 6, some (7, 2)⟩], true⟩
    else if i = 1 then ⟨some 7, some 3, [⟨.rms, 5, some (7, 3)⟩], true⟩
    else if i = 2 then ⟨none, none, [⟨.edfaAse, 2, none⟩], true⟩
    else ⟨some 7, none, [⟨.osnr, 1, some (7, 4)⟩], true⟩
  simulate := true
  rng := 40

/-- Laser, fibre, photodiode. -/
def noisyLine : NoisyGraph := ⟨[none, none, none, none], [some (some 0), some none, some (some 1)], some true⟩

/-- With the new amplifier between. -/
def noisyAmplified : NoisyGraph := ⟨[none, none, none, none], [some (some 0), some (some 2), some (some 1)], some true⟩

example : (resampleAllNoise noiseDemo (writtenGraph 4 [some 0, none, some 1]) (some 2) noisyBench).2 = .error .attributeError ∧
    (resampleAllNoise noiseDemo (writtenGraph 4 [some 0, none, some 1]) (some 2) noisyBench).1.rng = 200 :=
  ⟨(C106_written noiseDemo 4 (by simp) (some 2) noisyBench).1, (C106_written noiseDemo 4 (by simp) (some 2) noisyBench).2.2.2⟩

example : noisyLine.held = [0, 1] ∧ noisyLine.held.Nodup := by decide

example : (resampleAllNoise noiseDemo noisyLine none noisyBench).2 = .ok () :=
  ((C106_outcome noiseDemo (g := noisyLine) rfl none noisyBench rfl).1).2 (by decide)

example : (noisyLine.held.flatMap fun i => ((resampleAllNoise noiseDemo noisyLine (some 2) noisyBench).1.objs i).srcs.map (·.vec)) =
    [some (7, 200), some (7, 201), some (7, 202)] ∧ (resampleAllNoise noiseDemo noisyLine (some 2) noisyBench).1.rng = 203 :=
  C106_stream noiseDemo (g := noisyLine) rfl (some 2) noisyBench rfl (by decide) (by decide)

example : (resampleAllNoise noiseDemo noisyLine (some 2) noisyBench).1.objs 5 = noisyBench.objs 5 :=
  (C106_frame noiseDemo (g := noisyLine) rfl (some 2) noisyBench).2.1 5 (by decide)

example : (resampleAllNoise noiseDemo noisyAmplified none noisyBench).2 = .error .valueError ∧
    (resampleAllNoise noiseDemo noisyAmplified none noisyBench).1.objs 1 = noisyBench.objs 1 ∧
    ((resampleAllNoise noiseDemo noisyAmplified none noisyBench).1.objs 0).vecs = [some (7, 40), some (7, 41)] :=
  have h := C106_stops noiseDemo (g := noisyAmplified) rfl none noisyBench rfl (a := [0]) (b := [1]) (i := 2) rfl rfl
  ⟨h.1, h.2 1 (by decide), by rfl⟩

/-- Twice with the same seed. -/
example : ((resampleAllNoise noiseDemo noisyLine (some 2) (resampleAllNoise noiseDemo noisyLine (some 2) noisyBench).1).1.objs 1).srcs =
    ((resampleAllNoise noiseDemo noisyLine (some 2) noisyBench).1.objs 1).srcs :=
  (C106_seeded noiseDemo (g := noisyLine) rfl 2 (h := (resampleAllNoise noiseDemo noisyLine (some 2) noisyBench).1) (k := noisyBench) rfl rfl
    (by intro i _; have := (C106_frame noiseDemo (g := noisyLine) rfl (some 2) noisyBench).2.2 i; exact ⟨this.1, this.2.2.2⟩)).2.2 (by rfl) 1 (by decide)

example : (resampleAllNoise noiseDemo noisyAmplified (some 2) ⟨noisyBench.objs, false, 40⟩).2 = .ok () :=
  (C106_off noiseDemo (g := noisyAmplified) rfl (some 2) ⟨noisyBench.objs, false, 40⟩ rfl).1

example := (C106_tuning noiseDemo (nodes := 4) (edges := [some 0, none, some 1]) (by simp) TuneSrc.mended tuneReal
  (fun _ _ => ⟨noisyBench, rfl⟩) tuneStart).1 tuneDemoGa rfl rfl (by decide) (by decide) (fun _ _ _ => ⟨_, rfl⟩) (fun _ _ => rfl)

end Verif
