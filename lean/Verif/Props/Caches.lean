import Verif.Spec.Caches
/-! # Properties of filters and noise objects (C39, C40) -/

namespace Verif

/-! ### C40 -/
section
variable {G F : Type} {tf : G → Except Err F}

/-- The cache belongs to the propagator last used, and to its grid. -/
structure FInv (tf : G → Except Err F) (w : FWorld G F) (rev : List (FOp G)) : Prop where
  cur : w.st.cur = lastUsed rev
  cache : ∀ f, w.st.cache = some f → ∃ p, w.st.cur = some p ∧ tf (w.grid p) = .ok f

theorem filterFor_ok (grid : PropId → G) (st : FilterSt F) (p : PropId)
    (hc : ∀ f, st.cache = some f → ∃ q, st.cur = some q ∧ tf (grid q) = .ok f) :
    (filterFor tf grid st p).2 = tf (grid p) ∧ (filterFor tf grid st p).1.cur = some p ∧
    ∀ f, (filterFor tf grid st p).1.cache = some f → tf (grid p) = .ok f := by
  unfold filterFor
  dsimp only
  by_cases h : st.cur = some p
  · rw [if_pos h]
    cases hcache : st.cache with
    | none =>
      cases ht : tf (grid p) with
      | error e => exact ⟨rfl, h, fun f hf => by simp [hcache] at hf⟩
      | ok f => exact ⟨rfl, h, fun f' hf => by simp at hf; rw [hf]⟩
    | some f =>
      obtain ⟨q, hq, hf⟩ := hc f hcache
      rw [h] at hq
      injection hq with hq
      subst hq
      exact ⟨hf.symm, h, fun f' hf' => by
        simp only [hcache, Option.some.injEq] at hf'
        rw [← hf']; exact hf⟩
  · rw [if_neg h]
    cases ht : tf (grid p) with
    | error e => exact ⟨rfl, rfl, fun f hf => by simp at hf⟩
    | ok f => exact ⟨rfl, rfl, fun f' hf => by simp at hf; rw [hf]⟩

theorem notInUse_suffix (l rev : List (FOp G)) (h : NotInUse (l ++ rev)) : NotInUse rev := by
  induction l with
  | nil => exact h
  | cons x l ih =>
    cases x with
    | apply _ => exact ih h
    | change _ _ => exact ih h.2

theorem finv_run (w : FWorld G F) (rev ops : List (FOp G)) (h : FInv tf w rev) (hn : NotInUse (ops.reverse ++ rev)) :
    FInv tf (w.run tf ops) (ops.reverse ++ rev) := by
  induction ops generalizing w rev with
  | nil => exact h
  | cons o ops ih =>
    have hsplit : (o :: ops).reverse ++ rev = ops.reverse ++ (o :: rev) := by simp
    rw [hsplit] at hn ⊢
    have hno : NotInUse (o :: rev) := by
      exact notInUse_suffix _ _ hn
    refine ih (w.step tf o) (o :: rev) ?_ hn
    cases o with
    | apply p =>
      obtain ⟨_, b, c⟩ := filterFor_ok w.grid w.st p h.cache
      exact ⟨b, fun f hf => ⟨p, b, c f hf⟩⟩
    | change p g =>
      refine ⟨h.cur, fun f hf => ?_⟩
      obtain ⟨q, hq, hf'⟩ := h.cache f hf
      refine ⟨q, hq, ?_⟩
      have hne : q ≠ p := by
        rintro rfl
        exact hno.1 (h.cur ▸ hq)
      simp only [FWorld.step, if_neg hne]
      exact hf'

/-- **C40.** After any history of calls and changes of propagators, in which no propagator is changed in place while it was the
last one used by the filter, a call filters with the transfer function of the propagator it is given. -/
theorem C40_current (grid : PropId → G) (ops : List (FOp G)) (hn : NotInUse ops.reverse) (p : PropId) :
    let w := (FWorld.mk grid (⟨none, none⟩ : FilterSt F)).run tf ops
    (filterFor tf w.grid w.st p).2 = tf (w.grid p) := by
  intro w
  have := finv_run (tf := tf) ⟨grid, ⟨none, none⟩⟩ [] ops ⟨rfl, fun f hf => by cases hf⟩ (by simpa using hn)
  exact (filterFor_ok w.grid w.st p this.cache).1

/-- **C40.** The condition is needed: changing the grid of the propagator in use leaves the old transfer function in place. -/
theorem C40_stale_after_change (grid : PropId → G) (p : PropId) (g : G) {f : F} (hf : tf (grid p) = .ok f) :
    let w := (FWorld.mk grid (⟨none, none⟩ : FilterSt F)).run tf [.apply p, .change p g]
    w.grid p = g ∧ (filterFor tf w.grid w.st p).2 = .ok f := by
  simp [FWorld.run, FWorld.step, filterFor, hf]

end

/-- Two propagators, used in turn, one changed while the other is in use. -/
def filterHistory : List (FOp Nat) := [.apply 0, .apply 0, .apply 1, .change 0 9, .apply 0]

example : NotInUse filterHistory.reverse := by simp [filterHistory, NotInUse, lastUsed]
example : (filterFor (fun g => if g = 7 then .error .valueError else .ok (g + 1))
    ((FWorld.mk (fun _ => 5) ⟨none, none⟩).run (fun g => if g = 7 then .error .valueError else .ok (g + 1)) filterHistory).grid
    ((FWorld.mk (fun _ => 5) ⟨none, none⟩).run (fun g => if g = 7 then .error .valueError else .ok (g + 1)) filterHistory).st 0).2 =
    .ok 10 := by rfl

/-! ### C39 -/
section
variable {P V R S : Type} {N : NoiseRules P V R S}

/-- **C39.** Noise off, for the object or for all: the signal comes back, and nothing changes. -/
theorem C39_off (w : NoiseWorld P V R) (signal : S) (p : PropId) (h : w.obj.on = false ∨ w.simulate = false) :
    addNoise N w signal p = (w, .ok signal) := by
  unfold addNoise
  rcases h with h | h <;> simp [h]

/-- Sources without their vectors. -/
def bare (ss : List (NoiseSrc P V)) : List (NoiseKind × P) := ss.map (fun s => (s.kind, s.par))

theorem drawAll_ok (p : PropId) (ss : List (NoiseSrc P V)) (r : R) :
    bare (drawAll N p ss r).1 = bare ss ∧
    ∀ s ∈ (drawAll N p ss r).1, ∃ r', s.vec = some (N.draw s.kind s.par p r').1 := by
  induction ss generalizing r with
  | nil => exact ⟨rfl, by simp [drawAll]⟩
  | cons s ss ih =>
    obtain ⟨a, b⟩ := ih (N.draw s.kind s.par p r).2
    constructor
    · simp only [drawAll, bare, List.map_cons, List.cons.injEq] at a ⊢
      exact ⟨trivial, a⟩
    · intro t ht
      rcases List.mem_cons.1 ht with rfl | ht
      · exact ⟨r, rfl⟩
      · exact b t ht

theorem drawAll_bare (p : PropId) (ss ts : List (NoiseSrc P V)) (r : R) (h : bare ss = bare ts) :
    drawAll N p ss r = drawAll N p ts r := by
  induction ss generalizing ts r with
  | nil =>
    cases ts with
    | nil => rfl
    | cons => cases h
  | cons s ss ih =>
    cases ts with
    | nil => cases h
    | cons t ts =>
      simp only [bare, List.map_cons, List.cons.injEq, Prod.mk.injEq] at h
      obtain ⟨⟨h1, h2⟩, h3⟩ := h
      simp only [drawAll, h1, h2, ih ts _ h3]

/-- Every source has a vector, drawn for the current propagator. -/
def Fresh (N : NoiseRules P V R S) (w : NoiseWorld P V R) : Prop :=
  ∀ p, w.obj.prop = some p → ∀ s ∈ w.obj.srcs, ∃ r, s.vec = some (N.draw s.kind s.par p r).1

theorem use_fresh (w : NoiseWorld P V R) (p : PropId) (hs : w.simulate = true) (h : Fresh N w) :
    Fresh N (usePropagator N w p) ∧ (usePropagator N w p).obj.prop = some p ∧ bare (usePropagator N w p).obj.srcs = bare w.obj.srcs := by
  unfold usePropagator
  split
  · next hp => exact ⟨h, hp, rfl⟩
  · unfold setPropagator resampleNoise
    simp only [hs, Bool.not_true, Bool.false_eq_true, if_false]
    refine ⟨?_, trivial, (drawAll_ok p _ _).1⟩
    intro q hq s hm
    simp only [Option.some.injEq] at hq
    subst hq
    exact (drawAll_ok p _ _).2 s hm

theorem fresh_run (w : NoiseWorld P V R) (ops : List (NoiseOp P R S)) (h : Fresh N w) : Fresh N (w.run N ops) := by
  induction ops generalizing w with
  | nil => exact h
  | cons o ops ih =>
    refine ih (w.step N o) ?_
    cases o with
    | source k par =>
      simp only [NoiseWorld.step, addSource]
      cases hp : w.obj.prop with
      | none =>
        intro p hp'
        simp at hp'
      | some q =>
        intro p hp' s hm
        simp only [Option.some.injEq] at hp'
        subst hp'
        rcases List.mem_append.1 hm with hm | hm
        · exact h q hp s hm
        · rw [List.mem_singleton.1 hm]
          exact ⟨w.rng, rfl⟩
    | noise s p =>
      simp only [NoiseWorld.step, addNoise]
      split
      · exact h
      · next hc =>
        simp only [Bool.or_eq_true, Bool.not_eq_true', not_or, Bool.not_eq_false] at hc
        have := (use_fresh w p hc.2 h).1
        split <;> exact this
    | phase p =>
      simp only [NoiseWorld.step, phaseNoise]
      split
      · exact h
      · next hc =>
        simp only [Bool.not_eq_true', Bool.not_eq_false] at hc
        have := (use_fresh w p hc h).1
        split <;> exact this
    | resample seed =>
      simp only [NoiseWorld.step, resampleNoise]
      split
      · exact h
      · split
        · exact h
        · next p hp =>
          intro q hq s hm
          simp only at hq
          rw [hp] at hq
          injection hq with hq
          subst hq
          exact (drawAll_ok p _ _).2 s hm
    | switch b => exact h
    | simulate b => exact h
    | random r => exact h

/-- What noise is made from: exactly the sources that are not phase noise, in order. -/
theorem gather_ok (ss : List (NoiseSrc P V)) (h : ∀ s ∈ ss, ∃ v, s.vec = some v) :
    ∃ vs, gatherVecs ss = .ok vs ∧ vs.map (fun x => (x.1, x.2.1)) = (bare ss).filter (fun x => x.1 ≠ .phase) ∧
      ∀ x ∈ vs, ∃ s ∈ ss, s.kind = x.1 ∧ s.par = x.2.1 ∧ s.vec = some x.2.2 := by
  induction ss with
  | nil => exact ⟨[], rfl, rfl, by simp⟩
  | cons s ss ih =>
    obtain ⟨vs, a, b, c⟩ := ih (fun t ht => h t (List.mem_cons_of_mem _ ht))
    obtain ⟨v, hv⟩ := h s List.mem_cons_self
    by_cases hk : s.kind = .phase
    · refine ⟨vs, by simp [gatherVecs, hk, a], ?_, ?_⟩
      · rw [b]
        simp [bare, hk]
      · intro x hx
        obtain ⟨t, ht, e⟩ := c x hx
        exact ⟨t, List.mem_cons_of_mem _ ht, e⟩
    · refine ⟨(s.kind, s.par, v) :: vs, by simp [gatherVecs, hk, hv, a], ?_, ?_⟩
      · rw [List.map_cons, b]
        simp [bare, hk]
      · intro x hx
        rcases List.mem_cons.1 hx with rfl | hx
        · exact ⟨s, List.mem_cons_self, rfl, rfl, hv⟩
        · obtain ⟨t, ht, e⟩ := c x hx
          exact ⟨t, List.mem_cons_of_mem _ ht, e⟩

/-- **C39.** After any history of an object made by the constructor, adding noise (if on) succeeds, and the noise is made from
exactly one vector for every source that is not phase noise, in the order in which the sources were added, each of which was drawn
for the propagator passed in the call. -/
theorem C39_never_stale (k : NoiseKind) (par : P) (seed : Option Nat) (on sim : Bool) (r : R) (ops : List (NoiseOp P R S)) (signal : S)
    (p : PropId) :
    let w := (NoiseWorld.mk (NoiseObj.new (V := V) k par seed on) sim r).run N ops
    w.obj.on = true → w.simulate = true → ∃ vs, (addNoise N w signal p).2 = .ok (N.mix p signal vs) ∧
      vs.map (fun x => (x.1, x.2.1)) = (bare w.obj.srcs).filter (fun x => x.1 ≠ .phase) ∧
      ∀ x ∈ vs, ∃ r', x.2.2 = (N.draw x.1 x.2.1 p r').1 := by
  intro w hon hsim
  have hf : Fresh N w := fresh_run _ ops (fun q hq => by simp [NoiseObj.new] at hq)
  obtain ⟨a, b, c⟩ := use_fresh w p hsim hf
  obtain ⟨vs, d1, d2, d3⟩ := gather_ok (usePropagator N w p).obj.srcs (fun s hs => by
    obtain ⟨r', hr⟩ := a p b s hs
    exact ⟨_, hr⟩)
  refine ⟨vs, ?_, ?_, ?_⟩
  · unfold addNoise
    simp only [hon, hsim, Bool.not_true, Bool.or_self, Bool.false_eq_true, if_false, d1]
  · rw [d2, c]
  · intro x hx
    obtain ⟨s, hs, e1, e2, e3⟩ := d3 x hx
    obtain ⟨r', hr⟩ := a p b s hs
    rw [e3] at hr
    injection hr with hr
    exact ⟨r', by rw [hr, e1, e2]⟩

theorem quiet_run (w : NoiseWorld P V R) (p : PropId) (hp : w.obj.prop = some p) (ops : List (NoiseOp P R S)) (hq : ∀ o ∈ ops, o.Quiet p) :
    (w.run N ops).obj.srcs = w.obj.srcs ∧ (w.run N ops).obj.prop = some p := by
  induction ops generalizing w with
  | nil => exact ⟨rfl, hp⟩
  | cons o ops ih =>
    have ho := hq o List.mem_cons_self
    have hstep : (w.step N o).obj.srcs = w.obj.srcs ∧ (w.step N o).obj.prop = some p := by
      cases o with
      | source => exact ho.elim
      | resample => exact ho.elim
      | noise s q =>
        change q = p at ho
        subst ho
        simp only [NoiseWorld.step, addNoise, usePropagator, hp, if_true]
        split
        · exact ⟨rfl, hp⟩
        · split <;> exact ⟨rfl, hp⟩
      | phase q =>
        change q = p at ho
        subst ho
        simp only [NoiseWorld.step, phaseNoise, usePropagator, hp, if_true]
        split
        · exact ⟨rfl, hp⟩
        · split <;> exact ⟨rfl, hp⟩
      | switch => exact ⟨rfl, hp⟩
      | simulate => exact ⟨rfl, hp⟩
      | random => exact ⟨rfl, hp⟩
    obtain ⟨a, b⟩ := ih (w.step N o) hstep.2 (fun o' ho' => hq o' (List.mem_cons_of_mem _ ho'))
    exact ⟨a.trans hstep.1, b⟩

/-- **C39.** Noise is repeatable: once noise was added with a propagator, further calls with it (with any signals, whatever is switched
on and off and whatever else draws random numbers in between) use the very same vectors, and do not touch the random generator. -/
theorem C39_repeatable (w : NoiseWorld P V R) (s1 : S) (p : PropId) (hon : w.obj.on = true) (hsim : w.simulate = true)
    (ops : List (NoiseOp P R S)) (hq : ∀ o ∈ ops, o.Quiet p) (s2 : S) :
    let w' := (addNoise N w s1 p).1.run N ops
    w'.obj.on = true → w'.simulate = true →
      ((addNoise N w' s2 p).2 = (addNoise N w s2 p).2) ∧ (addNoise N w' s2 p).1 = w' := by
  intro w' h1 h2
  have hprop : (addNoise N w s1 p).1.obj.prop = some p ∧ (addNoise N w s1 p).1.obj.srcs = (usePropagator N w p).obj.srcs := by
    have hu : (usePropagator N w p).obj.prop = some p := by
      unfold usePropagator
      split
      · next h => exact h
      · unfold setPropagator resampleNoise
        simp [hsim]
    unfold addNoise
    simp only [hon, hsim, Bool.not_true, Bool.or_self, Bool.false_eq_true, if_false]
    split <;> exact ⟨hu, rfl⟩
  obtain ⟨a, b⟩ := quiet_run (N := N) _ p hprop.1 ops hq
  have hu' : usePropagator N w' p = w' := by
    unfold usePropagator
    rw [if_pos b]
  constructor
  · unfold addNoise
    simp only [hon, hsim, h1, h2, Bool.not_true, Bool.or_self, Bool.false_eq_true, if_false, hu']
    rw [show w'.obj.srcs = (usePropagator N w p).obj.srcs from a.trans hprop.2]
    split <;> rfl
  · unfold addNoise
    simp only [h1, h2, Bool.not_true, Bool.or_self, Bool.false_eq_true, if_false, hu']
    split <;> rfl

/-- **C39.** A call with another propagator samples every source anew, once, from the random generator, which is seeded first if the
object has a seed; the noise is then a function of seed, sources and propagator alone. -/
theorem C39_switch (w : NoiseWorld P V R) (signal : S) (p : PropId) (hon : w.obj.on = true) (hsim : w.simulate = true)
    (hp : w.obj.prop ≠ some p) :
    (addNoise N w signal p).1.obj.srcs = (drawAll N p w.obj.srcs (match w.obj.seed with | some s => N.reseed s | none => w.rng)).1 ∧
    (∀ (w2 : NoiseWorld P V R) sd, w.obj.seed = some sd → w2.obj.seed = some sd → bare w2.obj.srcs = bare w.obj.srcs → w2.obj.on = true →
      w2.simulate = true → w2.obj.prop ≠ some p → (addNoise N w2 signal p).2 = (addNoise N w signal p).2) := by
  have key : ∀ w : NoiseWorld P V R, w.obj.on = true → w.simulate = true → w.obj.prop ≠ some p →
      (addNoise N w signal p).1.obj.srcs = (drawAll N p w.obj.srcs (match w.obj.seed with | some s => N.reseed s | none => w.rng)).1 ∧
      (addNoise N w signal p).2 = (match gatherVecs (drawAll N p w.obj.srcs (match w.obj.seed with | some s => N.reseed s | none => w.rng)).1 with
        | .error e => .error e | .ok vs => .ok (N.mix p signal vs)) := by
    intro w hon hsim hp
    have : (usePropagator N w p).obj.srcs = (drawAll N p w.obj.srcs (match w.obj.seed with | some s => N.reseed s | none => w.rng)).1 := by
      unfold usePropagator
      rw [if_neg hp]
      unfold setPropagator resampleNoise
      simp only [hsim, Bool.not_true, Bool.false_eq_true, if_false]
      try (cases w.obj.seed <;> rfl)
    unfold addNoise
    simp only [hon, hsim, Bool.not_true, Bool.or_self, Bool.false_eq_true, if_false]
    rw [← this]
    cases gatherVecs (usePropagator N w p).obj.srcs <;> exact ⟨rfl, rfl⟩
  refine ⟨(key w hon hsim hp).1, ?_⟩
  intro w2 sd h1 h2 hb h3 h4 h5
  rw [(key w hon hsim hp).2, (key w2 h3 h4 h5).2, h1, h2, drawAll_bare p _ _ _ hb]

/-- **C39.** Explicit resampling draws every source once more for the current propagator; without one it raises `ValueError`, and with
noise off for all it does nothing. -/
theorem C39_resample (w : NoiseWorld P V R) (seed : Option Nat) :
    (w.simulate = false → resampleNoise N w seed = (w, .ok ())) ∧
    (w.simulate = true → w.obj.prop = none → resampleNoise N w seed = (w, .error .valueError)) ∧
    (∀ p, w.simulate = true → w.obj.prop = some p → (resampleNoise N w seed).2 = .ok () ∧
      (resampleNoise N w seed).1.obj.srcs = (drawAll N p w.obj.srcs (match seed with | some s => N.reseed s | none => w.rng)).1 ∧
      (resampleNoise N w seed).1.rng = (drawAll N p w.obj.srcs (match seed with | some s => N.reseed s | none => w.rng)).2 ∧
      bare (resampleNoise N w seed).1.obj.srcs = bare w.obj.srcs ∧
      ∀ s ∈ (resampleNoise N w seed).1.obj.srcs, ∃ r', s.vec = some (N.draw s.kind s.par p r').1) := by
  refine ⟨fun h => by simp [resampleNoise, h], fun h h' => by simp [resampleNoise, h, h'], fun p h h' => ?_⟩
  have : (resampleNoise N w seed).1.obj.srcs = (drawAll N p w.obj.srcs (match seed with | some s => N.reseed s | none => w.rng)).1 := by
    unfold resampleNoise
    simp only [h, h', Bool.not_true, Bool.false_eq_true, if_false]
    try (cases seed <;> rfl)
  refine ⟨by simp [resampleNoise, h, h'], this, ?_, ?_, ?_⟩
  · unfold resampleNoise
    simp only [h, h', Bool.not_true, Bool.false_eq_true, if_false]
    try (cases seed <;> rfl)
  · rw [this]; exact (drawAll_ok p _ _).1
  · rw [this]; exact (drawAll_ok p _ _).2

/-- The sources a history adds, in order. -/
def NoiseOp.adds : NoiseOp P R S → Option (NoiseKind × P)
  | .source k par => some (k, par)
  | _ => none

/-- **C39.** Sources are only ever added, behind the earlier ones, and keep their kind and parameters; the seed stays the one given to the constructor. -/
theorem C39_sources (k : NoiseKind) (par : P) (seed : Option Nat) (on sim : Bool) (r : R) (ops : List (NoiseOp P R S)) :
    let w := (NoiseWorld.mk (NoiseObj.new (V := V) k par seed on) sim r).run N ops
    bare w.obj.srcs = (k, par) :: ops.filterMap NoiseOp.adds ∧ w.obj.seed = seed := by
  have hres : ∀ (w : NoiseWorld P V R) sd, bare (resampleNoise N w sd).1.obj.srcs = bare w.obj.srcs ∧ (resampleNoise N w sd).1.obj.seed = w.obj.seed := by
    intro w sd
    unfold resampleNoise
    split
    · exact ⟨rfl, rfl⟩
    · split
      · exact ⟨rfl, rfl⟩
      · exact ⟨(drawAll_ok _ _ _).1, rfl⟩
  have huse : ∀ (w : NoiseWorld P V R) p, bare (usePropagator N w p).obj.srcs = bare w.obj.srcs ∧ (usePropagator N w p).obj.seed = w.obj.seed := by
    intro w p
    unfold usePropagator
    split
    · exact ⟨rfl, rfl⟩
    · exact hres _ _
  have key : ∀ (ops : List (NoiseOp P R S)) (w : NoiseWorld P V R),
      bare (w.run N ops).obj.srcs = bare w.obj.srcs ++ ops.filterMap NoiseOp.adds ∧ (w.run N ops).obj.seed = w.obj.seed := by
    intro ops
    induction ops with
    | nil => intro w; simp [NoiseWorld.run]
    | cons o ops ih =>
      intro w
      have h := ih (w.step N o)
      have hstep : bare (w.step N o).obj.srcs = bare w.obj.srcs ++ (NoiseOp.adds o).toList ∧ (w.step N o).obj.seed = w.obj.seed := by
        cases o with
        | source k par =>
          unfold NoiseWorld.step addSource
          simp only
          split <;> simp [bare, NoiseOp.adds]
        | noise s p =>
          have := huse w p
          simp only [NoiseOp.adds, Option.toList_none, List.append_nil, NoiseWorld.step]
          unfold addNoise
          split
          · exact ⟨rfl, rfl⟩
          · dsimp only
            split <;> exact this
        | phase p =>
          have := huse w p
          simp only [NoiseOp.adds, Option.toList_none, List.append_nil, NoiseWorld.step]
          unfold phaseNoise
          split
          · exact ⟨rfl, rfl⟩
          · dsimp only
            split <;> exact this
        | resample sd => simpa [NoiseOp.adds, NoiseWorld.step] using hres w sd
        | switch b => simp [NoiseOp.adds, NoiseWorld.step]
        | simulate b => simp [NoiseOp.adds, NoiseWorld.step]
        | random r => simp [NoiseOp.adds, NoiseWorld.step]
      have e : (w.run N (o :: ops)) = (w.step N o).run N ops := rfl
      rw [e, h.1, h.2, hstep.1, hstep.2]
      refine ⟨?_, rfl⟩
      rw [List.append_assoc]
      congr 1
      cases hh : NoiseOp.adds o <;> simp [hh]
  have := key ops (NoiseWorld.mk (NoiseObj.new (V := V) k par seed on) sim r)
  exact this

/-- **C39.** Two objects built with the same kind, parameter and seed, to which the same sources were added, give a signal the same noise whenever they come to a
propagator anew — whatever else happened to each, and whatever the state of the random generator. -/
theorem C39_seeded (k : NoiseKind) (par : P) (sd : Nat) (on on' sim sim' : Bool) (r r' : R) (ops ops' : List (NoiseOp P R S)) (signal : S) (p : PropId)
    (hadd : ops.filterMap NoiseOp.adds = ops'.filterMap NoiseOp.adds) :
    let w := (NoiseWorld.mk (NoiseObj.new (V := V) k par (some sd) on) sim r).run N ops
    let w' := (NoiseWorld.mk (NoiseObj.new (V := V) k par (some sd) on') sim' r').run N ops'
    w.obj.on = true → w.simulate = true → w.obj.prop ≠ some p → w'.obj.on = true → w'.simulate = true → w'.obj.prop ≠ some p →
      (addNoise N w signal p).2 = (addNoise N w' signal p).2 := by
  intro w w' h1 h2 h3 h4 h5 h6
  obtain ⟨a1, a2⟩ := C39_sources (V := V) (N := N) k par (some sd) on sim r ops
  obtain ⟨b1, b2⟩ := C39_sources (V := V) (N := N) k par (some sd) on' sim' r' ops'
  exact (C39_switch w' signal p h4 h5 h6).2 w sd b2 a2 (by rw [a1, b1, hadd]) h1 h2 h3

/-- **C39.** Two calls of `resample_noise` without a seed draw one after the other from the generator: the second goes on where the first stopped. -/
theorem C39_resample_twice (w : NoiseWorld P V R) (p : PropId) (h : w.simulate = true) (hp : w.obj.prop = some p) :
    let w1 := (resampleNoise N w none).1
    let w2 := (resampleNoise N w1 none).1
    w1.obj.srcs = (drawAll N p w.obj.srcs w.rng).1 ∧ w2.obj.srcs = (drawAll N p w.obj.srcs (drawAll N p w.obj.srcs w.rng).2).1 := by
  intro w1 w2
  obtain ⟨_, h1, h2, h3, _⟩ := (C39_resample (N := N) w none).2.2 p h hp
  have hs : w1.simulate = true ∧ w1.obj.prop = some p := by
    simp only [w1]
    unfold resampleNoise
    simp only [h, hp, Bool.not_true, Bool.false_eq_true, if_false]
    exact ⟨trivial, trivial⟩
  obtain ⟨_, h4, _⟩ := (C39_resample (N := N) w1 none).2.2 p hs.1 hs.2
  refine ⟨h1, ?_⟩
  rw [show w2.obj.srcs = _ from h4]
  simp only
  rw [show w1.rng = _ from h2]
  exact congrArg Prod.fst (drawAll_bare p _ _ _ h3)

/-- **C39.** Nothing but the two switches decides whether there is noise: after any history each of them is as it was last set.  So if either was last set to off, a signal
passes unchanged and nothing else changes. -/
theorem C39_settings (w : NoiseWorld P V R) (ops : List (NoiseOp P R S)) (signal : S) (p : PropId) :
    (w.run N ops).obj.on = ((ops.filterMap NoiseOp.switches).getLast?).getD w.obj.on ∧
    (w.run N ops).simulate = ((ops.filterMap NoiseOp.simulates).getLast?).getD w.simulate ∧
    ((ops.filterMap NoiseOp.switches).getLast? = some false ∨ (ops.filterMap NoiseOp.simulates).getLast? = some false →
      addNoise N (w.run N ops) signal p = (w.run N ops, .ok signal)) := by
  have hres : ∀ (w : NoiseWorld P V R) sd, (resampleNoise N w sd).1.obj.on = w.obj.on ∧ (resampleNoise N w sd).1.simulate = w.simulate := by
    intro w sd
    unfold resampleNoise
    split
    · exact ⟨rfl, rfl⟩
    · dsimp only
      split <;> exact ⟨rfl, rfl⟩
  have huse : ∀ (w : NoiseWorld P V R) q, (usePropagator N w q).obj.on = w.obj.on ∧ (usePropagator N w q).simulate = w.simulate := by
    intro w q
    unfold usePropagator
    split
    · exact ⟨rfl, rfl⟩
    · unfold setPropagator
      exact hres _ _
  have key : ∀ (ops : List (NoiseOp P R S)) (w : NoiseWorld P V R),
      (w.run N ops).obj.on = ((ops.filterMap NoiseOp.switches).getLast?).getD w.obj.on ∧
      (w.run N ops).simulate = ((ops.filterMap NoiseOp.simulates).getLast?).getD w.simulate := by
    intro ops
    induction ops with
    | nil => intro w; exact ⟨rfl, rfl⟩
    | cons o ops ih =>
      intro w
      have e : (w.run N (o :: ops)) = (w.step N o).run N ops := rfl
      have h := ih (w.step N o)
      have hs : (w.step N o).obj.on = (NoiseOp.switches o).getD w.obj.on ∧ (w.step N o).simulate = (NoiseOp.simulates o).getD w.simulate := by
        cases o with
        | source k par =>
          unfold NoiseWorld.step addSource
          simp only
          split <;> exact ⟨rfl, rfl⟩
        | noise s q =>
          have := huse w q
          show (addNoise N w s q).1.obj.on = w.obj.on ∧ (addNoise N w s q).1.simulate = w.simulate
          unfold addNoise
          split
          · exact ⟨rfl, rfl⟩
          · dsimp only
            split <;> exact this
        | phase q =>
          have := huse w q
          show (phaseNoise N w q).1.obj.on = w.obj.on ∧ (phaseNoise N w q).1.simulate = w.simulate
          unfold phaseNoise
          split
          · exact ⟨rfl, rfl⟩
          · dsimp only
            split <;> exact this
        | resample sd => exact hres w sd
        | switch b => exact ⟨rfl, rfl⟩
        | simulate b => exact ⟨rfl, rfl⟩
        | random r => exact ⟨rfl, rfl⟩
      rw [e, h.1, h.2, hs.1, hs.2]
      constructor
      · cases ho : NoiseOp.switches o with
        | none => rw [List.filterMap_cons_none ho]; rfl
        | some b => rw [List.filterMap_cons_some ho, List.getLast?_cons]; rfl
      · cases ho : NoiseOp.simulates o with
        | none => rw [List.filterMap_cons_none ho]; rfl
        | some b => rw [List.filterMap_cons_some ho, List.getLast?_cons]; rfl
  obtain ⟨h1, h2⟩ := key ops w
  refine ⟨h1, h2, ?_⟩
  rintro (h | h)
  · rw [h] at h1
    unfold addNoise
    rw [if_pos (by rw [h1]; rfl)]
  · rw [h] at h2
    unfold addNoise
    rw [if_pos (by rw [h2]; simp)]

/-- **C39.** Phase noise: zeros if noise is off for all (whatever the switch of the object says); an error if the object has no phase source; else the vector of the first phase
source, drawn for this propagator. -/
theorem C39_phase (k : NoiseKind) (par : P) (seed : Option Nat) (on sim : Bool) (r : R) (ops : List (NoiseOp P R S)) (p : PropId) :
    let w := (NoiseWorld.mk (NoiseObj.new (V := V) k par seed on) sim r).run N ops
    (w.simulate = false → phaseNoise N w p = (w, .ok none)) ∧
    (w.simulate = true → (∀ x ∈ bare w.obj.srcs, x.1 ≠ .phase) → (phaseNoise N w p).2 = .error .valueError) ∧
    (w.simulate = true → ∀ a par' b, bare w.obj.srcs = a ++ (.phase, par') :: b → (∀ x ∈ a, x.1 ≠ .phase) →
      ∃ r', (phaseNoise N w p).2 = .ok (some (N.draw .phase par' p r').1)) := by
  intro w
  have hf : Fresh N w := fresh_run _ ops (fun q hq => by simp [NoiseObj.new] at hq)
  refine ⟨fun h => by simp [phaseNoise, h], fun h hno => ?_, fun h a par' b hab hno => ?_⟩
  · obtain ⟨_, _, c⟩ := use_fresh w p h hf
    unfold phaseNoise
    simp only [h, Bool.not_true, Bool.false_eq_true, if_false]
    have : (usePropagator N w p).obj.srcs.find? (fun s => s.kind = .phase) = none := by
      rw [List.find?_eq_none]
      intro s hs
      have := hno (s.kind, s.par) (by rw [← c]; exact List.mem_map_of_mem hs)
      simpa using this
    simp only [this]
  · obtain ⟨d, e, c⟩ := use_fresh w p h hf
    rw [hab] at c
    unfold phaseNoise
    simp only [h, Bool.not_true, Bool.false_eq_true, if_false]
    obtain ⟨l1, l2, hl, m1, m2⟩ := List.map_eq_append_iff.1 c
    obtain ⟨s, l3, hl2, m3, m4⟩ := List.map_eq_cons_iff.1 m2
    have hk : s.kind = .phase ∧ s.par = par' := ⟨congrArg Prod.fst m3, congrArg Prod.snd m3⟩
    have : (usePropagator N w p).obj.srcs.find? (fun s => s.kind = .phase) = some s := by
      rw [hl, hl2, List.find?_append, List.find?_eq_none.2, Option.none_or, List.find?_cons_of_pos (by simpa using hk.1)]
      intro x hx
      have := hno (x.kind, x.par) (by rw [← m1]; exact List.mem_map_of_mem hx)
      simpa using this
    simp only [this]
    obtain ⟨r', hr⟩ := d p e s (by rw [hl, hl2]; simp)
    exact ⟨r', by rw [hr, hk.1, hk.2]⟩

end

/-- A generator that counts: the vector shows propagator and draw. -/
def noiseDemo : NoiseRules Nat (Nat × Nat) Nat (List Nat) where
  draw := fun _ _ p r => ((p, r), r + 1)
  reseed := fun s => 100 * s
  mix := fun _ s vs => s ++ vs.map (fun v => v.2.2.2)

def noiseHistory : NoiseWorld Nat (Nat × Nat) Nat :=
  (NoiseWorld.mk (NoiseObj.new .osnr 3 none true) true 0).run noiseDemo
    [.source .shot 4, .noise [1] 0, .simulate false, .noise [1] 5, .simulate true, .random 50, .noise [2] 0, .source .rms 1]

example : (addNoise noiseDemo noiseHistory [8] 0).2 = .ok [8, 0, 1, 50] := by rfl
example : (addNoise noiseDemo noiseHistory [8] 2).2 = .ok [8, 51, 52, 53] := by rfl

/-- Seeded objects with different histories, on a propagator new to both. -/
example : (addNoise noiseDemo ((NoiseWorld.mk (NoiseObj.new .osnr 3 (some 4) true) true 0).run noiseDemo [.noise [1] 0, .source .shot 4, .random 7]) [8] 2).2 =
    (addNoise noiseDemo ((NoiseWorld.mk (NoiseObj.new .osnr 3 (some 4) false) false 9).run noiseDemo [.source .shot 4, .switch true, .simulate true]) [8] 2).2 :=
  C39_seeded (N := noiseDemo) _ _ _ _ _ _ _ _ _ _ _ _ _ rfl rfl rfl (by decide) rfl rfl (by decide)

example : (phaseNoise noiseDemo ((NoiseWorld.mk (NoiseObj.new .osnr 3 none true) true 0).run noiseDemo [.source .phase 4]) 2).2 = .ok (some (2, 1)) ∧
    (phaseNoise noiseDemo (NoiseWorld.mk (NoiseObj.new .osnr 3 none true) true 0) 2).2 = .error .valueError :=
  ⟨rfl, (C39_phase (N := noiseDemo) .osnr 3 none true true 0 [] 2).2.1 rfl (by decide)⟩

/-- **C39.** Setting the propagator directly while noise is off for all leaves sources without vectors: adding noise later with the same
propagator fails. -/
theorem C39_direct_set_fails : ∃ w : NoiseWorld Nat (Nat × Nat) Nat, w.simulate = false ∧
    (addNoise noiseDemo { setPropagator noiseDemo w 7 with simulate := true } [8] 7).2 = .error .typeError :=
  ⟨⟨NoiseObj.new .osnr 3 none true, false, 0⟩, rfl, rfl⟩

/-! Cases of the theorems above: the histories of the demonstrations. -/

example := C40_current (tf := fun g => if g = 7 then .error .valueError else .ok (g + 1)) (fun _ => 5) filterHistory
  (by simp [filterHistory, NotInUse, lastUsed]) 0
example := C40_stale_after_change (tf := fun g : Nat => (.ok (g + 1) : Except Err Nat)) (fun _ => 5) 0 9 (f := 6) rfl
example : addNoise noiseDemo { noiseHistory with simulate := false } [8] 0 = ({ noiseHistory with simulate := false }, .ok [8]) :=
  C39_off (N := noiseDemo) _ _ _ (Or.inr rfl)
example := C39_never_stale (N := noiseDemo) .osnr 3 none true true 0 [.source .shot 4, .noise [1] 0, .random 50] [8] 2 rfl rfl
example := C39_repeatable (N := noiseDemo) noiseHistory [8] 2 rfl rfl [.random 50, .noise [1, 2] 2] (by
  intro o ho
  simp only [List.mem_cons, List.not_mem_nil, or_false] at ho
  rcases ho with rfl | rfl <;> simp [NoiseOp.Quiet]) [9] rfl rfl
example := C39_switch (N := noiseDemo) noiseHistory [8] 2 rfl rfl (by decide)
example := (C39_settings (N := noiseDemo) noiseHistory [.simulate true, .switch false, .noise [3] 5, .random 6] [8] 2).2.2 (Or.inl (by decide))
example := (C39_resample (N := noiseDemo) noiseHistory (some 4)).2.2 0 rfl rfl
example := C39_sources (V := Nat × Nat) (N := noiseDemo) .osnr 3 none true true 0 [.source .shot 4, .noise [1] 0, .source .rms 1]
example := C39_resample_twice (N := noiseDemo) noiseHistory 0 rfl rfl

end Verif
