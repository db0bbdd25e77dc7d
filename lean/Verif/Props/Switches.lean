import Verif.Spec.Switches
/-!
# C119: switching noise off and on
-/

namespace Verif

/-- What the objects hold, compared with the history. -/
structure SwInv (w : SwWorld) (h : List SwEvent) : Prop where
  len : w.parts.length = madeParts h
  sim : w.cls .simulate = some (lastSimulate h)
  bare : ∀ (p : Nat) k, w.parts[p]? = some (k, none) → ownSwitch h p = some (k, none)
  own : ∀ (p : Nat) k i, w.parts[p]? = some (k, some i) → ∃ d b, w.objs[i]? = some d ∧ d .noiseOn = some b ∧ ownSwitch h p = some (k, some b)
  inj : ∀ (p q : Nat) k k' i, w.parts[p]? = some (k, some i) → w.parts[q]? = some (k', some i) → p = q

theorem SwInv.lt {w : SwWorld} {h : List SwEvent} (I : SwInv w h) {p : Nat} {k : PartKind} {i : Nat} (hp : w.parts[p]? = some (k, some i)) : i < w.objs.length := by
  obtain ⟨d, _, hd, _⟩ := I.own p k i hp
  exact (List.getElem?_eq_some_iff.1 hd).1

theorem swInv_start : SwInv SwWorld.start [] :=
  ⟨rfl, rfl, by simp [SwWorld.start], by simp [SwWorld.start], by simp [SwWorld.start]⟩

/-- A new component with a new noise object. -/
theorem swInv_push {w : SwWorld} {h : List SwEvent} {e : SwEvent} (I : SwInv w h) (k : PartKind) (d : SwDict) (b : Bool) (hd : d .noiseOn = some b)
    (hm : madeParts (e :: h) = madeParts h + 1) (hs : lastSimulate (e :: h) = lastSimulate h)
    (ho : ∀ p, ownSwitch (e :: h) p = if p = madeParts h then some (k, some b) else ownSwitch h p) :
    SwInv { w with objs := w.objs ++ [d], parts := w.parts ++ [(k, some w.objs.length)] } (e :: h) := by
  have hl := I.len
  have cases_ : ∀ (p : Nat) kk o, (w.parts ++ [(k, some w.objs.length)])[p]? = some (kk, o) →
      (p < madeParts h ∧ w.parts[p]? = some (kk, o)) ∨ (p = madeParts h ∧ kk = k ∧ o = some w.objs.length) := by
    intro p kk o hp
    rcases Nat.lt_trichotomy p w.parts.length with hlt | heq | hgt
    · left
      rw [List.getElem?_append_left hlt] at hp
      exact ⟨by omega, hp⟩
    · right
      subst heq
      rw [List.getElem?_append_right (Nat.le_refl _)] at hp
      simp only [Nat.sub_self, List.getElem?_cons_zero, Option.some.injEq, Prod.mk.injEq] at hp
      exact ⟨hl, hp.1.symm, hp.2.symm⟩
    · rw [List.getElem?_eq_none (by rw [List.length_append, List.length_singleton]; omega)] at hp
      cases hp
  refine ⟨by simp only [List.length_append, List.length_singleton]; omega, by rw [hs]; exact I.sim, ?_, ?_, ?_⟩
  · intro p kk hp
    rcases cases_ p kk none hp with ⟨h1, h2⟩ | ⟨_, _, h3⟩
    · rw [ho, if_neg (by omega)]
      exact I.bare p kk h2
    · cases h3
  · intro p kk i hp
    rcases cases_ p kk (some i) hp with ⟨h1, h2⟩ | ⟨h1, h2, h3⟩
    · obtain ⟨d', b', q1, q2, q3⟩ := I.own p kk i h2
      refine ⟨d', b', ?_, q2, by rw [ho, if_neg (by omega)]; exact q3⟩
      rw [List.getElem?_append_left (I.lt h2)]
      exact q1
    · injection h3 with h3
      subst h3
      refine ⟨d, b, ?_, hd, by rw [ho, if_pos h1, h2]⟩
      rw [List.getElem?_append_right (Nat.le_refl _)]
      simp
  · intro p q kk kk' i hp hq
    rcases cases_ p kk (some i) hp with ⟨h1, h2⟩ | ⟨h1, _, h3⟩
    · rcases cases_ q kk' (some i) hq with ⟨_, g2⟩ | ⟨_, _, g3⟩
      · exact I.inj p q kk kk' i h2 g2
      · have := I.lt h2
        injection g3 with g3
        omega
    · rcases cases_ q kk' (some i) hq with ⟨_, g2⟩ | ⟨g1, _, _⟩
      · have := I.lt g2
        injection h3 with h3
        omega
      · omega

/-- A new component without a noise object. -/
theorem swInv_push_bare {w : SwWorld} {h : List SwEvent} {e : SwEvent} (I : SwInv w h) (k : PartKind)
    (hm : madeParts (e :: h) = madeParts h + 1) (hs : lastSimulate (e :: h) = lastSimulate h)
    (ho : ∀ p, ownSwitch (e :: h) p = if p = madeParts h then some (k, none) else ownSwitch h p) :
    SwInv { w with parts := w.parts ++ [(k, none)] } (e :: h) := by
  have hl := I.len
  have cases_ : ∀ (p : Nat) kk o, (w.parts ++ [(k, none)])[p]? = some (kk, o) →
      (p < madeParts h ∧ w.parts[p]? = some (kk, o)) ∨ (p = madeParts h ∧ kk = k ∧ o = none) := by
    intro p kk o hp
    rcases Nat.lt_trichotomy p w.parts.length with hlt | heq | hgt
    · left
      rw [List.getElem?_append_left hlt] at hp
      exact ⟨by omega, hp⟩
    · right
      subst heq
      rw [List.getElem?_append_right (Nat.le_refl _)] at hp
      simp only [Nat.sub_self, List.getElem?_cons_zero, Option.some.injEq, Prod.mk.injEq] at hp
      exact ⟨hl, hp.1.symm, hp.2.symm⟩
    · rw [List.getElem?_eq_none (by rw [List.length_append, List.length_singleton]; omega)] at hp
      cases hp
  refine ⟨by simp only [List.length_append, List.length_singleton]; omega, by rw [hs]; exact I.sim, ?_, ?_, ?_⟩
  · intro p kk hp
    rcases cases_ p kk none hp with ⟨h1, h2⟩ | ⟨h1, h2, _⟩
    · rw [ho, if_neg (by omega)]
      exact I.bare p kk h2
    · rw [ho, if_pos h1, h2]
  · intro p kk i hp
    rcases cases_ p kk (some i) hp with ⟨h1, h2⟩ | ⟨_, _, h3⟩
    · obtain ⟨d', b', q1, q2, q3⟩ := I.own p kk i h2
      exact ⟨d', b', q1, q2, by rw [ho, if_neg (by omega)]; exact q3⟩
    · cases h3
  · intro p q kk kk' i hp hq
    rcases cases_ p kk (some i) hp with ⟨_, h2⟩ | ⟨_, _, h3⟩
    · rcases cases_ q kk' (some i) hq with ⟨_, g2⟩ | ⟨_, _, g3⟩
      · exact I.inj p q kk kk' i h2 g2
      · cases g3
    · cases h3

/-- An event that leaves all components as they are. -/
theorem swInv_same {w : SwWorld} {h : List SwEvent} {e : SwEvent} (I : SwInv w h) (hm : madeParts (e :: h) = madeParts h)
    (hs : lastSimulate (e :: h) = lastSimulate h) (ho : ∀ p, p < madeParts h → ownSwitch (e :: h) p = ownSwitch h p) : SwInv w (e :: h) := by
  have hl := I.len
  have lt : ∀ {p : Nat} {x}, w.parts[p]? = some x → p < madeParts h := fun hp => by
    have := (List.getElem?_eq_some_iff.1 hp).1
    omega
  refine ⟨by rw [hm]; exact hl, by rw [hs]; exact I.sim, ?_, ?_, I.inj⟩
  · intro p k hp
    rw [ho p (lt hp)]
    exact I.bare p k hp
  · intro p k i hp
    rw [ho p (lt hp)]
    exact I.own p k i hp

/-- An attribute of one noise object changes. -/
theorem swInv_put {w : SwWorld} {h : List SwEvent} (I : SwInv w h) {p : Nat} {k : PartKind} {i : Nat} (hp : w.parts[p]? = some (k, some i)) (a : SwAttr) (b : Bool)
    {h' : List SwEvent} (hm : madeParts h' = madeParts h) (hs : lastSimulate h' = lastSimulate h)
    (ho : ∀ q, q < madeParts h → ownSwitch h' q = (ownSwitch h q).map (fun (k, c) => (k, if p = q ∧ a = .noiseOn then c.map (fun _ => b) else c))) :
    SwInv { w with objs := w.objs.modify i (fun d => d.put a b) } h' := by
  have hl := I.len
  have lt : ∀ {p : Nat} {x}, w.parts[p]? = some x → p < madeParts h := fun hp => by
    have := (List.getElem?_eq_some_iff.1 hp).1
    omega
  refine ⟨by rw [hm]; exact hl, by rw [hs]; exact I.sim, ?_, ?_, I.inj⟩
  · intro q kk hq
    rw [ho q (lt hq), I.bare q kk hq]
    simp
  · intro q kk j hq
    obtain ⟨d, c, q1, q2, q3⟩ := I.own q kk j hq
    rw [ho q (lt hq), q3]
    by_cases hji : j = i
    · subst hji
      obtain rfl := I.inj p q k kk j hp hq
      refine ⟨d.put a b, if a = .noiseOn then b else c, ?_, ?_, ?_⟩
      · dsimp only
        rw [List.getElem?_modify_eq, q1]
        rfl
      · unfold SwDict.put
        by_cases ha : a = .noiseOn
        · simp [ha]
        · rw [if_neg (fun hh => ha hh.symm), if_neg ha]
          exact q2
      · by_cases ha : a = .noiseOn <;> simp [ha]
    · have hpq : p ≠ q := by
        rintro rfl
        rw [hp] at hq
        injection hq with hq
        injection hq with _ hq
        injection hq with hq
        exact hji hq.symm
      refine ⟨d, c, ?_, q2, by simp [hpq]⟩
      dsimp only
      rw [List.getElem?_modify_ne _ _ (Ne.symm hji)]
      exact q1

/-- Every event keeps the agreement. -/
theorem swInv_step {w : SwWorld} {h : List SwEvent} (I : SwInv w h) (e : SwEvent) : SwInv (w.step e) (e :: h) := by
  have hl := I.len
  cases e with
  | make k =>
    unfold SwWorld.step SwWorld.make
    dsimp only
    cases hk : k.freshOn with
    | none => exact swInv_push_bare I k rfl rfl (fun p => by simp only [ownSwitch, hk])
    | some b => exact swInv_push I k _ b (by simp [SwDict.put]) rfl rfl (fun p => by simp only [ownSwitch, hk])
  | setClass a b =>
    unfold SwWorld.step
    dsimp only
    refine ⟨hl, ?_, I.bare, I.own, I.inj⟩
    unfold SwDict.put
    cases a with
    | noiseOn => dsimp only; rw [if_neg (by decide)]; exact I.sim
    | simulate => simp [lastSimulate]
  | setObj p a b =>
    have hm : madeParts (.setObj p a b :: h) = madeParts h := rfl
    have hs : lastSimulate (.setObj p a b :: h) = lastSimulate h := rfl
    have ho : ∀ q, ownSwitch (.setObj p a b :: h) q = (ownSwitch h q).map (fun (k, c) => (k, if p = q ∧ a = .noiseOn then c.map (fun _ => b) else c)) := by
      intro q
      cases a with
      | noiseOn => simp [ownSwitch]
      | simulate => simp [ownSwitch]
    unfold SwWorld.step SwWorld.setObj
    dsimp only
    split
    · next hp =>
      refine swInv_same I hm hs (fun q hq => ?_)
      have : p ≠ q := by
        rintro rfl
        rw [List.getElem?_eq_none_iff] at hp
        omega
      rw [ho]
      simp [this]
    · next k hp =>
      refine swInv_same I hm hs (fun q hq => ?_)
      rw [ho]
      by_cases hpq : p = q
      · subst hpq
        rw [I.bare p k hp]
        simp
      · simp [hpq]
    · next k i hp => exact swInv_put I hp a b hm hs (fun q _ => ho q)
  | turn p b =>
    have hm : madeParts (.turn p b :: h) = madeParts h := rfl
    have hs : lastSimulate (.turn p b :: h) = lastSimulate h := rfl
    unfold SwWorld.step SwWorld.turn
    dsimp only
    cases hp : w.parts[p]? with
    | none =>
      refine swInv_same I hm hs (fun q hq => ?_)
      have : p ≠ q := by
        rintro rfl
        rw [List.getElem?_eq_none_iff] at hp
        omega
      simp [ownSwitch, this]
    | some x =>
      obtain ⟨k, o⟩ := x
      dsimp only
      by_cases hk : k = .noisySignal
      · rw [if_pos hk]
        cases o with
        | none =>
          have e1 : w.setObj p .noiseOn b = (w, .error .attributeError) := by unfold SwWorld.setObj; rw [hp]
          rw [e1]
          refine swInv_same I hm hs (fun q hq => ?_)
          by_cases hpq : p = q
          · subst hpq
            simp [ownSwitch, I.bare p k hp]
          · simp [ownSwitch, hpq]
        | some i =>
          have e1 : ∀ (v : SwWorld), v.parts = w.parts → ∀ a, v.setObj p a b = ({ v with objs := v.objs.modify i (fun d => d.put a b) }, .ok ()) := by
            intro v hv a
            unfold SwWorld.setObj
            rw [hv, hp]
          rw [e1 w rfl .noiseOn]
          dsimp only
          rw [e1 ⟨w.cls, w.objs.modify i (fun d => d.put .noiseOn b), w.parts⟩ rfl .simulate]
          have I1 : SwInv { w with objs := w.objs.modify i (fun d => d.put .noiseOn b) } (.turn p b :: h) := by
            refine swInv_put I hp .noiseOn b hm hs (fun q hq => ?_)
            by_cases hpq : p = q
            · subst hpq
              obtain ⟨d, c, _, _, q3⟩ := I.own p k i hp
              simp [ownSwitch, q3, hk]
            · simp [ownSwitch, hpq]
          exact swInv_put (p := p) (k := k) I1 hp .simulate b rfl rfl (fun q _ => by simp)
      · rw [if_neg hk]
        refine swInv_same I hm hs (fun q hq => ?_)
        by_cases hpq : p = q
        · subst hpq
          have : ∃ c, ownSwitch h p = some (k, c) := by
            cases o with
            | none => exact ⟨_, I.bare p k hp⟩
            | some i => obtain ⟨_, _, _, _, q3⟩ := I.own p k i hp; exact ⟨_, q3⟩
          obtain ⟨c, hc⟩ := this
          simp [ownSwitch, hc, hk]
        · simp [ownSwitch, hpq]
  | copy p =>
    have hs : lastSimulate (.copy p :: h) = lastSimulate h := rfl
    unfold SwWorld.step SwWorld.copy
    dsimp only
    split
    · next hp =>
      rw [List.getElem?_eq_none_iff] at hp
      refine swInv_same I ?_ hs (fun q hq => ?_)
      · simp only [madeParts]
        rw [if_neg (by omega)]
      · simp only [ownSwitch]
        rw [if_neg (by omega)]
    · next k hp =>
      have := (List.getElem?_eq_some_iff.1 hp).1
      refine swInv_push_bare I k ?_ hs (fun q => ?_)
      · simp only [madeParts]
        rw [if_pos (by omega)]
      · simp only [ownSwitch, I.bare p k hp]
    · next k i hp =>
      have := (List.getElem?_eq_some_iff.1 hp).1
      obtain ⟨d, b, q1, q2, q3⟩ := I.own p k i hp
      simp only [q1, Option.toList_some]
      refine swInv_push I k d b q2 ?_ hs (fun q => ?_)
      · simp only [madeParts]
        rw [if_pos (by omega)]
      · simp only [ownSwitch, q3]
  | assign p =>
    have hm : madeParts (.assign p :: h) = madeParts h := rfl
    have hs : lastSimulate (.assign p :: h) = lastSimulate h := rfl
    unfold SwWorld.step SwWorld.assign
    dsimp only
    cases hp : w.parts[p]? with
    | none =>
      refine swInv_same I hm hs (fun q hq => ?_)
      have : p ≠ q := by
        rintro rfl
        rw [List.getElem?_eq_none_iff] at hp
        omega
      simp [ownSwitch, this]
    | some x =>
      obtain ⟨k, o⟩ := x
      dsimp only
      have hlt := (List.getElem?_eq_some_iff.1 hp).1
      have hex : ∃ c, ownSwitch h p = some (k, c) := by
        cases o with
        | none => exact ⟨_, I.bare p k hp⟩
        | some i => obtain ⟨_, _, _, _, q3⟩ := I.own p k i hp; exact ⟨_, q3⟩
      obtain ⟨c, hc⟩ := hex
      by_cases hr : k.renews = true
      · rw [if_pos hr]
        cases hf : k.freshOn with
        | none =>
          exfalso
          cases k <;> simp [PartKind.renews, PartKind.freshOn] at hr hf
        | some b =>
          dsimp only
          have ho : ∀ q, ownSwitch (.assign p :: h) q = if q = p then some (k, some b) else ownSwitch h q := by
            intro q
            by_cases hpq : q = p
            · subst hpq
              simp [ownSwitch, hc, hr, hf]
            · rw [if_neg hpq]
              have : p ≠ q := fun hh => hpq hh.symm
              simp [ownSwitch, this]
          have cases_ : ∀ (q : Nat) kk oo, (w.parts.set p (k, some w.objs.length))[q]? = some (kk, oo) →
              (q ≠ p ∧ w.parts[q]? = some (kk, oo)) ∨ (q = p ∧ kk = k ∧ oo = some w.objs.length) := by
            intro q kk oo hq
            by_cases hqp : q = p
            · right
              subst hqp
              rw [List.getElem?_set_self hlt] at hq
              simp only [Option.some.injEq, Prod.mk.injEq] at hq
              exact ⟨rfl, hq.1.symm, hq.2.symm⟩
            · left
              rw [List.getElem?_set_ne (fun hh => hqp hh.symm)] at hq
              exact ⟨hqp, hq⟩
          refine ⟨by rw [List.length_set]; exact hl, I.sim, ?_, ?_, ?_⟩
          · intro q kk hq
            rcases cases_ q kk none hq with ⟨h1, h2⟩ | ⟨_, _, h3⟩
            · rw [ho, if_neg h1]; exact I.bare q kk h2
            · cases h3
          · intro q kk i hq
            rcases cases_ q kk (some i) hq with ⟨h1, h2⟩ | ⟨h1, h2, h3⟩
            · obtain ⟨d', b', q1, q2, q3⟩ := I.own q kk i h2
              refine ⟨d', b', ?_, q2, by rw [ho, if_neg h1]; exact q3⟩
              rw [List.getElem?_append_left (I.lt h2)]
              exact q1
            · injection h3 with h3
              subst h3
              refine ⟨SwDict.put (fun _ => none) .noiseOn b, b, ?_, by simp [SwDict.put], by rw [ho, if_pos h1, h2]⟩
              rw [List.getElem?_append_right (Nat.le_refl _)]
              simp
          · intro q q' kk kk' i hq hq'
            rcases cases_ q kk (some i) hq with ⟨h1, h2⟩ | ⟨h1, _, h3⟩
            · rcases cases_ q' kk' (some i) hq' with ⟨_, g2⟩ | ⟨_, _, g3⟩
              · exact I.inj q q' kk kk' i h2 g2
              · have := I.lt h2
                injection g3 with g3
                omega
            · rcases cases_ q' kk' (some i) hq' with ⟨_, g2⟩ | ⟨g1, _, _⟩
              · have := I.lt g2
                injection h3 with h3
                omega
              · omega
      · rw [if_neg hr]
        have hset : w.parts.set p (k, o) = w.parts := by
          obtain ⟨h1, h2⟩ := List.getElem?_eq_some_iff.1 hp
          rw [← h2, List.set_getElem_self]
        rw [hset]
        refine swInv_same I hm hs (fun q hq => ?_)
        by_cases hpq : p = q
        · subst hpq
          simp [ownSwitch, hc, hr]
        · simp [ownSwitch, hpq]

/-- After any history the objects agree with it. -/
theorem swInv_run (es : List SwEvent) : SwInv (SwWorld.start.run es) es.reverse := by
  suffices H : ∀ (es : List SwEvent) w h, SwInv w h → SwInv (w.run es) (es.reverse ++ h) by
    simpa using H es SwWorld.start [] swInv_start
  intro es
  induction es with
  | nil => intro w h I; exact I
  | cons e es ih =>
    intro w h I
    have := ih (w.step e) (e :: h) (swInv_step I e)
    simpa [SwWorld.run] using this

theorem ownSwitch_none (h : List SwEvent) (p : Nat) (hp : madeParts h ≤ p) : ownSwitch h p = none := by
  induction h generalizing p with
  | nil => rfl
  | cons e h ih =>
    cases e with
    | make k =>
      simp only [madeParts] at hp
      simp only [ownSwitch]
      rw [if_neg (by omega), ih p (by omega)]
    | copy q =>
      simp only [madeParts] at hp
      simp only [ownSwitch]
      by_cases hq : q < madeParts h
      · rw [if_pos hq] at hp
        rw [if_neg (by omega), ih p (by omega)]
      · rw [if_neg hq] at hp
        by_cases he : p = madeParts h
        · rw [if_pos he, ih q (by omega)]
        · rw [if_neg he, ih p hp]
    | assign q => simp only [madeParts] at hp; simp [ownSwitch, ih p hp]
    | turn q c => simp only [madeParts] at hp; simp [ownSwitch, ih p hp]
    | setClass a b => simp only [madeParts] at hp; simp [ownSwitch, ih p hp]
    | setObj q a b => simp only [madeParts] at hp; cases a <;> simp [ownSwitch, ih p hp]

/-- C119: whatever was done before, a component adds noise exactly if its own switch is on (as last set on this component, or as put back by an assignment of parameters) and
the switch of the class was last set to true. -/
theorem C119_adds (es : List SwEvent) (p : Nat) :
    (SwWorld.start.run es).addsNoise p =
      match ownSwitch es.reverse p with
      | none => .error .nameError
      | some (_, s) => .ok (s.getD false && lastSimulate es.reverse) := by
  have I := swInv_run es
  unfold SwWorld.addsNoise
  cases hp : (SwWorld.start.run es).parts[p]? with
  | none =>
    rw [List.getElem?_eq_none_iff, I.len] at hp
    rw [ownSwitch_none _ _ hp]
  | some x =>
    obtain ⟨k, o⟩ := x
    cases o with
    | none => rw [I.bare p k hp]; rfl
    | some i =>
      obtain ⟨d, b, h1, h2, h3⟩ := I.own p k i hp
      rw [h3]
      simp only [h1, SwWorld.getObj, SwWorld.getClass, h2, I.sim, Option.getD_some]
      cases b <;> rfl

/-- C119: the phase of a modulator gets noise exactly if the switch of the class was last set to true; the switch of the modulator does not matter. -/
theorem C119_phase (es : List SwEvent) (p : Nat) :
    (SwWorld.start.run es).addsPhase p =
      match ownSwitch es.reverse p with
      | none => .error .nameError
      | some (k, _) => .ok (decide (k = .phaseMod) && lastSimulate es.reverse) := by
  have I := swInv_run es
  unfold SwWorld.addsPhase
  cases hp : (SwWorld.start.run es).parts[p]? with
  | none =>
    rw [List.getElem?_eq_none_iff, I.len] at hp
    rw [ownSwitch_none _ _ hp]
  | some x =>
    obtain ⟨k, o⟩ := x
    have : ∃ s, ownSwitch es.reverse p = some (k, s) := by
      cases o with
      | none => exact ⟨_, I.bare p k hp⟩
      | some i => obtain ⟨_, _, _, _, h3⟩ := I.own p k i hp; exact ⟨_, h3⟩
    obtain ⟨s, hs⟩ := this
    rw [hs]
    simp only [SwWorld.getClass, I.sim]
    by_cases hk : k = .phaseMod <;> simp [hk]

theorem idle_spec (h : List SwEvent) :
    lastSimulate (h.filter (fun e => !e.idle)) = lastSimulate h ∧ madeParts (h.filter (fun e => !e.idle)) = madeParts h ∧
      ∀ p, ownSwitch (h.filter (fun e => !e.idle)) p = ownSwitch h p := by
  induction h with
  | nil => exact ⟨rfl, rfl, fun _ => rfl⟩
  | cons e h ih =>
    rw [List.filter_cons]
    generalize h.filter (fun e => !e.idle) = g at ih
    obtain ⟨h1, h2, h3⟩ := ih
    cases e with
    | setClass a b => cases a <;> simp [SwEvent.idle, lastSimulate, madeParts, ownSwitch, h1, h2, h3]
    | setObj q a b => cases a <;> simp [SwEvent.idle, lastSimulate, madeParts, ownSwitch, h1, h2, h3]
    | _ => simp [SwEvent.idle, lastSimulate, madeParts, ownSwitch, h1, h2, h3]

/-- C119 (finding): `AdditiveNoise.noise_on = …` and `noise_model.simulate_with_noise = …` are without effect, wherever they stand in a history. -/
theorem C119_idle (es : List SwEvent) (p : Nat) :
    (SwWorld.start.run es).addsNoise p = (SwWorld.start.run (es.filter (fun e => !e.idle))).addsNoise p ∧
      (SwWorld.start.run es).addsPhase p = (SwWorld.start.run (es.filter (fun e => !e.idle))).addsPhase p := by
  obtain ⟨h1, _, h3⟩ := idle_spec es.reverse
  rw [C119_adds, C119_adds, C119_phase, C119_phase, ← List.filter_reverse, h1, h3]
  exact ⟨rfl, rfl⟩

/-- C119: a new component adds noise if it is a laser, a signal with noise, an amplifier or a photodiode and the switch of the class was last set to true. -/
theorem C119_fresh (es : List SwEvent) (k : PartKind) :
    (SwWorld.start.run (es ++ [.make k])).addsNoise (madeParts es.reverse) =
      .ok (decide (k = .pulsed ∨ k = .cw ∨ k = .noisySignal ∨ k = .amplifier ∨ k = .photodiode) && lastSimulate es.reverse) := by
  rw [C119_adds]
  simp only [List.reverse_append, List.reverse_cons, List.reverse_nil, List.nil_append, List.cons_append, ownSwitch, if_true, lastSimulate]
  cases k <;> simp [PartKind.freshOn]

/-- C119: the class has a switch `noise_on` only after it was assigned (reading `AdditiveNoise.noise_on` before is an `AttributeError`). -/
theorem C119_class (es : List SwEvent) (h : ∀ b, SwEvent.setClass .noiseOn b ∉ es) : (SwWorld.start.run es).cls .noiseOn = none := by
  have key : ∀ (es : List SwEvent) (w : SwWorld), (∀ b, SwEvent.setClass .noiseOn b ∉ es) → w.cls .noiseOn = none → (w.run es).cls .noiseOn = none := by
    intro es
    induction es with
    | nil => intro w _ hw; exact hw
    | cons e es ih =>
      intro w hne hw
      refine ih (w.step e) (fun b hb => hne b (List.mem_cons_of_mem _ hb)) ?_
      cases e with
      | make k => simp only [SwWorld.step, SwWorld.make]; split <;> exact hw
      | assign p => simp only [SwWorld.step, SwWorld.assign]; split <;> first | exact hw | (split <;> first | exact hw | (split <;> exact hw))
      | setClass a b =>
        cases a with
        | noiseOn => exact absurd List.mem_cons_self (hne b)
        | simulate => simpa [SwWorld.step, SwDict.put] using hw
      | setObj p a b => simp only [SwWorld.step, SwWorld.setObj]; split <;> exact hw
      | turn p b =>
        have hs : ∀ (w : SwWorld) (a : SwAttr), (w.setObj p a b).1.cls = w.cls := by
          intro w a
          unfold SwWorld.setObj
          split <;> rfl
        have h1 := hs w .noiseOn
        simp only [SwWorld.step, SwWorld.turn]
        split
        · exact hw
        · split
          · split
            · next he => rw [he] at h1; exact (congrFun h1 _).trans hw
            · next he => rw [he] at h1; exact (congrFun ((hs _ _).trans h1) _).trans hw
          · exact hw
      | copy p => simp only [SwWorld.step, SwWorld.copy]; split <;> exact hw
  exact key es _ h rfl

/-- C119: with the switch of the class off nothing adds noise, whatever the components say. -/
theorem C119_off (es : List SwEvent) (p : Nat) (h : lastSimulate es.reverse = false) :
    (SwWorld.start.run es).addsNoise p ≠ .ok true ∧ (SwWorld.start.run es).addsPhase p ≠ .ok true := by
  rw [C119_adds, C119_phase, h]
  constructor <;> (split <;> simp)

/-- C119: switching a component off holds until it is switched on, … -/
theorem C119_holds (es : List SwEvent) (p : Nat) (k : PartKind) (s : Bool) (hk : ownSwitch es.reverse p = some (k, some s)) :
    (SwWorld.start.run (es ++ [.setObj p .noiseOn false])).addsNoise p = .ok false ∧
      (SwWorld.start.run (es ++ [.setObj p .noiseOn true])).addsNoise p = .ok (lastSimulate es.reverse) := by
  rw [C119_adds, C119_adds]
  simp [ownSwitch, lastSimulate, hk]

/-- C119 (finding): … but an assignment of parameters switches a laser or a photodiode on again; an amplifier, a pulsed laser and a noisy signal stay off.  A phase modulator that was
switched on is off again. -/
theorem C119_back (es : List SwEvent) (p : Nat) (k : PartKind) (s : Bool) (hk : ownSwitch es.reverse p = some (k, some s)) :
    (SwWorld.start.run (es ++ [.setObj p .noiseOn false, .assign p])).addsNoise p =
      .ok (decide (k = .cw ∨ k = .photodiode) && lastSimulate es.reverse) ∧
    (SwWorld.start.run (es ++ [.setObj p .noiseOn true, .assign p])).addsNoise p = .ok (decide (k ≠ .phaseMod) && lastSimulate es.reverse) := by
  rw [C119_adds, C119_adds]
  simp only [List.reverse_append, List.reverse_cons, List.reverse_nil, List.nil_append, List.cons_append, ownSwitch, hk, lastSimulate, Option.map_some]
  cases k <;> simp [PartKind.renews, PartKind.freshOn]

/-- C119 (finding): what is said to a modulator's noise object does not reach its phase. -/
theorem C119_deaf (es : List SwEvent) (p q : Nat) (b : Bool) :
    (SwWorld.start.run (es ++ [.setObj q .noiseOn b])).addsPhase p = (SwWorld.start.run es).addsPhase p := by
  rw [C119_phase, C119_phase]
  simp only [List.reverse_append, List.reverse_cons, List.reverse_nil, List.nil_append, List.cons_append, ownSwitch, lastSimulate]
  cases ownSwitch es.reverse p <;> rfl

/-- C119: switching one component says nothing about another, nor about a copy made before. -/
theorem C119_apart (es : List SwEvent) (p q : Nat) (b : Bool) (hpq : p ≠ q) :
    (SwWorld.start.run (es ++ [.setObj p .noiseOn b])).addsNoise q = (SwWorld.start.run es).addsNoise q ∧
      (SwWorld.start.run (es ++ [.assign p])).addsNoise q = (SwWorld.start.run es).addsNoise q := by
  rw [C119_adds, C119_adds, C119_adds]
  simp only [List.reverse_append, List.reverse_cons, List.reverse_nil, List.nil_append, List.cons_append, ownSwitch, lastSimulate, hpq, false_and, if_false]
  cases ownSwitch es.reverse q <;> exact ⟨rfl, rfl⟩

/-- C119: a copy, which is the next component, starts with the switch of its original (without an original there is no copy: an error on both sides). -/
theorem C119_copy (es : List SwEvent) (p : Nat) :
    (SwWorld.start.run (es ++ [.copy p])).addsNoise (madeParts es.reverse) = (SwWorld.start.run es).addsNoise p := by
  rw [C119_adds, C119_adds]
  simp [ownSwitch, lastSimulate]

/-- A laser is switched off and gets new parameters; an amplifier beside it stays off; `AdditiveNoise.noise_on = False` says nothing. -/
example :
    let w := SwWorld.start.run [.make .cw, .make .amplifier, .make .phaseMod, .setClass .noiseOn false, .setObj 0 .noiseOn false, .setObj 1 .noiseOn false, .copy 1,
      .setObj 3 .noiseOn true, .assign 0, .assign 1]
    w.addsNoise 0 = .ok true ∧ w.addsNoise 1 = .ok false ∧ w.addsNoise 2 = .ok false ∧ w.addsPhase 2 = .ok true ∧ w.addsNoise 3 = .ok true ∧
      w.addsNoise 4 = .error .nameError := by
  refine ⟨?_, ?_, ?_, ?_, ?_, ?_⟩ <;> rfl

/-- The signal with noise of its own: enabling it does not help while the class is off (`lastSimulate` is false). -/
example :
    let es : List SwEvent := [.make .noisySignal, .turn 0 false, .setClass .simulate false, .turn 0 true]
    lastSimulate es.reverse = false ∧ ownSwitch es.reverse 0 = some (.noisySignal, some true) ∧ (SwWorld.start.run es).addsNoise 0 = .ok false := by
  refine ⟨rfl, rfl, rfl⟩

/-- Hypotheses of `C119_holds` and `C119_back`; an original for `C119_copy`. -/
example : ownSwitch [.make .photodiode, .make .cw] 1 = some (.photodiode, some true) ∧ 1 < madeParts [.make .photodiode, .make .cw] := by
  refine ⟨rfl, by decide⟩

end Verif
