import Verif.Model.Schemes
import Verif.Lemmas.Topology
import Verif.Spec.Schemes
/-!
Lemmas: `speciate` with distances that may raise, and what individuals inherit through the generations.
-/

namespace Verif
variable {C K : Type}

/-! ## `speciate` with distances that may raise -/

section
variable {G : Type} [DecidableEq G] [LinearOrder K]

theorem bestRepE_ok {dE : G → G → Except Err K} {d : G → G → K} {thr : K} {keys : List G} {rep : G} {gs : List G}
    (h : ∀ g ∈ gs, dE rep g = .ok (d rep g)) (acc : Option G × K) :
    bestRepE dE thr keys rep gs acc = .ok (bestRep d thr keys rep gs acc) := by
  induction gs generalizing acc with
  | nil => rfl
  | cons g gs ih =>
    have ih := fun acc => ih (fun x hx => h x (by simp [hx])) acc
    unfold bestRepE bestRep
    rw [h g (by simp)]
    dsimp only
    split
    · split <;> exact ih _
    · exact ih _

theorem repLoopE_ok [OfNat K 5] {dE : G → G → Except Err K} {d : G → G → K} {thr : K} {shuf : Nat → List G → List G}
    (hs : ∀ n l, (shuf n l).Perm l) {reps gs : List G} (h : ∀ a ∈ reps, ∀ b ∈ gs, dE a b = .ok (d a b)) (n : Nat) (sp : List (G × Nat)) :
    repLoopE dE thr shuf n reps gs sp = .ok (repLoop d thr shuf n reps gs sp) := by
  induction reps generalizing n gs sp with
  | nil => rfl
  | cons rep reps ih =>
    unfold repLoopE repLoop
    split
    · exact ih (fun a ha b hb => h a (by simp [ha]) b (List.mem_of_mem_erase hb)) _ _
    · rw [bestRepE_ok (d := d) (fun g hg => h rep (by simp) g ((hs n gs).mem_iff.1 hg))]
      generalize bestRep d thr (sp.map (·.1)) rep (shuf n gs) (none, 5) = res
      obtain ⟨o, x⟩ := res
      cases o with
      | none => exact ih (fun a ha b hb => h a (by simp [ha]) b hb) _ _
      | some b => exact ih (fun a ha b hb => h a (by simp [ha]) b (List.mem_of_mem_erase hb)) _ _

theorem redInnerE_ok {dE : G → G → Except Err K} {d : G → G → K} {thr : K} {s0 : G} {ss : List G} (h : ∀ b ∈ ss, dE s0 b = .ok (d s0 b)) (red : List G) :
    redInnerE dE thr s0 ss red = .ok (redInner d thr s0 ss red) := by
  induction ss generalizing red with
  | nil => rfl
  | cons s1 ss ih =>
    have ih := fun red => ih (fun x hx => h x (by simp [hx])) red
    unfold redInnerE redInner
    rw [h s1 (by simp)]
    dsimp only
    by_cases h1 : s0 ≠ s1 ∧ s0 ∉ red ∧ s1 ∉ red
    · rw [if_pos h1]
      by_cases h2 : d s0 s1 < thr
      · rw [if_pos h2, if_pos ⟨h1.1, h1.2.1, h1.2.2, h2⟩]; exact ih _
      · rw [if_neg h2, if_neg (fun hh => h2 hh.2.2.2)]; exact ih _
    · rw [if_neg h1, if_neg (fun hh => h1 ⟨hh.1, hh.2.1, hh.2.2.1⟩)]; exact ih _

theorem redOuterE_ok {dE : G → G → Except Err K} {d : G → G → K} {thr : K} {keys ss : List G} (h : ∀ a ∈ ss, ∀ b ∈ keys, dE a b = .ok (d a b)) (red : List G) :
    redOuterE dE thr keys ss red = .ok (redOuter d thr keys ss red) := by
  induction ss generalizing red with
  | nil => rfl
  | cons s0 ss ih =>
    unfold redOuterE redOuter
    rw [redInnerE_ok (h s0 (by simp))]
    exact ih (fun a ha => h a (by simp [ha])) _

omit [DecidableEq G] in
theorem findRepE_ok {dE : G → G → Except Err K} {d : G → G → K} {thr : K} {g : G} {rs : List G} (h : ∀ r ∈ rs, dE r g = .ok (d r g)) :
    findRepE dE thr g rs = .ok (rs.find? (fun r => d r g < thr)) := by
  induction rs with
  | nil => rfl
  | cons r rs ih =>
    unfold findRepE
    rw [h r (by simp)]
    dsimp only
    by_cases h1 : d r g < thr
    · rw [if_pos h1, List.find?_cons_of_pos (by simpa using h1)]
    · rw [if_neg h1, List.find?_cons_of_neg (by simpa using h1)]
      exact ih (fun x hx => h x (by simp [hx]))

theorem assign1_keys (d : G → G → K) (thr : K) (st : List (G × Nat) × (G → Option G)) (g : G) :
    ∀ k ∈ (assign1 d thr st g).1.map (·.1), k ∈ st.1.map (·.1) ∨ k = g := by
  intro k hk
  unfold assign1 at hk
  dsimp only at hk
  split at hk
  · rw [keys_dinc] at hk; exact Or.inl hk
  · split at hk
    · rw [keys_dinc] at hk; exact Or.inl hk
    · split at hk
      · rw [keys_dset] at hk
        split at hk
        · exact Or.inl hk
        · rcases List.mem_append.1 hk with hk | hk
          · exact Or.inl hk
          · exact Or.inr (by simpa using hk)
      · exact Or.inl hk

theorem assignE_ok {dE : G → G → Except Err K} {d : G → G → K} {thr : K} {P : G → Prop} (h : ∀ a b, P a → P b → dE a b = .ok (d a b)) (gs : List G)
    (hg : ∀ g ∈ gs, P g) (st : List (G × Nat) × (G → Option G)) (hk : ∀ k ∈ st.1.map (·.1), P k) :
    assignE dE thr gs st = .ok (gs.foldl (assign1 d thr) st) := by
  induction gs generalizing st with
  | nil => rfl
  | cons g gs ih =>
    have hk' : ∀ k ∈ (assign1 d thr st g).1.map (·.1), P k := by
      intro k hk1
      rcases assign1_keys d thr st g k hk1 with h1 | rfl
      · exact hk k h1
      · exact hg _ (by simp)
    have ih' := ih (fun x hx => hg x (by simp [hx])) (assign1 d thr st g) hk'
    rw [List.foldl_cons, ← ih', assignE]
    dsimp only
    rw [findRepE_ok (d := d) (fun r hr => h r g (hk r hr) (hg g (by simp)))]
    unfold assign1
    dsimp only
    by_cases h1 : g ∈ st.1.map (·.1)
    · rw [if_pos h1, if_pos h1]
    · rw [if_neg h1, if_neg h1]
      cases (st.1.map (·.1)).find? (fun r => d r g < thr) <;> rfl

end

/-- When no distance between graphs of the population and old representatives raises, `speciate` does what `Spec.speciate` says. -/
theorem speciateE_ok {G : Type} [DecidableEq G] [Field K] [LinearOrder K] {dE : G → G → Except Err K} {d : G → G → K} (sqrt : Nat → K) {r : SpecRnd G}
    (hr : r.Honest) {S : Spec G K} (hn : (S.species.map (·.1)).Nodup) {pop : List G}
    (h : ∀ a b, (a ∈ pop ∨ a ∈ S.species.map (·.1)) → (b ∈ pop ∨ b ∈ S.species.map (·.1)) → dE a b = .ok (d a b)) :
    S.speciateE dE sqrt r pop = .ok (S.speciate d sqrt r pop) := by
  unfold Spec.speciateE Spec.speciate
  rw [repLoopE_ok (d := d) hr.2 (fun a ha b hb => h a b (Or.inr ((hr.1 _).mem_iff.1 ha)) (Or.inl (List.mem_dedup.1 hb)))]
  dsimp only
  obtain ⟨h1, h2⟩ := repLoop_inv d S.thr r.graphOrder hr.2 pop 0 (r.repOrder (S.species.map (·.1))) pop.dedup S.species hn
    (fun g hg => List.mem_dedup.1 hg) (fun p hp => .inl ((hr.1 _).mem_iff.2 (List.mem_map.2 ⟨p, hp, rfl⟩)))
  obtain ⟨sp1, hsp⟩ : ∃ u, u = repLoop d S.thr r.graphOrder 0 (r.repOrder (S.species.map (·.1))) pop.dedup S.species := ⟨_, rfl⟩
  rw [← hsp] at h1 h2 ⊢
  have hk : ∀ k ∈ sp1.map (·.1), k ∈ pop := by
    intro k hk
    obtain ⟨p, hp, rfl⟩ := List.mem_map.1 hk
    exact (h2 p hp).1
  rw [redOuterE_ok (d := d) (fun a ha b hb => h a b (Or.inl (hk a ha)) (Or.inl (hk b hb)))]
  dsimp only
  have e : (redOuter d S.thr (sp1.map (·.1)) (sp1.map (·.1)) []).foldl dpop sp1 = dropRedundant d S.thr sp1 := rfl
  have hk2 : ∀ k ∈ (dropRedundant d S.thr sp1).map (·.1), k ∈ pop := by
    intro k hk1
    obtain ⟨p, hp, rfl⟩ := List.mem_map.1 hk1
    exact hk _ (List.mem_map_of_mem ((dropRedundant_inv d S.thr sp1 h1).2.1 p hp))
  rw [e, assignE_ok (d := d) (P := fun g => g ∈ pop) (fun a b ha hb => h a b (Or.inl ha) (Or.inl hb)) pop (fun _ hg => hg) _ hk2]
  rfl

/-- When all distances to graphs of the population raise, and none of them represents a species, `speciate` raises as soon as there are two. -/
theorem speciateE_error {G : Type} [DecidableEq G] [Field K] [LinearOrder K] {dE : G → G → Except Err K} {e : Err} (sqrt : Nat → K) {r : SpecRnd G}
    (hr : r.Honest) {S : Spec G K} {a b : G} {rest : List G} (hab : a ≠ b)
    (hk : ∀ g ∈ a :: b :: rest, g ∉ S.species.map (·.1))
    (h : ∀ x y, (x ∈ a :: b :: rest ∨ x ∈ S.species.map (·.1)) → y ∈ a :: b :: rest → dE x y = .error e) :
    S.speciateE dE sqrt r (a :: b :: rest) = .error e := by
  unfold Spec.speciateE
  cases hsp : r.repOrder (S.species.map (·.1)) with
  | nil =>
    have h0 : S.species.map (·.1) = [] := by
      have := hr.1 (S.species.map (·.1))
      rw [hsp] at this
      exact this.nil_eq.symm
    have h1 : S.species = [] := List.map_eq_nil_iff.1 h0
    simp only [repLoopE, h1, List.map_nil, redOuterE, List.foldl_nil]
    have hb : b ≠ a := fun h => hab h.symm
    simp only [assignE, List.map_nil, List.not_mem_nil, if_false, findRepE, if_true, dset, List.nil_append, List.map_cons, List.mem_singleton, hb]
    rw [h a b (Or.inl (by simp)) (by simp)]
  | cons rep reps =>
    have hrep : rep ∈ S.species.map (·.1) := (hr.1 _).mem_iff.1 (by rw [hsp]; simp)
    have hn : rep ∉ (a :: b :: rest).dedup := fun hm => hk rep (List.mem_dedup.1 hm) hrep
    obtain ⟨g, gs, hg⟩ : ∃ g gs, r.graphOrder 0 (a :: b :: rest).dedup = g :: gs := by
      cases hc : r.graphOrder 0 (a :: b :: rest).dedup with
      | nil =>
        have hm : a ∈ (a :: b :: rest).dedup := List.mem_dedup.2 (by simp)
        have := (hr.2 0 (a :: b :: rest).dedup).mem_iff.2 hm
        rw [hc] at this
        simp at this
      | cons g gs => exact ⟨g, gs, rfl⟩
    have hgm : g ∈ a :: b :: rest := by
      have : g ∈ r.graphOrder 0 (a :: b :: rest).dedup := by rw [hg]; simp
      exact List.mem_dedup.1 ((hr.2 _ _).mem_iff.1 this)
    have hgk : g ∉ S.species.map (·.1) := hk g hgm
    rw [repLoopE, if_neg hn, hg, bestRepE, if_pos hgk, h rep g (Or.inr hrep) hgm]

/-! ## Inheritance -/

section
variable {T : Type}

/-- Objects keep their mark. -/
def TagExt (tag : C → T) (w w' : Pool C) : Prop := w.next ≤ w'.next ∧ ∀ i < w.next, tag (w'.heap i) = tag (w.heap i)

variable {tag : C → T}

theorem TagExt.refl (w : Pool C) : TagExt tag w w := ⟨le_refl _, fun _ _ => rfl⟩

theorem TagExt.trans {a b c : Pool C} (h : TagExt tag a b) (h' : TagExt tag b c) : TagExt tag a c :=
  ⟨h.1.trans h'.1, fun i hi => (h'.2 i (lt_of_lt_of_le hi h.1)).trans (h.2 i hi)⟩

theorem TagExt.write {w : Pool C} {i : Nat} {c : C} (h : tag c = tag (w.heap i)) : TagExt tag w (w.write i c) := by
  refine ⟨le_refl _, fun j _ => ?_⟩
  simp only [Pool.write]
  split
  · next e => rw [e, h]
  · rfl

theorem TagExt.tick {w w' : Pool C} (h : TagExt tag w w') : TagExt tag w w'.tick := h

theorem TagExt.alloc (w : Pool C) (c : C) : TagExt tag w (w.alloc c) := by
  refine ⟨Nat.le_succ _, fun j hj => ?_⟩
  simp only [Pool.alloc]
  rw [if_neg (by omega)]

theorem evolveUntil_tag {cfg : TopCfg C K} (hk : Keeps tag cfg) {f : Nat} {w w' : Pool C} {i : Nat} (h : evolveUntil cfg f w i = .ok w') : TagExt tag w w' := by
  induction f generalizing w with
  | zero => cases h
  | succ f ih =>
    rw [evolveUntil] at h
    split at h
    · cases h
    · next c hc =>
      have hw : TagExt tag w (w.write i c).tick := (TagExt.write (hk.ev _ _ _ hc)).tick
      split at h
      · injection h with h
        subst h
        exact hw
      · exact hw.trans (ih h)

theorem randomLoop_tag {cfg : TopCfg C K} (hk : Keeps tag cfg) {pop : List (Indiv K)} {w w' : Pool C} {out : List (Indiv K)}
    (h : randomLoop cfg w pop = .ok (w', out)) : TagExt tag w w' := by
  induction pop generalizing w out with
  | nil =>
    simp only [randomLoop, Except.ok.injEq, Prod.mk.injEq] at h
    obtain ⟨rfl, rfl⟩ := h
    exact .refl _
  | cons p pop ih =>
    obtain ⟨s, i⟩ := p
    rw [randomLoop] at h
    split at h
    · cases h
    · next w1 h1 =>
      split at h
      · cases h
      · next w2 rest h2 =>
        simp only [Except.ok.injEq, Prod.mk.injEq] at h
        obtain ⟨rfl, rfl⟩ := h
        exact (evolveUntil_tag hk h1).trans (ih h2)

/-- Every individual of `out` carries the mark of one of `pop`. -/
def Inherits (tag : C → T) (w : Pool C) (pop : List (Indiv K)) (w' : Pool C) (out : List (Indiv K)) : Prop :=
  ∀ p ∈ out, p.2 < w'.next ∧ ∃ q ∈ pop, tag (w'.heap p.2) = tag (w.heap q.2)

theorem Inherits.later {w w1 w2 : Pool C} {pop out : List (Indiv K)} (h : Inherits tag w pop w1 out) (h' : TagExt tag w1 w2) : Inherits tag w pop w2 out := by
  intro p hp
  obtain ⟨h1, q, hq, e⟩ := h p hp
  exact ⟨lt_of_lt_of_le h1 h'.1, q, hq, (h'.2 _ h1).trans e⟩

theorem copyAll_tag {w : Pool C} {pop : List (Indiv K)} (ha : Alive w pop) :
    TagExt tag w (copyAll w pop).1 ∧ Inherits tag w pop (copyAll w pop).1 (copyAll w pop).2 := by
  induction pop generalizing w with
  | nil => exact ⟨.refl _, by simp [Inherits, copyAll]⟩
  | cons p pop ih =>
    obtain ⟨s, i⟩ := p
    have hu : TagExt tag w (w.alloc (w.heap i)) := .alloc w _
    obtain ⟨h1, h2⟩ := ih (w := w.alloc (w.heap i)) (fun q hq => lt_of_lt_of_le (ha q (by simp [hq])) hu.1)
    rw [copyAll]
    dsimp only
    refine ⟨hu.trans h1, fun q hq => ?_⟩
    rcases List.mem_cons.1 hq with rfl | hq
    · have hl : w.next < (w.alloc (w.heap i)).next := Nat.lt_succ_self _
      refine ⟨lt_of_lt_of_le hl h1.1, (s, i), by simp, ?_⟩
      rw [h1.2 _ hl]
      simp [Pool.alloc]
    · obtain ⟨a, q', hq', e⟩ := h2 q hq
      exact ⟨a, q', by simp [hq'], e.trans (hu.2 _ (ha q' (by simp [hq'])))⟩

theorem child_tag {cfg : TopCfg C K} (hk : Keeps tag cfg) {w w' : Pool C} {i : Nat} (h : child cfg w i = .ok w') :
    TagExt tag w w' ∧ w'.next = w.next + 1 ∧ tag (w'.heap w.next) = tag (w.heap i) := by
  obtain ⟨c, hc, rfl⟩ := child_ok h
  exact ⟨(TagExt.alloc w c).tick, rfl, by rw [new_heap]; exact hk.ev _ _ _ hc⟩

theorem prefInner_tag {cfg : TopCfg C K} (hk : Keeps tag cfg) {stop : K → Bool} {parent f : Nat} {w w' : Pool C} {prev : Option Nat} {cs : List (Indiv K)}
    (hp : parent < w.next) (h : prefInner cfg stop parent f w prev = .ok (w', cs)) :
    TagExt tag w w' ∧ ∀ c ∈ cs, c.2 < w'.next ∧ tag (w'.heap c.2) = tag (w.heap parent) := by
  induction f generalizing w prev cs with
  | zero => cases h
  | succ f ih =>
    rw [prefInner] at h
    split at h
    · cases h
    · next w1 hc =>
      obtain ⟨e1, n1, t1⟩ := child_tag hk hc
      dsimp only at h
      have key : ∀ w2 : Pool C, TagExt tag w1 w2 →
          (if (cfg.chk (w2.heap w.next) && cfg.hasParams (w2.heap w.next)) = true then
            if stop (cfg.u w2.calls) = true then Except.ok (w2.tick, [((none : Option K), w.next)])
            else
              match prefInner cfg stop parent f w2.tick (some w.next) with
              | .error e => .error e
              | .ok (w3, rest) => .ok (w3, (none, w.next) :: rest)
          else prefInner cfg stop parent f w2 (some w.next)) = .ok (w', cs) →
          TagExt tag w w' ∧ ∀ c ∈ cs, c.2 < w'.next ∧ tag (w'.heap c.2) = tag (w.heap parent) := by
        intro w2 h12 h
        have hw2 : TagExt tag w w2 := e1.trans h12
        have hl : w.next < w1.next := by omega
        have t2 : w.next < w2.next ∧ tag (w2.heap w.next) = tag (w.heap parent) := ⟨lt_of_lt_of_le hl h12.1, (h12.2 _ hl).trans t1⟩
        have hp2 : parent < w2.next := lt_of_lt_of_le hp hw2.1
        split at h
        · split at h
          · simp only [Except.ok.injEq, Prod.mk.injEq] at h
            obtain ⟨rfl, rfl⟩ := h
            refine ⟨hw2.tick, fun c hc => ?_⟩
            simp only [List.mem_singleton] at hc
            subst hc
            exact t2
          · split at h
            · cases h
            · next w3 rest hr =>
              simp only [Except.ok.injEq, Prod.mk.injEq] at h
              obtain ⟨rfl, rfl⟩ := h
              obtain ⟨h3, h4⟩ := ih (w := w2.tick) hp2 hr
              refine ⟨hw2.tick.trans h3, fun c hc => ?_⟩
              rcases List.mem_cons.1 hc with rfl | hc
              · exact ⟨lt_of_lt_of_le t2.1 h3.1, (h3.2 _ t2.1).trans t2.2⟩
              · exact ⟨(h4 c hc).1, (h4 c hc).2.trans (hw2.2 _ hp)⟩
        · obtain ⟨h3, h4⟩ := ih hp2 h
          exact ⟨hw2.trans h3, fun c hc => ⟨(h4 c hc).1, (h4 c hc).2.trans (hw2.2 _ hp)⟩⟩
      cases prev with
      | none => exact key _ (.refl _) h
      | some s => exact key _ (.write (hk.over _ _)) h

theorem prefLoop_tag {cfg : TopCfg C K} (hk : Keeps tag cfg) {stop : Option K → K → Bool} {pop : List (Indiv K)} {w w' : Pool C} {cs : List (Indiv K)}
    (ha : Alive w pop) (h : prefLoop cfg stop w pop = .ok (w', cs)) : TagExt tag w w' ∧ Inherits tag w pop w' cs := by
  induction pop generalizing w cs with
  | nil =>
    simp only [prefLoop, Except.ok.injEq, Prod.mk.injEq] at h
    obtain ⟨rfl, rfl⟩ := h
    exact ⟨.refl _, by simp [Inherits]⟩
  | cons p pop ih =>
    obtain ⟨s, i⟩ := p
    rw [prefLoop] at h
    split at h
    · cases h
    · next w1 c1 hi =>
      split at h
      · cases h
      · next w2 rest hr =>
        simp only [Except.ok.injEq, Prod.mk.injEq] at h
        obtain ⟨rfl, rfl⟩ := h
        obtain ⟨a1, a2⟩ := prefInner_tag hk (ha (s, i) (by simp)) hi
        obtain ⟨b1, b2⟩ := ih (fun q hq => lt_of_lt_of_le (ha q (by simp [hq])) a1.1) hr
        refine ⟨a1.trans b1, fun c hc => ?_⟩
        rcases List.mem_append.1 hc with hc | hc
        · exact ⟨lt_of_lt_of_le (a2 c hc).1 b1.1, (s, i), by simp, (b1.2 _ (a2 c hc).1).trans (a2 c hc).2⟩
        · obtain ⟨x, q, hq, e⟩ := b2 c hc
          exact ⟨x, q, by simp [hq], e.trans (a1.2 _ (ha q (by simp [hq])))⟩

theorem reproduce_tag {cfg : TopCfg C K} (hk : Keeps tag cfg) {choose : Nat → Nat} {pop : List (Indiv K)} {n : Nat} {w w' : Pool C} {cs : List (Indiv K)}
    (ha : Alive w pop) (h : reproduce cfg choose pop n w = .ok (w', cs)) : TagExt tag w w' ∧ Inherits tag w pop w' cs := by
  induction n generalizing w cs with
  | zero =>
    simp only [reproduce, Except.ok.injEq, Prod.mk.injEq] at h
    obtain ⟨rfl, rfl⟩ := h
    exact ⟨.refl _, by simp [Inherits]⟩
  | succ n ih =>
    rw [reproduce] at h
    split at h
    · cases h
    · next s i hi =>
      have hm : (s, i) ∈ pop := List.mem_of_getElem? hi
      split at h
      · cases h
      · next w1 hc =>
        obtain ⟨e1, n1, t1⟩ := child_tag hk hc
        split at h
        · split at h
          · cases h
          · next w2 rest hr =>
            simp only [Except.ok.injEq, Prod.mk.injEq] at h
            obtain ⟨rfl, rfl⟩ := h
            obtain ⟨b1, b2⟩ := ih (fun q hq => lt_of_lt_of_le (ha q hq) e1.1) hr
            refine ⟨e1.trans b1, fun c hc => ?_⟩
            have hl : w.next < w1.next := by omega
            rcases List.mem_cons.1 hc with rfl | hc
            · exact ⟨lt_of_lt_of_le hl b1.1, (s, i), hm, (b1.2 _ hl).trans t1⟩
            · obtain ⟨x, q, hq, e⟩ := b2 c hc
              exact ⟨x, q, hq, e.trans (e1.2 _ (ha q hq))⟩
        · cases h

theorem Inherits.same {w w' : Pool C} {pop out : List (Indiv K)} (ha : Alive w pop) (h : TagExt tag w w') (ho : ∀ p ∈ out, ∃ q ∈ pop, p.2 = q.2) :
    Inherits tag w pop w' out := by
  intro p hp
  obtain ⟨q, hq, e⟩ := ho p hp
  rw [e]
  exact ⟨lt_of_lt_of_le (ha q hq) h.1, q, hq, h.2 _ (ha q hq)⟩

theorem Inherits.append {w w' : Pool C} {pop a b : List (Indiv K)} (ha : Inherits tag w pop w' a) (hb : Inherits tag w pop w' b) : Inherits tag w pop w' (a ++ b) := by
  intro p hp
  rcases List.mem_append.1 hp with hp | hp
  · exact ha p hp
  · exact hb p hp

section
variable [Field K] [LinearOrder K]

theorem updatePop_tag {cfg : TopCfg C K} (hk : Keeps tag cfg) {w w' : Pool C} {pop out : List (Indiv K)} (ha : Alive w pop)
    (h : updatePop cfg w pop = .ok (w', out)) : TagExt tag w w' ∧ Inherits tag w pop w' out := by
  have he : ∀ p ∈ elite cfg pop, ∃ q ∈ pop, p.2 = q.2 := fun p hp => ⟨p, elite_mem p hp, rfl⟩
  have pref : ∀ stop, (match prefLoop cfg stop w pop with
      | .error e => (.error e : Except Err (Pool C × List (Indiv K)))
      | .ok (w', new) => .ok (w', new ++ elite cfg pop)) = .ok (w', out) → TagExt tag w w' ∧ Inherits tag w pop w' out := by
    intro stop h
    split at h
    · cases h
    · next w2 new h2 =>
      simp only [Except.ok.injEq, Prod.mk.injEq] at h
      obtain ⟨rfl, rfl⟩ := h
      obtain ⟨a1, a2⟩ := prefLoop_tag hk ha h2
      exact ⟨a1, a2.append (.same ha a1 he)⟩
  have repr : ∀ choose, (match reproduce cfg choose pop pop.length w with
      | .error e => (.error e : Except Err (Pool C × List (Indiv K)))
      | .ok (w', new) => .ok (w', new ++ elite cfg pop)) = .ok (w', out) → TagExt tag w w' ∧ Inherits tag w pop w' out := by
    intro choose h
    split at h
    · cases h
    · next w2 new h2 =>
      simp only [Except.ok.injEq, Prod.mk.injEq] at h
      obtain ⟨rfl, rfl⟩ := h
      obtain ⟨a1, a2⟩ := reproduce_tag hk ha h2
      exact ⟨a1, a2.append (.same ha a1 he)⟩
  unfold updatePop at h
  cases hr : cfg.rule with
  | random =>
    rw [hr] at h
    dsimp only at h
    unfold updateRandom at h
    have hc := copyAll_tag (tag := tag) (w := w) (pop := elite cfg pop) (fun p hp => ha p (elite_mem p hp))
    cases hcp : copyAll w (elite cfg pop) with
    | mk w1 pass =>
      rw [hcp] at h hc
      dsimp only at h hc
      split at h
      · cases h
      · next w2 pop2 h2 =>
        simp only [Except.ok.injEq, Prod.mk.injEq] at h
        obtain ⟨rfl, rfl⟩ := h
        have h12 := randomLoop_tag hk h2
        refine ⟨hc.1.trans h12, Inherits.append ?_ ?_⟩
        · refine .same ha (hc.1.trans h12) (fun p hp => ?_)
          rw [(randomLoop_ok h2).1] at hp
          obtain ⟨q, hq, rfl⟩ := List.mem_map.1 hp
          exact ⟨q, hq, rfl⟩
        · intro p hp
          obtain ⟨x, q, hq, e⟩ := (hc.2.later h12) p hp
          exact ⟨x, q, elite_mem q hq, e⟩
  | preferential root =>
    rw [hr] at h
    dsimp only at h
    unfold updatePreferential at h
    split at h
    · cases h
    · exact pref _ h
    · split at h
      · cases h
      · exact pref _ h
  | roulette p =>
    rw [hr] at h
    dsimp only at h
    unfold updateRoulette at h
    split at h
    · cases h
    · cases h
    · split at h
      · cases h
      · split at h
        · cases h
        · exact repr _ h
  | tournament d =>
    rw [hr] at h
    dsimp only at h
    unfold updateTournament at h
    split at h
    · cases h
    · split at h
      · cases h
      · exact repr _ h

omit [Field K] [LinearOrder K] in
theorem optimiseAll_tag {cfg : TopCfg C K} (hk : Keeps tag cfg) {pop : List (Indiv K)} {w w' : Pool C} {out : List (K × Nat)} (ha : Alive w pop)
    (h : optimiseAll cfg w pop = .ok (w', out)) : TagExt tag w w' ∧ Inherits tag w pop w' (asInd out) := by
  induction pop generalizing w out with
  | nil =>
    simp only [optimiseAll, Except.ok.injEq, Prod.mk.injEq] at h
    obtain ⟨rfl, rfl⟩ := h
    exact ⟨.refl _, by simp [Inherits, asInd]⟩
  | cons p pop ih =>
    obtain ⟨s, i⟩ := p
    cases s with
    | some s => simp [optimiseAll] at h
    | none =>
      rw [optimiseAll] at h
      split at h
      · cases h
      · next sc c hc =>
        split at h
        · cases h
        · next w2 rest hr =>
          simp only [Except.ok.injEq, Prod.mk.injEq] at h
          obtain ⟨rfl, rfl⟩ := h
          have e1 : TagExt tag w (w.alloc c).tick := (TagExt.alloc w c).tick
          obtain ⟨b1, b2⟩ := ih (fun q hq => lt_of_lt_of_le (ha q (by simp [hq])) e1.1) hr
          refine ⟨e1.trans b1, fun q hq => ?_⟩
          have hl : w.next < (w.alloc c).tick.next := Nat.lt_succ_self _
          simp only [asInd, List.map_cons, List.mem_cons] at hq
          rcases hq with rfl | hq
          · refine ⟨lt_of_lt_of_le hl b1.1, (none, i), by simp, ?_⟩
            rw [b1.2 _ hl, new_heap]
            exact hk.opt _ _ _ _ hc
          · obtain ⟨x, q', hq', e⟩ := b2 q hq
            exact ⟨x, q', by simp [hq'], e.trans (e1.2 _ (ha q' (by simp [hq'])))⟩

/-- The graphs of the selection are graphs of the population. -/
theorem select_graphs {cfg : TopCfg C K} {gen : Nat} {w : Pool C} {mgr mgr' : Option (Spec Nat K)} {pop : List (K × Nat)} {kept : List (Indiv K)}
    (h : select cfg gen w mgr pop = .ok (mgr', kept)) : (∀ p ∈ kept, ∃ q ∈ asInd pop, p.2 = q.2) ∧ (mgr' = none ↔ mgr = none) := by
  have best : ∀ (l : List (K × Nat)), (∀ p ∈ l, ∃ q ∈ pop, p.2 = q.2) → ∀ p ∈ asInd (selectBest cfg.nPop l), ∃ q ∈ asInd pop, p.2 = q.2 := by
    intro l hl p hp
    obtain ⟨x, hx, rfl⟩ := List.mem_map.1 hp
    obtain ⟨q, hq, e⟩ := hl x ((List.mem_insertionSort _).1 (List.mem_of_mem_take hx))
    exact ⟨(some q.1, q.2), List.mem_map_of_mem hq, e⟩
  unfold select at h
  split at h
  · simp only [Except.ok.injEq, Prod.mk.injEq] at h
    obtain ⟨rfl, rfl⟩ := h
    exact ⟨best pop (fun p hp => ⟨p, hp, rfl⟩), by simp⟩
  · dsimp only at h
    split at h
    · cases h
    · next kept' hs =>
      simp only [Except.ok.injEq, Prod.mk.injEq] at h
      obtain ⟨rfl, rfl⟩ := h
      refine ⟨?_, by simp⟩
      unfold selectShared at hs
      split at hs
      · cases hs
      · next shared hsh =>
        split at hs
        · cases hs
        · next l hl =>
          have hg := (share_graphs hsh).1
          have hsc : ∀ {a : List (Option K × Nat)} {b : List (K × Nat)}, scored a = .ok b → b.map (·.2) = a.map (·.2) := by
            intro a
            induction a with
            | nil => intro b hb; simp only [scored, Except.ok.injEq] at hb; subst hb; rfl
            | cons x a ih =>
              intro b hb
              obtain ⟨s, g⟩ := x
              cases s with
              | none => simp [scored] at hb
              | some s =>
                rw [scored] at hb
                split at hb
                · cases hb
                · next l' hl' =>
                  simp only [Except.ok.injEq] at hb
                  subst hb
                  simp [ih hl']
          have hl2 : l.map (·.2) = pop.map (·.2) := by
            rw [hsc hl, hg]
            simp [asInd]
          have hu := (unshare_graphs hs).1
          intro p hp
          have : p.2 ∈ (asInd (selectBest cfg.nPop l)).map (·.2) := by rw [← hu]; exact List.mem_map_of_mem hp
          obtain ⟨p', hp', e'⟩ := List.mem_map.1 this
          obtain ⟨q, hq, e⟩ := best l (fun x hx => by
            have : x.2 ∈ pop.map (·.2) := by rw [← hl2]; exact List.mem_map_of_mem hx
            obtain ⟨q, hq, e⟩ := List.mem_map.1 this
            exact ⟨q, hq, e.symm⟩) p' hp'
          exact ⟨q, hq, e'.symm.trans e⟩

theorem breed_tag {cfg : TopCfg C K} (hk : Keeps tag cfg) {gen : Nat} {st st1 : RunSt C K} (ha : Alive st.w st.pop)
    (hb : breed cfg gen st = .ok st1) : TagExt tag st.w st1.w ∧ Inherits tag st.w st.pop st1.w st1.pop := by
  unfold breed at hb
  split at hb
  · split at hb
    · cases hb
    · next w pop hu =>
      injection hb with hb
      subst hb
      exact updatePop_tag hk ha hu
  · split at hb
    · split at hb
      · cases hb
      · next w pop hu =>
        injection hb with hb
        subst hb
        exact updatePop_tag hk ha hu
    · dsimp only at hb
      split at hb
      · cases hb
      next shared hsh =>
      split at hb
      · cases hb
      next w pop hu =>
      split at hb
      · cases hb
      next pop' hun =>
      injection hb with hb
      subst hb
      dsimp only
      have hs : ∀ p ∈ shared, ∃ q ∈ st.pop, p.2 = q.2 := by
        intro p hp
        have : p.2 ∈ st.pop.map (·.2) := by rw [← (share_graphs hsh).1]; exact List.mem_map_of_mem hp
        obtain ⟨q, hq, e⟩ := List.mem_map.1 this
        exact ⟨q, hq, e.symm⟩
      have ha' : Alive st.w shared := by
        intro p hp
        obtain ⟨q, hq, e⟩ := hs p hp
        rw [e]
        exact ha q hq
      obtain ⟨a1, a2⟩ := updatePop_tag hk ha' hu
      refine ⟨a1, fun p hp => ?_⟩
      have : p.2 ∈ pop.map (·.2) := by rw [← (unshare_graphs hun).1]; exact List.mem_map_of_mem hp
      obtain ⟨p', hp', e'⟩ := List.mem_map.1 this
      obtain ⟨x, q, hq, e⟩ := a2 p' hp'
      obtain ⟨q2, hq2, e2⟩ := hs q hq
      rw [e'] at x e
      rw [e2] at e
      exact ⟨x, q2, hq2, e⟩

/-- A generation: every individual afterwards carries the mark of one before. -/
theorem generation_tag {cfg : TopCfg C K} (hk : Keeps tag cfg) {gen : Nat} {st st' : RunSt C K} (ha : Alive st.w st.pop)
    (h : generation cfg gen st = .ok st') : Inherits tag st.w st.pop st'.w st'.pop ∧ TagExt tag st.w st'.w := by
  unfold generation at h
  split at h
  · cases h
  split at h
  · cases h
  next st1 hb =>
  have hb1 := breed_tag hk ha hb
  split at h
  · cases h
  next w2 pop2 ho =>
  dsimp only at h
  split at h
  · cases h
  next mgr kept hsel =>
  split at h
  · cases h
  injection h with h
  subst h
  dsimp only
  have ha1 : Alive st1.w st1.pop := fun p hp => (hb1.2 p hp).1
  obtain ⟨o1, o2⟩ := optimiseAll_tag hk ha1 ho
  refine ⟨fun p hp => ?_, hb1.1.trans o1⟩
  obtain ⟨q, hq, e⟩ := (select_graphs hsel).1 p hp
  obtain ⟨x, q2, hq2, e2⟩ := o2 q hq
  obtain ⟨_, q3, hq3, e3⟩ := hb1.2 q2 hq2
  rw [e]
  exact ⟨x, q3, hq3, e2.trans e3⟩

/-- The individuals of the population and the representatives of the species satisfy `Q`. -/
structure AllMarked (tag : C → T) (Q : T → Prop) (st : RunSt C K) : Prop where
  alive : Alive st.w st.pop
  pop : ∀ p ∈ st.pop, Q (tag (st.w.heap p.2))
  nodup : ∀ S, st.mgr = some S → (S.species.map (·.1)).Nodup
  keys : ∀ S, st.mgr = some S → ∀ k ∈ S.species.map (·.1), k < st.w.next ∧ Q (tag (st.w.heap k))

theorem select_keys {cfg : TopCfg C K} (ho : ∀ n, (cfg.specRnd n).Honest) {gen : Nat} {w : Pool C} {mgr mgr' : Option (Spec Nat K)} {pop : List (K × Nat)} {kept : List (Indiv K)}
    (hn : ∀ S, mgr = some S → (S.species.map (·.1)).Nodup) (h : select cfg gen w mgr pop = .ok (mgr', kept)) :
    ∀ S, mgr' = some S → (S.species.map (·.1)).Nodup ∧ ∀ k ∈ S.species.map (·.1), k ∈ pop.map (·.2) := by
  intro S hS
  unfold select at h
  split at h
  · simp only [Except.ok.injEq, Prod.mk.injEq] at h
    rw [← h.1] at hS
    cases hS
  · next S0 =>
    dsimp only at h
    split at h
    · cases h
    · simp only [Except.ok.injEq, Prod.mk.injEq] at h
      rw [← h.1] at hS
      injection hS with hS
      subst hS
      have := speciate_inv (heapDist cfg w) cfg.sqrt (ho (2 * gen + 1)) (hn S0 rfl) (pop.map (·.2))
      exact ⟨this.nodup, this.sub⟩

theorem breed_nodup {cfg : TopCfg C K} (ho : ∀ n, (cfg.specRnd n).Honest) (hset : cfg.setup = none) {gen : Nat} {st st' : RunSt C K}
    (hn : ∀ S, st.mgr = some S → (S.species.map (·.1)).Nodup) (h : breed cfg gen st = .ok st') :
    (∀ S, st'.mgr = some S → (S.species.map (·.1)).Nodup) ∧ (st'.mgr = none ↔ st.mgr = none) := by
  unfold breed at h
  split at h
  · split at h
    · cases h
    · injection h with h
      subst h
      dsimp only
      rw [hset, Option.none_or]
      exact ⟨hn, Iff.rfl⟩
  · split at h
    · next hm =>
      split at h
      · cases h
      · injection h with h
        subst h
        exact ⟨hn, Iff.rfl⟩
    · next S hm =>
      dsimp only at h
      split at h
      · cases h
      split at h
      · cases h
      split at h
      · cases h
      injection h with h
      subst h
      refine ⟨fun S' hS' => ?_, by simp [hm]⟩
      injection hS' with hS'
      subst hS'
      exact (speciate_inv (heapDist cfg st.w) cfg.sqrt (ho (2 * gen)) (hn S hm) (st.pop.map (·.2))).1

theorem generation_marked {cfg : TopCfg C K} (hk : Keeps tag cfg) (ho : ∀ n, (cfg.specRnd n).Honest) (hset : cfg.setup = none) {Q : T → Prop} {gen : Nat} {st st' : RunSt C K}
    (hi : AllMarked tag Q st) (h : generation cfg gen st = .ok st') : AllMarked tag Q st' ∧ (st'.mgr = none ↔ st.mgr = none) := by
  have hg := generation_tag hk hi.alive h
  have hq : ∀ p ∈ st'.pop, Q (tag (st'.w.heap p.2)) := by
    intro p hp
    obtain ⟨_, q, hq, e⟩ := hg.1 p hp
    rw [e]
    exact hi.pop q hq
  unfold generation at h
  split at h
  · cases h
  split at h
  · cases h
  next st1 hb =>
  obtain ⟨hbn, hbm⟩ := breed_nodup ho hset hi.nodup hb
  have hin := breed_tag hk hi.alive hb
  split at h
  · cases h
  next w2 pop2 hop =>
  dsimp only at h
  split at h
  · cases h
  next mgr kept hsel =>
  split at h
  · cases h
  injection h with h
  subst h
  have hkeys := select_keys ho hbn hsel
  obtain ⟨_, o2⟩ := optimiseAll_tag hk (fun p hp => (hin.2 p hp).1) hop
  refine ⟨⟨fun p hp => (hg.1 p hp).1, hq, fun S hS => (hkeys S hS).1, fun S hS k hkk => ?_⟩, ((select_graphs hsel).2).trans hbm⟩
  have hk2 := (hkeys S hS).2 k hkk
  obtain ⟨q, hqq, rfl⟩ := List.mem_map.1 hk2
  obtain ⟨x, q2, hq2, e2⟩ := o2 (some q.1, q.2) (List.mem_map_of_mem hqq)
  obtain ⟨_, q3, hq3, e3⟩ := hin.2 q2 hq2
  refine ⟨x, ?_⟩
  dsimp only at e2 ⊢
  rw [e2, e3]
  exact hi.pop q3 hq3

end
end

/-! ## The setup -/

theorem markFrom_spec (s : SpecName) (target : Nat) {pop : List (Indiv K)} (hn : (pop.map (·.2)).Nodup) (i : Nat) (w : Pool (C × Option Descriptor)) :
    (markFrom s target i w pop).next = w.next ∧ (∀ j, ((markFrom s target i w pop).heap j).1 = (w.heap j).1) ∧
    (∀ j, j ∉ pop.map (·.2) → (markFrom s target i w pop).heap j = w.heap j) ∧
    ∀ (n : Nat) p, pop[n]? = some p → ((markFrom s target i w pop).heap p.2).2 = some (setupMark s target (i + n)) := by
  induction pop generalizing i w with
  | nil => simp [markFrom]
  | cons p pop ih =>
    obtain ⟨x, g⟩ := p
    rw [List.map_cons, List.nodup_cons] at hn
    obtain ⟨h1, h2, h3, h4⟩ := ih hn.2 (i + 1) (w.write g ((w.heap g).1, some (setupMark s target i)))
    rw [markFrom]
    refine ⟨h1, fun j => ?_, fun j hj => ?_, fun n p hp => ?_⟩
    · rw [h2]
      simp only [Pool.write]
      split
      · next e => rw [e]
      · rfl
    · simp only [List.map_cons, List.mem_cons, not_or] at hj
      rw [h3 j hj.2]
      simp only [Pool.write]
      rw [if_neg hj.1]
    · cases n with
      | zero =>
        simp only [List.getElem?_cons_zero, Option.some.injEq] at hp
        subst hp
        rw [h3 g hn.1]
        simp [Pool.write]
      | succ n =>
        rw [List.getElem?_cons_succ] at hp
        rw [h4 n p hp, Nat.add_assoc, Nat.add_comm 1 n]

theorem copyAll_nodup (w : Pool C) (pop : List (Indiv K)) : (((copyAll w pop).2).map (·.2)).Nodup := by
  induction pop generalizing w with
  | nil => simp [copyAll]
  | cons p pop ih =>
    obtain ⟨s, i⟩ := p
    rw [copyAll]
    dsimp only
    rw [List.map_cons, List.nodup_cons]
    refine ⟨fun hm => ?_, ih _⟩
    obtain ⟨q, hq, e⟩ := List.mem_map.1 hm
    have := ((copyAll_spec (w.alloc (w.heap i)) pop).2.2 q hq).1
    simp only [Pool.alloc] at this
    dsimp only at e
    omega

theorem setupMark_belongs {s : SpecName} {target : Nat} (h : s = .simpleSubpopulation → target ≠ 0) (i : Nat) : BelongsTo s target (some (setupMark s target i)) := by
  cases s with
  | simpleSubpopulation => exact ⟨_, rfl, rfl, by simpa [setupMark] using Nat.mod_lt i (Nat.pos_of_ne_zero (h rfl))⟩
  | vectorDiff => exact ⟨_, rfl, rfl, by simp [setupMark]⟩
  | photoNeat => exact ⟨_, rfl, rfl, by simp [setupMark]⟩
  | editDistance => exact ⟨_, rfl, rfl, by simp [setupMark]⟩

end Verif
