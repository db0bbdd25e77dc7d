import Verif.Lemmas.Topology
import Verif.Props.Selection
/-!
# Properties of the preferential update rule (C50, C51)
-/

set_option linter.unusedSectionVars false

namespace Verif
variable {C K : Type} [Field K] [LinearOrder K] [IsStrictOrderedRing K]

/-- The children of one parent (object `parent` of `w`) as they are found in `w'`: at least one; all new and unscored; each was
made by the evolver from the parent and accepted.  The last one is as the evolver made it, those before it have had
the parent's parameters written over theirs. -/
def Family (cfg : TopCfg C K) (w w' : Pool C) (parent : Nat) (cs : List (Indiv K)) : Prop :=
  ∃ init last, cs = init ++ [last] ∧ AllUnscored cs ∧ (∀ c ∈ cs, w.next ≤ c.2 ∧ c.2 < w'.next) ∧
    (∃ n, cfg.ev n (w.heap parent) = .ok (w'.heap last.2) ∧ cfg.chk (w'.heap last.2) = true ∧
      cfg.hasParams (w'.heap last.2) = true) ∧
    ∀ c ∈ init, ∃ n made, cfg.ev n (w.heap parent) = .ok made ∧ cfg.chk made = true ∧ cfg.hasParams made = true ∧
      w'.heap c.2 = cfg.over (w.heap parent) made

/-- The write-back at the start of a round. -/
def writeBack (cfg : TopCfg C K) (parent : Nat) (prev : Option Nat) (w : Pool C) : Pool C :=
  match prev with
  | none => w
  | some s => w.write s (cfg.over (w.heap parent) (w.heap s))

theorem writeBack_other {cfg : TopCfg C K} {parent : Nat} {prev : Option Nat} {w : Pool C} {i : Nat} (h : prev ≠ some i) :
    (writeBack cfg parent prev w).heap i = w.heap i := by
  unfold writeBack
  cases prev with
  | none => rfl
  | some s =>
    have : i ≠ s := fun e => h (by rw [e])
    simp [Pool.write, this]

theorem writeBack_next {cfg : TopCfg C K} {parent : Nat} {prev : Option Nat} {w : Pool C} :
    (writeBack cfg parent prev w).next = w.next := by
  unfold writeBack
  cases prev <;> rfl

theorem prefInner_eq (cfg : TopCfg C K) (stop : K → Bool) (parent f : Nat) (w : Pool C) (prev : Option Nat) :
    prefInner cfg stop parent (f + 1) w prev =
      match child cfg w parent with
      | .error e => .error e
      | .ok w1 =>
        if cfg.chk ((writeBack cfg parent prev w1).heap w.next) && cfg.hasParams ((writeBack cfg parent prev w1).heap w.next) then
          if stop (cfg.u (writeBack cfg parent prev w1).calls) then .ok ((writeBack cfg parent prev w1).tick, [(none, w.next)])
          else
            match prefInner cfg stop parent f (writeBack cfg parent prev w1).tick (some w.next) with
            | .error e => .error e
            | .ok (w3, rest) => .ok (w3, (none, w.next) :: rest)
        else prefInner cfg stop parent f (writeBack cfg parent prev w1) (some w.next) := by
  rw [prefInner]
  cases prev <;> rfl

theorem prefInner_family {cfg : TopCfg C K} {stop : K → Bool} {parent f : Nat} {w0 w w' : Pool C} {prev : Option Nat}
    {cs : List (Indiv K)} (hpar : parent < w0.next) (hw0 : w0.next ≤ w.next) (hpc : w.heap parent = w0.heap parent)
    (hprev : ∀ s, prev = some s → w0.next ≤ s ∧ s < w.next)
    (h : prefInner cfg stop parent f w prev = .ok (w', cs)) :
    Family cfg w0 w' parent cs ∧ w.next ≤ w'.next ∧ (∀ c ∈ cs, w.next ≤ c.2) ∧ (cs.map (·.2)).Pairwise (· < ·) ∧
      (∀ i < w.next, prev ≠ some i → w'.heap i = w.heap i) ∧
      (∀ s, prev = some s → w'.heap s = cfg.over (w0.heap parent) (w.heap s)) := by
  induction f generalizing w prev cs with
  | zero => cases h
  | succ f ih =>
    rw [prefInner_eq] at h
    split at h
    · cases h
    · next w1 hc =>
      obtain ⟨c, hev, rfl⟩ := child_ok hc
      have hu := untouched_new w c
      have hn : (writeBack cfg parent prev (w.alloc c).tick).next = w.next + 1 := writeBack_next
      have hnew : (writeBack cfg parent prev (w.alloc c).tick).heap w.next = c := by
        rw [writeBack_other, new_heap]
        intro e
        have := (hprev _ e).2
        omega
      have hparw : parent < w.next := by omega
      have hne : prev ≠ some parent := by
        intro e
        have := (hprev _ e).1
        omega
      have hpar2 : (writeBack cfg parent prev (w.alloc c).tick).heap parent = w0.heap parent := by
        rw [writeBack_other hne, hu.2 _ hparw, hpc]
      have hold : ∀ i < w.next, prev ≠ some i → (writeBack cfg parent prev (w.alloc c).tick).heap i = w.heap i := by
        intro i hi hp
        rw [writeBack_other hp, hu.2 _ hi]
      have hover : ∀ s, prev = some s → (writeBack cfg parent prev (w.alloc c).tick).heap s = cfg.over (w0.heap parent) (w.heap s) := by
        intro s hs
        subst hs
        have := (hprev s rfl).2
        unfold writeBack
        simp only [Pool.write, if_true]
        rw [hu.2 _ hparw, hpc, hu.2 _ this]
      rw [hpc] at hev
      rw [hnew] at h
      split at h
      · next hacc =>
        rw [Bool.and_eq_true] at hacc
        split at h
        · simp only [Except.ok.injEq, Prod.mk.injEq] at h
          obtain ⟨rfl, rfl⟩ := h
          refine ⟨⟨[], (none, w.next), rfl, by simp [AllUnscored], ?_, ⟨w.calls, ?_, ?_, ?_⟩, by simp⟩, ?_, by simp, by simp, hold, hover⟩
          · simp only [List.mem_singleton]
            rintro _ rfl
            change w0.next ≤ w.next ∧ w.next < (writeBack cfg parent prev (w.alloc c).tick).next
            omega
          · change _ = Except.ok ((writeBack cfg parent prev (w.alloc c).tick).heap w.next)
            rw [hnew]
            exact hev
          · change cfg.chk ((writeBack cfg parent prev (w.alloc c).tick).heap w.next) = true
            rw [hnew]
            exact hacc.1
          · change cfg.hasParams ((writeBack cfg parent prev (w.alloc c).tick).heap w.next) = true
            rw [hnew]
            exact hacc.2
          · change w.next ≤ (writeBack cfg parent prev (w.alloc c).tick).next
            omega
        · split at h
          · cases h
          · next w3 rest hr =>
            simp only [Except.ok.injEq, Prod.mk.injEq] at h
            obtain ⟨rfl, rfl⟩ := h
            have hn' : (writeBack cfg parent prev (w.alloc c).tick).tick.next = w.next + 1 := hn
            obtain ⟨⟨init, last, rfl, f2, f3, f4, f5⟩, g1, g1', g2, g3, g4⟩ := ih (w := (writeBack cfg parent prev (w.alloc c).tick).tick)
              (by rw [hn']; omega) hpar2 (by
                intro s hs
                injection hs with hs
                subst hs
                rw [hn']
                omega) hr
            rw [hn'] at g1 g1' g3
            refine ⟨⟨(none, w.next) :: init, last, rfl, ?_, ?_, f4, ?_⟩, by omega, ?_, ?_, ?_, ?_⟩
            · intro p hp
              rcases List.mem_cons.1 hp with rfl | hp
              · rfl
              · exact f2 p hp
            · intro p hp
              rcases List.mem_cons.1 hp with rfl | hp
              · dsimp only; omega
              · exact f3 p hp
            · intro p hp
              rcases List.mem_cons.1 hp with rfl | hp
              · refine ⟨w.calls, c, hev, hacc.1, hacc.2, ?_⟩
                dsimp only
                rw [g4 _ rfl]
                change cfg.over _ ((writeBack cfg parent prev (w.alloc c).tick).heap w.next) = _
                rw [hnew]
              · exact f5 p hp
            · intro p hp
              rcases List.mem_cons.1 hp with rfl | hp
              · exact le_refl _
              · have := g1' p hp
                omega
            · rw [List.map_cons, List.pairwise_cons]
              refine ⟨?_, g2⟩
              intro j hj
              obtain ⟨p, hp, rfl⟩ := List.mem_map.1 hj
              have := g1' p hp
              dsimp only
              omega
            · intro i hi hp
              rw [g3 i (by omega) (by simp; omega)]
              exact hold i hi hp
            · intro s hs
              have hlt := (hprev s hs).2
              rw [g3 s (by omega) (by simp; omega)]
              exact hover s hs
      · obtain ⟨f1, g1, g1', g2, g3, g4⟩ := ih (w := writeBack cfg parent prev (w.alloc c).tick) (by omega) hpar2 (by
            intro s hs
            injection hs with hs
            subst hs
            rw [hn]
            omega) h
        rw [hn] at g1 g1' g3
        refine ⟨f1, by omega, fun p hp => by have := g1' p hp; omega, g2, ?_, ?_⟩
        · intro i hi hp
          rw [g3 i (by omega) (by simp; omega)]
          exact hold i hi hp
        · intro s hs
          have hlt := (hprev s hs).2
          rw [g3 s (by omega) (by simp; omega)]
          exact hover s hs

theorem Family.weaken {cfg : TopCfg C K} {w0 w w1 w2 : Pool C} {parent : Nat} {cs : List (Indiv K)} (hpar : parent < w0.next)
    (h0 : Untouched w0 w) (h : Family cfg w w1 parent cs) (h2 : Untouched w1 w2) : Family cfg w0 w2 parent cs := by
  obtain ⟨init, last, rfl, f2, f3, ⟨n, f4, f5, f6⟩, f7⟩ := h
  have e : ∀ c ∈ init ++ [last], w2.heap c.2 = w1.heap c.2 := fun c hc => h2.2 _ (f3 c hc).2
  have el := e last (by simp)
  have ep := h0.2 _ hpar
  refine ⟨init, last, rfl, f2, fun c hc => ⟨le_trans h0.1 (f3 c hc).1, lt_of_lt_of_le (f3 c hc).2 h2.1⟩, ⟨n, ?_, ?_, ?_⟩, ?_⟩
  · rw [el, ← ep]; exact f4
  · rw [el]; exact f5
  · rw [el]; exact f6
  · intro c hc
    obtain ⟨n, made, a1, a2, a3, a4⟩ := f7 c hc
    rw [ep] at a1 a4
    exact ⟨n, made, a1, a2, a3, by rw [e c (List.mem_append_left _ hc), a4]⟩

theorem prefLoop_families {cfg : TopCfg C K} {stop : Option K → K → Bool} {pop : List (Indiv K)} {w w' : Pool C}
    {cs : List (Indiv K)} (ha : Alive w pop) (h : prefLoop cfg stop w pop = .ok (w', cs)) :
    ∃ fams : List (List (Indiv K)), cs = fams.flatten ∧ Untouched w w' ∧ (cs.map (·.2)).Pairwise (· < ·) ∧
      (∀ c ∈ cs, w.next ≤ c.2 ∧ c.2 < w'.next) ∧ List.Forall₂ (fun p f => Family cfg w w' p.2 f) pop fams := by
  induction pop generalizing w cs with
  | nil =>
    simp only [prefLoop, Except.ok.injEq, Prod.mk.injEq] at h
    obtain ⟨rfl, rfl⟩ := h
    exact ⟨[], rfl, .refl _, by simp, by simp, .nil⟩
  | cons p pop ih =>
    obtain ⟨s, i⟩ := p
    rw [prefLoop] at h
    split at h
    · cases h
    · next w1 c1 hi =>
      split at h
      · cases h
      · next w2 rest hr =>
        simp only [Except.ok.injEq, Prod.mk.injEq] at h
        obtain ⟨rfl, rfl⟩ := h
        have hi0 : i < w.next := ha _ List.mem_cons_self
        obtain ⟨f1, g1, g1', g2, g3, _⟩ := prefInner_family hi0 (le_refl _) rfl (by simp) hi
        have hu : Untouched w w1 := ⟨g1, fun j hj => g3 j hj (by simp)⟩
        have ha0 : Alive w pop := fun q hq => ha q (List.mem_cons_of_mem _ hq)
        obtain ⟨fams, rfl, b2, b3, b4, b5⟩ := ih (fun q hq => lt_of_lt_of_le (ha0 q hq) g1) hr
        have hlt : ∀ c ∈ c1, c.2 < w1.next := by
          obtain ⟨_, _, _, _, h3, _⟩ := f1
          exact fun c hc => (h3 c hc).2
        refine ⟨c1 :: fams, rfl, hu.trans b2, ?_, ?_, .cons ?_ ?_⟩
        · rw [List.map_append, List.pairwise_append]
          refine ⟨g2, b3, ?_⟩
          intro a ha b hb
          obtain ⟨p, hp, rfl⟩ := List.mem_map.1 ha
          obtain ⟨q, hq, rfl⟩ := List.mem_map.1 hb
          have := hlt p hp
          have := (b4 q hq).1
          omega
        · intro c hc
          rcases List.mem_append.1 hc with hc | hc
          · exact ⟨g1' c hc, lt_of_lt_of_le (hlt c hc) b2.1⟩
          · exact ⟨le_trans g1 (b4 c hc).1, (b4 c hc).2⟩
        · exact f1.weaken hi0 (.refl _) b2
        · clear ih hr ha b3 b4
          induction b5 with
          | nil => exact .nil
          | cons hd _ ih' =>
            refine .cons (hd.weaken (ha0 _ List.mem_cons_self) hu (.refl _)) (ih' ?_)
            exact fun q hq => ha0 q (List.mem_cons_of_mem _ hq)

/-- **C50.** The preferential rule: the children, parent by parent, followed by the elite.  No object that existed is altered; the
children are pairwise different. -/
theorem C50_preferential {cfg : TopCfg C K} {root : K → Option K} {w w' : Pool C} {pop out : List (Indiv K)} (ha : Alive w pop)
    (h : updatePreferential cfg root w pop = .ok (w', out)) :
    ∃ fams : List (List (Indiv K)), out = fams.flatten ++ elite cfg pop ∧ Untouched w w' ∧
      (fams.flatten.map (·.2)).Nodup ∧ List.Forall₂ (fun p f => Family cfg w w' p.2 f) pop fams := by
  have fin : ∀ stop new, prefLoop cfg stop w pop = .ok (w', new) → out = new ++ elite cfg pop →
      ∃ fams : List (List (Indiv K)), out = fams.flatten ++ elite cfg pop ∧ Untouched w w' ∧
        (fams.flatten.map (·.2)).Nodup ∧ List.Forall₂ (fun p f => Family cfg w w' p.2 f) pop fams := by
    intro stop new hl ho
    obtain ⟨fams, rfl, b2, b3, _, b5⟩ := prefLoop_families ha hl
    exact ⟨fams, ho, b2, b3.imp (fun h => ne_of_lt h), b5⟩
  unfold updatePreferential at h
  split at h
  · cases h
  · split at h
    · cases h
    · next hp =>
      simp only [Except.ok.injEq, Prod.mk.injEq] at h
      obtain ⟨rfl, rfl⟩ := h
      exact fin _ _ hp rfl
  · split at h
    · cases h
    · simp only at h
      split at h
      · cases h
      · next hp =>
        simp only [Except.ok.injEq, Prod.mk.injEq] at h
        obtain ⟨rfl, rfl⟩ := h
        exact fin _ _ hp rfl

/-- A setting in which the first draw lets the best individual have a second child. -/
def cfgPref (root : ℚ → Option ℚ) : TopCfg Nat ℚ :=
  { cfgDemo (.preferential root) 0 with u := fun n => if n = 1 then 3/4 else 1/4 }

/-- Three parents (contents 3, 23, 13): the first has two children, and the earlier of them was overwritten. -/
example : (updatePreferential (cfgPref some) some worldDemo popDemo).map (fun r => r.2) =
      .ok [(none, 3), (none, 4), (none, 5), (none, 6)] ∧
    (updatePreferential (cfgPref some) some worldDemo popDemo).map (fun r => [r.1.heap 3, r.1.heap 4, r.1.heap 5, r.1.heap 6]) =
      .ok [304, 4, 24, 14] ∧ Alive worldDemo popDemo := by
  refine ⟨by decide +kernel, by decide +kernel, by unfold Alive; decide⟩

/-- **C50.** Hence a child in the new population need not be what the evolver made. -/
theorem C50_sibling_overwritten : ∃ (cfg : TopCfg Nat ℚ) (root : ℚ → Option ℚ) (w w' : Pool Nat) (pop out : List (Indiv ℚ)),
    Alive w pop ∧ updatePreferential cfg root w pop = .ok (w', out) ∧ ∃ c ∈ out, ∀ n, ∀ p ∈ pop, cfg.ev n (w.heap p.2) ≠ .ok (w'.heap c.2) := by
  have e : (updatePreferential (cfgPref some) some worldDemo popDemo).map (fun r => (r.2, r.1.heap 3)) =
      .ok ([(none, 3), (none, 4), (none, 5), (none, 6)], 304) := by decide +kernel
  cases hr : updatePreferential (cfgPref some) some worldDemo popDemo with
  | error x =>
    rw [hr] at e
    cases e
  | ok r =>
    obtain ⟨w', out⟩ := r
    rw [hr] at e
    change Except.ok (out, w'.heap 3) = Except.ok _ at e
    simp only [Except.ok.injEq, Prod.mk.injEq] at e
    obtain ⟨rfl, h3⟩ := e
    refine ⟨cfgPref some, some, worldDemo, w', popDemo, _, by unfold Alive; decide, hr, (none, 3), by simp, ?_⟩
    intro n p hp h
    dsimp only at h
    rw [h3] at h
    have hv : (cfgPref some).ev n (worldDemo.heap p.2) = .ok (worldDemo.heap p.2 + 1 + n % 2) := rfl
    rw [hv] at h
    injection h with h
    have hle : worldDemo.heap p.2 ≤ 23 := by
      have : ∀ p ∈ popDemo, worldDemo.heap p.2 ≤ 23 := by decide +kernel
      exact this p hp
    have := Nat.mod_lt n (show 0 < 2 by norm_num)
    omega

/-! ### C51 -/

/-- What `x ** (1 / preferentiality_param)` satisfies for a positive parameter: defined and monotone on positive numbers, one at
one; undefined (nan) or not positive elsewhere. -/
structure RootLike (root : K → Option K) : Prop where
  one : root 1 = some 1
  mono : ∀ a b, 0 < a → a ≤ b → ∃ x y, root a = some x ∧ root b = some y ∧ x ≤ y
  neg : ∀ a, a ≤ 0 → ∀ x, root a = some x → x ≤ 0

/-- **C51.** Positive scores: an individual stops reproducing on any draw on which a better one would; the best one stops exactly
on draws below one half. -/
theorem C51_pressure {root : K → Option K} (hr : RootLike root) {m s t u : K} (hm : 0 < m) (hs : 0 < s) (hst : s ≤ t) :
    (breaks root m s u = true → breaks root m t u = true) ∧ (breaks root m m u = true ↔ u < 1 / 2) := by
  unfold breaks
  simp only [if_neg (ne_of_gt hm)]
  constructor
  · obtain ⟨x, y, hx, hy, hxy⟩ := hr.mono (s / m) (t / m) (div_pos hs hm) (div_le_div_of_nonneg_right hst (le_of_lt hm))
    simp only [hx, hy, decide_eq_true_eq]
    intro h
    have : (1 : K) / 2 * x ≤ 1 / 2 * y := mul_le_mul_of_nonneg_left hxy (by norm_num)
    exact lt_of_lt_of_le h this
  · rw [div_self (ne_of_gt hm), hr.one]
    simp

/-- **C51.** Negative scores: the other way round, a worse individual goes on at least as long. -/
theorem C51_reversed {root : K → Option K} (hr : RootLike root) {m s t u : K} (ht : t < 0) (hm : m < 0) (hst : s ≤ t) :
    breaks root m t u = true → breaks root m s u = true := by
  unfold breaks
  rw [if_neg (ne_of_lt hm), if_neg (ne_of_lt hm)]
  obtain ⟨x, y, hx, hy, hxy⟩ := hr.mono (t / m) (s / m) (div_pos_of_neg_of_neg ht hm) (div_le_div_of_nonpos_of_le (le_of_lt hm) hst)
  simp only [hx, hy, decide_eq_true_eq]
  intro h
  have : (1 : K) / 2 * x ≤ 1 / 2 * y := mul_le_mul_of_nonneg_left hxy (by norm_num)
  exact lt_of_lt_of_le h this

/-- **C51.** An individual with score zero never stops when zero is the least score; nor does one with a score that is not negative
when the least score is. -/
theorem C51_never_stops {root : K → Option K} (hr : RootLike root) {m s u : K} (hu : 0 ≤ u)
    (h : m = 0 ∧ s = 0 ∨ m < 0 ∧ 0 ≤ s) : breaks root m s u = false := by
  rcases h with ⟨rfl, rfl⟩ | ⟨hm, hs⟩
  · simp [breaks]
  · unfold breaks
    rw [if_neg (ne_of_lt hm)]
    cases hx : root (s / m) with
    | none => rfl
    | some x =>
      have := hr.neg (s / m) (div_nonpos_of_nonneg_of_nonpos hs (le_of_lt hm)) x hx
      simp only [decide_eq_false_iff_not, not_lt]
      nlinarith

theorem prefInner_never {cfg : TopCfg C K} {stop : K → Bool} (hstop : ∀ n, stop (cfg.u n) = false) {parent f : Nat} {w : Pool C}
    {prev : Option Nat} : ∀ r, prefInner cfg stop parent f w prev ≠ .ok r := by
  induction f generalizing w prev with
  | zero => intro r h; cases h
  | succ f ih =>
    intro r h
    rw [prefInner_eq] at h
    split at h
    · cases h
    · split at h
      · rw [hstop] at h
        simp only [Bool.false_eq_true, if_false] at h
        split at h
        · cases h
        · next hr => exact ih _ hr
      · exact ih _ h

theorem prefInner_total {cfg : TopCfg C K} {stop : K → Bool} (hev : ∀ n c, ∃ c', cfg.ev n c = .ok c') {parent f : Nat} {w : Pool C}
    {prev : Option Nat} : (∃ r, prefInner cfg stop parent f w prev = .ok r) ∨ prefInner cfg stop parent f w prev = .error .diverges := by
  induction f generalizing w prev with
  | zero => exact .inr rfl
  | succ f ih =>
    rw [prefInner_eq]
    obtain ⟨c, hc⟩ := hev w.calls (w.heap parent)
    have : child cfg w parent = .ok (w.alloc c).tick := by
      unfold child
      rw [hc]
    simp only [this]
    split
    · split
      · exact .inl ⟨_, rfl⟩
      · rcases ih (w := (writeBack cfg parent prev (w.alloc c).tick).tick) (prev := some w.next) with ⟨⟨w3, rest⟩, h⟩ | h
        · rw [h]
          exact .inl ⟨_, rfl⟩
        · rw [h]
          exact .inr rfl
    · exact ih

theorem listMin_le (m : K) (l : List K) : listMin m l ≤ m ∧ ∀ x ∈ l, listMin m l ≤ x := by
  induction l generalizing m with
  | nil => exact ⟨le_refl _, by simp⟩
  | cons y l ih =>
    rw [listMin]
    obtain ⟨h1, h2⟩ := ih (min m y)
    refine ⟨le_trans h1 (min_le_left _ _), ?_⟩
    intro x hx
    rcases List.mem_cons.1 hx with rfl | hx
    · exact le_trans h1 (min_le_right _ _)
    · exact h2 x hx

theorem listMin_mem (m : K) (l : List K) : listMin m l = m ∨ listMin m l ∈ l := by
  induction l generalizing m with
  | nil => exact .inl rfl
  | cons y l ih =>
    rw [listMin]
    rcases ih (min m y) with h | h
    · rcases min_choice m y with h' | h'
      · exact .inl (by rw [h, h'])
      · exact .inr (by rw [h, h']; exact List.mem_cons_self)
    · exact .inr (List.mem_cons_of_mem _ h)

theorem allScores_map {pop : List (Indiv K)} {sc : List K} (hsc : pop.map (·.1) = sc.map some) : allScores pop = .ok sc := by
  induction pop generalizing sc with
  | nil =>
    cases sc with
    | nil => rfl
    | cons _ _ => simp at hsc
  | cons p pop ih =>
    obtain ⟨s, i⟩ := p
    cases sc with
    | nil => simp at hsc
    | cons x sc =>
      simp only [List.map_cons, List.cons.injEq] at hsc
      obtain ⟨rfl, h⟩ := hsc
      rw [allScores, ih h]

/-- **C51.** If the least score is zero, or if scores of both signs occur, the update never returns, however many rounds it is given;
with an evolver that never fails there is no other outcome than going on for ever. -/
theorem C51_diverges {cfg : TopCfg C K} {root : K → Option K} (hr : RootLike root) (hu : ∀ n, 0 ≤ cfg.u n) (w : Pool C)
    {pop : List (Indiv K)} {scores : List K} (hsc : pop.map (·.1) = scores.map some) {s m : K} (hm : m ∈ scores) (hs : s ∈ scores)
    (hleast : ∀ x ∈ scores, m ≤ x) (hbad : m = 0 ∧ s = 0 ∨ m < 0 ∧ 0 ≤ s) :
    (∀ r, updatePreferential cfg root w pop ≠ .ok r) ∧
    ((∀ n c, ∃ c', cfg.ev n c = .ok c') → updatePreferential cfg root w pop = .error .diverges) := by
  have hmem : (some s) ∈ pop.map (·.1) := by
    rw [hsc]
    exact List.mem_map.2 ⟨s, hs, rfl⟩
  have key : ∀ (l : List (Indiv K)) (w : Pool C), some s ∈ l.map (·.1) →
      (∀ r, prefLoop cfg (fun s u => breaks root m (s.getD 0) u) w l ≠ .ok r) ∧
      ((∀ n c, ∃ c', cfg.ev n c = .ok c') → prefLoop cfg (fun s u => breaks root m (s.getD 0) u) w l = .error .diverges) := by
    intro l
    induction l with
    | nil => intro w h; simp at h
    | cons p l ih =>
      intro w h
      obtain ⟨o, i⟩ := p
      rw [prefLoop]
      by_cases ho : o = some s
      · subst ho
        have hnever : ∀ r, prefInner cfg (fun u => breaks root m ((some s).getD 0) u) i cfg.fuel w none ≠ .ok r :=
          prefInner_never (fun n => C51_never_stops hr (hu n) hbad)
        constructor
        · intro r h
          split at h
          · cases h
          · next hi => exact hnever _ hi
        · intro hev
          rcases prefInner_total hev (stop := fun u => breaks root m ((some s).getD 0) u) (parent := i) (f := cfg.fuel)
            (w := w) (prev := none) with ⟨r, h⟩ | h
          · exact absurd h (hnever r)
          · rw [h]
      · have hl : some s ∈ l.map (·.1) := by
          rcases List.mem_cons.1 h with h | h
          · exact absurd h.symm ho
          · exact h
        constructor
        · intro r h
          split at h
          · cases h
          · split at h
            · cases h
            · next hr => exact (ih _ hl).1 _ hr
        · intro hev
          rcases prefInner_total hev (stop := fun u => breaks root m (o.getD 0) u) (parent := i) (f := cfg.fuel)
            (w := w) (prev := none) with ⟨⟨w1, c1⟩, h⟩ | h
          · simp only [h, (ih w1 hl).2 hev]
          · simp only [h]
  have hall := allScores_map hsc
  cases pop with
  | nil => simp at hmem
  | cons p pop =>
    obtain ⟨o, i⟩ := p
    cases scores with
    | nil => simp at hm
    | cons s0 scores =>
      simp only [List.map_cons, List.cons.injEq] at hsc
      obtain ⟨rfl, _⟩ := hsc
      have hmin : listMin s0 (s0 :: scores) = m := by
        apply le_antisymm
        · exact (listMin_le s0 (s0 :: scores)).2 m hm
        · rcases listMin_mem s0 (s0 :: scores) with h | h
          · rw [h]
            exact hleast _ List.mem_cons_self
          · exact hleast _ h
      obtain ⟨k1, k2⟩ := key _ w hmem
      unfold updatePreferential
      simp only [hall, hmin]
      constructor
      · intro r h
        split at h
        · cases h
        · next hp => exact k1 _ hp
      · intro hev
        rw [k2 hev]

theorem rootLike_id : RootLike (some : ℚ → Option ℚ) :=
  ⟨rfl, fun a b _ h => ⟨a, b, rfl, rfl, h⟩, fun a h x hx => by injection hx with hx; rw [← hx]; exact h⟩

example : RootLike (some : ℚ → Option ℚ) := rootLike_id
example : breaks (some : ℚ → Option ℚ) 2 3 (3/5) = true ∧ breaks (some : ℚ → Option ℚ) 2 2 (3/5) = false := by decide +kernel
example : breaks (some : ℚ → Option ℚ) (-3) (-2) (2/5) = false ∧ breaks (some : ℚ → Option ℚ) (-3) (-3) (2/5) = true := by decide +kernel
example : (updatePreferential (cfgPref some) some worldDemo [(some 0, 0), (some 2, 1)]).map (fun r => r.2) =
    .error .diverges := by decide +kernel

/-! Cases of the other theorems. -/

example := C51_pressure (root := (some : ℚ → Option ℚ)) rootLike_id (m := 2) (s := 3) (t := 4) (u := 3 / 5) (by norm_num) (by norm_num) (by norm_num)
example := C51_reversed (root := (some : ℚ → Option ℚ)) rootLike_id (m := -3) (s := -3) (t := -2) (u := 2 / 5) (by norm_num) (by norm_num) (by norm_num)
example := C51_never_stops (root := (some : ℚ → Option ℚ)) rootLike_id (m := -3) (s := 2) (u := 2 / 5) (by norm_num) (.inr (by norm_num))
example := C51_diverges (cfg := cfgPref some) (root := some) rootLike_id (fun n => by simp only [cfgPref]; split <;> norm_num) worldDemo
  (pop := [(some 0, 0), (some 2, 1)]) (scores := [0, 2]) rfl (s := 0) (m := 0) (by simp) (by simp) (by simp) (.inl ⟨rfl, rfl⟩)

end Verif
