import Verif.Spec.WholeRun
import Verif.Props.Lineage
import Verif.Props.RandomGraph
import Verif.Props.Total
/-! # Properties of runs on designs (C103) -/

namespace Verif
open Graph

section Main
variable {g : Graph} {h h0 h1 : Heap} {eval : Heap → ℚ} {e : OptEnv}

/-! ### Optimisation does not raise -/

theorem slots_set (hp : ParamsPresent g h) (hs : SameLocked g h h1) : ∀ s ∈ pslots g h, s.2 < (h1 s.1).params.length := by
  intro s hm
  rw [hs.length]
  exact params_slots hp s hm

theorem callF_total (hs0 : SameLocked g h0 h) (hp : ParamsPresent g h) (hs : SameLocked g h h1) (x : List ℚ) : ∃ r, callF g h0 eval h1 x = .ok r := by
  unfold callF
  rw [objective_eq hs0]
  obtain ⟨h2, hd⟩ := distribute_total (xs := x) (slots_set hp hs)
  rw [hd]
  exact ⟨_, rfl⟩

theorem callMany_total (hs0 : SameLocked g h0 h) (hp : ParamsPresent g h) (xs : List (List ℚ)) {h1 : Heap} (hs : SameLocked g h h1) :
    ∃ r, callMany g h0 eval h1 xs = .ok r := by
  induction xs generalizing h1 with
  | nil => exact ⟨_, rfl⟩
  | cons x xs ih =>
    obtain ⟨⟨h2, v⟩, hc⟩ := callF_total (eval := eval) hs0 hp hs x
    rw [callMany, hc]
    exact ih (callF_same hs0 hs hc)

theorem runStrat_total (hs0 : SameLocked g h0 h) (hp : ParamsPresent g h) {gr : List ℚ → List ℚ} (t : Strat) {h1 : Heap} (hs : SameLocked g h h1) :
    ∃ r, runStrat g h0 eval gr t h1 = .ok r := by
  induction t generalizing h1 with
  | done x f => exact ⟨_, rfl⟩
  | ask x k ih =>
    obtain ⟨⟨h2, v⟩, hc⟩ := callF_total (eval := eval) hs0 hp hs x
    rw [runStrat, hc]
    exact ih v (callF_same hs0 hs hc)
  | askGrad x k ih =>
    obtain ⟨⟨h2, v⟩, hc⟩ := callF_total (eval := eval) hs0 hp hs x
    rw [runStrat, hc]
    exact ih _ (callF_same hs0 hs hc)

theorem finishOpt_total (hs0 : SameLocked g h0 h) (hp : ParamsPresent g h) (hs : SameLocked g h h1) (x : List ℚ) :
    ∃ r, finishOpt g h0 eval h1 x ((pslots g h).map (·.1)) ((pslots g h).map (·.2)) = .ok r := by
  obtain ⟨h2, hd⟩ := distribute_total (xs := x) (slots_set hp hs)
  obtain ⟨⟨h3, v⟩, hc⟩ := callF_total (eval := eval) hs0 hp (distribute_same hd hs) x
  unfold finishOpt
  simp only [hd, hc]
  exact ⟨_, rfl⟩

theorem runGa_total (hs0 : SameLocked g h0 h) (hp : ParamsPresent g h) (hs : SameLocked g h h1) {x0 : List ℚ} {nGen n : Nat} (hn : 2 ≤ n) {rm rc : ℚ}
    (hg : ∀ k, e.gen k ≠ []) : ∃ r, runGa e g h0 eval x0 nGen n rm rc h1 = .ok r := by
  have aux : ∀ {E : GaEnv ℚ} {er : Err}, parametersGA E x0 nGen n rm rc = .error er → E.gen = e.gen → False := by
    intro E er hE hgE
    obtain ⟨r, hr⟩ := C35_total (e := E) x0 nGen rm rc hn (by rw [hgE]; exact hg)
    rw [hE] at hr
    cases hr
  unfold runGa
  dsimp only
  split
  · next er he => exact (aux he rfl).elim
  · next x s st _ =>
    obtain ⟨h3, hc⟩ := callMany_total (eval := eval) hs0 hp (st.evals.map (·.2)) hs
    simp only [hc]
    exact ⟨_, rfl⟩

theorem runAdam_total (hs0 : SameLocked g h0 h) (hp : ParamsPresent g h) (hs : SameLocked g h h1) (hw : e.Working) {lo up x0 : List ℚ} (h1' : lo.length = x0.length)
    (h2' : up.length = x0.length) (k : Nat) : ∃ r, runAdam e g h0 eval lo up x0 k h1 = .ok r := by
  unfold runAdam
  obtain ⟨⟨st, j⟩, h2⟩ := C37_total (c := (⟨1 / 1000, 9 / 10, 999 / 1000, 1 / 10 ^ 8, 85 / 100000, e.sqrt⟩ : AdamCfg ℚ)) (by norm_num) (by norm_num) (by norm_num)
    hw.sqrt h1' h2' hw.grad (period := none) (by simp) k
  rw [h2]
  obtain ⟨h3, hc⟩ := callMany_total (eval := eval) hs0 hp st.queries hs
  simp only [hc]
  exact ⟨_, rfl⟩

theorem pslots_same (hs : SameLocked g h h1) : pslots g h1 = pslots g h := by
  unfold pslots
  rw [hs.same.slots]

/-- `parameters_optimize` returns for every method it knows. -/
theorem optimize_total {S : Settings} (hS : S.Sensible) {cls : ClassId → Part} (hst : Stocked S cls g h) (hs0 : SameLocked g h0 h) (hw : e.Working)
    (hz : e.Sized (pslots g h).length) {x0 : Option (List ℚ)} (hx0 : ∀ x, x0 = some x → x.length = (pslots g h).length) {method : OptMethod} (hm : method ≠ .unknown) :
    ∃ r, parametersOptimize e g h0 eval x0 method h = .ok r := by
  have hp := hst.present hS
  obtain ⟨ps, ms, is, lo, up, hex, hres, -⟩ := hst.listed hS
  obtain ⟨rfl, rfl, e1, e2, e3, -⟩ := extractToList_ok hex
  have R := SameLocked.refl g h
  have hlen : (x0.getD ps).length = (pslots g h).length := by
    cases x0 with
    | none => exact e1
    | some x => exact hx0 x rfl
  have hgen : (pslots g h).length ≠ 0 → ∀ k, e.gen k ≠ [] := by
    intro h0 k hk
    have := hz.gen k
    rw [hk] at this
    exact h0 this.symm
  unfold parametersOptimize
  simp only [hex]
  split
  · obtain ⟨⟨h2, v⟩, hc⟩ := callF_total (eval := eval) hs0 hp R (x0.getD ps)
    simp only [hc]
    exact ⟨_, rfl⟩
  · next hne =>
    rw [hlen] at hne
    cases method with
    | lbfgs =>
      obtain ⟨⟨h2, x, v⟩, hc⟩ := runStrat_total (eval := eval) (gr := e.grad 0) hs0 hp (e.lbfgs 500 (x0.getD ps) lo up) R
      have hs2 := (runStrat_same hs0 (P := fun x => x.length = (pslots g h).length) _ R (hz.lbfgs _ _ _ _) hc).1
      simp only [hc]
      exact finishOpt_total hs0 hp hs2 x
    | null =>
      obtain ⟨⟨h2, v⟩, hc⟩ := callF_total (eval := eval) hs0 hp R (x0.getD ps)
      simp only [hc]
      exact ⟨_, rfl⟩
    | lbfgsPso =>
      obtain ⟨⟨h2, x, v⟩, hc⟩ := runStrat_total (eval := eval) (gr := e.grad 0) hs0 hp (e.pso e.iterSwarm e.swarmSize lo up) R
      have hs2 := (runStrat_same hs0 (P := fun x => x.length = (pslots g h).length) _ R (hz.pso _ _ _ _) hc).1
      obtain ⟨⟨h3, y, w⟩, hc'⟩ := runStrat_total (eval := eval) (gr := e.grad 0) hs0 hp (e.lbfgs 100 x lo up) hs2
      have hs3 := (runStrat_same hs0 (P := fun x => x.length = (pslots g h).length) _ hs2 (hz.lbfgs _ _ _ _) hc').1
      simp only [hc, hc']
      exact finishOpt_total hs0 hp hs3 y
    | lbfgsGa =>
      obtain ⟨⟨h2, x, v⟩, hc⟩ := runGa_total (eval := eval) (x0 := x0.getD ps) (nGen := e.nGen) (rm := 8 / 10) (rc := 35 / 100) hs0 hp R hw.pop (hgen hne)
      have hs2 := (runGa_ok hs0 hp R hc).1
      obtain ⟨⟨h3, y, w⟩, hc'⟩ := runStrat_total (eval := eval) (gr := e.grad 0) hs0 hp (e.lbfgs e.maxIter x lo up) hs2
      have hs3 := (runStrat_same hs0 (P := fun x => x.length = (pslots g h).length) _ hs2 (hz.lbfgs _ _ _ _) hc').1
      simp only [hc, hc']
      exact finishOpt_total hs0 hp hs3 y
    | cheap =>
      obtain ⟨h2, hc⟩ := hst.sample_total hS e.rnd
      have hs2 := sample_same hc
      have hx2 : ∃ r, extractToList g h2 = .ok r := by
        unfold extractToList
        rw [extract_ok (by
          intro a ha s hs
          have := hst.attrs hS [.parameters, .lowerBounds, .upperBounds] a ha s (by
            have := pslots_same hs2
            unfold pslots at this
            rwa [this] at hs)
          fin_cases ha <;> simp only [PModel.attr, List.length_map] at this ⊢
          · rwa [hs2.length]
          · rwa [hs2.lower]
          · rwa [hs2.upper])]
        exact ⟨_, rfl⟩
      obtain ⟨⟨ps2, ms2, is2, lo2, up2⟩, hx2⟩ := hx2
      obtain ⟨⟨h3, y, w⟩, hc'⟩ := runStrat_total (eval := eval) (gr := e.grad 0) hs0 hp (e.lbfgs 5 ps2 lo2 up2) hs2
      have hs3 := (runStrat_same hs0 (P := fun x => x.length = (pslots g h).length) _ hs2 (hz.lbfgs _ _ _ _) hc').1
      obtain ⟨rfl, rfl, -⟩ := extractToList_ok hx2
      simp only [hc, hx2, hc']
      rw [pslots_same hs2]
      exact finishOpt_total hs0 hp hs3 y
    | pso =>
      obtain ⟨⟨h2, x, v⟩, hc⟩ := runStrat_total (eval := eval) (gr := e.grad 0) hs0 hp (e.pso 40 40 lo up) R
      have hs2 := (runStrat_same hs0 (P := fun x => x.length = (pslots g h).length) _ R (hz.pso _ _ _ _) hc).1
      obtain ⟨h3, hd⟩ := distribute_total (xs := x) (slots_set hp hs2)
      simp only [hc, hd]
      exact ⟨_, rfl⟩
    | cma =>
      obtain ⟨⟨h2, x, v⟩, hc⟩ := runStrat_total (eval := eval) (gr := e.grad 0) hs0 hp (e.cma (x0.getD ps) lo up) R
      have hs2 := (runStrat_same hs0 (P := fun x => x.length = (pslots g h).length) _ R (hz.cma _ _ _) hc).1
      simp only [hc]
      exact finishOpt_total hs0 hp hs2 x
    | adam =>
      obtain ⟨⟨h2, x⟩, hc⟩ := runAdam_total (eval := eval) (lo := lo) (up := up) (x0 := x0.getD ps) hs0 hp R hw (by rw [hlen, e2]) (by rw [hlen, e3]) 1000
      have hs2 := (runAdam_ok hs0 R hc).1
      simp only [hc]
      exact finishOpt_total hs0 hp hs2 x
    | adamGa =>
      obtain ⟨⟨h2, x, v⟩, hc⟩ := runGa_total (eval := eval) (x0 := x0.getD ps) (nGen := 20) (n := 15) (rm := 9 / 10) (rc := 9 / 10) hs0 hp R (by decide) (hgen hne)
      obtain ⟨hs2, hfit, -⟩ := runGa_ok hs0 hp R hc
      have hl : x.length = (pslots g h).length := (hfit (fun _ _ => True) (pslots g h).length ⟨hlen, fun _ _ _ => trivial⟩ (fun k => ⟨hz.gen k, fun _ _ _ => trivial⟩)).1
      obtain ⟨⟨h3, y⟩, hc'⟩ := runAdam_total (eval := eval) (lo := lo) (up := up) (x0 := x) hs0 hp hs2 hw (by rw [hl, e2]) (by rw [hl, e3]) 150
      have hs3 := (runAdam_ok hs0 hs2 hc').1
      simp only [hc, hc']
      exact finishOpt_total hs0 hp hs3 y
    | ga =>
      obtain ⟨⟨h2, x, v⟩, hc⟩ := runGa_total (eval := eval) (x0 := x0.getD ps) (nGen := 40) (n := 30) (rm := 9 / 10) (rc := 30 / 100) hs0 hp R (by decide) (hgen hne)
      have hs2 := (runGa_ok hs0 hp R hc).1
      obtain ⟨h3, hd⟩ := distribute_total (xs := x) (slots_set hp hs2)
      simp only [hc, hd]
      exact ⟨_, rfl⟩
    | unknown => exact absurd rfl hm

end Main

/-! ### One mutation, one optimisation -/

variable {W : RunWorld}

theorem evolved_design (hW : W.Sound) {n : Nat} {d d' : Design} (hd : Design.Alive W d) (h : designEv W n d = .ok d') :
    Design.Alive W d' ∧ d'.1.parent = d.1.current ∧ ∃ r, LegalStep W.lib d.1.graph r d'.1.graph := by
  obtain ⟨x, hp⟩ := d
  unfold designEv at h
  cases hM : W.matrix n x.graph hp with
  | error e =>
    have : evolveCall W.S W.cls W.lib (W.matrix n) x hp (W.pick n (x, hp)) = ((x, hp), .error e) := by unfold evolveCall; rw [hM]
    dsimp only at h
    rw [this] at h
    cases h
  | ok M =>
    obtain ⟨y, h', o, l, c1, -, -, c4, -, c6, c7⟩ := call_steps hW.settings hW.library hd hM (fun order ho => hW.legal n (x, hp) M order hd hM ho)
      (hW.index n (x, hp) M hd hM) (fun l o => hW.parts n (x, hp) M l o hd hM)
    dsimp only at h
    rw [c1] at h
    injection h with h
    subst h
    exact ⟨c7, c4, _, c6⟩

/-- **C103.** `parameters_optimize_complete` on a design in its life, with optimisers that keep to their bounds: the graph and its lineage are unchanged, the result is
a design in its life (its values are within bounds), and the score returned is the evaluation of the design returned; the two extra calls at the end change nothing. -/
theorem C103_optimised (hW : W.Sound) {n : Nat} {d d' : Design} {s : ℚ} (hd : Design.Alive W d) (h : designOpt W n d = .ok (s, d')) :
    d'.1 = d.1 ∧ Design.Alive W d' ∧ (W.method ≠ .pso → s = W.eval d'.1.graph d'.2) := by
  obtain ⟨x, hp⟩ := d
  have hl : Lifetime W.S W.cls W.lib x.graph hp := hd
  unfold designOpt at h
  dsimp only at h
  split at h
  · cases h
  · next h1 hu =>
    have hl1 : Lifetime W.S W.cls W.lib x.graph h1 := .update hl hu
    have hst := hl1.stocked hW.settings hW.library
    have hpp := hst.present hW.settings
    have R := SameLocked.refl x.graph h1
    split at h
    · cases h
    · next ps rest hex =>
      obtain ⟨ms, is, lo, up⟩ := rest
      obtain ⟨rfl, rfl, e1, e2, e3, -⟩ := extractToList_ok hex
      split at h
      · next h0 =>
        have hps : ps = [] := List.eq_nil_of_length_eq_zero h0
        subst hps
        obtain ⟨h2, d1, -, d3⟩ := callF_full (eval := W.eval x.graph) R hpp R (x := []) e1
        rw [d3] at h
        simp only [Except.ok.injEq, Prod.mk.injEq] at h
        obtain ⟨rfl, rfl⟩ := h
        have : h1 = h2 := by
          unfold distribute at d1
          injection d1
        subst this
        exact ⟨rfl, hl1, fun _ => rfl⟩
      · split at h
        · cases h
        · next h2 y s' ho =>
          have hz := hW.sized n (x, h1) _ _ _ _ _ hl1 hex
          have hz' := hz
          rw [List.length_map] at hz'
          obtain ⟨o1, o2, o3⟩ := optimize_core R hpp hz' (fun z hz => by injection hz with hz; rw [← hz]; exact e1) ho
          obtain ⟨h3, d1, d2, d3⟩ := callF_full (eval := W.eval x.graph) R hpp (distribute_same o2 R) o1
          rw [o2] at d1
          injection d1 with d1
          subst d1
          have hcm : callMany x.graph h1 (W.eval x.graph) h2 [y, y] = .ok h2 := by
            simp only [callMany, d3]
          rw [hcm] at h
          simp only [Except.ok.injEq, Prod.mk.injEq] at h
          obtain ⟨rfl, rfl⟩ := h
          have hsame : parametersOptimize (W.env n (x, h1)) x.graph h1 (W.eval x.graph) none W.method h1 = .ok (h2, y, s') := by
            rw [← ho]
            unfold parametersOptimize
            rw [hex]
            rfl
          refine ⟨rfl, C75_optimised hW.settings hW.library hl1 R (fun ps' ms' is' lo' up' hex' => ?_) hsame, fun hm => o3 (.inl hm)⟩
          exact ⟨hW.sized n (x, h1) _ _ _ _ _ hl1 hex', hW.bounded n (x, h1) _ _ _ _ _ hl1 hex'⟩

/-- **C103.** Optimising a design in its life never raises, whichever of the known methods is used. -/
theorem C103_optimises (hW : W.Sound) {n : Nat} {d : Design} (hd : Design.Alive W d) (hw : ∀ d, (W.env n d).Working) (hm : W.method ≠ .unknown) :
    ∃ s d', designOpt W n d = .ok (s, d') := by
  obtain ⟨x, hp⟩ := d
  have hl : Lifetime W.S W.cls W.lib x.graph hp := hd
  obtain ⟨h1, hu, -⟩ := C75_update hW.settings hW.library hl
  have hl1 : Lifetime W.S W.cls W.lib x.graph h1 := .update hl hu
  have hst := hl1.stocked hW.settings hW.library
  have hpp := hst.present hW.settings
  have R := SameLocked.refl x.graph h1
  obtain ⟨ps, ms, is, lo, up, hex, -, -⟩ := hst.listed hW.settings
  have hz := hW.sized n (x, h1) _ _ _ _ _ hl1 hex
  obtain ⟨rfl, rfl, e1, e2, e3, -⟩ := extractToList_ok hex
  rw [List.length_map] at hz
  unfold designOpt
  simp only [hu, hex]
  split
  · obtain ⟨⟨h2, v⟩, hc⟩ := callF_total (eval := W.eval x.graph) R hpp R ps
    simp only [hc]
    exact ⟨_, _, rfl⟩
  · have hx0 : ∀ z, some ps = some z → z.length = (pslots x.graph h1).length := fun z hz => by injection hz with hz; rw [← hz]; exact e1
    obtain ⟨⟨h2, y, s⟩, ho⟩ := optimize_total (eval := W.eval x.graph) (x0 := some ps) hW.settings hst R (hw _) hz hx0 hm
    have hs2 := distribute_same (optimize_core R hpp hz hx0 ho).2.1 R
    obtain ⟨h3, hc⟩ := callMany_total (eval := W.eval x.graph) R hpp [y, y] hs2
    simp only [ho, hc]
    exact ⟨_, _, rfl⟩

/-! ### Whole runs -/

/-- Where a design of the run stands: alive, with its true score, `k` mutations (with the random rule at least `k`) away from the start. -/
def Stands (W : RunWorld) (base : TopCfg Design ℚ) (start : Design) (k : Nat) (q : ℚ × Design) : Prop :=
  Design.Alive W q.2 ∧ (W.method ≠ .pso → q.1 = W.eval q.2.1.graph q.2.2) ∧
    ∃ rs, History W.lib start.1.graph rs q.2.1.graph ∧ k ≤ rs.length ∧ (base.rule ≠ .random → rs.length = k)

theorem begets_stands (hW : W.Sound) {base : TopCfg Design ℚ} (hrule : ∀ r, base.rule ≠ .preferential r) {p c : Design} (hp : Design.Alive W p)
    (hb : Begets (W.cfg base) p c) :
    Design.Alive W c ∧ ∃ rs, History W.lib p.1.graph rs c.1.graph ∧ 1 ≤ rs.length ∧ (base.rule ≠ .random → rs.length = 1 ∧ c.1.parent = p.1.current) := by
  have once : (∃ n, designEv W n p = .ok c) → Design.Alive W c ∧ ∃ rs, History W.lib p.1.graph rs c.1.graph ∧ 1 ≤ rs.length ∧
      (base.rule ≠ .random → rs.length = 1 ∧ c.1.parent = p.1.current) := by
    rintro ⟨n, hn⟩
    obtain ⟨a, b, r, hr⟩ := evolved_design hW hp hn
    exact ⟨a, [(p.1.graph, r)], .step .nil hr, le_refl _, fun _ => ⟨rfl, b⟩⟩
  unfold Begets at hb
  have he : (W.cfg base).rule = base.rule := rfl
  rw [he] at hb
  cases hr : base.rule with
  | random =>
    rw [hr] at hb
    dsimp only at hb
    have aux : ∀ a b : Design, EvolvedUntil (W.cfg base) a b → Design.Alive W a → Design.Alive W b ∧ ∃ rs, History W.lib a.1.graph rs b.1.graph ∧ 1 ≤ rs.length := by
      intro a b hab
      induction hab with
      | last hev _ _ =>
        intro ha
        obtain ⟨a1, -, r, a3⟩ := evolved_design hW ha hev
        exact ⟨a1, [(_, r)], .step .nil a3, le_refl _⟩
      | again hev _ _ ih =>
        intro ha
        obtain ⟨a1, -, r, a3⟩ := evolved_design hW ha hev
        obtain ⟨b1, rs, b2, b3⟩ := ih a1
        exact ⟨b1, rs ++ [(_, r)], history_join (.step .nil a3) b2, by simp⟩
    obtain ⟨a1, rs, a2, a3⟩ := aux p c hb hp
    exact ⟨a1, rs, a2, a3, fun h => absurd rfl h⟩
  | preferential r => exact absurd hr (hrule r)
  | roulette q =>
    rw [hr] at hb
    obtain ⟨n, h1, -⟩ := hb
    have := once ⟨n, h1⟩
    rwa [hr] at this
  | tournament q =>
    rw [hr] at hb
    obtain ⟨n, h1, -⟩ := hb
    have := once ⟨n, h1⟩
    rwa [hr] at this

theorem next_stands (hW : W.Sound) {base : TopCfg Design ℚ} (hrule : ∀ r, base.rule ≠ .preferential r) {start : Design} {k : Nat} {p q : ℚ × Design}
    (hp : Stands W base start k p) (hn : NextGen (W.cfg base) p q) : Stands W base start (k + 1) q ∧ (base.rule ≠ .random → q.2.1.parent = p.2.1.current) := by
  obtain ⟨b, n, hb, hq⟩ := hn
  obtain ⟨p1, -, rs, p3, p4, p5⟩ := hp
  obtain ⟨b1, rs', b2, b3, b4⟩ := begets_stands hW hrule p1 hb
  obtain ⟨q1, q2, q3⟩ := C103_optimised (s := q.1) (d' := q.2) hW b1 hq
  refine ⟨⟨q2, q3, rs' ++ rs, ?_, by rw [List.length_append]; omega, fun h => ?_⟩, fun h => ?_⟩
  · rw [q1]
    exact history_join p3 b2
  · rw [List.length_append, p5 h, (b4 h).1]
    omega
  · rw [q1]
    exact (b4 h).2

theorem start_stands (hW : W.Sound) {base : TopCfg Design ℚ} {n : Nat} {start : Design} (h0 : Design.Alive W start) {s0 : ℚ × Design} (h : designOpt W n start = .ok s0) :
    Stands W base start 0 s0 ∧ s0.2.1 = start.1 := by
  obtain ⟨q1, q2, q3⟩ := C103_optimised (s := s0.1) (d' := s0.2) hW h0 h
  exact ⟨⟨q2, q3, [], by rw [q1]; exact .nil, le_refl _, fun _ => rfl⟩, q1⟩

/-- **C103.** A finished run on designs, by any rule but the preferential one, with or without species: every design evaluated in generation `k` is a design in its
life (well-formed, without cycles, its objects fresh and in place, all its variable parameters within their bounds), is reached from the start by exactly `k + 1` offered
mutations (with the random rule at least as many), and is recorded with its true score.  The same holds of everything in the hall of fame. -/
theorem C103_run (hW : W.Sound) {base : TopCfg Design ℚ} (hs : Sane base) (hpop : 0 < base.nPop) (hrule : ∀ r, base.rule ≠ .preferential r) {w : Pool Design}
    {start : Design} (h0 : Design.Alive W start) {mgr : Option (Spec Nat ℚ)} (hm : ∀ S, mgr = some S → SpecReach base.sqrt S) {st : RunSt Design ℚ}
    (h : topologyOptimization (W.cfg base) w start mgr = .ok st) :
    (∀ k gen, st.trace[k]? = some gen → ∀ q ∈ gen, Design.Alive W q.2 ∧ (W.method ≠ .pso → q.1 = W.eval q.2.1.graph q.2.2) ∧
      ∃ rs, History W.lib start.1.graph rs q.2.1.graph ∧ k + 1 ≤ rs.length ∧ (base.rule ≠ .random → rs.length = k + 1)) ∧
    ∀ q, some q ∈ st.hof → Design.Alive W q.2 ∧ (W.method ≠ .pso → q.1 = W.eval q.2.1.graph q.2.2) ∧
      ∃ rs, History W.lib start.1.graph rs q.2.1.graph ∧ rs ≠ [] := by
  have hs' : Sane (W.cfg base) := ⟨hs.1, hs.2⟩
  obtain ⟨s0, e0, hp⟩ := C102_parents hs' hpop hm h
  have S0 := (start_stands (base := base) hW h0 e0).1
  have key : ∀ k gen, st.trace[k]? = some gen → ∀ q ∈ gen, Stands W base start (k + 1) q := by
    intro k
    induction k with
    | zero =>
      intro gen hg q hq
      obtain ⟨parents, -, p2, -, p4⟩ := hp 0 gen hg
      obtain ⟨p, hpm, hn⟩ := p4 q hq
      rw [p2 rfl] at hpm
      rw [List.eq_of_mem_replicate hpm] at hn
      exact (next_stands hW hrule S0 hn).1
    | succ k ih =>
      intro gen hg q hq
      obtain ⟨parents, -, -, p3, p4⟩ := hp _ gen hg
      obtain ⟨p, hpm, hn⟩ := p4 q hq
      have hlt : k < st.trace.length := by
        have := (List.getElem?_eq_some_iff.1 hg).1
        omega
      exact (next_stands hW hrule (ih _ (List.getElem?_eq_getElem hlt) p ((p3 k _ rfl (List.getElem?_eq_getElem hlt)).1 p hpm)) hn).1
  refine ⟨key, fun q hq => ?_⟩
  obtain ⟨gen, hg, hq'⟩ := C102_hall hs' hpop hm h q hq
  obtain ⟨k, hg⟩ := List.getElem?_of_mem hg
  obtain ⟨a, b, rs, c, d, -⟩ := key k gen hg q hq'
  exact ⟨a, b, rs, c, fun h => by rw [h] at d; simp at d⟩

/-- **C103.** With tournaments or the roulette, a design's parent id is the id of the design it was made from: in the first generation that of the start, afterwards that of
a design evaluated one generation earlier. -/
theorem C103_lineage (hW : W.Sound) {base : TopCfg Design ℚ} (hs : Sane base) (hpop : 0 < base.nPop) (hrule : ∀ r, base.rule ≠ .preferential r) (hr : base.rule ≠ .random)
    {w : Pool Design} {start : Design} (h0 : Design.Alive W start) {mgr : Option (Spec Nat ℚ)} (hm : ∀ S, mgr = some S → SpecReach base.sqrt S) {st : RunSt Design ℚ}
    (h : topologyOptimization (W.cfg base) w start mgr = .ok st) :
    (∀ gen, st.trace[0]? = some gen → ∀ q ∈ gen, q.2.1.parent = start.1.current) ∧
    ∀ k prev gen, st.trace[k]? = some prev → st.trace[k + 1]? = some gen → ∀ q ∈ gen, ∃ p ∈ prev, q.2.1.parent = p.2.1.current := by
  have hs' : Sane (W.cfg base) := ⟨hs.1, hs.2⟩
  obtain ⟨s0, e0, hp⟩ := C102_parents hs' hpop hm h
  obtain ⟨S0, hs0⟩ := start_stands (base := base) hW h0 e0
  refine ⟨fun gen hg q hq => ?_, fun k prev gen hk hg q hq => ?_⟩
  · obtain ⟨parents, -, p2, -, p4⟩ := hp 0 gen hg
    obtain ⟨p, hpm, hn⟩ := p4 q hq
    rw [p2 rfl] at hpm
    rw [List.eq_of_mem_replicate hpm] at hn
    rw [(next_stands hW hrule S0 hn).2 hr, hs0]
  · obtain ⟨parents, -, -, p3, p4⟩ := hp _ gen hg
    obtain ⟨p, hpm, hn⟩ := p4 q hq
    have hmem := (p3 k prev rfl hk).1 p hpm
    exact ⟨p, hmem, (next_stands hW hrule (C103_run hW hs hpop hrule h0 hm h |>.1 k prev hk p hmem) hn).2 hr⟩

/-- **C103.** Every design a run evaluates, and every design in the hall of fame, can be propagated with the parameters it holds, if the start has terminals at its ends and
splitters in between, the library has splitters only as nodes, and no component is trapped (C98). -/
theorem C103_runs {n : Nat} (hn : 3 ≤ n) {P : Prop_ n} (hwin : 0 < P.window) {rest : Part → List ℝ → Optic n} (hrest : ∀ p ps x, ∃ y, (rest p ps).apply P x = .ok y)
    (hW : W.Sound) (hlib : ∀ c ∈ W.lib.node, W.cls c ∈ [Part.splitter, .freqSplitter]) {base : TopCfg Design ℚ} (hs : Sane base) (hpop : 0 < base.nPop)
    (hrule : ∀ r, base.rule ≠ .preferential r) {w : Pool Design} {start : Design} (h0 : Design.Alive W start) (hend : WellEnded W.cls start.1.graph)
    {mgr : Option (Spec Nat ℚ)} (hm : ∀ S, mgr = some S → SpecReach base.sqrt S) {st : RunSt Design ℚ} (h : topologyOptimization (W.cfg base) w start mgr = .ok st)
    {q : ℚ × Design} (hq : some q ∈ st.hof ∨ ∃ gen ∈ st.trace, q ∈ gen) (ht : ∀ e ∈ q.2.1.graph.edges, ¬ (W.cls e.comp.cls).Trapped P W.S (held q.2.2 e.comp)) :
    ∀ hasNoise inp old, ∃ r, propagate q.2.1.graph (physics P (fun c => (W.cls c.cls).optic W.S rest (held q.2.2 c)) (fun c => (W.cls c.cls).connector (held q.2.2 c)) hasNoise)
      inp old = .ok r := by
  have hq' : Design.Alive W q.2 ∧ ∃ rs, History W.lib start.1.graph rs q.2.1.graph := by
    obtain ⟨k1, k2⟩ := C103_run hW hs hpop hrule h0 hm h
    rcases hq with hq | ⟨gen, hg, hq⟩
    · obtain ⟨a, -, rs, b, -⟩ := k2 q hq
      exact ⟨a, rs, b⟩
    · obtain ⟨k, hg⟩ := List.getElem?_of_mem hg
      obtain ⟨a, -, rs, b, -⟩ := k1 k gen hg q hq
      exact ⟨a, rs, b⟩
  obtain ⟨ha, rs, hh⟩ := hq'
  have hst := Lifetime.stocked hW.settings hW.library h0
  have hend' : WellEnded W.cls q.2.1.graph := by
    generalize q.2.1.graph = g at hh
    induction hh with
    | nil => exact hend
    | step hh hstep ih =>
      obtain ⟨w1, a1⟩ := history_dag hst.wf hst.acyclic hh
      exact step_ended hlib w1 a1 hstep ih
  exact fun hasNoise inp old => (C98_life hn hwin hW.settings hrest hW.library hlib ha).2.1 hend' ht hasNoise inp old

/-- **C103.** Runs on designs finish: with the uniform evolver (which can always insert a component at a node between the ends), tournaments of some size or the roulette
with positive evaluations, elitism that rounds to nobody, a number of generations other than one and a known optimisation method whose optimisers work, a run from any
design in its life that has a node between its ends returns, whatever the random numbers.  With or without species. -/
theorem C103_finishes (hW : W.Sound) {ops : List Op} (hops : ops.Nodup) (hadd : Op.addSeries ∈ ops) (hmat : W.matrix = lookupEvolver W.lib ops)
    (hw : ∀ n d, (W.env n d).Working) (hmeth : W.method ≠ .unknown) {base : TopCfg Design ℚ} (hs : Sane base) (hpop : 0 < base.nPop) (hhof : 0 < base.nHof)
    (hgen : base.nGen ≠ 1) (hel : pyRound (base.ratio * base.nPop) = 0)
    (hrule : (∃ d, base.rule = .tournament d ∧ 0 < d) ∨
      ((∃ p, base.rule = .roulette p) ∧ (∀ n, 0 ≤ base.u n ∧ base.u n < 1) ∧ W.method ≠ .pso ∧ ∀ g h, 0 < W.eval g h))
    (w : Pool Design) {start : Design} (h0 : Design.Alive W start) (hi : ∃ v, InnerNode start.1.graph v) {mgr : Option (Spec Nat ℚ)}
    (hm : ∀ S, mgr = some S → SpecReach base.sqrt S) : ∃ st, topologyOptimization (W.cfg base) w start mgr = .ok st := by
  refine C102_finishes (cfg := W.cfg base) (P := fun d => Design.Alive W d ∧ ∃ v, InnerNode d.1.graph v) ⟨hs.1, hs.2⟩ hpop hhof hgen hel hm ?_ ?_ ?_ w ⟨h0, hi⟩
  · rcases hrule with ⟨d, hd, hd0⟩ | ⟨⟨p, hp⟩, hu, hpso, hpos⟩
    · have he : (W.cfg base).rule = .tournament d := hd
      unfold RuleWorks
      rw [he]
      exact hd0
    · have he : (W.cfg base).rule = .roulette p := hp
      unfold RuleWorks
      rw [he]
      refine ⟨hu, fun n c s c' hc h => ?_⟩
      rw [(C103_optimised hW hc.1 h).2.2 hpso]
      exact hpos _ _
  · rintro n ⟨x, hp⟩ ⟨hc, hin⟩
    have hst := Lifetime.stocked hW.settings hW.library hc
    obtain ⟨order, hto⟩ := topoSort_complete hst.wf hst.acyclic
    have hne : locs W.lib x.graph order .addSeries ≠ [] := by
      have := interfaces_iff.2 hin
      simpa [locs, seriesLocs] using this
    obtain ⟨M, hM, -⟩ := (C11_lookup_uniform (lib := W.lib) hst.wf hst.acyclic hto hops).2 ⟨_, hadd, hne⟩
    have hM' : W.matrix n x.graph hp = .ok M := by rw [hmat]; exact hM
    obtain ⟨y, h', o, l, c1, -, -, -, -, c6, c7⟩ := call_steps hW.settings hW.library hc hM' (fun order ho => hW.legal n (x, hp) M order hc hM' ho)
      (hW.index n (x, hp) M hc hM') (fun l o => hW.parts n (x, hp) M l o hc hM')
    have hev : designEv W n (x, hp) = .ok (y, h') := by
      unfold designEv
      dsimp only
      rw [c1]
    refine ⟨(y, h'), hev, ?_, c7, step_inner hst.wf hst.acyclic c6 hin⟩
    have hst' := c7.stocked hW.settings hW.library
    obtain ⟨order', hto'⟩ := topoSort_complete hst'.wf hst'.acyclic
    show designChk (y, h') = true
    unfold designChk
    rw [hto']
  · rintro n d ⟨hc, hin⟩
    obtain ⟨s, d', hd⟩ := C103_optimises (n := n) hW hc (hw n) hmeth
    obtain ⟨q1, q2, -⟩ := C103_optimised hW hc hd
    exact ⟨s, d', hd, q2, by rw [q1]; exact hin⟩

/-- A design in its life reports no value above its bound. -/
theorem alive_not_exceeds (hS : W.S.Sensible) (hf : LibraryFits W.cls W.lib) {d : Design} (hd : Design.Alive W d) : ¬ d.Exceeds := by
  rintro ⟨ps, ms, is, lo, up, hex, i, x, u, hx, hu, hlt⟩
  obtain ⟨ps', ms', is', lo', up', hex', hres, -⟩ := (Lifetime.stocked hS hf hd).listed hS
  rw [hex] at hex'
  injection hex' with hex'
  simp only [Prod.mk.injEq] at hex'
  obtain ⟨rfl, rfl, rfl, rfl, rfl⟩ := hex'
  obtain ⟨-, -, e1, e2, e3, -⟩ := extractToList_ok hex
  have hi : i < lo.length := by
    rw [e2, ← e3]
    exact (List.getElem?_eq_some_iff.1 hu).1
  exact absurd (hres.2 i x hx _ u (List.getElem?_eq_getElem hi) hu).2 (not_le.2 hlt)

/-! ### The hypotheses can be met -/

/-- Optimisers that propose the lower bounds. -/
def lazyEnv (lo : List ℚ) : OptEnv :=
  ⟨fun _ x => x, fun _ _ _ _ => .done lo 0, fun _ _ _ _ => .done lo 0, fun _ _ _ => .done lo 0, fun _ => lo, fun k => k, fun _ _ => [], fun _ => ⟨0, 0⟩, fun x => x, 2, 2, 2, 2, 2⟩

/-- For every evaluator and method, and the uniform evolver with any operators, there are random numbers and optimisers as supposed. -/
theorem world_exists {S : Settings} (hS : S.Sensible) {cls : ClassId → Part} {lib : Library} (hf : LibraryFits cls lib) (he : lib.edge ≠ []) (hn : lib.node ≠ [])
    (h1 : lib.source.Nodup) (h2 : lib.sink.Nodup) (h3 : lib.edge.Nodup) (h4 : lib.node.Nodup) {ops : List Op} (hops : ops.Nodup) (eval : Graph → Heap → ℚ) (method : OptMethod) :
    ∃ W : RunWorld, W.Sound ∧ W.S = S ∧ W.cls = cls ∧ W.lib = lib ∧ W.matrix = lookupEvolver lib ops ∧ W.eval = eval ∧ W.method = method ∧ ∀ n d, (W.env n d).Working := by
  classical
  have hpick : ∀ d : Design, ∃ c : Pick, ∀ M, Lifetime S cls lib d.1.graph d.2 → lookupMatrix lib ops d.1.graph = .ok M →
      M.CanDraw c.k ∧ ∀ l o, M.sample c.k = .ok (l, o) → drawOk lib d.1.graph o l c.draw ∧ NewObjects d.1.graph c.draw := by
    intro d
    by_cases hd : Lifetime S cls lib d.1.graph d.2 ∧ ∃ M, lookupMatrix lib ops d.1.graph = .ok M
    · obtain ⟨hl, M, hM⟩ := hd
      have hst := hl.stocked hS hf
      obtain ⟨order, hto⟩ := topoSort_complete hst.wf hst.acyclic
      obtain ⟨c1, c2⟩ := C11_lookup_uniform (lib := lib) (ops := ops) hst.wf hst.acyclic hto hops
      have hex : ∃ o ∈ ops, locs lib d.1.graph order o ≠ [] := by
        by_contra hc
        push Not at hc
        have := c1 hc
        rw [hM] at this
        cases this
      obtain ⟨M', m1, m2, -⟩ := c2 hex
      rw [hM] at m1
      injection m1 with m1
      subst m1
      obtain ⟨k, hk⟩ := positive_exists m2
      obtain ⟨l, o, s1, s2, s3⟩ := sample_spec M hk.1
      obtain ⟨dr, d1, d2⟩ := draw_exists hst.wf he hn h1 h2 h3 h4 (lookup_onlyLegal hst.wf hst.acyclic hops hto hM _ _ l o s2 s3 hk.2)
      refine ⟨⟨k, dr, 0⟩, fun M' _ hM' => ?_⟩
      rw [hM] at hM'
      injection hM' with hM'
      subst hM'
      refine ⟨hk, fun l' o' hs => ?_⟩
      rw [s1] at hs
      injection hs with hs
      injection hs with a b
      subst a
      subst b
      exact ⟨d1, d2⟩
    · exact ⟨⟨0, Fixture.serStep.draw, 0⟩, fun M hl hM => absurd ⟨hl, M, hM⟩ hd⟩
  choose pick hpick using hpick
  refine ⟨⟨S, cls, lib, lookupEvolver lib ops, fun _ d => pick d, fun _ d => match extractToList d.1.graph d.2 with
    | .ok (_, _, _, lo, _) => lazyEnv lo
    | .error _ => lazyEnv [], eval, method⟩, ⟨hS, hf, ?_, ?_, ?_, ?_, ?_⟩, rfl, rfl, rfl, rfl, rfl, rfl, ?_⟩
  · intro n d M order hl hM hto
    have hst := Lifetime.stocked hS hf hl
    exact lookup_onlyLegal hst.wf hst.acyclic hops hto hM
  · exact fun n d M hl hM => (hpick d M hl hM).1
  · exact fun n d M l o hl hM => (hpick d M hl hM).2 l o
  · intro n d ps ms is lo up hl hex
    obtain ⟨rfl, rfl, e1, e2, e3, -⟩ := extractToList_ok hex
    dsimp only
    rw [hex, List.length_map]
    exact ⟨fun _ _ _ _ => e2, fun _ _ _ _ => e2, fun _ _ _ => e2, fun _ => e2⟩
  · intro n d ps ms is lo up hl hex
    have hst := Lifetime.stocked hS hf hl
    obtain ⟨ps', ms', is', lo', up', hex', hres, -⟩ := hst.listed hS
    rw [hex] at hex'
    injection hex' with hex'
    simp only [Prod.mk.injEq] at hex'
    obtain ⟨rfl, rfl, rfl, rfl, rfl⟩ := hex'
    obtain ⟨-, -, e1, e2, e3, -⟩ := extractToList_ok hex
    have hlo : Respects lo up lo := ⟨rfl, fun i y hy l u hl hu => by
      rw [hl] at hy
      injection hy with hy
      subst hy
      have hi : i < ps.length := by rw [e1, ← e2]; exact (List.getElem?_eq_some_iff.1 hl).1
      obtain ⟨a, b⟩ := hres.2 i _ (List.getElem?_eq_getElem hi) l u hl hu
      exact ⟨le_refl _, a.trans b⟩⟩
    dsimp only
    rw [hex]
    exact ⟨fun _ _ => hlo, fun _ _ => hlo, fun _ => hlo, fun _ => hlo⟩
  · intro n d
    dsimp only
    split
    · exact ⟨fun y hy => hy, fun _ _ => rfl, le_refl _⟩
    · exact ⟨fun y hy => hy, fun _ _ => rfl, le_refl _⟩

/-- Arguments of a run on designs: three individuals, four generations. -/
def designBase (rule : Rule ℚ) : TopCfg Design ℚ where
  nPop := 3
  nGen := 4
  nHof := 2
  rule := rule
  ratio := 0
  ev := fun _ c => .ok c
  chk := fun _ => true
  hasParams := fun _ => true
  over := fun _ c => c
  opt := fun _ c => .ok (1, c)
  sim := fun _ _ _ => false
  u := fun n => if n % 4 = 0 then 0 else 3 / 4
  draw := fun n j => 3 * n + 5 * j + 2
  dist := fun _ _ => 0
  sqrt := fun _ => 2
  specRnd := fun _ => ⟨fun l => l, fun _ l => l⟩
  decay := fun _ => none
  setup := none
  fuel := 9

theorem designBase_sane (rule : Rule ℚ) : Sane (designBase rule) := ⟨fun _ => ⟨fun _ => .refl _, fun _ _ => .refl _⟩, by intro S h; cases h⟩

/-- A run by the roulette, optimising with L-BFGS after the genetic algorithm, from the fixture: it finishes, and everything said of runs holds of it. -/
example (x : Ind) (hx : x.graph = Fixture.g) : ∃ (W : RunWorld) (h : Heap) (st : RunSt Design ℚ), W.Sound ∧ W.method = .lbfgsGa ∧
    topologyOptimization (W.cfg (designBase (.roulette 2))) ⟨fun _ => (x, h), 0, 0⟩ (x, h) none = .ok st ∧
    (∀ k gen, st.trace[k]? = some gen → ∀ q ∈ gen, Design.Alive W q.2 ∧ q.1 = W.eval q.2.1.graph q.2.2 ∧ ∃ rs, History W.lib Fixture.g rs q.2.1.graph ∧ rs.length = k + 1) ∧
    (∀ gen, st.trace[0]? = some gen → ∀ q ∈ gen, q.2.1.parent = x.current) := by
  obtain ⟨h, hl⟩ := fix_start
  obtain ⟨W, hW, rfl', e1, e2, e3, e4, e5, e6⟩ := world_exists std_sensible fix_fits (by decide) (by decide) (by decide) (by decide) (by decide) (by decide)
    (ops := allOps) (by decide) (fun g _ => (g.edges.length : ℚ) + 1) .lbfgsGa
  have h0 : Design.Alive W (x, h) := by
    unfold Design.Alive
    rw [rfl', e1, e2, hx]
    exact hl
  obtain ⟨st, hst⟩ := C103_finishes (base := designBase (.roulette 2)) (start := (x, h)) (mgr := none) hW (ops := allOps) (by decide) (by decide) (by rw [e2]; exact e3) e6
    (by rw [e5]; decide) (designBase_sane _) (show 0 < 3 by decide) (show 0 < 2 by decide) (show 4 ≠ 1 by decide) (show pyRound ((0 : ℚ) * (3 : Nat)) = 0 by decide +kernel)
    (.inr ⟨⟨2, rfl⟩, fun n => by
      show (0 : ℚ) ≤ (if n % 4 = 0 then 0 else 3 / 4) ∧ (if n % 4 = 0 then 0 else 3 / 4) < (1 : ℚ)
      split <;> norm_num, by rw [e5]; decide, fun g h => by rw [e4]; positivity⟩) ⟨fun _ => (x, h), 0, 0⟩ h0 (by rw [hx]; exact fix_inner) (fun S hS => by cases hS)
  have hr := (C103_run (base := designBase (.roulette 2)) hW (designBase_sane _) (show 0 < 3 by decide) (fun r h => by cases h) h0 (fun S hS => by cases hS) hst).1
  refine ⟨W, h, st, hW, e5, hst, fun k gen hg q hq => ?_,
    (C103_lineage (base := designBase (.roulette 2)) hW (designBase_sane _) (show 0 < 3 by decide) (fun r h => by cases h) (fun h => by cases h) h0 (fun S hS => by cases hS) hst).1⟩
  obtain ⟨a, b, rs, c, -, d⟩ := hr k gen hg q hq
  exact ⟨a, b (by rw [e5]; decide), rs, by rw [← hx]; exact c, d (fun h => by cases h)⟩

/-- Every design such a run evaluates, or keeps in the hall of fame, can be propagated: no component of the fixture's library is trapped on the grid of the examples. -/
example (x : Ind) (hx : x.graph = Fixture.g) (W : RunWorld) (hW : W.Sound) (e1 : W.S = stdSettings) (e2 : W.cls = fixCls) (e3 : W.lib = Fixture.lib) (h : Heap)
    (hl : Lifetime stdSettings fixCls Fixture.lib Fixture.g h) (st : RunSt Design ℚ)
    (hst : topologyOptimization (W.cfg (designBase (.roulette 2))) ⟨fun _ => (x, h), 0, 0⟩ (x, h) none = .ok st) (q : ℚ × Design)
    (hq : some q ∈ st.hof ∨ ∃ gen ∈ st.trace, q ∈ gen) (inp : Signal 4) :
    ∃ r, propagate q.2.1.graph (physics demoProp (fun c => (fixCls c.cls).optic stdSettings Idle.rest (held q.2.2 c))
      (fun c => (fixCls c.cls).connector (held q.2.2 c)) (fun _ => true)) inp Store.empty = .ok r := by
  have h0 : Design.Alive W (x, h) := by
    unfold Design.Alive
    rw [e1, e2, e3, hx]
    exact hl
  have hu : ∀ c ps, ¬ (fixCls c).Trapped demoProp stdSettings ps := by
    intro c ps
    have hc : fixCls c = .waveShaper ∨ fixCls c ∉ [Part.squareFilter, .programmableFilter, .waveShaper] := by
      unfold fixCls
      split_ifs <;> decide
    rcases hc with h | h
    · rw [h]; exact Steady.shaper_fits _
    · exact Steady.untrapped h _
  have := C103_runs (base := designBase (.roulette 2)) (P := demoProp) (by norm_num) (by norm_num [demoProp]) Steady.rest_ok hW (by rw [e2, e3]; decide) (designBase_sane _)
    (show 0 < 3 by decide) (fun r h => by cases h) h0 (by rw [e2]; simp only; rw [hx]; exact Steady.g_ended) (fun S hS => by cases hS) hst hq (fun e _ => by rw [e1, e2]; exact hu _ _)
    (fun _ => true) inp Store.empty
  rw [e1, e2] at this
  exact this

/-! ### The preferential rule -/

/-- The fixture's objects ready for use. -/
def fixReady : Heap := match updateDesign fixCls Fixture.g fixHeap with | .ok h => h | .error _ => fixHeap

/-- The same with the fibre set to fifty metres. -/
def fixTuned : Heap := fun m => if m = 5 then { newModel stdSettings .dispersiveFiber with params := [50] } else fixReady m

/-- The uniform evolver with the swap operator only, exchanging the fibre for a wave shaper in the fixture and the second wave shaper for a fibre otherwise. -/
def swapWorld : RunWorld :=
  ⟨stdSettings, fixCls, Fixture.lib, lookupEvolver Fixture.lib [Op.swap], fun n d => if d.1.graph = Fixture.g then ⟨5, ⟨100 + n, Fixture.shaper (200 + n), Fixture.split (300 + n)⟩, n⟩
    else ⟨6, ⟨100 + n, Fixture.fiber (200 + n), Fixture.split (300 + n)⟩, n⟩, fun _ _ => lazyEnv [], fun _ _ => 1, .null⟩

theorem fixTuned_alive : Lifetime stdSettings fixCls Fixture.lib Fixture.g fixTuned := by
  obtain ⟨h, hl⟩ := fix_start
  have hready : Lifetime stdSettings fixCls Fixture.lib Fixture.g fixReady := by
    have hn : ∀ n ∈ Fixture.g.nodes, fixHeap n.comp.uid = newModel stdSettings (fixCls n.comp.cls) := by
      intro n hn
      simp only [Fixture.g, List.mem_cons, List.not_mem_nil, or_false] at hn
      rcases hn with rfl | rfl | rfl | rfl <;> rfl
    have he : ∀ n ∈ Fixture.g.edges, fixHeap n.comp.uid = newModel stdSettings (fixCls n.comp.cls) := by
      intro n hn
      simp only [Fixture.g, List.mem_cons, List.not_mem_nil, or_false] at hn
      rcases hn with rfl | rfl | rfl | rfl <;> rfl
    have hok : (updateDesign fixCls Fixture.g fixHeap).isOk = true := by decide +kernel
    refine .start Fixture.g_wf Fixture.g_acyclic fix_placed hn he ?_
    unfold fixReady
    cases hu : updateDesign fixCls Fixture.g fixHeap with
    | ok h' => rfl
    | error e => rw [hu] at hok; cases hok
  have h5 : fixReady 5 = newModel stdSettings .dispersiveFiber := by decide +kernel
  have hat : ∀ m, m ≠ 5 → fixTuned m = fixReady m := fun m hm => if_neg hm
  have ht5 : fixTuned 5 = { newModel stdSettings .dispersiveFiber with params := [50] } := if_pos rfl
  refine .tune hready ⟨fun m => ?_, fun m => ?_, fun m => ?_, fun m => ?_, fun m => ?_, fun m => ?_, fun m => ?_, fun m i hi => ?_⟩ (withinOwnBounds_iff.2 fun m hm => ?_)
  all_goals rcases eq_or_ne m 5 with rfl | hne
  any_goals rw [hat m hne]
  any_goals rw [ht5, h5]
  any_goals rfl
  · have : i ≠ 0 := by
      rintro rfl
      exact hi ⟨by decide +kernel, by unfold Unlocked; decide +kernel⟩
    obtain ⟨j, rfl⟩ := Nat.exists_eq_succ_of_ne_zero this
    rfl
  · rw [ht5]
    intro _ i hi l u hl hu
    have : i = 0 := by
      by_contra hc
      obtain ⟨j, rfl⟩ := Nat.exists_eq_succ_of_ne_zero hc
      cases hl
    subst this
    have e1 : l = 0 := by
      have : (some l : Option ℚ) = some 0 := hl.symm.trans (by decide +kernel)
      exact Option.some.inj this
    have e2 : u = 1000000 := by
      have : (some u : Option ℚ) = some 1000000 := hu.symm.trans (by decide +kernel)
      exact Option.some.inj this
    subst e1; subst e2
    exact ⟨50, rfl, by norm_num, by norm_num⟩
  · exact withinOwnBounds_iff.1 (Lifetime.stocked std_sensible fix_fits hready).bounds m hm

/-- Arguments and start of the run below: a population of one and two generations. -/
def prefBase : TopCfg Design ℚ := { designBase (.preferential some) with nPop := 1, nGen := 2 }

def prefStart : Design := (⟨Fixture.g, 0, 0, none⟩, fixTuned)

def prefPool : Pool Design := ⟨fun _ => prefStart, 0, 0⟩

/-- **C103.** (Finding.)  The preferential rule writes the parent's numbers to the parameter slots of a child made before, which need not be slots of the same
components: a run from a design in its life evaluates and records designs with parameters above their bounds. -/
theorem C103_preferential_exceeds : ∃ (W : RunWorld) (base : TopCfg Design ℚ) (w : Pool Design) (start : Design) (st : RunSt Design ℚ), Design.Alive W start ∧ Sane base ∧
    (∃ root, base.rule = .preferential root) ∧ topologyOptimization (W.cfg base) w start none = .ok st ∧ ∃ gen ∈ st.trace, ∃ q ∈ gen, Design.Exceeds q.2 := by
  have hrun : (topologyOptimization (swapWorld.cfg prefBase) prefPool
      prefStart none).map (fun st => st.trace.map (fun gen : List (ℚ × Design) => gen.map (fun q =>
        (extractToList q.2.1.graph q.2.2).map (fun r => (r.1[4]?, r.2.2.2.2[4]?))))) =
      .ok [[.ok (some 50, some 1), .ok (some 1, some 1)], [.ok (some 50, some 1)]] := by decide +kernel
  obtain ⟨st, hst⟩ : ∃ st, topologyOptimization (swapWorld.cfg prefBase)
      prefPool prefStart none = .ok st := by
    cases h : topologyOptimization (swapWorld.cfg prefBase)
      prefPool prefStart none with
    | error e => rw [h] at hrun; cases hrun
    | ok st => exact ⟨st, rfl⟩
  rw [hst] at hrun
  simp only [Except.map, Except.ok.injEq] at hrun
  refine ⟨swapWorld, prefBase, prefPool, prefStart, st, fixTuned_alive, ⟨fun _ => ⟨fun _ => .refl _, fun _ _ => .refl _⟩, by intro S h; cases h⟩, ⟨_, rfl⟩, hst, ?_⟩
  rcases hg : st.trace with _ | ⟨gen, rest⟩
  · rw [hg] at hrun; simp at hrun
  rw [hg, List.map_cons] at hrun
  injection hrun with h1 h2
  rcases hq : gen with _ | ⟨q, qs⟩
  · rw [hq] at h1; simp at h1
  rw [hq, List.map_cons] at h1
  injection h1 with h1 h3
  refine ⟨q :: qs, List.mem_cons_self, q, List.mem_cons_self, ?_⟩
  cases hx : extractToList q.2.1.graph q.2.2 with
  | error e => rw [hx] at h1; cases h1
  | ok r =>
    obtain ⟨ps, ms, is, lo, up⟩ := r
    rw [hx] at h1
    simp only [Except.ok.injEq, Prod.mk.injEq] at h1
    exact ⟨ps, ms, is, lo, up, hx, 4, 50, 1, h1.1, h1.2, by norm_num⟩

end Verif
