import Verif.Lemmas.Tuning
/-! # Properties of the tuning utilities (C83) -/

namespace Verif
variable {K : Type} [Field K] [LinearOrder K]

/-- A small setting: two free parameters, the score grows with them and with the noise. -/
def tuneDemo : TuneEnv ℚ where
  score := fun b k x => .ok (x.sum + (if b then (k : ℚ) else 0))
  grad := fun _ _ _ x => x.map (fun _ => 1)
  gen := fun k _ => [((5 * k + 3) % 7 : Nat), ((3 * k + 1) % 5 : Nat)]
  raw := fun k => 7 * k + 3
  resample := fun _ _ => .ok ()
  subset := fun k n m => (List.range m).map (fun i => (i + k) % n)
  lower := [0, 0]
  upper := [7, 5]

/-- The same, on a graph whose noise cannot be drawn anew (C106: every graph with an edge). -/
def tuneReal : TuneEnv ℚ := { tuneDemo with resample := fun _ _ => .error .attributeError }

/-- A graph that still has its default parameters. -/
def tuneStart : TuneSt ℚ := ⟨[1, 1], 0, true, 0, 0, []⟩

/-- Gradient descent with the defaults of `adam_bounded`, but for the root, which is exact on the values met here. -/
def tuneDemoAdam : TuneAdam ℚ where
  cfg := ⟨1 / 1000, 9 / 10, 999 / 1000, 1 / 10 ^ 8, 85 / 100000, id⟩
  nBatches := 2
  batchSize := 3
  checkPeriod := some 1
  noise := false
  perInd := false
  period := 1

/-- Two generations of three individuals. -/
def tuneDemoGa : TuneGa ℚ where
  nGen := 2
  n := 3
  rateMut := 9 / 10
  rateCrx := 9 / 10
  noise := true
  crossover := .single
  perInd := false
  periodGen := 1
  top := 0
  adam := tuneDemoAdam

/-- The error a run ends with. -/
def raised {α : Type} : EStateM.Result Err (TuneSt ℚ) α → Option Err
  | .ok _ _ => none
  | .error x _ => some x

/-! ### the log book -/

theorem book_runtime (g : Nat) (scores : List K) : logbookUpdate [TuneSrc.written.logKeyword, "verbose"] g scores = .error .typeError := rfl

theorem book_ok {kw : List String} {g : Nat} {scores : List K} {row : BookRow K} (h : logbookUpdate kw g scores = .ok row) :
    row.generation = g ∧ row.size = scores.length ∧ row.minimum ∈ scores ∧ (∀ x ∈ scores, row.minimum ≤ x) ∧
    row.maximum ∈ scores ∧ (∀ x ∈ scores, x ≤ row.maximum) ∧ row.mean = scores.sum / scores.length := by
  unfold logbookUpdate at h
  split at h
  · cases scores with
    | nil => cases h
    | cons a l =>
      simp only [Except.ok.injEq] at h
      subst h
      have h1 : ∀ (l : List K) (a : K), (l.foldl min a = a ∨ l.foldl min a ∈ l) ∧ l.foldl min a ≤ a ∧ ∀ x ∈ l, l.foldl min a ≤ x := by
        intro l
        induction l with
        | nil => intro a; simp
        | cons b l ih =>
          intro a
          obtain ⟨i1, i2, i3⟩ := ih (min a b)
          simp only [List.foldl_cons, List.mem_cons]
          refine ⟨?_, le_trans i2 (min_le_left _ _), ?_⟩
          · rcases i1 with i1 | i1
            · rcases min_choice a b with hm | hm <;> rw [hm] at i1
              · exact .inl (by rw [hm]; exact i1)
              · exact .inr (.inl (by rw [hm]; exact i1))
            · exact .inr (.inr i1)
          · rintro x (rfl | hx)
            · exact le_trans i2 (min_le_right _ _)
            · exact i3 x hx
      have h2 : ∀ (l : List K) (a : K), (l.foldl max a = a ∨ l.foldl max a ∈ l) ∧ a ≤ l.foldl max a ∧ ∀ x ∈ l, x ≤ l.foldl max a := by
        intro l
        induction l with
        | nil => intro a; simp
        | cons b l ih =>
          intro a
          obtain ⟨i1, i2, i3⟩ := ih (max a b)
          simp only [List.foldl_cons, List.mem_cons]
          refine ⟨?_, le_trans (le_max_left _ _) i2, ?_⟩
          · rcases i1 with i1 | i1
            · rcases max_choice a b with hm | hm <;> rw [hm] at i1
              · exact .inl (by rw [hm]; exact i1)
              · exact .inr (.inl (by rw [hm]; exact i1))
            · exact .inr (.inr i1)
          · rintro x (rfl | hx)
            · exact le_trans (le_max_right _ _) i2
            · exact i3 x hx
      obtain ⟨a1, a2, a3⟩ := h1 l a
      obtain ⟨b1, b2, b3⟩ := h2 l a
      refine ⟨rfl, by simp, ?_, ?_, ?_, ?_, rfl⟩
      · rcases a1 with a1 | a1
        · rw [a1]; exact List.mem_cons_self
        · exact List.mem_cons_of_mem _ a1
      · intro x hx
        rcases List.mem_cons.1 hx with rfl | hx
        · exact a2
        · exact a3 x hx
      · rcases b1 with b1 | b1
        · rw [b1]; exact List.mem_cons_self
        · exact List.mem_cons_of_mem _ b1
      · intro x hx
        rcases List.mem_cons.1 hx with rfl | hx
        · exact b2
        · exact b3 x hx
  · cases h

theorem book_first {scores : List K} (h : scores ≠ []) (g : Nat) : ∃ row, logbookUpdate ["verbose"] g scores = .ok row := by
  cases scores with
  | nil => exact absurd rfl h
  | cons a l => exact ⟨_, rfl⟩

/-! ### the code as written always fails -/

theorem batches_written {e : TuneEnv K} {a : TuneAdam K} {b left : Nat} {ps : List (AdamInd K)} {log : List (BookRow K)} {s s' : TuneSt K}
    {r : List (AdamInd K) × List (BookRow K)} : tuneBatches TuneSrc.written e a b (left + 1) ps log s ≠ .ok r s' := by
  intro h
  obtain ⟨_, s1, _, h1⟩ := tm_bind_ok.1 h
  obtain ⟨_, s2, _, h2⟩ := tm_bind_ok.1 h1
  obtain ⟨_, s3, _, h3⟩ := tm_bind_ok.1 h2
  obtain ⟨_, s4, h4, _⟩ := tm_bind_ok.1 h3
  have := (tm_lift_ok.1 h4).1
  rw [book_runtime] at this
  cases this

theorem adamFrom_written {e : TuneEnv K} {a : TuneAdam K} (hb : 0 < a.nBatches) {pop : List (K × List K)} {s s' : TuneSt K}
    {r : List (K × List K) × List (BookRow K)} : tuneAdamFrom TuneSrc.written e a pop s ≠ .ok r s' := by
  intro h
  obtain ⟨_, s1, _, h1⟩ := tm_bind_ok.1 h
  obtain ⟨_, s2, h2, _⟩ := tm_bind_ok.1 h1
  obtain ⟨n, hn⟩ : ∃ n, a.nBatches = n + 1 := ⟨a.nBatches - 1, by omega⟩
  rw [hn] at h2
  exact batches_written h2

/-- **C83.** The gradient descent never returns when there is a batch to run: whatever graph, evaluator, population and settings, the call ends with an
exception. -/
theorem C83_adam_never_returns (e : TuneEnv K) (a : TuneAdam K) (hb : 0 < a.nBatches) (nPop : Nat) (pop : Option (List (K × List K)))
    (s : TuneSt K) : ∃ x s', tuneAdam TuneSrc.written e a nPop pop s = .error x s' := by
  refine raises_of_not_ok fun r s' h => ?_
  obtain ⟨_, s1, _, h1⟩ := tm_bind_ok.1 h
  cases pop with
  | none =>
    obtain ⟨_, s2, _, h2⟩ := tm_bind_ok.1 h1
    exact adamFrom_written hb h2
  | some given =>
    dsimp only at h1
    split at h1
    · cases h1
    · exact adamFrom_written hb h1

example : raised (tuneAdam TuneSrc.written tuneDemo tuneDemoAdam 3 none tuneStart) = some .keyError := by decide +kernel

/-- **C83.** Nor does the genetic algorithm return when there is a generation to run. -/
theorem C83_ga_never_returns (e : TuneEnv K) (g : TuneGa K) (hg : 0 < g.nGen) (s : TuneSt K) :
    ∃ x s', tuneGa TuneSrc.written e g s = .error x s' := by
  refine raises_of_not_ok fun r s' h => ?_
  obtain ⟨_, s1, _, h1⟩ := tm_bind_ok.1 h
  obtain ⟨_, s2, _, h2⟩ := tm_bind_ok.1 h1
  obtain ⟨_, s3, _, h3⟩ := tm_bind_ok.1 h2
  obtain ⟨n, hn⟩ : ∃ n, g.nGen = n + 1 := ⟨g.nGen - 1, by omega⟩
  rw [hn] at h3
  obtain ⟨_, s4, h4, _⟩ := tm_bind_ok.1 h3
  obtain ⟨_, s5, _, h5⟩ := tm_bind_ok.1 h4
  obtain ⟨_, s6, _, h6⟩ := tm_bind_ok.1 h5
  obtain ⟨_, s7, _, h7⟩ := tm_bind_ok.1 h6
  obtain ⟨_, s8, _, h8⟩ := tm_bind_ok.1 h7
  obtain ⟨_, s9, h9, _⟩ := tm_bind_ok.1 h8
  have := (tm_lift_ok.1 h9).1
  rw [book_runtime] at this
  cases this

/-- **C83.** How the gradient descent fails when the noise need not be drawn anew (or can be): with iterations to make, the very first gradient raises `KeyError`; nothing has been optimised, the
parameters in the graph are those it had and no graph has been evaluated; the global noise switch is changed. -/
theorem C83_adam_key_error (e : TuneEnv K) (a : TuneAdam K) (hb : 0 < a.nBatches) (hi : 0 < a.batchSize) (hl : e.lower.length = e.upper.length)
    (hq : a.perInd = true ∨ 0 < a.period → Renews e) {pop : List (K × List K)} (hp : pop ≠ []) (s : TuneSt K) :
    ∃ s', tuneAdam TuneSrc.written e a pop.length (some pop) s = .error .keyError s' ∧ s'.vals = s.vals ∧ s'.evals = s.evals ∧
      s'.switch = a.noise := by
  obtain ⟨row, hrow⟩ := book_first (K := K) (scores := pop.map (·.1)) (by simpa using hp) 0
  obtain ⟨n, hn⟩ : ∃ n, a.nBatches = n + 1 := ⟨a.nBatches - 1, by omega⟩
  cases pop with
  | nil => exact absurd rfl hp
  | cons p ps =>
    have hcall : ∀ (q : AdamInd K) (t : TuneSt K), tuneAdamCall TuneSrc.written e a q t = .error .keyError t := by
      intro q t
      unfold tuneAdamCall
      rw [if_neg (by simpa using hl), if_pos ⟨by omega, by decide⟩]
    have hpass : ∀ t : TuneSt K, ∃ t', tunePass TuneSrc.written e a (⟨p.1, p.2, none, none, false⟩ :: ps.map (fun p => ⟨p.1, p.2, none, none, false⟩)) t
        = .error .keyError t' ∧ t'.vals = t.vals ∧ t'.evals = t.evals ∧ t'.switch = t.switch := by
      intro t
      refine ⟨{ t with noise := if a.perInd then t.noise + 1 else t.noise }, ?_, rfl, rfl, rfl⟩
      refine (tm_bind_step (resample_step (fun h => hq (.inl h)) _)).trans ?_
      rw [if_neg Bool.false_ne_true]
      exact tm_bind_error (hcall _ _)
    obtain ⟨t', h1, h2, h3, h4⟩ := hpass { s with switch := a.noise, noise := if (!a.perInd && decide (0 < a.period) && decide (((0 : Nat) : Int) % a.period = 0)) then s.noise + 1 else s.noise }
    refine ⟨t', ?_, h2, h3, h4⟩
    refine (tm_bind_step rfl).trans ?_
    rw [if_neg (by simp)]
    refine (tm_bind_step (tm_lift_ok.2 ⟨hrow, rfl⟩)).trans ?_
    refine tm_bind_error ?_
    rw [hn]
    refine (tm_bind_step (resample_step (fun h => hq (.inr ?_)) _)).trans ?_
    · simp only [Bool.and_eq_true, decide_eq_true_eq] at h
      exact h.1.2
    exact tm_bind_error h1

example : ∃ s', tuneAdam TuneSrc.written tuneDemo tuneDemoAdam 2 (some [(2, [1, 1]), (3, [1, 2])]) tuneStart = .error .keyError s' ∧ s'.vals = [1, 1] ∧
    s'.evals = [] ∧ s'.switch = false :=
  C83_adam_key_error tuneDemo tuneDemoAdam (by decide) (by decide) rfl (fun _ _ _ => rfl) (pop := [(2, [1, 1]), (3, [1, 2])]) (by simp) tuneStart

/-- With the noise left alone, on a graph whose noise cannot be drawn anew. -/
example : ∃ s', tuneAdam TuneSrc.written tuneReal { tuneDemoAdam with period := 0 } 2 (some [(2, [1, 1]), (3, [1, 2])]) tuneStart = .error .keyError s' ∧
    s'.vals = [1, 1] ∧ s'.evals = [] ∧ s'.switch = false :=
  C83_adam_key_error tuneReal { tuneDemoAdam with period := 0 } (by decide) (by decide) rfl (by intro h; exact absurd h (by decide))
    (pop := [(2, [1, 1]), (3, [1, 2])]) (by simp) tuneStart

/-- **C83.** How the genetic algorithm fails when nothing else goes wrong: after a whole generation has been scored, `TypeError`.  The graph is left with
the parameters of the individual evaluated last, the noise switch with the value asked for; the population is lost. -/
theorem C83_ga_type_error (e : TuneEnv K) (g : TuneGa K) (hg : 0 < g.nGen) (hn : 2 ≤ g.n) (ht : g.top = 0) (hc : g.crossover = .single)
    (hs : Scores e) (hq : g.perInd = true ∨ 0 < g.periodGen → Renews e) {s : TuneSt K} (hgen : ∀ k v, (e.gen k v).length = s.vals.length) (hL : 2 ≤ s.vals.length) (he : s.evals = []) :
    ∃ s', tuneGa TuneSrc.written e g s = .error .typeError s' ∧ s'.switch = g.noise ∧
      s'.evals.length = g.n + 2 * ⌊g.rateCrx * g.n⌋.toNat + ⌊g.rateMut * g.n⌋.toNat ∧
      s'.evals.getLast?.map (·.vec) = some s'.vals := by
  obtain ⟨n, hn'⟩ : ∃ n, g.nGen = n + 1 := ⟨g.nGen - 1, by omega⟩
  have hfit : ∀ k v, Fits (fun _ _ => True) s.vals.length (e.gen k v) := fun k v => ⟨hgen k v, fun _ _ _ => trivial⟩
  obtain ⟨p0, s1, h1⟩ := init_total hs (fun h => hq (.inl h)) g.n [] { s with switch := g.noise }
  have g1 := init_grown hfit g.n (P := fun _ _ => True) (L := s.vals.length) (pop := []) (by exact rfl) (by intro p hp; cases hp) h1
  have l1 : p0.length = g.n := by simpa using g1.size
  obtain ⟨row, hrow⟩ := book_first (K := K) (scores := p0.map (·.1)) (by
    intro hnil
    rw [List.map_eq_nil_iff] at hnil
    rw [hnil] at l1
    simp at l1
    omega) 0
  have hper : (!g.perInd && decide (0 < g.periodGen) && decide (((1 : Nat) : Int) % g.periodGen = 0)) = true → Renews e := by
    intro h
    simp only [Bool.and_eq_true, decide_eq_true_eq] at h
    exact hq (.inr h.1.2)
  obtain ⟨s1', hs1'⟩ : ∃ s1', s1' = { s1 with noise := if (!g.perInd && decide (0 < g.periodGen) && decide (((1 : Nat) : Int) % g.periodGen = 0)) then s1.noise + 1 else s1.noise } :=
    ⟨_, rfl⟩
  obtain ⟨p1, s2, h2⟩ := cross_total hs (fun h => hq (.inl h)) ⌊g.rateCrx * g.n⌋.toNat (pop := p0) (by omega) s1'
  have g2 := cross_grown (P := fun _ _ => True) (L := s.vals.length) _ (by rw [hs1']; exact g1.len) (by rw [hs1']; exact g1.known) h2
  have l2 := g2.size
  obtain ⟨p2, s3, h3⟩ := mut_total hs (fun k v => by rw [hgen]; exact hL) (fun h => hq (.inl h)) ⌊g.rateMut * g.n⌋.toNat (pop := p1) (by omega) s2
  have g3 := mut_grown hfit (P := fun _ _ => True) (L := s.vals.length) _ g2.len g2.known h3
  have hrun : tuneGa TuneSrc.written e g s = .error .typeError s3 := by
    refine (tm_bind_step rfl).trans ?_
    refine (tm_bind_step h1).trans ?_
    refine (tm_bind_step (tm_lift_ok.2 ⟨hrow, rfl⟩)).trans ?_
    rw [hn']
    refine tm_bind_error ?_
    refine (tm_bind_step (s1 := s1') (a := ()) (by rw [hs1']; exact resample_step hper _)).trans ?_
    rw [hc]
    refine (tm_bind_step h2).trans ?_
    refine (tm_bind_step h3).trans ?_
    refine (tm_bind_step (a := tuneCut g.n (tuneSort p2)) (s1 := s3) ?_).trans ?_
    · unfold tuneSelect
      rw [if_neg (by omega)]
      rfl
    · exact tm_bind_error (by rw [book_runtime]; rfl)
  have hall := Grown.trans g1 (Grown.trans (p2 := p1) (s2 := s2) ⟨g2.len, g2.known, g2.sub, g2.size, by have := g2.evals; rw [hs1'] at this; exact this,
    g2.last, by intro hk; have := g2.idle hk; rw [hs1'] at this; exact this⟩ g3)
  obtain ⟨new, a1, a2, _⟩ := hall.evals
  refine ⟨s3, hrun, ?_, ?_, hall.last (by omega)⟩
  · have := honest_ga e g.noise TuneSrc.written g rfl { s with switch := g.noise }
    have e1 : tuneGa TuneSrc.written e g { s with switch := g.noise } = tuneGa TuneSrc.written e g s := rfl
    rw [e1, hrun] at this
    exact (this rfl).1
  · rw [a1]
    show (s.evals ++ new).length = _
    rw [he, List.nil_append, a2]
    omega

example : ∃ s', tuneGa TuneSrc.written tuneDemo tuneDemoGa tuneStart = .error .typeError s' ∧ s'.evals.length = 9 := by
  obtain ⟨s', h1, _, h2, _⟩ := C83_ga_type_error tuneDemo tuneDemoGa (by decide) (by decide) rfl rfl (fun _ _ _ => ⟨_, rfl⟩) (fun _ _ _ => rfl) (s := tuneStart)
    (fun _ _ => rfl) (by decide) rfl
  exact ⟨s', h1, h2.trans (by decide +kernel)⟩

/-- **C83.** A graph with one free parameter (or none) cannot be tuned: the mutation refuses it. -/
theorem C83_one_parameter (e : TuneEnv K) (g : TuneGa K) (hg : 0 < g.nGen) (hn : 2 ≤ g.n) (hc : g.crossover = .single)
    (hm : 0 < ⌊g.rateMut * g.n⌋) (hs : Scores e) (hq : g.perInd = true ∨ 0 < g.periodGen → Renews e) {s : TuneSt K} (hgen : ∀ k v, (e.gen k v).length ≤ 1) (src : TuneSrc) :
    ∃ s', tuneGa src e g s = .error .valueError s' := by
  obtain ⟨n, hn'⟩ : ∃ n, g.nGen = n + 1 := ⟨g.nGen - 1, by omega⟩
  obtain ⟨m, hm'⟩ : ∃ m, ⌊g.rateMut * g.n⌋.toNat = m + 1 := ⟨⌊g.rateMut * g.n⌋.toNat - 1, by omega⟩
  obtain ⟨p0, s1, h1⟩ := init_total hs (fun h => hq (.inl h)) g.n [] { s with switch := g.noise }
  have l1 : p0.length = g.n := by simpa using init_length h1
  obtain ⟨row, hrow⟩ := book_first (K := K) (scores := p0.map (·.1)) (by
    intro hnil
    rw [List.map_eq_nil_iff] at hnil
    rw [hnil] at l1
    simp at l1
    omega) 0
  have hper : (!g.perInd && decide (0 < g.periodGen) && decide (((1 : Nat) : Int) % g.periodGen = 0)) = true → Renews e := by
    intro h
    simp only [Bool.and_eq_true, decide_eq_true_eq] at h
    exact hq (.inr h.1.2)
  obtain ⟨s1', hs1'⟩ : ∃ s1', s1' = { s1 with noise := if (!g.perInd && decide (0 < g.periodGen) && decide (((1 : Nat) : Int) % g.periodGen = 0)) then s1.noise + 1 else s1.noise } :=
    ⟨_, rfl⟩
  obtain ⟨p1, s2, h2⟩ := cross_total hs (fun h => hq (.inl h)) ⌊g.rateCrx * g.n⌋.toNat (pop := p0) (by omega) s1'
  have l2 := cross_length h2
  obtain ⟨p, hp⟩ := one_total (e.raw s2.draws) (pop := p1) (by omega)
  refine ⟨{ s2 with draws := s2.draws + 3, gens := s2.gens + 1 }, ?_⟩
  refine (tm_bind_step rfl).trans ?_
  refine (tm_bind_step h1).trans ?_
  refine (tm_bind_step (tm_lift_ok.2 ⟨hrow, rfl⟩)).trans ?_
  rw [hn']
  refine tm_bind_error ?_
  refine (tm_bind_step (s1 := s1') (a := ()) (by rw [hs1']; exact resample_step hper _)).trans ?_
  rw [hc]
  refine (tm_bind_step h2).trans ?_
  refine tm_bind_error ?_
  rw [hm']
  refine (tm_bind_step rfl).trans ?_
  refine (tm_bind_step (tm_lift_ok.2 ⟨hp, rfl⟩)).trans ?_
  refine (tm_bind_step rfl).trans ?_
  refine (tm_bind_step rfl).trans ?_
  refine (tm_bind_step rfl).trans ?_
  refine tm_bind_error ?_
  unfold tuneMutation
  rw [if_pos (hgen _ _)]
  rfl

example : ∃ s', tuneGa TuneSrc.written { tuneDemo with gen := fun k _ => [(k : ℚ)] } tuneDemoGa { tuneStart with vals := [1] } = .error .valueError s' :=
  C83_one_parameter _ _ (by decide) (by decide) rfl (by decide +kernel) (fun _ _ _ => ⟨_, rfl⟩) (fun _ _ _ => rfl) (fun _ _ => Nat.le_refl _) _

/-- **C83.** Without generations the population comes back as it was drawn, not sorted by score: the members are the evaluated vectors in the order of
their evaluation. -/
theorem C83_no_generations (e : TuneEnv K) (g : TuneGa K) (hg : g.nGen = 0) (hn : 0 < g.n) (hs : Scores e) (hq : g.perInd = true → Renews e) {s : TuneSt K}
    (hgen : ∀ k v, (e.gen k v).length = s.vals.length) (he : s.evals = []) (src : TuneSrc) :
    ∃ s' log, tuneGa src e g s = .ok (s'.evals.map (fun x => (x.score, x.vec)), log) s' ∧ s'.evals.length = g.n := by
  obtain ⟨p0, s1, h1⟩ := init_total hs hq g.n [] { s with switch := g.noise }
  obtain ⟨new, a1, a2, a3⟩ := init_order (L := s.vals.length) hgen (by exact rfl) h1
  have a4 : s1.evals = new := by
    rw [a1]
    show s.evals ++ new = new
    rw [he, List.nil_append]
  have l1 : p0.length = g.n := by simpa using init_length h1
  obtain ⟨row, hrow⟩ := book_first (K := K) (scores := p0.map (·.1)) (by
    intro hnil
    rw [List.map_eq_nil_iff] at hnil
    rw [hnil] at l1
    simp at l1
    omega) 0
  refine ⟨s1, [row], ?_, by rw [a4, a3]⟩
  refine (tm_bind_step rfl).trans ?_
  refine (tm_bind_step h1).trans ?_
  refine (tm_bind_step (tm_lift_ok.2 ⟨hrow, rfl⟩)).trans ?_
  rw [hg, a4, a2]
  rfl

/-- The scores returned by a run. -/
def scoresOf : EStateM.Result Err (TuneSt ℚ) (List (ℚ × List ℚ) × List (BookRow ℚ)) → List ℚ
  | .ok r _ => r.1.map (·.1)
  | .error _ _ => []

/-- **C83.** The documentation promises a sorted population; without generations it need not be. -/
theorem C83_unsorted : scoresOf (tuneGa TuneSrc.written tuneDemo { tuneDemoGa with nGen := 0 } tuneStart) = [4, 5, 8] ∧
    scoresOf (tuneGa TuneSrc.written { tuneDemo with score := fun _ _ x => .ok (10 - x.sum) } { tuneDemoGa with nGen := 0 } tuneStart) = [6, 5, 2] := by
  decide +kernel

/-- **C83.** The global noise switch: whatever the outcome, both functions leave it at the value they were called with, for everybody else too; all scores are
taken with it, under noise drawn not before the call. -/
theorem C83_switch (src : TuneSrc) (e : TuneEnv K) (g : TuneGa K) (a : TuneAdam K) (nPop : Nat) (pop : Option (List (K × List K))) (s : TuneSt K) :
    ((leftBehind (tuneGa src e g s)).switch = g.noise ∧
      ∃ new, (leftBehind (tuneGa src e g s)).evals = s.evals ++ new ∧
        ∀ x ∈ new, x.switch = g.noise ∧ s.noise ≤ x.noise ∧ e.score g.noise x.noise x.vec = .ok x.score) ∧
    ((leftBehind (tuneAdam src e a nPop pop s)).switch = a.noise ∧
      ∃ new, (leftBehind (tuneAdam src e a nPop pop s)).evals = s.evals ++ new ∧
        ∀ x ∈ new, x.switch = a.noise ∧ s.noise ≤ x.noise ∧ e.score a.noise x.noise x.vec = .ok x.score) := by
  constructor
  · have h := honest_ga e g.noise src g rfl { s with switch := g.noise }
    have e1 : tuneGa src e g { s with switch := g.noise } = tuneGa src e g s := rfl
    rw [e1] at h
    obtain ⟨a1, _, _, new, a2, a3⟩ := h rfl
    exact ⟨a1, new, a2, fun x hx => ⟨(a3 x hx).1, (a3 x hx).2.2.1, (a3 x hx).2.1⟩⟩
  · have h := honest_adam e a.noise src a rfl nPop pop { s with switch := a.noise }
    have e1 : tuneAdam src e a nPop pop { s with switch := a.noise } = tuneAdam src e a nPop pop s := rfl
    rw [e1] at h
    obtain ⟨a1, _, _, new, a2, a3⟩ := h rfl
    exact ⟨a1, new, a2, fun x hx => ⟨(a3 x hx).1, (a3 x hx).2.2.1, (a3 x hx).2.1⟩⟩

omit [Field K] [LinearOrder K] in
/-- **C83.** Mutation, given that `np.random.choice` returns as many different positions as asked for: the child takes at least one gene from the
random vector and keeps at least one of the parent; all other genes come from either at the same position. -/
theorem C83_mutation {e : TuneEnv K} (hsub : ∀ d n m, m ≤ n → (e.subset d n m).length = m ∧ (e.subset d n m).Nodup ∧ ∀ i ∈ e.subset d n m, i < n)
    (d r : Nat) {parent mutant : List K} (hl : parent.length = mutant.length) (h2 : 2 ≤ mutant.length) :
    ∃ c, tuneMutation e d r parent mutant = .ok c ∧ c.length = parent.length ∧
      ∃ inds : List Nat, (∃ i < parent.length, i ∈ inds) ∧ (∃ i < parent.length, i ∉ inds) ∧
        ∀ i, c[i]? = if i ∈ inds then mutant[i]? else parent[i]? := by
  have hr := Nat.mod_lt r (show 0 < mutant.length - 1 by omega)
  obtain ⟨s1, s2, s3⟩ := hsub d mutant.length (1 + r % (mutant.length - 1)) (by omega)
  obtain ⟨c, c1, c2, c3⟩ := C36_mutation (e.subset d mutant.length (1 + r % (mutant.length - 1))) hl
    (by intro h0; rw [h0] at hl; simp at hl; omega)
  refine ⟨c, ?_, c2, _, ?_, ?_, c3⟩
  · unfold mutate at c1
    rw [if_neg (by omega)] at c1
    unfold tuneMutation
    rw [if_neg (by omega)]
    exact c1
  · cases hs : e.subset d mutant.length (1 + r % (mutant.length - 1)) with
    | nil =>
      rw [hs] at s1
      simp at s1
      omega
    | cons i l => exact ⟨i, by rw [hl]; exact s3 i (by rw [hs]; exact List.mem_cons_self), List.mem_cons_self⟩
  · by_contra hall
    push Not at hall
    have hsub' : List.range parent.length ⊆ e.subset d mutant.length (1 + r % (mutant.length - 1)) := by
      intro i hi
      exact hall i (List.mem_range.1 hi)
    have := (List.nodup_range.subperm hsub').length_le
    rw [List.length_range, s1] at this
    omega

example : ∃ c, tuneMutation tuneDemo 1 4 [10, 20, 30] [1, 2, 3] = .ok c ∧ c = [10, 2, 30] := ⟨_, rfl, by decide +kernel⟩

/-! ### the code as meant -/

/-- Score and vector of an individual of the gradient descent. -/
def AdamInd.pair (p : AdamInd K) : K × List K := (p.score, p.vec)

omit [Field K] [LinearOrder K] in
theorem rescore_ok {e : TuneEnv K} {P : Nat → K → Prop} {L : Nat} {perInd : Bool} {ps qs : List (AdamInd K)} {s s' : TuneSt K} (hL : s.vals.length = L)
    (hf : ∀ p ∈ ps, Fits P L p.vec) (h : tuneRescore e perInd ps s = .ok qs s') :
    Known P L s' (qs.map AdamInd.pair) ∧ qs.length = ps.length ∧ qs.map (·.vec) = ps.map (·.vec) ∧ s'.vals.length = L ∧
      ∀ x ∈ s.evals, x ∈ s'.evals := by
  induction ps generalizing s qs with
  | nil =>
    obtain ⟨rfl, rfl⟩ := tm_pure_ok.1 h
    exact ⟨(by intro p hp; cases hp), rfl, rfl, hL, fun _ hx => hx⟩
  | cons p ps ih =>
    obtain ⟨_, s1, h1, hr1⟩ := tm_bind_ok.1 h
    obtain rfl := resample_ok h1
    obtain ⟨v, s2, h2, hr2⟩ := tm_bind_ok.1 hr1
    obtain ⟨rest, s3, h3, hr3⟩ := tm_bind_ok.1 hr2
    obtain ⟨rfl, rfl⟩ := tm_pure_ok.1 hr3
    have g1 := score_grown (pop := []) (P := P) (L := L) (by exact hL) (by intro p hp; cases hp) (hf p List.mem_cons_self) h2
    obtain ⟨a1, a2, a3, a4, a5⟩ := ih g1.len (fun q hq => hf q (List.mem_cons_of_mem _ hq)) h3
    have hmono : ∀ x ∈ s.evals, x ∈ s2.evals := by
      obtain ⟨new, hn, _⟩ := g1.evals
      intro x hx
      rw [hn]
      exact List.mem_append_left _ hx
    refine ⟨?_, by simp [a2], by simp [a3], a4, fun x hx => a5 x (hmono x hx)⟩
    intro q hq
    rw [List.map_cons] at hq
    rcases List.mem_cons.1 hq with rfl | hq
    · exact (g1.known.mono a5) _ (List.mem_append_right _ (List.mem_singleton.2 rfl))
    · exact a1 q hq

variable [IsStrictOrderedRing K]

theorem pass_ok {src : TuneSrc} {e : TuneEnv K} {a : TuneAdam K} {P : Nat → K → Prop} {L : Nat}
    (hle : ∀ (i : Nat) (l u : K), e.lower[i]? = some l → e.upper[i]? = some u → l ≤ u) (hbox : ∀ x, InBox e.lower e.upper x → Fits P L x)
    {ps qs : List (AdamInd K)} {s s' : TuneSt K} (hf : ∀ p ∈ ps, Fits P L p.vec)
    (hd : ∀ p ∈ ps, p.done = true → InBox e.lower e.upper p.vec) (h : tunePass src e a ps s = .ok qs s') :
    (∀ p ∈ qs, Fits P L p.vec) ∧ qs.length = ps.length ∧ (0 < a.batchSize → ∀ p ∈ qs, InBox e.lower e.upper p.vec) ∧
      (a.batchSize = 0 → (∀ p ∈ ps, p.done = false) → ∀ p ∈ qs, p.done = false) := by
  induction ps generalizing s qs with
  | nil =>
    obtain ⟨rfl, rfl⟩ := tm_pure_ok.1 h
    exact ⟨by simp, rfl, by simp, by simp⟩
  | cons p ps ih =>
    obtain ⟨_, s1, h1, hr1⟩ := tm_bind_ok.1 h
    by_cases hpd : p.done = true
    · rw [if_pos hpd] at hr1
      obtain ⟨rest, s2, h2, hr2⟩ := tm_bind_ok.1 hr1
      obtain ⟨rfl, rfl⟩ := tm_pure_ok.1 hr2
      obtain ⟨a1, a2, a3, a4⟩ := ih (fun q hq => hf q (List.mem_cons_of_mem _ hq)) (fun q hq => hd q (List.mem_cons_of_mem _ hq)) h2
      refine ⟨?_, by simp [a2], ?_, ?_⟩
      · intro q hq
        rcases List.mem_cons.1 hq with rfl | hq
        · exact hf _ List.mem_cons_self
        · exact a1 q hq
      · intro hb q hq
        rcases List.mem_cons.1 hq with rfl | hq
        · exact hd _ List.mem_cons_self hpd
        · exact a3 hb q hq
      · intro hb hall
        exact absurd (hall p List.mem_cons_self) (by simp [hpd])
    · rw [if_neg hpd] at hr1
      obtain ⟨r, s2, h2, hr2⟩ := tm_bind_ok.1 hr1
      obtain ⟨rest, s3, h3, hr3⟩ := tm_bind_ok.1 hr2
      obtain ⟨rfl, rfl⟩ := tm_pure_ok.1 hr3
      obtain ⟨a1, a2, a3, a4⟩ := ih (fun q hq => hf q (List.mem_cons_of_mem _ hq)) (fun q hq => hd q (List.mem_cons_of_mem _ hq)) h3
      have hcall : (0 < a.batchSize → InBox e.lower e.upper r.1.x) ∧ (a.batchSize = 0 → r.1.x = p.vec ∧ r.2 = 0) := by
        unfold tuneAdamCall at h2
        by_cases c1 : e.lower.length ≠ e.upper.length
        · rw [if_pos c1] at h2
          cases h2
        · rw [if_neg c1] at h2
          by_cases c2 : a.batchSize ≠ 0 ∧ src.slotKey ∉ extractionKeys [] true false
          · rw [if_pos c2] at h2
            cases h2
          · rw [if_neg c2] at h2
            split at h2
            · cases h2
            · next r' hr' =>
              obtain ⟨st, k⟩ := r'
              cases h2
              refine ⟨fun hb => (C37_adam hle hb hr').1, fun hb => ?_⟩
              obtain ⟨st', g1, g2, _⟩ := C37_no_iterations a.cfg (not_not.1 c1) (e.grad s1.switch s1.noise) p.vec a.checkPeriod p.m p.v
              rw [hb, g1] at hr'
              cases hr'
              exact ⟨g2, rfl⟩
      have hx : Fits P L r.1.x := by
        by_cases hb : 0 < a.batchSize
        · exact hbox _ (hcall.1 hb)
        · rw [(hcall.2 (by omega)).1]
          exact hf p List.mem_cons_self
      refine ⟨?_, by simp [a2], ?_, ?_⟩
      · intro q hq
        rcases List.mem_cons.1 hq with rfl | hq
        · exact hx
        · exact a1 q hq
      · intro hb q hq
        rcases List.mem_cons.1 hq with rfl | hq
        · exact hcall.1 hb
        · exact a3 hb q hq
      · intro hb hall q hq
        rcases List.mem_cons.1 hq with rfl | hq
        · simp [(hcall.2 hb).2, hb]
        · exact a4 hb (fun q hq => hall q (List.mem_cons_of_mem _ hq)) q hq

/-- State of affairs between batches. -/
structure BatchInv (e : TuneEnv K) (a : TuneAdam K) (P : Nat → K → Prop) (L n : Nat) (s : TuneSt K) (ps : List (AdamInd K)) : Prop where
  len : s.vals.length = L
  size : ps.length = n
  known : Known P L s (ps.map AdamInd.pair)
  box : ∀ p ∈ ps, p.done = true → InBox e.lower e.upper p.vec
  fresh : a.batchSize = 0 → ∀ p ∈ ps, p.done = false

theorem tuneBatches_ok {src : TuneSrc} {e : TuneEnv K} {a : TuneAdam K} {P : Nat → K → Prop} {L n : Nat}
    (hle : ∀ (i : Nat) (l u : K), e.lower[i]? = some l → e.upper[i]? = some u → l ≤ u) (hbox : ∀ x, InBox e.lower e.upper x → Fits P L x)
    {b left : Nat} {ps qs : List (AdamInd K)} {log log' : List (BookRow K)} {s s' : TuneSt K} (I : BatchInv e a P L n s ps)
    (h : tuneBatches src e a b left ps log s = .ok (qs, log') s') :
    BatchInv e a P L n s' qs ∧ log'.length = log.length + left ∧ (∀ x ∈ s.evals, x ∈ s'.evals) ∧
      (0 < left → 0 < a.batchSize → ∀ p ∈ qs, InBox e.lower e.upper p.vec) := by
  induction left generalizing b ps log s with
  | zero =>
    have := tm_pure_ok.1 h
    simp only [Prod.mk.injEq] at this
    obtain ⟨⟨rfl, rfl⟩, rfl⟩ := this
    exact ⟨I, by simp, fun _ hx => hx, fun hl => absurd hl (by omega)⟩
  | succ left ih =>
    obtain ⟨_, s1, h1, hr1⟩ := tm_bind_ok.1 h
    obtain ⟨p1, s2, h2, hr2⟩ := tm_bind_ok.1 hr1
    obtain ⟨p2, s3, h3, hr3⟩ := tm_bind_ok.1 hr2
    obtain ⟨row, s4, h4, hr4⟩ := tm_bind_ok.1 hr3
    obtain ⟨_, t4⟩ := tm_lift_ok.1 h4
    subst t4
    have hf : ∀ p ∈ ps, Fits P L p.vec := fun p hp => (I.known _ (List.mem_map_of_mem hp)).1
    obtain ⟨a1, a2, a3, a4⟩ := pass_ok hle hbox hf I.box h2
    have k1 : s1.vals.length = L ∧ ∀ x ∈ s.evals, x ∈ s1.evals := by
      obtain rfl := resample_ok h1
      exact ⟨I.len, fun _ hx => hx⟩
    have k2 : s2.vals.length = L ∧ ∀ x ∈ s1.evals, x ∈ s2.evals := by
      have hh := honest_pass e s1.switch src a ps s1
      rw [h2] at hh
      obtain ⟨_, _, c1, new, c2, _⟩ := hh rfl
      refine ⟨c1.trans k1.1, fun x hx => ?_⟩
      show x ∈ s2.evals
      have c2' : s2.evals = s1.evals ++ new := c2
      rw [c2']
      exact List.mem_append_left _ hx
    obtain ⟨b1, b2, b3, b4, b5⟩ := rescore_ok k2.1 a1 h3
    have hvec : ∀ (Q : List K → Prop), (∀ p ∈ p1, Q p.vec) → ∀ p ∈ p2, Q p.vec := by
      intro Q hQ p hp
      have : p.vec ∈ p2.map (·.vec) := List.mem_map_of_mem hp
      rw [b3] at this
      obtain ⟨q, hq, e1⟩ := List.mem_map.1 this
      rw [← e1]
      exact hQ q hq
    have hdone : p2.map (·.done) = p1.map (·.done) := rescore_done h3
    have hd2 : ∀ (c : Bool), (∀ p ∈ p1, p.done = c) → ∀ p ∈ p2, p.done = c := by
      intro c hc p hp
      have : p.done ∈ p2.map (·.done) := List.mem_map_of_mem hp
      rw [hdone] at this
      obtain ⟨q, hq, e1⟩ := List.mem_map.1 this
      rw [← e1]
      exact hc q hq
    have I2 : BatchInv e a P L n s3 p2 := by
      refine ⟨b4, by rw [b2, a2, I.size], b1, ?_, ?_⟩
      · intro p hp hpd
        by_cases hb : 0 < a.batchSize
        · exact hvec _ (a3 hb) p hp
        · have := hd2 false (a4 (by omega) (I.fresh (by omega))) p hp
          rw [this] at hpd
          cases hpd
      · intro hb
        exact hd2 false (a4 hb (I.fresh hb))
    obtain ⟨c1, c2, c3, c4⟩ := ih I2 hr4
    refine ⟨c1, by rw [c2]; simp; omega, fun x hx => c3 x (b5 x (k2.2 x (k1.2 x hx))), ?_⟩
    intro _ hb
    by_cases hl : 0 < left
    · exact c4 hl hb
    · have hl0 : left = 0 := by omega
      subst hl0
      have := tm_pure_ok.1 hr4
      simp only [Prod.mk.injEq] at this
      obtain ⟨⟨rfl, _⟩, _⟩ := this
      exact hvec _ (a3 hb)

theorem adamFrom_ok {src : TuneSrc} {e : TuneEnv K} {a : TuneAdam K} {P : Nat → K → Prop} {L : Nat}
    (hle : ∀ (i : Nat) (l u : K), e.lower[i]? = some l → e.upper[i]? = some u → l ≤ u) (hbox : ∀ x, InBox e.lower e.upper x → Fits P L x)
    {pop out : List (K × List K)} {log : List (BookRow K)} {s s' : TuneSt K} (hL : s.vals.length = L) (hk : Known P L s pop)
    (h : tuneAdamFrom src e a pop s = .ok (out, log) s') :
    out.length = pop.length ∧ out.Pairwise (fun x y => x.1 ≤ y.1) ∧ Known P L s' out ∧ s'.vals.length = L ∧ log.length = a.nBatches + 1 ∧
      (∀ x ∈ s.evals, x ∈ s'.evals) ∧ (0 < a.nBatches → 0 < a.batchSize → ∀ p ∈ out, InBox e.lower e.upper p.2) := by
  obtain ⟨row, s1, h1, hr1⟩ := tm_bind_ok.1 h
  obtain ⟨_, t1⟩ := tm_lift_ok.1 h1
  subst t1
  obtain ⟨⟨qs, log'⟩, s2, h2, hr2⟩ := tm_bind_ok.1 hr1
  have := tm_pure_ok.1 hr2
  simp only [Prod.mk.injEq] at this
  obtain ⟨⟨rfl, rfl⟩, rfl⟩ := this
  have I : BatchInv e a P L pop.length s (pop.map (fun p => (⟨p.1, p.2, none, none, false⟩ : AdamInd K))) := by
    refine ⟨hL, by simp, ?_, ?_, ?_⟩
    · rw [List.map_map]
      have : (AdamInd.pair ∘ fun p : K × List K => (⟨p.1, p.2, none, none, false⟩ : AdamInd K)) = id := by
        funext p
        rfl
      rw [this, List.map_id]
      exact hk
    · intro p hp hd
      obtain ⟨q, _, rfl⟩ := List.mem_map.1 hp
      cases hd
    · intro _ p hp
      obtain ⟨q, _, rfl⟩ := List.mem_map.1 hp
      rfl
  obtain ⟨a1, a2, a3, a4⟩ := tuneBatches_ok hle hbox I h2
  have hperm := List.perm_insertionSort (fun x y : K × List K => x.1 ≤ y.1) (qs.map (fun p => (p.score, p.vec)))
  have hsort : ((qs.map (fun p => (p.score, p.vec))).insertionSort (fun x y : K × List K => x.1 ≤ y.1)).Pairwise (fun x y => x.1 ≤ y.1) := by
    have : Std.Total (fun x y : K × List K => x.1 ≤ y.1) := ⟨fun x y => le_total _ _⟩
    have : IsTrans (K × List K) (fun x y => x.1 ≤ y.1) := ⟨fun _ _ _ h1 h2 => le_trans h1 h2⟩
    exact List.pairwise_insertionSort _ _
  refine ⟨by rw [hperm.length_eq, List.length_map, a1.size], hsort, fun p hp => a1.known p (hperm.mem_iff.1 hp), a1.len, by rw [a2]; simp; omega, a3, ?_⟩
  intro h1 h2 p hp
  obtain ⟨q, hq, rfl⟩ := List.mem_map.1 (hperm.mem_iff.1 hp)
  exact a4 h1 h2 q hq

theorem tuneSelect_ok {src : TuneSrc} {e : TuneEnv K} {g : TuneGa K} {P : Nat → K → Prop} {L : Nat}
    (hle : ∀ (i : Nat) (l u : K), e.lower[i]? = some l → e.upper[i]? = some u → l ≤ u)
    (hbox : 0 < g.top → ∀ x, InBox e.lower e.upper x → Fits P L x)
    {pop out : List (K × List K)} {s s' : TuneSt K} (hL : s.vals.length = L) (hk : Known P L s pop) (hn : g.n ≤ pop.length)
    (h : tuneSelect src e g pop s = .ok out s') :
    out.length = g.n ∧ out.Pairwise (fun x y => x.1 ≤ y.1) ∧ Known P L s' out ∧ s'.vals.length = L ∧ (∀ x ∈ s.evals, x ∈ s'.evals) ∧
      (0 < g.n → ∀ q ∈ pop, ∃ p ∈ out, p.1 ≤ q.1) ∧ (g.top = 0 → s' = s) := by
  have hperm := List.perm_insertionSort (fun a b : K × List K => tupleLe a b = true) pop
  unfold tuneSelect at h
  split at h
  · next ht =>
    obtain ⟨⟨r, log⟩, s1, h1, hr1⟩ := tm_bind_ok.1 h
    obtain ⟨rfl, rfl⟩ := tm_pure_ok.1 hr1
    obtain ⟨_, s2, h2, hr2⟩ := tm_bind_ok.1 h1
    cases h2
    dsimp only at hr2
    split at hr2
    · cases hr2
    · have hk' : Known P L { s with switch := g.noise } ((tuneSort pop).take g.top) := fun p hp =>
        hk p (hperm.mem_iff.1 (List.mem_of_mem_take hp))
      obtain ⟨a1, a2, a3, a4, _, a6, _⟩ := adamFrom_ok hle (hbox ht) (by exact hL) hk' hr2
      have hlen : g.n ≤ (tuneSort pop ++ r).length := by
        have : (tuneSort pop).length = pop.length := hperm.length_eq
        rw [List.length_append]
        omega
      obtain ⟨c1, c2, c3, c4⟩ := survive_ok hlen
      refine ⟨c1, c2, ?_, a4, a6, ?_, fun h0 => absurd h0 (by omega)⟩
      · intro p hp
        rcases List.mem_append.1 (c3 p hp) with hp | hp
        · exact (hk.mono a6) p (hperm.mem_iff.1 hp)
        · exact a3 p hp
      · intro h0 q hq
        exact c4 h0 q (List.mem_append_left _ (hperm.mem_iff.2 hq))
  · obtain ⟨rfl, rfl⟩ := tm_pure_ok.1 h
    obtain ⟨c1, c2, c3, c4⟩ := survive_ok hn
    exact ⟨c1, c2, fun p hp => hk p (c3 p hp), hL, fun _ hx => hx, c4, fun _ => rfl⟩

/-- Between two generations. -/
structure TuneInv (e : TuneEnv K) (g : TuneGa K) (P : Nat → K → Prop) (L : Nat) (s : TuneSt K) (pop : List (K × List K)) : Prop where
  len : s.vals.length = L
  size : pop.length = g.n
  known : Known P L s pop
  cover : g.top = 0 → ∀ x ∈ s.evals, ∃ p ∈ pop, p.1 ≤ x.score

theorem tuneGeneration_ok {src : TuneSrc} {e : TuneEnv K} {g : TuneGa K} {P : Nat → K → Prop} {L : Nat}
    (hle : ∀ (i : Nat) (l u : K), e.lower[i]? = some l → e.upper[i]? = some u → l ≤ u)
    (hbox : 0 < g.top → ∀ x, InBox e.lower e.upper x → Fits P L x) (hgen : ∀ k v, Fits P L (e.gen k v)) {k : Nat}
    {pop out : List (K × List K)} {row : BookRow K} {s s' : TuneSt K} (I : TuneInv e g P L s pop)
    (h : tuneGeneration src e g k pop s = .ok (out, row) s') :
    TuneInv e g P L s' out ∧ out.Pairwise (fun x y => x.1 ≤ y.1) ∧ (∀ q ∈ pop, ∃ p ∈ out, p.1 ≤ q.1) ∧ (∀ x ∈ s.evals, x ∈ s'.evals) ∧
      (g.top = 0 → s'.evals.length = s.evals.length + (2 * ⌊g.rateCrx * g.n⌋.toNat + ⌊g.rateMut * g.n⌋.toNat)) ∧
      row.generation = k ∧ row.size = g.n ∧ row.minimum ∈ out.map (·.1) ∧ ∀ x ∈ out.map (·.1), row.minimum ≤ x := by
  obtain ⟨_, s1, h1, hr1⟩ := tm_bind_ok.1 h
  obtain rfl := resample_ok h1
  obtain ⟨p1, s2, h2, hr2⟩ := tm_bind_ok.1 hr1
  obtain ⟨p2, s3, h3, hr3⟩ := tm_bind_ok.1 hr2
  obtain ⟨p3, s4, h4, hr4⟩ := tm_bind_ok.1 hr3
  obtain ⟨r, s5, h5, hr5⟩ := tm_bind_ok.1 hr4
  obtain ⟨t5, e5⟩ := tm_lift_ok.1 h5
  subst e5
  have := tm_pure_ok.1 hr5
  simp only [Prod.mk.injEq] at this
  obtain ⟨⟨rfl, rfl⟩, rfl⟩ := this
  have g1 := cross_grown (P := P) (L := L) _ (by exact I.len) (by exact I.known) h2
  have g2 := mut_grown hgen (P := P) (L := L) _ g1.len g1.known h3
  have G := g1.trans g2
  obtain ⟨new, n1, n2, n3⟩ := G.evals
  have n1' : s3.evals = s.evals ++ new := n1
  have hsz := G.size
  rw [I.size] at hsz
  obtain ⟨a1, a2, a3, a4, a5, a6, a7⟩ := tuneSelect_ok hle hbox G.len G.known (by omega) h4
  obtain ⟨b1, b2, b3, b4, _⟩ := book_ok t5
  have hn : 0 < g.n := by
    rw [← a1]
    cases p3 with
    | nil => cases b3
    | cons a l => simp
  refine ⟨⟨a4, a1, a3, ?_⟩, a2, fun q hq => a6 hn q (G.sub q hq), ?_, ?_, b1, by rw [b2, List.length_map, a1], b3, b4⟩
  · intro ht x hx
    rw [a7 ht, n1'] at hx
    rcases List.mem_append.1 hx with hx | hx
    · obtain ⟨p, hp, hle⟩ := I.cover ht x hx
      obtain ⟨q, hq, hle'⟩ := a6 hn p (G.sub p hp)
      exact ⟨q, hq, le_trans hle' hle⟩
    · obtain ⟨q, hq, hle'⟩ := a6 hn _ (n3 x hx)
      exact ⟨q, hq, hle'⟩
  · intro x hx
    apply a5
    rw [n1']
    exact List.mem_append_left _ hx
  · intro ht
    rw [a7 ht, n1', List.length_append, n2]

/-- The log of a run: numbered from zero, population sizes as asked for, minima never rising, and the last minimum that of the population. -/
structure GoodLog (n : Nat) (log : List (BookRow K)) (pop : List (K × List K)) : Prop where
  numbered : log.map (·.generation) = List.range log.length
  sizes : ∀ r ∈ log, r.size = n
  falling : log.Pairwise (fun a b => b.minimum ≤ a.minimum)
  bound : ∀ r ∈ log, ∃ p ∈ pop, p.1 ≤ r.minimum
  last : ∀ r, log.getLast? = some r → r.minimum ∈ pop.map (·.1) ∧ ∀ p ∈ pop, r.minimum ≤ p.1

theorem tuneGenerations_ok {src : TuneSrc} {e : TuneEnv K} {g : TuneGa K} {P : Nat → K → Prop} {L : Nat}
    (hle : ∀ (i : Nat) (l u : K), e.lower[i]? = some l → e.upper[i]? = some u → l ≤ u)
    (hbox : 0 < g.top → ∀ x, InBox e.lower e.upper x → Fits P L x) (hgen : ∀ k v, Fits P L (e.gen k v)) {k left : Nat}
    {pop out : List (K × List K)} {log log' : List (BookRow K)} {s s' : TuneSt K} (I : TuneInv e g P L s pop) (G : GoodLog g.n log pop)
    (hk : log.length = k) (h : tuneGenerations src e g k left pop log s = .ok (out, log') s') :
    TuneInv e g P L s' out ∧ GoodLog g.n log' out ∧ log'.length = k + left ∧ (0 < left → out.Pairwise (fun x y => x.1 ≤ y.1)) ∧
      (g.top = 0 → s'.evals.length = s.evals.length + left * (2 * ⌊g.rateCrx * g.n⌋.toNat + ⌊g.rateMut * g.n⌋.toNat)) := by
  induction left generalizing k pop log s with
  | zero =>
    have := tm_pure_ok.1 h
    simp only [Prod.mk.injEq] at this
    obtain ⟨⟨rfl, rfl⟩, rfl⟩ := this
    exact ⟨I, G, by omega, fun hl => absurd hl (by omega), fun _ => by simp⟩
  | succ left ih =>
    obtain ⟨⟨p1, row⟩, s1, h1, hr1⟩ := tm_bind_ok.1 h
    obtain ⟨a1, a2, a3, a4, a5, a6, a7, a8, a9⟩ := tuneGeneration_ok hle hbox hgen I h1
    have G1 : GoodLog g.n (log ++ [row]) p1 := by
      refine ⟨?_, ?_, ?_, ?_, ?_⟩
      · rw [List.map_append, G.numbered, List.length_append, List.map_singleton, a6, ← hk]
        simp [List.range_succ]
      · intro r hr
        rcases List.mem_append.1 hr with hr | hr
        · exact G.sizes r hr
        · rw [List.mem_singleton] at hr
          rw [hr, a7]
      · rw [List.pairwise_append]
        refine ⟨G.falling, List.pairwise_singleton _ _, ?_⟩
        intro r hr q hq
        rw [List.mem_singleton] at hq
        subst hq
        obtain ⟨p, hp, hp'⟩ := G.bound r hr
        obtain ⟨p', hq, hq'⟩ := a3 p hp
        exact le_trans (a9 _ (List.mem_map_of_mem hq)) (le_trans hq' hp')
      · intro r hr
        rcases List.mem_append.1 hr with hr | hr
        · obtain ⟨p, hp, hp'⟩ := G.bound r hr
          obtain ⟨p', hq, hq'⟩ := a3 p hp
          exact ⟨p', hq, le_trans hq' hp'⟩
        · rw [List.mem_singleton] at hr
          subst hr
          obtain ⟨p, hp, hp'⟩ := List.mem_map.1 a8
          exact ⟨p, hp, le_of_eq hp'⟩
      · intro r hr
        simp only [List.getLast?_append, List.getLast?_singleton, Option.some_or, Option.some.injEq] at hr
        subst hr
        exact ⟨a8, fun p hp => a9 _ (List.mem_map_of_mem hp)⟩
    obtain ⟨b1, b2, b3, b4, b5⟩ := ih a1 G1 (by simp [hk]) hr1
    refine ⟨b1, b2, by omega, ?_, ?_⟩
    · intro _
      by_cases hl : 0 < left
      · exact b4 hl
      · have hl0 : left = 0 := by omega
        subst hl0
        have := tm_pure_ok.1 hr1
        simp only [Prod.mk.injEq] at this
        obtain ⟨⟨rfl, _⟩, _⟩ := this
        exact a2
    · intro ht
      rw [b5 ht, a5 ht]
      ring

/-- **C83.** What the genetic algorithm achieves wherever it returns (with the two strings of the source mended it does): a population of the size asked for,
sorted if there was a generation, every member with a score that the evaluator gave for it during the run, under the noise switch asked for;
constraints met by all random vectors (and implied by the box of the gradient descent, if there is one) are met by all members.  Without gradient
descent the number of evaluations is fixed and no evaluation was better than the first member.  The log has one row per generation and one for the start,
with minima that never rise, the last being that of the population returned. -/
theorem C83_mended {src : TuneSrc} {e : TuneEnv K} {g : TuneGa K} {P : Nat → K → Prop} {s s' : TuneSt K}
    (hle : ∀ (i : Nat) (l u : K), e.lower[i]? = some l → e.upper[i]? = some u → l ≤ u)
    (hbox : 0 < g.top → ∀ x, InBox e.lower e.upper x → Fits P s.vals.length x) (hgen : ∀ k v, Fits P s.vals.length (e.gen k v)) (he : s.evals = [])
    {pop : List (K × List K)} {log : List (BookRow K)} (h : tuneGa src e g s = .ok (pop, log) s') :
    pop.length = g.n ∧ 0 < g.n ∧ (0 < g.nGen → pop.Pairwise (fun x y => x.1 ≤ y.1)) ∧
    (∀ p ∈ pop, Fits P s.vals.length p.2 ∧ ∃ k, e.score g.noise k p.2 = .ok p.1) ∧
    (g.top = 0 → s'.evals.length = g.n + g.nGen * (2 * ⌊g.rateCrx * g.n⌋.toNat + ⌊g.rateMut * g.n⌋.toNat)) ∧
    (g.top = 0 → 0 < g.nGen → ∀ p, pop.head? = some p → ∀ x ∈ s'.evals, p.1 ≤ x.score) ∧
    log.length = g.nGen + 1 ∧ GoodLog g.n log pop := by
  have hh := honest_ga e g.noise src g rfl { s with switch := g.noise }
  have e1 : tuneGa src e g { s with switch := g.noise } = tuneGa src e g s := rfl
  rw [e1, h] at hh
  obtain ⟨_, _, _, all, hall, htrue⟩ := hh rfl
  have hall' : s'.evals = all := by
    show (leftBehind (EStateM.Result.ok (pop, log) s')).evals = all
    rw [hall]
    show s.evals ++ all = all
    rw [he, List.nil_append]
  obtain ⟨_, s1, h1, hr1⟩ := tm_bind_ok.1 h
  cases h1
  obtain ⟨p0, s2, h2, hr2⟩ := tm_bind_ok.1 hr1
  obtain ⟨row, s3, h3, hr3⟩ := tm_bind_ok.1 hr2
  obtain ⟨t3, e3⟩ := tm_lift_ok.1 h3
  subst e3
  have g1 := init_grown hgen g.n (P := P) (L := s.vals.length) (pop := []) (by exact rfl) (by intro p hp; cases hp) h2
  obtain ⟨new, n1, n2, n3⟩ := g1.evals
  have n1' : s2.evals = new := by
    rw [n1]
    show s.evals ++ new = new
    rw [he, List.nil_append]
  have hsz : p0.length = g.n := by simpa using g1.size
  obtain ⟨b1, b2, b3, b4, _⟩ := book_ok t3
  have hn : 0 < g.n := by
    rw [← hsz]
    cases p0 with
    | nil => cases b3
    | cons a l => simp
  have I : TuneInv e g P s.vals.length s2 p0 := by
    refine ⟨g1.len, hsz, g1.known, ?_⟩
    intro _ x hx
    rw [n1'] at hx
    exact ⟨_, n3 x hx, le_refl _⟩
  have G : GoodLog g.n [row] p0 := by
    refine ⟨by simp [b1], ?_, List.pairwise_singleton _ _, ?_, ?_⟩
    · intro r hr
      rw [List.mem_singleton] at hr
      rw [hr, b2, List.length_map, hsz]
    · intro r hr
      rw [List.mem_singleton] at hr
      subst hr
      obtain ⟨p, hp, hp'⟩ := List.mem_map.1 b3
      exact ⟨p, hp, le_of_eq hp'⟩
    · intro r hr
      simp only [List.getLast?_singleton, Option.some.injEq] at hr
      subst hr
      exact ⟨b3, fun p hp => b4 _ (List.mem_map_of_mem hp)⟩
  obtain ⟨c1, c2, c3, c4, c5⟩ := tuneGenerations_ok hle hbox hgen I G rfl hr3
  refine ⟨c1.size, hn, c4, ?_, ?_, ?_, by rw [c3]; simp; omega, c2⟩
  · intro p hp
    obtain ⟨d1, x, hx, d2, d3⟩ := c1.known p hp
    rw [hall'] at hx
    obtain ⟨_, d4, _⟩ := htrue x hx
    rw [d2, d3] at d4
    exact ⟨d1, x.noise, d4⟩
  · intro ht
    rw [c5 ht, n1', n2]
  · intro ht hg p hp x hx
    obtain ⟨q, hq, hq'⟩ := c1.cover ht x hx
    have hs := c4 hg
    cases pop with
    | nil => cases hp
    | cons a l =>
      simp only [List.head?_cons, Option.some.injEq] at hp
      subst hp
      rcases List.mem_cons.1 hq with rfl | hq
      · exact hq'
      · exact le_trans ((List.pairwise_cons.1 hs).1 q hq) hq'

/-- **C83.** What the gradient descent achieves wherever it returns: as many individuals as it was given, sorted, every one with a score that the
evaluator gave for it; with at least one batch of at least one iteration all are within the shrunk bounds. -/
theorem C83_mended_adam {src : TuneSrc} {e : TuneEnv K} {a : TuneAdam K} {s s' : TuneSt K} {nPop : Nat}
    (hle : ∀ (i : Nat) (l u : K), e.lower[i]? = some l → e.upper[i]? = some u → l ≤ u) (hL : s.vals.length = e.lower.length)
    (hgen : ∀ k v, (e.gen k v).length = s.vals.length) (he : s.evals = [])
    {pop : List (K × List K)} {log : List (BookRow K)} (h : tuneAdam src e a nPop none s = .ok (pop, log) s') :
    pop.length = nPop ∧ pop.Pairwise (fun x y => x.1 ≤ y.1) ∧ (∀ p ∈ pop, ∃ k, e.score a.noise k p.2 = .ok p.1) ∧
    (0 < a.nBatches → 0 < a.batchSize → ∀ p ∈ pop, InBox e.lower e.upper p.2) ∧ log.length = a.nBatches + 1 := by
  have hh := honest_adam e a.noise src a rfl nPop none { s with switch := a.noise }
  have e1 : tuneAdam src e a nPop none { s with switch := a.noise } = tuneAdam src e a nPop none s := rfl
  rw [e1, h] at hh
  obtain ⟨_, _, _, all, hall, htrue⟩ := hh rfl
  have hall' : s'.evals = all := by
    show (leftBehind (EStateM.Result.ok (pop, log) s')).evals = all
    rw [hall]
    show s.evals ++ all = all
    rw [he, List.nil_append]
  obtain ⟨_, s1, h1, hr1⟩ := tm_bind_ok.1 h
  cases h1
  obtain ⟨p0, s2, h2, hr2⟩ := tm_bind_ok.1 hr1
  have hfit : ∀ k v, Fits (fun _ _ => True) s.vals.length (e.gen k v) := fun k v => ⟨hgen k v, fun _ _ _ => trivial⟩
  have g1 := init_grown hfit nPop (P := fun _ _ => True) (L := s.vals.length) (pop := []) (by exact rfl) (by intro p hp; cases hp) h2
  obtain ⟨a1, a2, a3, _, a5, _, a7⟩ := adamFrom_ok hle (fun x hx => ⟨hx.1.trans hL.symm, fun _ _ _ => trivial⟩) g1.len g1.known hr2
  refine ⟨by rw [a1, g1.size]; simp, a2, ?_, a7, a5⟩
  intro p hp
  obtain ⟨_, x, hx, d2, d3⟩ := a3 p hp
  rw [hall'] at hx
  obtain ⟨_, d4, _⟩ := htrue x hx
  rw [d2, d3] at d4
  exact ⟨x.noise, d4⟩

/-- The result of the small run with the mended source: it returns, so the hypotheses of `C83_mended` can be met. -/
example : scoresOf (tuneGa TuneSrc.mended tuneDemo tuneDemoGa tuneStart) = [3, 3, 4] := by decide +kernel

example : (scoresOf (tuneGa TuneSrc.mended tuneDemo { tuneDemoGa with top := 2 } tuneStart)).length = 3 := by decide +kernel

example : (scoresOf (tuneAdam TuneSrc.mended tuneDemo tuneDemoAdam 3 none tuneStart)).length = 3 := by decide +kernel

/-- First member of a returned population, with the score that its vector has under the last noise drawn. -/
def bestThenNow (e : TuneEnv ℚ) : EStateM.Result Err (TuneSt ℚ) (List (ℚ × List ℚ) × List (BookRow ℚ)) → Option (ℚ × Except Err ℚ)
  | .ok ((v, x) :: _, _) s => some (v, e.score s.switch s.noise x)
  | _ => none

/-- **C83.** Even mended, the score returned need not be one that the graph has now: scores are stored, while the noise is drawn anew in every generation (the default),
so a member that was lucky once stays at the top. -/
theorem C83_stale_scores : ∃ v w, bestThenNow tuneDemo (tuneGa TuneSrc.mended tuneDemo tuneDemoGa tuneStart) = some (v, .ok w) ∧ v < w := by
  refine ⟨3, 4, ?_, by norm_num⟩
  decide +kernel

/-! Cases of the other theorems. -/

example := C83_ga_never_returns tuneDemo tuneDemoGa (by decide) tuneStart
example := C83_no_generations tuneDemo { tuneDemoGa with nGen := 0 } rfl (by decide) (fun _ _ _ => ⟨_, rfl⟩) (fun _ _ _ => rfl) (s := tuneStart) (fun _ _ => rfl) rfl TuneSrc.written
example := C83_switch TuneSrc.written tuneDemo tuneDemoGa tuneDemoAdam 3 none tuneStart

end Verif
