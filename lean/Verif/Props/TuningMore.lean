import Verif.Props.Tuning
/-!
# C83, continued: populations of wrong size, the log of the gradient descent, how often noise is drawn, convergence
-/

namespace Verif
variable {K : Type} [Field K] [LinearOrder K]

/-- **C83.** A population of one cannot be crossed: the genetic algorithm raises `ValueError` in its first generation. -/
theorem C83_one_individual (e : TuneEnv K) (g : TuneGa K) (hg : 0 < g.nGen) (hn : g.n = 1) (hc : 0 < ⌊g.rateCrx * g.n⌋) (hs : Scores e)
    (hq : g.perInd = true ∨ 0 < g.periodGen → Renews e) (s : TuneSt K) (src : TuneSrc) : ∃ s', tuneGa src e g s = .error .valueError s' := by
  obtain ⟨n, hn'⟩ : ∃ n, g.nGen = n + 1 := ⟨g.nGen - 1, by omega⟩
  obtain ⟨m, hm'⟩ : ∃ m, ⌊g.rateCrx * g.n⌋.toNat = m + 1 := ⟨⌊g.rateCrx * g.n⌋.toNat - 1, by omega⟩
  obtain ⟨p0, s1, h1⟩ := init_total hs (fun h => hq (.inl h)) g.n [] { s with switch := g.noise }
  have l1 : p0.length = g.n := by simpa using init_length h1
  obtain ⟨row, hrow⟩ := book_first (K := K) (scores := p0.map (·.1)) (by
    intro hnil
    rw [List.map_eq_nil_iff] at hnil
    rw [hnil] at l1
    simp at l1
    omega) 0
  have hper : (!g.perInd && decide (0 < g.periodGen) && decide (((1 : Nat) : Int) % g.periodGen = 0)) = true → Renews e := by
    intro h
    simp only [Bool.and_eq_true, decide_eq_true_eq] at h
    exact hq (.inr h.1.2)
  obtain ⟨s1', hs1'⟩ : ∃ s1', s1' = { s1 with noise := if (!g.perInd && decide (0 < g.periodGen) && decide (((1 : Nat) : Int) % g.periodGen = 0)) then s1.noise + 1 else s1.noise } :=
    ⟨_, rfl⟩
  refine ⟨{ s1' with draws := s1'.draws + 2 }, ?_⟩
  refine (tm_bind_step rfl).trans ?_
  refine (tm_bind_step h1).trans ?_
  refine (tm_bind_step (tm_lift_ok.2 ⟨hrow, rfl⟩)).trans ?_
  rw [hn']
  refine tm_bind_error ?_
  refine (tm_bind_step (s1 := s1') (a := ()) (by rw [hs1']; exact resample_step hper _)).trans ?_
  refine tm_bind_error ?_
  rw [hm']
  refine (tm_bind_step rfl).trans ?_
  refine (tm_bind_step rfl).trans ?_
  refine tm_bind_error ?_
  unfold tuneTwo
  rw [if_pos (by omega)]
  rfl

example : ∃ s', tuneGa TuneSrc.mended tuneDemo { tuneDemoGa with n := 1, rateCrx := 1 } tuneStart = .error .valueError s' :=
  C83_one_individual _ _ (by decide) rfl (by decide +kernel) (fun _ _ _ => ⟨_, rfl⟩) (fun _ _ _ => rfl) _ _

/-- **C83.** A given population of another size than announced is refused, before anything but the noise switch has changed. -/
theorem C83_wrong_size (src : TuneSrc) (e : TuneEnv K) (a : TuneAdam K) (nPop : Nat) (pop : List (K × List K)) (h : pop.length ≠ nPop) (s : TuneSt K) :
    tuneAdam src e a nPop (some pop) s = .error .valueError { s with switch := a.noise } := by
  refine (tm_bind_step rfl).trans ?_
  show (if pop.length ≠ nPop then _ else _ : TuneM K _) _ = _
  rw [if_pos h]
  rfl

example : tuneAdam TuneSrc.mended tuneDemo tuneDemoAdam 1 (some [(2, [1, 1]), (3, [1, 2])]) tuneStart = .error .valueError { tuneStart with switch := false } :=
  C83_wrong_size _ _ _ _ _ (by decide) _

/-! ### graphs whose noise cannot be drawn anew -/

omit [Field K] [LinearOrder K] in
/-- `tuneResample`, counted. -/
theorem resample_count {e : TuneEnv K} {c : Bool} {s s' : TuneSt K} {u : Unit} (h : tuneResample e c s = .ok u s') : s'.noise = s.noise + c.toNat := by
  rw [resample_ok h]
  show (if c then s.noise + 1 else s.noise) = _
  cases c <;> rfl

omit [Field K] [LinearOrder K] in
theorem score_count {e : TuneEnv K} {x : List K} {v : K} {s s' : TuneSt K} (h : tuneScore e x s = .ok v s') : s'.noise = s.noise := by
  unfold tuneScore at h
  dsimp only at h
  split at h
  · cases h
  · cases h
    rfl

omit [Field K] [LinearOrder K] in
theorem init_count {e : TuneEnv K} {perInd : Bool} {n : Nat} {pop pop' : List (K × List K)} {s s' : TuneSt K}
    (h : tuneInit e perInd n pop s = .ok pop' s') : s'.noise = s.noise + n * perInd.toNat := by
  induction n generalizing s pop with
  | zero =>
    obtain ⟨rfl, rfl⟩ := tm_pure_ok.1 h
    simp
  | succ n ih =>
    obtain ⟨_, s1, h1, hr1⟩ := tm_bind_ok.1 h
    obtain ⟨x, s2, h2, hr2⟩ := tm_bind_ok.1 hr1
    obtain ⟨v, s3, h3, hr3⟩ := tm_bind_ok.1 hr2
    have k2 : s2.noise = s1.noise := by cases h2; rfl
    rw [ih hr3, score_count h3, k2, resample_count h1]
    ring

omit [Field K] [LinearOrder K] in
theorem resample_raises {e : TuneEnv K} {x : Err} (hx : ∀ b k, e.resample b k = .error x) {c : Bool} (hc : c = true) (s : TuneSt K) :
    tuneResample e c s = .error x s := by
  unfold tuneResample
  rw [if_pos hc, hx]

/-- **C83.** On a graph whose noise cannot be drawn anew (by C106, every graph with an edge) the tuning ends with that exception whenever it is asked to renew the noise,
also with the source mended: per individual, before anything is evaluated; with the default period of the genetic algorithm, after the first population; with any positive
period of the gradient descent (the default is one), before its first step.  Only the noise switch is changed. -/
theorem C83_no_renewal (src : TuneSrc) (e : TuneEnv K) {x : Err} (hx : ∀ b k, e.resample b k = .error x) (s : TuneSt K) :
    (∀ g : TuneGa K, g.perInd = true → 0 < g.n → tuneGa src e g s = .error x { s with switch := g.noise }) ∧
    (∀ g : TuneGa K, g.perInd = false → g.periodGen = 1 → 0 < g.nGen → 0 < g.n → Scores e → (∀ k v, (e.gen k v).length = s.vals.length) →
      ∃ s', tuneGa src e g s = .error x s' ∧ s'.switch = g.noise ∧ s'.noise = s.noise ∧ s'.evals.length = s.evals.length + g.n) ∧
    (∀ (a : TuneAdam K) (pop : List (K × List K)), a.perInd = true ∨ 0 < a.period → 0 < a.nBatches → pop ≠ [] →
      tuneAdam src e a pop.length (some pop) s = .error x { s with switch := a.noise }) := by
  refine ⟨fun g hp hn => ?_, fun g hp h1 hg hn hs hgen => ?_, fun a pop ha hb hp => ?_⟩
  · obtain ⟨n, hn'⟩ : ∃ n, g.n = n + 1 := ⟨g.n - 1, by omega⟩
    refine (tm_bind_step rfl).trans ?_
    refine tm_bind_error ?_
    rw [hn']
    exact tm_bind_error (resample_raises hx hp _)
  · obtain ⟨n, hn'⟩ : ∃ n, g.nGen = n + 1 := ⟨g.nGen - 1, by omega⟩
    obtain ⟨p0, s1, h2⟩ := init_total hs (perInd := g.perInd) (by rw [hp]; exact fun h => absurd h (by decide)) g.n [] { s with switch := g.noise }
    obtain ⟨new, a1, a2, a3⟩ := init_order (L := s.vals.length) hgen (by exact rfl) h2
    have l1 : p0.length = g.n := by simpa using init_length h2
    obtain ⟨row, hrow⟩ := book_first (K := K) (scores := p0.map (·.1)) (by
      intro hnil
      rw [List.map_eq_nil_iff] at hnil
      rw [hnil] at l1
      simp at l1
      omega) 0
    have hh := honest_init e g.noise g.perInd g.n [] { s with switch := g.noise }
    rw [h2] at hh
    refine ⟨s1, ?_, (hh rfl).1, ?_, by rw [a1, List.length_append, a3]⟩
    · refine (tm_bind_step rfl).trans ?_
      refine (tm_bind_step h2).trans ?_
      refine (tm_bind_step (tm_lift_ok.2 ⟨hrow, rfl⟩)).trans ?_
      rw [hn']
      refine tm_bind_error ?_
      exact tm_bind_error (resample_raises hx (by rw [hp, h1]; rfl) _)
    · have := init_count h2
      rw [this, hp]
      simp
  · obtain ⟨n, hn'⟩ : ∃ n, a.nBatches = n + 1 := ⟨a.nBatches - 1, by omega⟩
    obtain ⟨row, hrow⟩ := book_first (K := K) (scores := pop.map (·.1)) (by simpa using hp) 0
    refine (tm_bind_step rfl).trans ?_
    rw [if_neg (by simp)]
    refine (tm_bind_step (tm_lift_ok.2 ⟨hrow, rfl⟩)).trans ?_
    refine tm_bind_error ?_
    rw [hn']
    by_cases hi : a.perInd = true
    · refine (tm_bind_step (a := ()) (s1 := { s with switch := a.noise }) ?_).trans ?_
      · rw [hi]
        rfl
      · cases pop with
        | nil => exact absurd rfl hp
        | cons p ps => exact tm_bind_error (tm_bind_error (resample_raises hx hi _))
    · have hper : 0 < a.period := ha.resolve_left hi
      refine tm_bind_error (resample_raises hx ?_ _)
      simp [hi, hper]

example : raised (tuneGa TuneSrc.mended tuneReal tuneDemoGa tuneStart) = some .attributeError := by decide +kernel

example := C83_no_renewal TuneSrc.written tuneReal (fun _ _ => rfl) tuneStart

/-! ### convergence -/

/-- **C83.** A batch of the gradient descent, individual by individual: one that has converged is left alone; any other one is moved to where `adam_bounded` ends
from its position and momenta, under noise drawn not before the batch, and counts as converged from then on iff that took fewer iterations than allowed. -/
theorem C83_batch {src : TuneSrc} {e : TuneEnv K} {a : TuneAdam K} {ps qs : List (AdamInd K)} {s s' : TuneSt K} (h : tunePass src e a ps s = .ok qs s') :
    qs.length = ps.length ∧ ∀ (i : Nat) (p q : AdamInd K), ps[i]? = some p → qs[i]? = some q →
      (p.done = true → q = p) ∧
      (p.done = false → ∃ (k : Nat) (st : AdamSt K) (used : Nat), s.noise ≤ k ∧ k ≤ s'.noise ∧
        adamBounded a.cfg e.lower e.upper (e.grad s.switch k) p.vec a.checkPeriod a.batchSize p.m p.v = .ok (st, used) ∧
        q.vec = st.x ∧ q.m = some st.m ∧ q.v = some st.v ∧ (q.done = true ↔ used ≠ a.batchSize)) := by
  induction ps generalizing s qs with
  | nil =>
    obtain ⟨rfl, rfl⟩ := tm_pure_ok.1 h
    exact ⟨rfl, fun i p q hp => by simp at hp⟩
  | cons p0 ps ih =>
    obtain ⟨_, s1, h1, hr1⟩ := tm_bind_ok.1 h
    have k1 : s1.switch = s.switch ∧ s.noise ≤ s1.noise := by
      obtain rfl := resample_ok h1
      refine ⟨rfl, ?_⟩
      show s.noise ≤ if a.perInd then s.noise + 1 else s.noise
      split <;> omega
    by_cases hpd : p0.done = true
    · rw [if_pos hpd] at hr1
      obtain ⟨rest, s2, h2, hr2⟩ := tm_bind_ok.1 hr1
      obtain ⟨rfl, rfl⟩ := tm_pure_ok.1 hr2
      obtain ⟨a1, a2⟩ := ih h2
      refine ⟨by simp [a1], fun i p q hp hq => ?_⟩
      cases i with
      | zero =>
        simp only [List.getElem?_cons_zero, Option.some.injEq] at hp hq
        subst hp; subst hq
        exact ⟨fun _ => rfl, fun hc => absurd hpd (by simp [hc])⟩
      | succ i =>
        obtain ⟨b1, b2⟩ := a2 i p q (by simpa using hp) (by simpa using hq)
        refine ⟨b1, fun hc => ?_⟩
        obtain ⟨k, st, used, c1, c2, c3, c4⟩ := b2 hc
        exact ⟨k, st, used, by omega, c2, k1.1 ▸ c3, c4⟩
    · rw [if_neg hpd] at hr1
      obtain ⟨r, s2, h2, hr2⟩ := tm_bind_ok.1 hr1
      obtain ⟨rest, s3, h3, hr3⟩ := tm_bind_ok.1 hr2
      obtain ⟨rfl, rfl⟩ := tm_pure_ok.1 hr3
      obtain ⟨a1, a2⟩ := ih h3
      have hcall : adamBounded a.cfg e.lower e.upper (e.grad s1.switch s1.noise) p0.vec a.checkPeriod a.batchSize p0.m p0.v = .ok r ∧ s2.switch = s1.switch ∧
          s2.noise = s1.noise := by
        unfold tuneAdamCall at h2
        by_cases c1 : e.lower.length ≠ e.upper.length
        · rw [if_pos c1] at h2
          cases h2
        · rw [if_neg c1] at h2
          by_cases c2 : a.batchSize ≠ 0 ∧ src.slotKey ∉ extractionKeys [] true false
          · rw [if_pos c2] at h2
            cases h2
          · rw [if_neg c2] at h2
            split at h2
            · cases h2
            · next r' hr' =>
              cases h2
              refine ⟨hr', ?_⟩
              split <;> exact ⟨rfl, rfl⟩
      have hn3 : s2.noise ≤ s3.noise := by
        have hh := honest_pass e s2.switch src a ps s2
        rw [h3] at hh
        exact (hh rfl).2.1
      refine ⟨by simp [a1], fun i p q hp hq => ?_⟩
      cases i with
      | zero =>
        simp only [List.getElem?_cons_zero, Option.some.injEq] at hp hq
        subst hp; subst hq
        refine ⟨fun hc => absurd hc hpd, fun _ => ⟨s1.noise, r.1, r.2, k1.2, by omega, ?_, rfl, rfl, rfl, by simp⟩⟩
        rw [← k1.1]
        exact hcall.1
      | succ i =>
        obtain ⟨b1, b2⟩ := a2 i p q (by simpa using hp) (by simpa using hq)
        refine ⟨b1, fun hc => ?_⟩
        obtain ⟨k, st, used, c1, c2, c3, c4⟩ := b2 hc
        refine ⟨k, st, used, by omega, c2, ?_, c4⟩
        rw [← k1.1, ← hcall.2.1]
        exact c3

omit [Field K] [LinearOrder K] in
theorem rescore_vec {e : TuneEnv K} {perInd : Bool} {ps qs : List (AdamInd K)} {s s' : TuneSt K} (h : tuneRescore e perInd ps s = .ok qs s') :
    qs.length = ps.length ∧ ∀ (i : Nat) (p q : AdamInd K), ps[i]? = some p → qs[i]? = some q → q.vec = p.vec ∧ q.done = p.done := by
  induction ps generalizing s qs with
  | nil =>
    obtain ⟨rfl, rfl⟩ := tm_pure_ok.1 h
    exact ⟨rfl, fun i p q hp => by simp at hp⟩
  | cons p0 ps ih =>
    obtain ⟨_, s1, h1, hr1⟩ := tm_bind_ok.1 h
    obtain ⟨v, s2, h2, hr2⟩ := tm_bind_ok.1 hr1
    obtain ⟨rest, s3, h3, hr3⟩ := tm_bind_ok.1 hr2
    obtain ⟨rfl, rfl⟩ := tm_pure_ok.1 hr3
    obtain ⟨a1, a2⟩ := ih h3
    refine ⟨by simp [a1], fun i p q hp hq => ?_⟩
    cases i with
    | zero =>
      simp only [List.getElem?_cons_zero, Option.some.injEq] at hp hq
      subst hp; subst hq
      exact ⟨rfl, rfl⟩
    | succ i => exact a2 i p q (by simpa using hp) (by simpa using hq)

/-- **C83.** Once converged, always converged: whatever batches follow, the individual ends where it was. -/
theorem C83_converged {src : TuneSrc} {e : TuneEnv K} {a : TuneAdam K} {b left : Nat} {ps qs : List (AdamInd K)} {log log' : List (BookRow K)}
    {s s' : TuneSt K} (h : tuneBatches src e a b left ps log s = .ok (qs, log') s') :
    qs.length = ps.length ∧ ∀ (i : Nat) (p : AdamInd K), ps[i]? = some p → p.done = true → ∃ q : AdamInd K, qs[i]? = some q ∧ q.vec = p.vec ∧ q.done = true := by
  induction left generalizing b ps log s with
  | zero =>
    have := tm_pure_ok.1 h
    simp only [Prod.mk.injEq] at this
    obtain ⟨⟨rfl, rfl⟩, rfl⟩ := this
    exact ⟨rfl, fun i p hp hd => ⟨p, hp, rfl, hd⟩⟩
  | succ left ih =>
    obtain ⟨_, s1, h1, hr1⟩ := tm_bind_ok.1 h
    obtain ⟨p1, s2, h2, hr2⟩ := tm_bind_ok.1 hr1
    obtain ⟨p2, s3, h3, hr3⟩ := tm_bind_ok.1 hr2
    obtain ⟨row, s4, h4, hr4⟩ := tm_bind_ok.1 hr3
    obtain ⟨a1, a2⟩ := C83_batch h2
    obtain ⟨b1, b2⟩ := rescore_vec h3
    obtain ⟨c1, c2⟩ := ih hr4
    refine ⟨by rw [c1, b1, a1], fun i p hp hd => ?_⟩
    have hi : i < ps.length := (List.getElem?_eq_some_iff.1 hp).1
    obtain ⟨x, hx⟩ : ∃ x, p1[i]? = some x := ⟨_, List.getElem?_eq_getElem (by omega)⟩
    obtain ⟨y, hy⟩ : ∃ y, p2[i]? = some y := ⟨_, List.getElem?_eq_getElem (by omega)⟩
    have e1 := (a2 i p x hp hx).1 hd
    subst e1
    obtain ⟨e2, e3⟩ := b2 i x y hx hy
    obtain ⟨q, q1, q2, q3⟩ := c2 i y hy (e3.trans hd)
    exact ⟨q, q1, q2.trans e2, q3⟩

/-! ### how often noise is drawn -/

theorem pass_count {src : TuneSrc} {e : TuneEnv K} {a : TuneAdam K} {ps qs : List (AdamInd K)} {s s' : TuneSt K}
    (h : tunePass src e a ps s = .ok qs s') : s'.noise = s.noise + ps.length * a.perInd.toNat := by
  induction ps generalizing s qs with
  | nil =>
    obtain ⟨rfl, rfl⟩ := tm_pure_ok.1 h
    simp
  | cons p0 ps ih =>
    obtain ⟨_, s1, h1, hr1⟩ := tm_bind_ok.1 h
    have k1 := resample_count h1
    by_cases hpd : p0.done = true
    · rw [if_pos hpd] at hr1
      obtain ⟨rest, s2, h2, hr2⟩ := tm_bind_ok.1 hr1
      obtain ⟨rfl, rfl⟩ := tm_pure_ok.1 hr2
      rw [ih h2, k1, List.length_cons]
      ring
    · rw [if_neg hpd] at hr1
      obtain ⟨r, s2, h2, hr2⟩ := tm_bind_ok.1 hr1
      obtain ⟨rest, s3, h3, hr3⟩ := tm_bind_ok.1 hr2
      obtain ⟨rfl, rfl⟩ := tm_pure_ok.1 hr3
      have k2 : s2.noise = s1.noise := by
        unfold tuneAdamCall at h2
        split at h2
        · cases h2
        · split at h2
          · cases h2
          · split at h2
            · cases h2
            · cases h2
              split <;> rfl
      rw [ih h3, k2, k1, List.length_cons]
      ring

omit [Field K] [LinearOrder K] in
theorem rescore_count {e : TuneEnv K} {perInd : Bool} {ps qs : List (AdamInd K)} {s s' : TuneSt K} (h : tuneRescore e perInd ps s = .ok qs s') :
    s'.noise = s.noise + ps.length * perInd.toNat := by
  induction ps generalizing s qs with
  | nil =>
    obtain ⟨rfl, rfl⟩ := tm_pure_ok.1 h
    simp
  | cons p0 ps ih =>
    obtain ⟨_, s1, h1, hr1⟩ := tm_bind_ok.1 h
    obtain ⟨v, s2, h2, hr2⟩ := tm_bind_ok.1 hr1
    obtain ⟨rest, s3, h3, hr3⟩ := tm_bind_ok.1 hr2
    obtain ⟨rfl, rfl⟩ := tm_pure_ok.1 hr3
    rw [ih h3, score_count h2, resample_count h1, List.length_cons]
    ring

/-- Number of multiples of the period among `b, …, b + left - 1`. -/
def multiples (period : Int) (b left : Nat) : Nat := ((List.range left).filter (fun i => decide (((b + i : Nat) : Int) % period = 0))).length

theorem multiples_succ (period : Int) (b left : Nat) :
    multiples period b (left + 1) = (decide ((b : Int) % period = 0)).toNat + multiples period (b + 1) left := by
  unfold multiples
  rw [List.range_succ_eq_map, List.filter_cons]
  have : ((List.map Nat.succ (List.range left)).filter (fun i => decide (((b + i : Nat) : Int) % period = 0))).length =
      ((List.range left).filter (fun i => decide (((b + 1 + i : Nat) : Int) % period = 0))).length := by
    rw [List.filter_map, List.length_map]
    congr 2
    funext i
    show decide (((b + (i + 1) : Nat) : Int) % period = 0) = _
    congr 4
    omega
  by_cases hb : (b : Int) % period = 0
  · simp only [Nat.add_zero, hb, decide_true, if_true, List.length_cons, this]
    show _ = 1 + _
    omega
  · simp only [Nat.add_zero, hb, decide_false, Bool.false_eq_true, if_false, this, Bool.toNat_false, Nat.zero_add]

theorem batches_count {src : TuneSrc} {e : TuneEnv K} {a : TuneAdam K} {b left : Nat} {ps qs : List (AdamInd K)} {log log' : List (BookRow K)}
    {s s' : TuneSt K} (h : tuneBatches src e a b left ps log s = .ok (qs, log') s') :
    s'.noise = s.noise + (if a.perInd then left * (2 * ps.length) else if 0 < a.period then multiples a.period b left else 0) := by
  induction left generalizing b ps log s with
  | zero =>
    have := tm_pure_ok.1 h
    simp only [Prod.mk.injEq] at this
    obtain ⟨⟨rfl, rfl⟩, rfl⟩ := this
    simp [multiples]
  | succ left ih =>
    obtain ⟨_, s1, h1, hr1⟩ := tm_bind_ok.1 h
    obtain ⟨p1, s2, h2, hr2⟩ := tm_bind_ok.1 hr1
    obtain ⟨p2, s3, h3, hr3⟩ := tm_bind_ok.1 hr2
    obtain ⟨row, s4, h4, hr4⟩ := tm_bind_ok.1 hr3
    obtain ⟨_, rfl⟩ := tm_lift_ok.1 h4
    have l1 := (C83_batch h2).1
    have l2 := (rescore_vec h3).1
    rw [ih hr4, rescore_count h3, pass_count h2, resample_count h1, l2, l1]
    by_cases hp : a.perInd = true
    · simp only [hp, if_true, Bool.not_true, Bool.false_and, Bool.toNat_true, Bool.toNat_false]
      ring
    · simp only [hp]
      by_cases hq : 0 < a.period
      · simp only [hq, if_true, multiples_succ]
        simp
        omega
      · simp [hq]

/-- **C83.** How often the gradient descent draws noise anew, wherever it returns: per individual twice in every batch (before its descent and before its score),
otherwise once in every batch whose number is a multiple of a positive period, starting with batch zero; never for the initial population. -/
theorem C83_adam_noise {src : TuneSrc} {e : TuneEnv K} {a : TuneAdam K} {nPop : Nat} {given : Option (List (K × List K))}
    {pop : List (K × List K)} {log : List (BookRow K)} {s s' : TuneSt K} (h : tuneAdam src e a nPop given s = .ok (pop, log) s') :
    s'.noise = s.noise + (if a.perInd then a.nBatches * (2 * nPop) else if 0 < a.period then multiples a.period 0 a.nBatches else 0) := by
  have key : ∀ {p0 : List (K × List K)} {s1 : TuneSt K}, p0.length = nPop → tuneAdamFrom src e a p0 s1 = .ok (pop, log) s' →
      s'.noise = s1.noise + (if a.perInd then a.nBatches * (2 * nPop) else if 0 < a.period then multiples a.period 0 a.nBatches else 0) := by
    intro p0 s1 hl hr
    obtain ⟨row, s2, h2, hr2⟩ := tm_bind_ok.1 hr
    obtain ⟨_, rfl⟩ := tm_lift_ok.1 h2
    obtain ⟨⟨qs, log'⟩, s3, h3, hr3⟩ := tm_bind_ok.1 hr2
    obtain ⟨_, rfl⟩ := tm_pure_ok.1 hr3
    rw [batches_count h3, List.length_map, hl]
  obtain ⟨_, s1, h1, hr1⟩ := tm_bind_ok.1 h
  cases h1
  cases given with
  | none =>
    obtain ⟨p0, s2, h2, hr2⟩ := tm_bind_ok.1 hr1
    have l := init_length h2
    rw [key (by simpa using l) hr2, init_count h2]
    simp
  | some p =>
    by_cases hl : p.length ≠ nPop
    · have hr1' : (if p.length ≠ nPop then tuneLift (.error .valueError) else tuneAdamFrom src e a p : TuneM K _) { s with switch := a.noise } = .ok (pop, log) s' := hr1
      rw [if_pos hl] at hr1'
      cases hr1'
    · have hr1' : (if p.length ≠ nPop then tuneLift (.error .valueError) else tuneAdamFrom src e a p : TuneM K _) { s with switch := a.noise } = .ok (pop, log) s' := hr1
      rw [if_neg hl] at hr1'
      exact key (s1 := { s with switch := a.noise }) (not_not.1 hl) hr1'

omit [Field K] [LinearOrder K] in
theorem cross_count {e : TuneEnv K} {c : TuneCross} {perInd : Bool} {n : Nat} {pop pop' : List (K × List K)} {s s' : TuneSt K}
    (h : tuneCrossLoop e c perInd n pop s = .ok pop' s') : s'.noise = s.noise + n * (2 * perInd.toNat) := by
  induction n generalizing s pop with
  | zero =>
    obtain ⟨rfl, rfl⟩ := tm_pure_ok.1 h
    simp
  | succ n ih =>
    obtain ⟨_, s1, h1, hr1⟩ := tm_bind_ok.1 h
    obtain ⟨_, s2, h2, hr2⟩ := tm_bind_ok.1 hr1
    obtain ⟨_, s3, h3, hr3⟩ := tm_bind_ok.1 hr2
    obtain ⟨_, s4, h4, hr4⟩ := tm_bind_ok.1 hr3
    obtain ⟨_, s5, h5, hr5⟩ := tm_bind_ok.1 hr4
    obtain ⟨_, s6, h6, hr6⟩ := tm_bind_ok.1 hr5
    obtain ⟨_, s7, h7, hr7⟩ := tm_bind_ok.1 hr6
    obtain ⟨_, s8, h8, hr8⟩ := tm_bind_ok.1 hr7
    obtain ⟨_, s9, h9, hr9⟩ := tm_bind_ok.1 hr8
    obtain ⟨_, s10, h10, hr10⟩ := tm_bind_ok.1 hr9
    obtain ⟨_, rfl⟩ := tm_lift_ok.1 h3
    obtain ⟨_, rfl⟩ := tm_lift_ok.1 h6
    have k1 : s1.noise = s.noise := by cases h1; rfl
    have k2 : s2.noise = s1.noise := by cases h2; rfl
    have k4 : s4.noise = s2.noise := by cases h4; rfl
    have k5 : s5.noise = s4.noise := by cases h5; rfl
    rw [ih hr10, score_count h10, resample_count h9, score_count h8, resample_count h7, k5, k4, k2, k1]
    ring

omit [Field K] [LinearOrder K] in
theorem mut_count {e : TuneEnv K} {perInd : Bool} {n : Nat} {pop pop' : List (K × List K)} {s s' : TuneSt K}
    (h : tuneMutLoop e perInd n pop s = .ok pop' s') : s'.noise = s.noise + n * perInd.toNat := by
  induction n generalizing s pop with
  | zero =>
    obtain ⟨rfl, rfl⟩ := tm_pure_ok.1 h
    simp
  | succ n ih =>
    obtain ⟨_, s1, h1, hr1⟩ := tm_bind_ok.1 h
    obtain ⟨_, s2, h2, hr2⟩ := tm_bind_ok.1 hr1
    obtain ⟨_, s3, h3, hr3⟩ := tm_bind_ok.1 hr2
    obtain ⟨_, s4, h4, hr4⟩ := tm_bind_ok.1 hr3
    obtain ⟨_, s5, h5, hr5⟩ := tm_bind_ok.1 hr4
    obtain ⟨_, s6, h6, hr6⟩ := tm_bind_ok.1 hr5
    obtain ⟨_, s7, h7, hr7⟩ := tm_bind_ok.1 hr6
    obtain ⟨_, s8, h8, hr8⟩ := tm_bind_ok.1 hr7
    obtain ⟨_, rfl⟩ := tm_lift_ok.1 h2
    obtain ⟨_, rfl⟩ := tm_lift_ok.1 h6
    have k1 : s1.noise = s.noise := by cases h1; rfl
    have k3 : s3.noise = s1.noise := by cases h3; rfl
    have k4 : s4.noise = s3.noise := by cases h4; rfl
    have k5 : s5.noise = s4.noise := by cases h5; rfl
    rw [ih hr8, score_count h8, resample_count h7, k5, k4, k3, k1]
    ring

/-- Noise drawn by a gradient descent on `n` individuals, according to its documentation. -/
def descentDraws (a : TuneAdam K) (perInd : Bool) (n : Nat) : Nat :=
  if perInd then a.nBatches * (2 * n) else if 0 < a.period then multiples a.period 0 a.nBatches else 0

theorem generations_count {src : TuneSrc} {e : TuneEnv K} {g : TuneGa K} {k left : Nat} {pop out : List (K × List K)} {log log' : List (BookRow K)}
    {s s' : TuneSt K} (h : tuneGenerations src e g k left pop log s = .ok (out, log') s') :
    s'.noise = s.noise + (if g.perInd then left * (2 * ⌊g.rateCrx * g.n⌋.toNat + ⌊g.rateMut * g.n⌋.toNat)
      else if 0 < g.periodGen then multiples g.periodGen k left else 0) + (if 0 < g.top then left * descentDraws g.adam g.perInd g.top else 0) := by
  induction left generalizing k pop log s with
  | zero =>
    have := tm_pure_ok.1 h
    simp only [Prod.mk.injEq] at this
    obtain ⟨⟨rfl, rfl⟩, rfl⟩ := this
    simp [multiples]
  | succ left ih =>
    obtain ⟨⟨p, row⟩, s1, h1, hr1⟩ := tm_bind_ok.1 h
    obtain ⟨_, s2, h2, hr2⟩ := tm_bind_ok.1 h1
    obtain ⟨p3, s3, h3, hr3⟩ := tm_bind_ok.1 hr2
    obtain ⟨p4, s4, h4, hr4⟩ := tm_bind_ok.1 hr3
    obtain ⟨p5, s5, h5, hr5⟩ := tm_bind_ok.1 hr4
    obtain ⟨row', s6, h6, hr6⟩ := tm_bind_ok.1 hr5
    obtain ⟨_, rfl⟩ := tm_lift_ok.1 h6
    obtain ⟨_, rfl⟩ := tm_pure_ok.1 hr6
    have k5 : s5.noise = s4.noise + (if 0 < g.top then descentDraws g.adam g.perInd g.top else 0) := by
      unfold tuneSelect at h5
      by_cases ht : 0 < g.top
      · rw [if_pos ht] at h5 ⊢
        obtain ⟨⟨r, lg⟩, s7, h7, hr7⟩ := tm_bind_ok.1 h5
        obtain ⟨_, rfl⟩ := tm_pure_ok.1 hr7
        exact C83_adam_noise h7
      · rw [if_neg ht] at h5 ⊢
        obtain ⟨_, rfl⟩ := tm_pure_ok.1 h5
        rfl
    rw [ih hr1, k5, mut_count h4, cross_count h3, resample_count h2]
    generalize descentDraws g.adam g.perInd g.top = D
    generalize ⌊g.rateCrx * g.n⌋.toNat = c
    generalize ⌊g.rateMut * g.n⌋.toNat = m
    have hD : (if 0 < g.top then (left + 1) * D else 0) = (if 0 < g.top then left * D else 0) + (if 0 < g.top then D else 0) := by
      split
      · ring
      · rfl
    rw [hD]
    by_cases hp : g.perInd = true
    · simp only [hp, if_true, Bool.not_true, Bool.false_and, Bool.toNat_true, Bool.toNat_false]
      ring
    · simp only [hp]
      by_cases hq : 0 < g.periodGen
      · simp only [hq, if_true, multiples_succ]
        simp
        omega
      · simp [hq]
        omega

/-- **C83.** How often the genetic algorithm draws noise anew, wherever it returns: with noise per individual once for every individual that is scored, otherwise once
in every generation whose number (from one) is a multiple of a positive period; besides, what the gradient descents on the best draw. -/
theorem C83_ga_noise {src : TuneSrc} {e : TuneEnv K} {g : TuneGa K} {pop : List (K × List K)} {log : List (BookRow K)} {s s' : TuneSt K}
    (h : tuneGa src e g s = .ok (pop, log) s') :
    s'.noise = s.noise + (if g.perInd then g.n + g.nGen * (2 * ⌊g.rateCrx * g.n⌋.toNat + ⌊g.rateMut * g.n⌋.toNat)
      else if 0 < g.periodGen then multiples g.periodGen 1 g.nGen else 0) + (if 0 < g.top then g.nGen * descentDraws g.adam g.perInd g.top else 0) := by
  obtain ⟨_, s1, h1, hr1⟩ := tm_bind_ok.1 h
  obtain ⟨p0, s2, h2, hr2⟩ := tm_bind_ok.1 hr1
  obtain ⟨row, s3, h3, hr3⟩ := tm_bind_ok.1 hr2
  obtain ⟨_, rfl⟩ := tm_lift_ok.1 h3
  have k1 : s1.noise = s.noise := by cases h1; rfl
  rw [generations_count hr3, init_count h2, k1]
  by_cases hp : g.perInd = true
  · simp only [hp, if_true, Bool.toNat_true]
    ring
  · simp [hp]

/-! ### the log of the gradient descent -/

theorem batches_log {src : TuneSrc} {e : TuneEnv K} {a : TuneAdam K} {b left : Nat} {ps qs : List (AdamInd K)} {log log' : List (BookRow K)}
    {s s' : TuneSt K} (h : tuneBatches src e a b left ps log s = .ok (qs, log') s') :
    ∃ rows, log' = log ++ rows ∧ rows.map (·.generation) = (List.range left).map (fun i => b + 1 + i) ∧ (∀ r ∈ rows, r.size = ps.length) ∧ qs.length = ps.length ∧
      ∀ r, rows.getLast? = some r → logbookUpdate [src.logKeyword, "verbose"] r.generation (qs.map (·.score)) = .ok r := by
  induction left generalizing b ps log s with
  | zero =>
    have := tm_pure_ok.1 h
    simp only [Prod.mk.injEq] at this
    obtain ⟨⟨rfl, rfl⟩, rfl⟩ := this
    exact ⟨[], by simp, rfl, by simp, rfl, by simp⟩
  | succ left ih =>
    obtain ⟨_, s1, h1, hr1⟩ := tm_bind_ok.1 h
    obtain ⟨p1, s2, h2, hr2⟩ := tm_bind_ok.1 hr1
    obtain ⟨p2, s3, h3, hr3⟩ := tm_bind_ok.1 hr2
    obtain ⟨row, s4, h4, hr4⟩ := tm_bind_ok.1 hr3
    obtain ⟨t4, rfl⟩ := tm_lift_ok.1 h4
    obtain ⟨rows, r1, r2, r3, r4, r5⟩ := ih hr4
    have l1 := (C83_batch h2).1
    have l2 := (rescore_vec h3).1
    obtain ⟨b1, b2, _⟩ := book_ok t4
    rw [List.length_map] at b2
    refine ⟨row :: rows, by rw [r1, List.append_assoc]; rfl, ?_, ?_, by omega, ?_⟩
    · rw [List.map_cons, r2, b1, List.range_succ_eq_map, List.map_cons, List.map_map]
      congr 1
      apply List.map_congr_left
      intro i _
      show b + 1 + 1 + i = b + 1 + (i + 1)
      omega
    · intro r hr
      rcases List.mem_cons.1 hr with rfl | hr
      · omega
      · rw [r3 r hr]; omega
    · intro r hr
      cases rows with
      | nil =>
        simp only [List.getLast?_singleton, Option.some.injEq] at hr
        subst hr
        have hl : left = 0 := by simpa using congrArg List.length r2.symm
        subst hl
        have := tm_pure_ok.1 hr4
        simp only [Prod.mk.injEq] at this
        obtain ⟨⟨rfl, _⟩, _⟩ := this
        rw [b1]
        exact t4
      | cons x xs =>
        rw [List.getLast?_cons_cons] at hr
        exact r5 r hr

/-- **C83.** The log of the gradient descent, wherever it returns: rows numbered from zero, one for the start and one for every batch, each with the size of the
population; the last one has the smallest, the largest and the mean of the scores that are returned. -/
theorem C83_adam_log {src : TuneSrc} {e : TuneEnv K} {a : TuneAdam K} {nPop : Nat} {given : Option (List (K × List K))}
    {pop : List (K × List K)} {log : List (BookRow K)} {s s' : TuneSt K} (h : tuneAdam src e a nPop given s = .ok (pop, log) s') :
    log.map (·.generation) = List.range (a.nBatches + 1) ∧ (∀ r ∈ log, r.size = nPop) ∧
    ∀ r, log.getLast? = some r → r.minimum ∈ pop.map (·.1) ∧ r.maximum ∈ pop.map (·.1) ∧ (∀ p ∈ pop, r.minimum ≤ p.1 ∧ p.1 ≤ r.maximum) ∧
      r.mean = (pop.map (·.1)).sum / pop.length := by
  have key : ∀ {p0 : List (K × List K)} {s1 : TuneSt K}, p0.length = nPop → tuneAdamFrom src e a p0 s1 = .ok (pop, log) s' →
      log.map (·.generation) = List.range (a.nBatches + 1) ∧ (∀ r ∈ log, r.size = nPop) ∧
      ∀ r, log.getLast? = some r → r.minimum ∈ pop.map (·.1) ∧ r.maximum ∈ pop.map (·.1) ∧ (∀ p ∈ pop, r.minimum ≤ p.1 ∧ p.1 ≤ r.maximum) ∧
        r.mean = (pop.map (·.1)).sum / pop.length := by
    intro p0 s1 hl hr
    obtain ⟨row, s2, h2, hr2⟩ := tm_bind_ok.1 hr
    obtain ⟨t2, rfl⟩ := tm_lift_ok.1 h2
    obtain ⟨⟨qs, log'⟩, s3, h3, hr3⟩ := tm_bind_ok.1 hr2
    have := tm_pure_ok.1 hr3
    simp only [Prod.mk.injEq] at this
    obtain ⟨⟨hpop, rfl⟩, rfl⟩ := this
    have hperm := List.perm_insertionSort (fun x y : K × List K => x.1 ≤ y.1) (qs.map (fun p => (p.score, p.vec)))
    rw [hpop] at hperm
    have hsc : (pop.map (·.1)).Perm (qs.map (·.score)) := by
      have := hperm.map (·.1)
      rwa [List.map_map] at this
    obtain ⟨rows, r1, r2, r3, r4, r5⟩ := batches_log h3
    obtain ⟨b1, b2, _⟩ := book_ok t2
    rw [List.length_map] at b2 r4
    simp only [List.length_map] at r3
    have hfin : ∀ {kw : List String} {g : Nat} {r : BookRow K}, logbookUpdate kw g (qs.map (·.score)) = .ok r →
        r.minimum ∈ pop.map (·.1) ∧ r.maximum ∈ pop.map (·.1) ∧ (∀ p ∈ pop, r.minimum ≤ p.1 ∧ p.1 ≤ r.maximum) ∧
        r.mean = (pop.map (·.1)).sum / pop.length := by
      intro kw g r hb
      obtain ⟨_, _, c3, c4, c5, c6, c7⟩ := book_ok hb
      refine ⟨hsc.mem_iff.2 c3, hsc.mem_iff.2 c5, fun p hp => ?_, ?_⟩
      · have := hsc.mem_iff.1 (List.mem_map_of_mem (f := (·.1)) hp)
        exact ⟨c4 _ this, c6 _ this⟩
      · rw [c7, hsc.sum_eq, List.length_map, ← List.length_map (f := fun p : AdamInd K => (p.score, p.vec)), ← hperm.length_eq]
    refine ⟨?_, ?_, ?_⟩
    · rw [r1, List.map_append, r2, List.range_succ_eq_map, List.map_singleton, b1]
      show 0 :: _ = 0 :: _
      congr 1
      apply List.map_congr_left
      intro i _
      show 0 + 1 + i = i + 1
      omega
    · intro r hr
      rw [r1] at hr
      rcases List.mem_append.1 hr with hr | hr
      · rw [List.mem_singleton] at hr
        rw [hr, b2, hl]
      · rw [r3 r hr, hl]
    · intro r hr
      cases rows with
      | nil =>
        rw [r1] at hr
        simp only [List.append_nil, List.getLast?_singleton, Option.some.injEq] at hr
        subst hr
        have hn : a.nBatches = 0 := by simpa using congrArg List.length r2.symm
        rw [hn] at h3
        have := tm_pure_ok.1 h3
        simp only [Prod.mk.injEq] at this
        obtain ⟨⟨rfl, _⟩, _⟩ := this
        apply hfin (kw := ["verbose"]) (g := 0)
        rw [List.map_map]
        exact t2
      | cons x xs =>
        rw [r1, List.singleton_append, List.getLast?_cons_cons] at hr
        exact hfin (r5 r hr)
  obtain ⟨_, s1, h1, hr1⟩ := tm_bind_ok.1 h
  cases h1
  cases given with
  | none =>
    obtain ⟨p0, s2, h2, hr2⟩ := tm_bind_ok.1 hr1
    exact key (by simpa using init_length h2) hr2
  | some p =>
    have hr1' : (if p.length ≠ nPop then tuneLift (.error .valueError) else tuneAdamFrom src e a p : TuneM K _) { s with switch := a.noise } = .ok (pop, log) s' := hr1
    by_cases hl : p.length ≠ nPop
    · rw [if_pos hl] at hr1'
      cases hr1'
    · rw [if_neg hl] at hr1'
      exact key (not_not.1 hl) hr1'

/-! Runs that return. -/

/-- Did a run return, and with how many draws of noise? -/
def returnedNoise {α : Type} : EStateM.Result Err (TuneSt ℚ) α → Option Nat
  | .ok _ s => some s.noise
  | .error _ _ => none

example : returnedNoise (tuneAdam TuneSrc.mended tuneDemo { tuneDemoAdam with perInd := true } 3 none tuneStart) = some 12 := by decide +kernel

example : returnedNoise (tuneGa TuneSrc.mended tuneDemo { tuneDemoGa with top := 2 } tuneStart) = some 6 := by decide +kernel

example : returnedNoise (tuneBatches TuneSrc.mended tuneDemo tuneDemoAdam 0 2 [⟨2, [1, 1], none, none, true⟩, ⟨3, [1, 2], none, none, false⟩] [] tuneStart) = some 2 := by
  decide +kernel

end Verif
