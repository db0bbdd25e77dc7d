import Verif.Model.Tuning
import Verif.Props.Ga
import Verif.Props.Adam
/-! # Lemmas on the tuning utilities -/

namespace Verif
variable {K α β : Type}

/-! ### runs -/

/-- The state a computation leaves behind, whether it returned or raised. -/
def leftBehind : EStateM.Result Err (TuneSt K) α → TuneSt K
  | .ok _ s => s
  | .error _ s => s

theorem tm_bind (m : TuneM K α) (f : α → TuneM K β) (s : TuneSt K) :
    (m >>= f) s = match m s with
      | .ok a s' => f a s'
      | .error x s' => .error x s' := by
  show EStateM.bind m f s = _
  unfold EStateM.bind
  cases m s <;> rfl

theorem tm_bind_ok {m : TuneM K α} {f : α → TuneM K β} {s s' : TuneSt K} {b : β} :
    (m >>= f) s = .ok b s' ↔ ∃ a s1, m s = .ok a s1 ∧ f a s1 = .ok b s' := by
  rw [tm_bind]
  cases h : m s with
  | ok a s1 =>
    constructor
    · intro hf
      exact ⟨a, s1, rfl, hf⟩
    · rintro ⟨a', s1', he, hf⟩
      cases he
      exact hf
  | error x s1 =>
    constructor
    · intro hf
      cases hf
    · rintro ⟨a', s1', he, hf⟩
      cases he

theorem tm_pure_ok {a b : α} {s s' : TuneSt K} : (pure a : TuneM K α) s = .ok b s' ↔ a = b ∧ s = s' := by
  show EStateM.Result.ok a s = _ ↔ _
  constructor
  · intro h
    cases h
    exact ⟨rfl, rfl⟩
  · rintro ⟨rfl, rfl⟩
    rfl

theorem tm_lift_ok {r : Except Err α} {a : α} {s s' : TuneSt K} : (tuneLift r : TuneM K α) s = .ok a s' ↔ r = .ok a ∧ s = s' := by
  cases r with
  | ok b =>
    show EStateM.Result.ok b s = _ ↔ _
    constructor
    · intro h
      cases h
      exact ⟨rfl, rfl⟩
    · rintro ⟨h, rfl⟩
      cases h
      rfl
  | error x =>
    constructor
    · intro h
      cases h
    · rintro ⟨h, rfl⟩
      cases h

theorem tm_bind_error {m : TuneM K α} {f : α → TuneM K β} {s s' : TuneSt K} {x : Err} (h : m s = .error x s') :
    (m >>= f) s = .error x s' := by
  rw [tm_bind, h]

theorem tm_bind_step {m : TuneM K α} {f : α → TuneM K β} {s s1 : TuneSt K} {a : α} (h : m s = .ok a s1) :
    (m >>= f) s = f a s1 := by
  rw [tm_bind, h]

theorem raises_of_not_ok {m : TuneM K α} {s : TuneSt K} (h : ∀ a s', m s ≠ .ok a s') : ∃ x s', m s = .error x s' := by
  cases hm : m s with
  | ok a s' => exact absurd hm (h a s')
  | error x s' => exact ⟨x, s', rfl⟩

/-- Whatever happens, the computation goes from a state to one related to it. -/
def Always (R : TuneSt K → TuneSt K → Prop) (m : TuneM K α) : Prop := ∀ s, R s (leftBehind (m s))

theorem Always.bind {R : TuneSt K → TuneSt K → Prop} (ht : ∀ a b c, R a b → R b c → R a c) {m : TuneM K α} {f : α → TuneM K β}
    (hm : Always R m) (hf : ∀ a, Always R (f a)) : Always R (m >>= f) := by
  intro s
  have h1 := hm s
  rw [tm_bind]
  cases h : m s with
  | ok a s1 =>
    rw [h] at h1
    exact ht _ _ _ h1 (hf a s1)
  | error x s1 =>
    rw [h] at h1
    exact h1

theorem Always.pure {R : TuneSt K → TuneSt K → Prop} (hr : ∀ a, R a a) (a : α) : Always R (Pure.pure a : TuneM K α) := fun s => hr s

theorem Always.lift {R : TuneSt K → TuneSt K → Prop} (hr : ∀ a, R a a) (r : Except Err α) : Always R (tuneLift r : TuneM K α) := by
  intro s
  cases r <;> exact hr s

/-- Between two states: with the switch at `b` it stays there, noise is only drawn anew, and the evaluations made in between are true ones, under
noise states of that time. -/
def Honest (e : TuneEnv K) (b : Bool) (s s' : TuneSt K) : Prop :=
  s.switch = b → s'.switch = b ∧ s.noise ≤ s'.noise ∧ s'.vals.length = s.vals.length ∧
    ∃ new, s'.evals = s.evals ++ new ∧
      ∀ x ∈ new, x.switch = b ∧ e.score b x.noise x.vec = .ok x.score ∧ s.noise ≤ x.noise ∧ x.noise ≤ s'.noise

theorem Honest.refl (e : TuneEnv K) (b : Bool) (s : TuneSt K) : Honest e b s s :=
  fun h => ⟨h, Nat.le_refl _, rfl, [], (List.append_nil _).symm, fun _ hx => absurd hx (List.not_mem_nil)⟩

theorem Honest.trans (e : TuneEnv K) (b : Bool) (s1 s2 s3 : TuneSt K) (h1 : Honest e b s1 s2) (h2 : Honest e b s2 s3) : Honest e b s1 s3 := by
  intro h
  obtain ⟨a1, a2, a3, l1, a4, a5⟩ := h1 h
  obtain ⟨b1, b2, b3, l2, b4, b5⟩ := h2 a1
  refine ⟨b1, Nat.le_trans a2 b2, b3.trans a3, l1 ++ l2, by rw [b4, a4, List.append_assoc], ?_⟩
  intro x hx
  rcases List.mem_append.1 hx with hx | hx
  · obtain ⟨c1, c2, c3, c4⟩ := a5 x hx
    exact ⟨c1, c2, c3, Nat.le_trans c4 b2⟩
  · obtain ⟨c1, c2, c3, c4⟩ := b5 x hx
    exact ⟨c1, c2, Nat.le_trans a2 c3, c4⟩

theorem overlay_length (x v : List K) : (overlay x v).length = v.length := by
  unfold overlay
  simp
  omega

theorem overlay_same {x v : List K} (h : x.length = v.length) : overlay x v = x := by
  unfold overlay
  rw [← h, List.take_length, h, List.drop_length, List.append_nil]

theorem resample_ok {e : TuneEnv K} {c : Bool} {s s' : TuneSt K} {u : Unit} (h : tuneResample e c s = .ok u s') :
    s' = { s with noise := if c then s.noise + 1 else s.noise } := by
  unfold tuneResample at h
  split at h
  · next hc =>
    split at h
    · cases h
    · cases h
      rw [if_pos hc]
  · next hc =>
    cases h
    rw [if_neg hc]

/-- The noise of the graph can be drawn anew. -/
def Renews (e : TuneEnv K) : Prop := ∀ b k, e.resample b k = .ok ()

theorem resample_step {e : TuneEnv K} {c : Bool} (h : c = true → Renews e) (s : TuneSt K) :
    tuneResample e c s = .ok () { s with noise := if c then s.noise + 1 else s.noise } := by
  unfold tuneResample
  cases c with
  | false => rfl
  | true =>
    rw [if_pos rfl, h rfl]
    rfl

section
variable (e : TuneEnv K) (b : Bool)

theorem honest_resample (c : Bool) : Always (Honest e b) (tuneResample e c) := by
  intro s h
  unfold tuneResample
  split
  · split
    · exact Honest.refl e b s h
    · exact ⟨h, Nat.le_succ _, rfl, [], (List.append_nil _).symm, fun _ hx => absurd hx (List.not_mem_nil)⟩
  · exact Honest.refl e b s h

theorem honest_switch : Always (Honest e b) (tuneSwitch b) := fun _ _ =>
  ⟨rfl, Nat.le_refl _, rfl, [], (List.append_nil _).symm, fun _ hx => absurd hx (List.not_mem_nil)⟩

theorem honest_sample : Always (Honest e b) (tuneSample e) := fun _ h =>
  ⟨h, Nat.le_refl _, rfl, [], (List.append_nil _).symm, fun _ hx => absurd hx (List.not_mem_nil)⟩

theorem honest_draw : Always (Honest e b) (tuneDraw e) := fun _ h =>
  ⟨h, Nat.le_refl _, rfl, [], (List.append_nil _).symm, fun _ hx => absurd hx (List.not_mem_nil)⟩

theorem honest_score (x : List K) : Always (Honest e b) (tuneScore e x) := by
  intro s h
  unfold tuneScore
  dsimp only
  cases hs : e.score s.switch s.noise (overlay x s.vals) with
  | error er =>
    exact ⟨h, Nat.le_refl _, overlay_length _ _, [], (List.append_nil _).symm, fun _ hx => absurd hx (List.not_mem_nil)⟩
  | ok v =>
    refine ⟨h, Nat.le_refl _, overlay_length _ _, _, rfl, ?_⟩
    intro y hy
    rw [List.mem_singleton] at hy
    subst hy
    exact ⟨h, h ▸ hs, Nat.le_refl _, Nat.le_refl _⟩

theorem honest_pure (a : α) : Always (Honest e b) (pure a : TuneM K α) := Always.pure (Honest.refl e b) a

theorem honest_lift (r : Except Err α) : Always (Honest e b) (tuneLift r : TuneM K α) := Always.lift (Honest.refl e b) r

theorem honest_bind {m : TuneM K α} {f : α → TuneM K β} (hm : Always (Honest e b) m) (hf : ∀ a, Always (Honest e b) (f a)) :
    Always (Honest e b) (m >>= f) := Always.bind (Honest.trans e b) hm hf

theorem honest_init (perInd : Bool) (n : Nat) (pop : List (K × List K)) : Always (Honest e b) (tuneInit e perInd n pop) := by
  induction n generalizing pop with
  | zero => exact honest_pure e b _
  | succ n ih =>
    exact honest_bind e b (honest_resample e b _) fun _ => honest_bind e b (honest_sample e b) fun _ =>
      honest_bind e b (honest_score e b _) fun _ => ih _

theorem honest_cross (c : TuneCross) (perInd : Bool) (n : Nat) (pop : List (K × List K)) :
    Always (Honest e b) (tuneCrossLoop e c perInd n pop) := by
  induction n generalizing pop with
  | zero => exact honest_pure e b _
  | succ n ih =>
    exact honest_bind e b (honest_draw e b) fun _ => honest_bind e b (honest_draw e b) fun _ =>
      honest_bind e b (honest_lift e b _) fun _ => honest_bind e b (honest_draw e b) fun _ => honest_bind e b (honest_draw e b) fun _ =>
      honest_bind e b (honest_lift e b _) fun _ => honest_bind e b (honest_resample e b _) fun _ =>
      honest_bind e b (honest_score e b _) fun _ => honest_bind e b (honest_resample e b _) fun _ =>
      honest_bind e b (honest_score e b _) fun _ => ih _

theorem honest_mut (perInd : Bool) (n : Nat) (pop : List (K × List K)) : Always (Honest e b) (tuneMutLoop e perInd n pop) := by
  induction n generalizing pop with
  | zero => exact honest_pure e b _
  | succ n ih =>
    exact honest_bind e b (honest_draw e b) fun _ => honest_bind e b (honest_lift e b _) fun _ =>
      honest_bind e b (honest_sample e b) fun _ => honest_bind e b (honest_draw e b) fun _ => honest_bind e b (honest_draw e b) fun _ =>
      honest_bind e b (honest_lift e b _) fun _ => honest_bind e b (honest_resample e b _) fun _ =>
      honest_bind e b (honest_score e b _) fun _ => ih _

section
variable [Field K] [LinearOrder K] (src : TuneSrc) (a : TuneAdam K)

theorem honest_adamCall (p : AdamInd K) : Always (Honest e b) (tuneAdamCall src e a p) := by
  intro s
  unfold tuneAdamCall
  split
  · exact Honest.refl e b s
  · split
    · exact Honest.refl e b s
    · split
      · exact Honest.refl e b s
      · next r _ =>
        dsimp only [leftBehind]
        split
        · exact Honest.refl e b s
        · exact fun h => ⟨h, Nat.le_refl _, overlay_length _ _, [], (List.append_nil _).symm, fun _ hx => absurd hx (List.not_mem_nil)⟩

theorem honest_pass (ps : List (AdamInd K)) : Always (Honest e b) (tunePass src e a ps) := by
  induction ps with
  | nil => exact honest_pure e b _
  | cons p ps ih =>
    refine honest_bind e b (honest_resample e b _) fun _ => ?_
    split
    · exact honest_bind e b ih fun _ => honest_pure e b _
    · exact honest_bind e b (honest_adamCall e b src a p) fun _ => honest_bind e b ih fun _ => honest_pure e b _

omit [Field K] [LinearOrder K] in
theorem honest_rescore (perInd : Bool) (ps : List (AdamInd K)) : Always (Honest e b) (tuneRescore e perInd ps) := by
  induction ps with
  | nil => exact honest_pure e b _
  | cons p ps ih =>
    exact honest_bind e b (honest_resample e b _) fun _ => honest_bind e b (honest_score e b _) fun _ =>
      honest_bind e b ih fun _ => honest_pure e b _

theorem honest_batches (n left : Nat) (ps : List (AdamInd K)) (log : List (BookRow K)) :
    Always (Honest e b) (tuneBatches src e a n left ps log) := by
  induction left generalizing n ps log with
  | zero => exact honest_pure e b _
  | succ left ih =>
    exact honest_bind e b (honest_resample e b _) fun _ => honest_bind e b (honest_pass e b src a ps) fun _ =>
      honest_bind e b (honest_rescore e b _ _) fun _ => honest_bind e b (honest_lift e b _) fun _ => ih _ _ _

theorem honest_adamFrom (pop : List (K × List K)) : Always (Honest e b) (tuneAdamFrom src e a pop) :=
  honest_bind e b (honest_lift e b _) fun _ => honest_bind e b (honest_batches e b src a _ _ _ _) fun _ => honest_pure e b _

theorem honest_adam (hb : a.noise = b) (nPop : Nat) (pop : Option (List (K × List K))) : Always (Honest e b) (tuneAdam src e a nPop pop) := by
  refine honest_bind e b (hb ▸ honest_switch e a.noise) fun _ => ?_
  cases pop with
  | none => exact honest_bind e b (honest_init e b _ _ _) fun _ => honest_adamFrom e b src a _
  | some given =>
    dsimp only
    split
    · exact honest_lift e b _
    · exact honest_adamFrom e b src a _

variable (g : TuneGa K)

theorem honest_select (hb : g.noise = b) (pop : List (K × List K)) : Always (Honest e b) (tuneSelect src e g pop) := by
  unfold tuneSelect
  split
  · exact honest_bind e b (honest_adam e b src _ (by exact hb) _ _) fun _ => honest_pure e b _
  · exact honest_pure e b _

theorem honest_generation (hb : g.noise = b) (k : Nat) (pop : List (K × List K)) : Always (Honest e b) (tuneGeneration src e g k pop) :=
  honest_bind e b (honest_resample e b _) fun _ => honest_bind e b (honest_cross e b _ _ _ _) fun _ =>
    honest_bind e b (honest_mut e b _ _ _) fun _ => honest_bind e b (honest_select e b src g hb _) fun _ =>
    honest_bind e b (honest_lift e b _) fun _ => honest_pure e b _

theorem honest_generations (hb : g.noise = b) (k left : Nat) (pop : List (K × List K)) (log : List (BookRow K)) :
    Always (Honest e b) (tuneGenerations src e g k left pop log) := by
  induction left generalizing k pop log with
  | zero => exact honest_pure e b _
  | succ left ih => exact honest_bind e b (honest_generation e b src g hb k pop) fun _ => ih _ _ _

theorem honest_ga (hb : g.noise = b) : Always (Honest e b) (tuneGa src e g) :=
  honest_bind e b (hb ▸ honest_switch e g.noise) fun _ => honest_bind e b (honest_init e b _ _ _) fun _ =>
    honest_bind e b (honest_lift e b _) fun _ => honest_generations e b src g hb _ _ _ _

end
end

/-! ### populations -/

/-- Every member fits and has been evaluated with the score stored. -/
def Known (P : Nat → K → Prop) (L : Nat) (s : TuneSt K) (pop : List (K × List K)) : Prop :=
  ∀ p ∈ pop, Fits P L p.2 ∧ ∃ x ∈ s.evals, x.score = p.1 ∧ x.vec = p.2

/-- What a loop that scores `k` new members does. -/
structure Grown (P : Nat → K → Prop) (L : Nat) (s s' : TuneSt K) (pop pop' : List (K × List K)) (k : Nat) : Prop where
  len : s'.vals.length = L
  known : Known P L s' pop'
  sub : ∀ p ∈ pop, p ∈ pop'
  size : pop'.length = pop.length + k
  evals : ∃ new, s'.evals = s.evals ++ new ∧ new.length = k ∧ ∀ x ∈ new, (x.score, x.vec) ∈ pop'
  last : 0 < k → s'.evals.getLast?.map (·.vec) = some s'.vals
  idle : k = 0 → s'.vals = s.vals

theorem Known.mono {P : Nat → K → Prop} {L : Nat} {s s' : TuneSt K} {pop : List (K × List K)} (h : Known P L s pop)
    (hs : ∀ x ∈ s.evals, x ∈ s'.evals) : Known P L s' pop := fun p hp =>
  ⟨(h p hp).1, by
    obtain ⟨x, hx, hy⟩ := (h p hp).2
    exact ⟨x, hs x hx, hy⟩⟩

theorem Grown.trans {P : Nat → K → Prop} {L : Nat} {s1 s2 s3 : TuneSt K} {p1 p2 p3 : List (K × List K)} {k l : Nat}
    (h1 : Grown P L s1 s2 p1 p2 k) (h2 : Grown P L s2 s3 p2 p3 l) : Grown P L s1 s3 p1 p3 (k + l) := by
  obtain ⟨n1, a1, a2, a3⟩ := h1.evals
  obtain ⟨n2, b1, b2, b3⟩ := h2.evals
  refine ⟨h2.len, h2.known, fun p hp => h2.sub p (h1.sub p hp), by rw [h2.size, h1.size]; omega, ⟨n1 ++ n2, by rw [b1, a1, List.append_assoc],
    by simp [a2, b2], ?_⟩, ?_, ?_⟩
  · intro x hx
    rcases List.mem_append.1 hx with hx | hx
    · exact h2.sub _ (a3 x hx)
    · exact b3 x hx
  · intro hk
    by_cases hl : 0 < l
    · exact h2.last hl
    · have hl0 : l = 0 := by omega
      rw [h2.idle hl0]
      rw [hl0, List.length_eq_zero_iff] at b2
      rw [b1, b2, List.append_nil]
      exact h1.last (by omega)
  · intro hk
    rw [h2.idle (by omega), h1.idle (by omega)]

theorem Grown.none {P : Nat → K → Prop} {L : Nat} {s s' : TuneSt K} {pop : List (K × List K)} (hL : s.vals.length = L) (h : Known P L s pop)
    (hv : s'.vals = s.vals) (he : s'.evals = s.evals) : Grown P L s s' pop pop 0 :=
  ⟨by rw [hv, hL], h.mono (by rw [he]; exact fun _ hx => hx), fun _ hp => hp, rfl, ⟨[], by rw [he, List.append_nil], rfl, by simp⟩,
    fun hk => absurd hk (by omega), fun _ => hv⟩

theorem score_grown {e : TuneEnv K} {P : Nat → K → Prop} {L : Nat} {s s' : TuneSt K} {pop : List (K × List K)} {x : List K} {v : K}
    (hL : s.vals.length = L) (h : Known P L s pop) (hx : Fits P L x) (hs : tuneScore e x s = .ok v s') :
    Grown P L s s' pop (pop ++ [(v, x)]) 1 := by
  unfold tuneScore at hs
  dsimp only at hs
  rw [overlay_same (by rw [hx.1, hL])] at hs
  split at hs
  · cases hs
  · cases hs
    refine ⟨hx.1, ?_, fun p hp => List.mem_append_left _ hp, by simp, ⟨_, rfl, rfl, ?_⟩, ?_, fun hk => absurd hk (by omega)⟩
    · intro p hp
      rcases List.mem_append.1 hp with hp | hp
      · obtain ⟨a, y, hy, hz⟩ := h p hp
        exact ⟨a, y, List.mem_append_left _ hy, hz⟩
      · rw [List.mem_singleton] at hp
        subst hp
        exact ⟨hx, _, List.mem_append_right _ (List.mem_singleton.2 rfl), rfl, rfl⟩
    · intro y hy
      rw [List.mem_singleton] at hy
      subst hy
      exact List.mem_append_right _ (List.mem_singleton.2 rfl)
    · intro _
      simp

theorem init_grown {e : TuneEnv K} {P : Nat → K → Prop} {L : Nat} (hg : ∀ k v, Fits P L (e.gen k v)) {perInd : Bool} (n : Nat)
    {s s' : TuneSt K} {pop pop' : List (K × List K)} (hL : s.vals.length = L) (h : Known P L s pop)
    (hr : tuneInit e perInd n pop s = .ok pop' s') : Grown P L s s' pop pop' n := by
  induction n generalizing s pop with
  | zero =>
    obtain ⟨rfl, rfl⟩ := tm_pure_ok.1 hr
    exact Grown.none hL h rfl rfl
  | succ n ih =>
    obtain ⟨_, s1, h1, hr1⟩ := tm_bind_ok.1 hr
    obtain rfl := resample_ok h1
    obtain ⟨x, s2, h2, hr2⟩ := tm_bind_ok.1 hr1
    cases h2
    obtain ⟨v, s3, h3, hr3⟩ := tm_bind_ok.1 hr2
    have g1 := score_grown (pop := pop) (P := P) (L := L) (by exact hL) (by exact h) (hg _ _) h3
    have g2 := ih g1.len g1.known hr3
    rw [Nat.add_comm]
    exact Grown.trans ⟨g1.len, g1.known, g1.sub, g1.size, g1.evals, g1.last, fun hk => absurd hk (by omega)⟩ g2

theorem two_fit {r1 r2 : Nat} {pop : List (K × List K)} {ps : List K × List K} (h : tuneTwo r1 r2 pop = .ok ps) :
    (∃ p ∈ pop, p.2 = ps.1) ∧ ∃ p ∈ pop, p.2 = ps.2 := by
  unfold tuneTwo at h
  split at h
  · cases h
  · split at h
    · next a b ha hb =>
      cases h
      exact ⟨⟨a, List.mem_of_getElem? ha, rfl⟩, ⟨b, List.mem_of_getElem? hb, rfl⟩⟩
    · cases h

theorem one_fit {r : Nat} {pop : List (K × List K)} {p : List K} (h : tuneOne r pop = .ok p) : ∃ q ∈ pop, q.2 = p := by
  unfold tuneOne at h
  split at h
  · cases h
  · split at h
    · next a ha =>
      cases h
      exact ⟨a, List.mem_of_getElem? ha, rfl⟩
    · cases h

theorem mutation_fits {e : TuneEnv K} {P : Nat → K → Prop} {L d r : Nat} {p m c : List K} (hp : Fits P L p) (hm : Fits P L m)
    (h : tuneMutation e d r p m = .ok c) : Fits P L c := by
  unfold tuneMutation at h
  split at h
  · cases h
  · next hl =>
    refine mutate_fits (inds := e.subset d m.length (1 + r % (m.length - 1))) hp hm ?_
    unfold mutate
    rw [if_neg (by omega)]
    exact h

theorem mut_grown {e : TuneEnv K} {P : Nat → K → Prop} {L : Nat} (hg : ∀ k v, Fits P L (e.gen k v)) {perInd : Bool} (n : Nat)
    {s s' : TuneSt K} {pop pop' : List (K × List K)} (hL : s.vals.length = L) (h : Known P L s pop)
    (hr : tuneMutLoop e perInd n pop s = .ok pop' s') : Grown P L s s' pop pop' n := by
  induction n generalizing s pop with
  | zero =>
    obtain ⟨rfl, rfl⟩ := tm_pure_ok.1 hr
    exact Grown.none hL h rfl rfl
  | succ n ih =>
    obtain ⟨r1, s1, h1, hr1⟩ := tm_bind_ok.1 hr
    cases h1
    obtain ⟨p, s2, h2, hr2⟩ := tm_bind_ok.1 hr1
    obtain ⟨t2, rfl⟩ := tm_lift_ok.1 h2
    obtain ⟨m, s3, h3, hr3⟩ := tm_bind_ok.1 hr2
    cases h3
    obtain ⟨r2, s4, h4, hr4⟩ := tm_bind_ok.1 hr3
    cases h4
    obtain ⟨d, s5, h5, hr5⟩ := tm_bind_ok.1 hr4
    cases h5
    obtain ⟨c, s6, h6, hr6⟩ := tm_bind_ok.1 hr5
    obtain ⟨t6, rfl⟩ := tm_lift_ok.1 h6
    obtain ⟨_, s7, h7, hr7⟩ := tm_bind_ok.1 hr6
    obtain rfl := resample_ok h7
    obtain ⟨v, s8, h8, hr8⟩ := tm_bind_ok.1 hr7
    obtain ⟨q, hq, rfl⟩ := one_fit t2
    have g1 := score_grown (pop := pop) (P := P) (L := L) (by exact hL) (by exact h) (mutation_fits (h q hq).1 (hg _ _) t6) h8
    have g2 := ih g1.len g1.known hr8
    rw [Nat.add_comm]
    exact Grown.trans ⟨g1.len, g1.known, g1.sub, g1.size, g1.evals, g1.last, fun hk => absurd hk (by omega)⟩ g2

theorem crossover_fits {P : Nat → K → Prop} {L : Nat} {c : TuneCross} {r1 r2 : Nat} {p1 p2 : List K} {cs : List K × List K} (h1 : Fits P L p1)
    (h2 : Fits P L p2) (h : tuneCrossover c r1 r2 p1 p2 = .ok cs) : Fits P L cs.1 ∧ Fits P L cs.2 := by
  cases c with
  | single =>
    unfold tuneCrossover at h
    cases h
    exact single_fits h1 h2
  | double =>
    unfold tuneCrossover at h
    dsimp only at h
    obtain ⟨a, b⟩ := C36_crossover_double r1 r2 (h1.1.trans h2.1.symm)
    by_cases hl : p1.length ≤ 2
    · rw [a hl] at h
      cases h
    · obtain ⟨c1, c2, b1, b2, b3, b4⟩ := b (by omega)
      rw [b1] at h
      cases h
      refine ⟨⟨b2.trans h1.1, fun i x hx => ?_⟩, ⟨b3.trans h1.1, fun i x hx => ?_⟩⟩
      · rcases b4 i with ⟨g, _⟩ | ⟨g, _⟩ <;> rw [g] at hx
        · exact h1.2 i x hx
        · exact h2.2 i x hx
      · rcases b4 i with ⟨_, g⟩ | ⟨_, g⟩ <;> rw [g] at hx
        · exact h2.2 i x hx
        · exact h1.2 i x hx

theorem cross_grown {e : TuneEnv K} {P : Nat → K → Prop} {L : Nat} {c : TuneCross} {perInd : Bool} (n : Nat)
    {s s' : TuneSt K} {pop pop' : List (K × List K)} (hL : s.vals.length = L) (h : Known P L s pop)
    (hr : tuneCrossLoop e c perInd n pop s = .ok pop' s') : Grown P L s s' pop pop' (2 * n) := by
  induction n generalizing s pop with
  | zero =>
    obtain ⟨rfl, rfl⟩ := tm_pure_ok.1 hr
    exact Grown.none hL h rfl rfl
  | succ n ih =>
    obtain ⟨r1, s1, h1, hr1⟩ := tm_bind_ok.1 hr
    cases h1
    obtain ⟨r2, s2, h2, hr2⟩ := tm_bind_ok.1 hr1
    cases h2
    obtain ⟨ps, s3, h3, hr3⟩ := tm_bind_ok.1 hr2
    obtain ⟨t3, rfl⟩ := tm_lift_ok.1 h3
    obtain ⟨r3, s4, h4, hr4⟩ := tm_bind_ok.1 hr3
    cases h4
    obtain ⟨r4, s5, h5, hr5⟩ := tm_bind_ok.1 hr4
    cases h5
    obtain ⟨cs, s6, h6, hr6⟩ := tm_bind_ok.1 hr5
    obtain ⟨t6, rfl⟩ := tm_lift_ok.1 h6
    obtain ⟨_, s7, h7, hr7⟩ := tm_bind_ok.1 hr6
    obtain rfl := resample_ok h7
    obtain ⟨v1, s8, h8, hr8⟩ := tm_bind_ok.1 hr7
    obtain ⟨_, s9, h9, hr9⟩ := tm_bind_ok.1 hr8
    obtain rfl := resample_ok h9
    obtain ⟨v2, s10, h10, hr10⟩ := tm_bind_ok.1 hr9
    obtain ⟨⟨q1, hq1, e1⟩, q2, hq2, e2⟩ := two_fit t3
    obtain ⟨f1, f2⟩ := crossover_fits (e1 ▸ (h q1 hq1).1) (e2 ▸ (h q2 hq2).1) t6
    have g1 := score_grown (pop := pop) (P := P) (L := L) (by exact hL) (by exact h) f1 h8
    have g2 := score_grown (pop := pop ++ [(v1, cs.1)]) (P := P) (L := L) (by exact g1.len) (by exact g1.known) f2 h10
    have g3 := ih g2.len (by simpa using g2.known) hr10
    have e3 : 2 * (n + 1) = 1 + (1 + 2 * n) := by omega
    rw [e3]
    refine Grown.trans ⟨g1.len, g1.known, g1.sub, g1.size, g1.evals, g1.last, fun hk => absurd hk (by omega)⟩ (Grown.trans (p2 := pop ++ [(v1, cs.1)] ++ [(v2, cs.2)])
      ⟨g2.len, g2.known, g2.sub, g2.size, g2.evals, g2.last, fun hk => absurd hk (by omega)⟩ ?_)
    simpa using g3

theorem init_length {e : TuneEnv K} {perInd : Bool} {n : Nat} {s s' : TuneSt K} {pop pop' : List (K × List K)}
    (hr : tuneInit e perInd n pop s = .ok pop' s') : pop'.length = pop.length + n := by
  induction n generalizing s pop with
  | zero =>
    obtain ⟨rfl, rfl⟩ := tm_pure_ok.1 hr
    rfl
  | succ n ih =>
    obtain ⟨_, s1, _, hr1⟩ := tm_bind_ok.1 hr
    obtain ⟨x, s2, _, hr2⟩ := tm_bind_ok.1 hr1
    obtain ⟨v, s3, _, hr3⟩ := tm_bind_ok.1 hr2
    rw [ih hr3]
    simp
    omega

theorem cross_length {e : TuneEnv K} {c : TuneCross} {perInd : Bool} {n : Nat} {s s' : TuneSt K} {pop pop' : List (K × List K)}
    (hr : tuneCrossLoop e c perInd n pop s = .ok pop' s') : pop'.length = pop.length + 2 * n := by
  induction n generalizing s pop with
  | zero =>
    obtain ⟨rfl, rfl⟩ := tm_pure_ok.1 hr
    rfl
  | succ n ih =>
    obtain ⟨_, _, _, hr1⟩ := tm_bind_ok.1 hr
    obtain ⟨_, _, _, hr2⟩ := tm_bind_ok.1 hr1
    obtain ⟨_, _, _, hr3⟩ := tm_bind_ok.1 hr2
    obtain ⟨_, _, _, hr4⟩ := tm_bind_ok.1 hr3
    obtain ⟨_, _, _, hr5⟩ := tm_bind_ok.1 hr4
    obtain ⟨_, _, _, hr6⟩ := tm_bind_ok.1 hr5
    obtain ⟨_, _, _, hr7⟩ := tm_bind_ok.1 hr6
    obtain ⟨_, _, _, hr8⟩ := tm_bind_ok.1 hr7
    obtain ⟨_, _, _, hr9⟩ := tm_bind_ok.1 hr8
    obtain ⟨_, _, _, hr10⟩ := tm_bind_ok.1 hr9
    rw [ih hr10]
    simp
    omega

/-- The members of the first population are the evaluated vectors, in order. -/
theorem init_order {e : TuneEnv K} {L : Nat} (hg : ∀ k v, (e.gen k v).length = L) {perInd : Bool} {n : Nat} {s s' : TuneSt K}
    {pop pop' : List (K × List K)} (hL : s.vals.length = L) (hr : tuneInit e perInd n pop s = .ok pop' s') :
    ∃ new, s'.evals = s.evals ++ new ∧ pop' = pop ++ new.map (fun x => (x.score, x.vec)) ∧ new.length = n := by
  induction n generalizing s pop with
  | zero =>
    obtain ⟨rfl, rfl⟩ := tm_pure_ok.1 hr
    exact ⟨[], by simp, by simp, rfl⟩
  | succ n ih =>
    obtain ⟨_, s1, h1, hr1⟩ := tm_bind_ok.1 hr
    obtain rfl := resample_ok h1
    obtain ⟨x, s2, h2, hr2⟩ := tm_bind_ok.1 hr1
    cases h2
    obtain ⟨v, s3, h3, hr3⟩ := tm_bind_ok.1 hr2
    unfold tuneScore at h3
    dsimp only at h3
    rw [overlay_same (by rw [hg, hL])] at h3
    split at h3
    · cases h3
    · cases h3
      obtain ⟨new, a1, a2, a3⟩ := ih (by exact hg _ _) hr3
      refine ⟨_ :: new, by rw [a1]; simp; rfl, by rw [a2]; simp, by simp [a3]⟩

theorem rescore_done {e : TuneEnv K} {perInd : Bool} {ps qs : List (AdamInd K)} {s s' : TuneSt K} (h : tuneRescore e perInd ps s = .ok qs s') :
    qs.map (·.done) = ps.map (·.done) := by
  induction ps generalizing s qs with
  | nil =>
    obtain ⟨rfl, rfl⟩ := tm_pure_ok.1 h
    rfl
  | cons p ps ih =>
    obtain ⟨_, s1, _, hr1⟩ := tm_bind_ok.1 h
    obtain ⟨v, s2, _, hr2⟩ := tm_bind_ok.1 hr1
    obtain ⟨rest, s3, h3, hr3⟩ := tm_bind_ok.1 hr2
    obtain ⟨rfl, rfl⟩ := tm_pure_ok.1 hr3
    simp [ih h3]

/-! ### loops that cannot fail -/

/-- The score is always defined. -/
def Scores (e : TuneEnv K) : Prop := ∀ b k x, ∃ v, e.score b k x = .ok v

theorem score_total {e : TuneEnv K} (hs : Scores e) (x : List K) (s : TuneSt K) : ∃ v s', tuneScore e x s = .ok v s' := by
  unfold tuneScore
  obtain ⟨v, hv⟩ := hs s.switch s.noise (overlay x s.vals)
  dsimp only
  rw [hv]
  exact ⟨_, _, rfl⟩

theorem init_total {e : TuneEnv K} (hs : Scores e) {perInd : Bool} (hq : perInd = true → Renews e) (n : Nat) (pop : List (K × List K)) (s : TuneSt K) :
    ∃ pop' s', tuneInit e perInd n pop s = .ok pop' s' := by
  induction n generalizing pop s with
  | zero => exact ⟨pop, s, rfl⟩
  | succ n ih =>
    obtain ⟨v, s1, h1⟩ := score_total hs (e.gen s.gens s.vals) { s with noise := if perInd then s.noise + 1 else s.noise, gens := s.gens + 1 }
    obtain ⟨pop', s', h2⟩ := ih (pop ++ [(v, e.gen s.gens s.vals)]) s1
    refine ⟨pop', s', ?_⟩
    refine tm_bind_ok.2 ⟨_, _, resample_step hq _, tm_bind_ok.2 ⟨_, _, rfl, tm_bind_ok.2 ⟨_, _, h1, h2⟩⟩⟩

theorem two_total (r1 r2 : Nat) {pop : List (K × List K)} (h : 2 ≤ pop.length) : ∃ ps, tuneTwo r1 r2 pop = .ok ps := by
  unfold tuneTwo
  rw [if_neg (by omega)]
  rw [List.getElem?_eq_getElem (Nat.mod_lt _ (by omega)), List.getElem?_eq_getElem (Nat.mod_lt _ (by omega))]
  exact ⟨_, rfl⟩

theorem one_total (r : Nat) {pop : List (K × List K)} (h : 0 < pop.length) : ∃ p, tuneOne r pop = .ok p := by
  unfold tuneOne
  rw [if_neg (by omega), List.getElem?_eq_getElem (Nat.mod_lt _ (by omega))]
  exact ⟨_, rfl⟩

theorem cross_total {e : TuneEnv K} (hs : Scores e) {perInd : Bool} (hq : perInd = true → Renews e) (n : Nat) {pop : List (K × List K)} (h : 2 ≤ pop.length) (s : TuneSt K) :
    ∃ pop' s', tuneCrossLoop e .single perInd n pop s = .ok pop' s' := by
  induction n generalizing pop s with
  | zero => exact ⟨pop, s, rfl⟩
  | succ n ih =>
    obtain ⟨ps, hp⟩ := two_total (e.raw s.draws) (e.raw (s.draws + 1)) h
    obtain ⟨v1, s1, h1⟩ := score_total hs (crossoverSingle (e.raw (s.draws + 2)) ps.1 ps.2).1
      { s with draws := s.draws + 4, noise := if perInd then s.noise + 1 else s.noise }
    obtain ⟨v2, s2, h2⟩ := score_total hs (crossoverSingle (e.raw (s.draws + 2)) ps.1 ps.2).2
      { s1 with noise := if perInd then s1.noise + 1 else s1.noise }
    obtain ⟨pop', s', h3⟩ := ih (pop := pop ++ [(v1, (crossoverSingle (e.raw (s.draws + 2)) ps.1 ps.2).1), (v2, (crossoverSingle (e.raw (s.draws + 2)) ps.1 ps.2).2)])
      (by simp) s2
    refine ⟨pop', s', ?_⟩
    exact tm_bind_ok.2 ⟨_, _, rfl, tm_bind_ok.2 ⟨_, _, rfl, tm_bind_ok.2 ⟨ps, _, tm_lift_ok.2 ⟨hp, rfl⟩, tm_bind_ok.2 ⟨_, _, rfl, tm_bind_ok.2 ⟨_, _, rfl,
      tm_bind_ok.2 ⟨_, _, tm_lift_ok.2 ⟨rfl, rfl⟩, tm_bind_ok.2 ⟨_, _, resample_step hq _, tm_bind_ok.2 ⟨_, _, h1, tm_bind_ok.2 ⟨_, _, resample_step hq _, tm_bind_ok.2 ⟨_, _, h2, h3⟩⟩⟩⟩⟩⟩⟩⟩⟩⟩

theorem mut_total {e : TuneEnv K} (hs : Scores e) (hg : ∀ k v, 2 ≤ (e.gen k v).length) {perInd : Bool} (hq : perInd = true → Renews e) (n : Nat) {pop : List (K × List K)}
    (h : 0 < pop.length) (s : TuneSt K) : ∃ pop' s', tuneMutLoop e perInd n pop s = .ok pop' s' := by
  induction n generalizing pop s with
  | zero => exact ⟨pop, s, rfl⟩
  | succ n ih =>
    obtain ⟨p, hp⟩ := one_total (e.raw s.draws) h
    obtain ⟨c, hc⟩ : ∃ c, tuneMutation e (e.raw (s.draws + 2)) (e.raw (s.draws + 1)) p (e.gen s.gens s.vals) = .ok c := by
      unfold tuneMutation
      have := hg s.gens s.vals
      rw [if_neg (by omega)]
      exact ⟨_, rfl⟩
    obtain ⟨v1, s1, h1⟩ := score_total hs c
      { s with draws := s.draws + 3, gens := s.gens + 1, noise := if perInd then s.noise + 1 else s.noise }
    obtain ⟨pop', s', h3⟩ := ih (pop := pop ++ [(v1, c)]) (by simp) s1
    refine ⟨pop', s', ?_⟩
    exact tm_bind_ok.2 ⟨_, _, rfl, tm_bind_ok.2 ⟨p, _, tm_lift_ok.2 ⟨hp, rfl⟩, tm_bind_ok.2 ⟨_, _, rfl, tm_bind_ok.2 ⟨_, _, rfl, tm_bind_ok.2 ⟨_, _, rfl,
      tm_bind_ok.2 ⟨_, _, tm_lift_ok.2 ⟨hc, rfl⟩, tm_bind_ok.2 ⟨_, _, resample_step hq _, tm_bind_ok.2 ⟨_, _, h1, h3⟩⟩⟩⟩⟩⟩⟩⟩

end Verif
