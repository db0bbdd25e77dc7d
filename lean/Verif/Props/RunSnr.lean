import Verif.Model.RunSnr
import Verif.Props.Evaluate
/-!
# C128: the number that `run_snr.py` prints
-/

namespace Verif
open Graph

variable {n : Nat}

/-- **C128.** The number printed as the signal-to-noise ratio is 1, for every design, all parameters and whatever the noise – or `nan`, exactly if the noisy light vanishes at a sample. -/
theorem C128_prints_one (hn : 0 < n) {g : Graph} (hw : g.WF) (ha : g.Acyclic) {B : Sim n} {inp : Signal n} {k : Key} {w : Session n} {v : Option ℝ} :
    (snrCell g B inp k w).2 = .ok v ↔ (∃ s, Delivers g B inp false w.params k s) ∧
      ∃ s', Delivers g B inp true w.params k s' ∧ ((∀ i, s' i ≠ 0) ∧ v = some 1 ∨ (∃ i, s' i = 0) ∧ v = none) := by
  have hn' : (n : ℝ) ≠ 0 := by positivity
  unfold snrCell
  cases h : ({ w with flag := false } : Session n).run g B inp k with
  | mk w1 r1 =>
  have hfr := Session.run_frame (g := g) (B := B) (inp := inp) (k := k) (w := { w with flag := false })
  rw [h] at hfr
  cases r1 with
  | error e =>
    simp only [reduceCtorEq, false_iff, not_and]
    rintro ⟨s, F, hF, hk⟩
    rw [(Session.run_ok hw ha).2 ⟨F, hF, hk, rfl⟩] at h
    cases h
  | ok s1 =>
    obtain ⟨F, hF, hk, -⟩ := (Session.run_ok hw ha).1 h
    have hd1 : ∃ s, Delivers g B inp false w.params k s := ⟨s1, F, hF, hk⟩
    simp only [hd1, true_and]
    have hp : w1.params = w.params := hfr.1
    cases h' : ({ w1 with flag := true } : Session n).run g B inp k with
    | mk w2 r2 =>
    have u2 : ∀ s, Delivers g B inp true w.params k s → r2 = .ok s := by
      rintro s ⟨F', hF', hk'⟩
      have := (Session.run_ok hw ha (w := { w1 with flag := true })).2 ⟨F', by simpa only [hp] using hF', hk', rfl⟩
      rw [h'] at this
      exact (Prod.mk.inj this).2
    cases r2 with
    | error e =>
      simp only [reduceCtorEq, false_iff, not_exists, not_and]
      intro s hs
      exact absurd (u2 s hs) (by simp)
    | ok s2 =>
      obtain ⟨F', hF', hk', -⟩ := (Session.run_ok hw ha).1 h'
      have hd2 : Delivers g B inp true w.params k s2 := ⟨F', by simpa only [hp] using hF', hk'⟩
      have key : (∃ s', Delivers g B inp true w.params k s' ∧ ((∀ i, s' i ≠ 0) ∧ v = some 1 ∨ (∃ i, s' i = 0) ∧ v = none)) ↔
          ((∀ i, s2 i ≠ 0) ∧ v = some 1 ∨ (∃ i, s2 i = 0) ∧ v = none) := by
        constructor
        · rintro ⟨s', hs', hv⟩
          have := Except.ok.inj (u2 s' hs')
          subst this
          exact hv
        · exact fun hv => ⟨s2, hd2, hv⟩
      rw [key]
      by_cases hz : ∃ i, s2 i = 0
      · have hz' : ∃ i, ‖s2 i‖ = 0 := hz.imp fun i hi => by rw [hi, norm_zero]
        simp only [if_pos hz', Except.ok.injEq]
        constructor
        · exact fun hv => .inr ⟨hz, hv.symm⟩
        · rintro (⟨hv, -⟩ | ⟨-, hv⟩)
          · obtain ⟨i, hi⟩ := hz
            exact absurd hi (hv i)
          · exact hv.symm
      · have hz' : ¬ ∃ i, ‖s2 i‖ = 0 := fun hc => hz (hc.imp fun i hi => norm_eq_zero.1 hi)
        push Not at hz
        have hone : npMean (fun i => ‖s2 i‖ / ‖s2 i‖) = 1 := by
          have : ∀ i, ‖s2 i‖ / ‖s2 i‖ = 1 := fun i => div_self (norm_ne_zero_iff.2 (hz i))
          simp only [npMean, this, Finset.sum_const, Finset.card_univ, Fintype.card_fin, nsmul_eq_mul, mul_one]
          exact div_self hn'
        simp only [if_neg hz', Except.ok.injEq, hone]
        constructor
        · exact fun hv => .inl ⟨hz, hv.symm⟩
        · rintro (⟨-, hv⟩ | ⟨⟨i, hi⟩, -⟩)
          · exact hv.symm
          · exact absurd hi (hz i)

/-- **C128.** So the script prints nothing but ones (and `nan`), whatever the parameters are and whatever the optimiser does between the two prints. -/
theorem C128_script (hn : 0 < n) {g : Graph} (hw : g.WF) (ha : g.Acyclic) (B : Sim n) (inp : Signal n) (k : Key) (optimize : Session n → Session n × Except Err Unit) (w : Session n) :
    ∀ v ∈ (runSnr g B inp k optimize w).1, v = some 1 ∨ v = none := by
  have key : ∀ (w : Session n) v, (snrCell g B inp k w).2 = .ok v → v = some 1 ∨ v = none := by
    intro w v h
    obtain ⟨-, s', -, hv⟩ := (C128_prints_one hn hw ha).1 h
    exact hv.imp And.right And.right
  unfold runSnr
  have k1 := key w
  cases h1 : snrCell g B inp k w with
  | mk w1 r1 =>
  rw [h1] at k1
  cases r1 with
  | error e => simp
  | ok a =>
    dsimp only
    cases h2 : optimize w1 with
    | mk w2 r2 =>
    cases r2 with
    | error e => simpa using k1 a rfl
    | ok _ =>
      have k2 := key w2
      dsimp only
      cases h3 : snrCell g B inp k w2 with
      | mk w3 r3 =>
      rw [h3] at k2
      cases r3 with
      | error e => simpa using k1 a rfl
      | ok b =>
        intro v hv
        simp only [List.mem_cons, List.not_mem_nil, or_false] at hv
        rcases hv with rfl | rfl
        · exact k1 _ rfl
        · exact k2 _ rfl

/-- **C128.** It is not what `SignalNoiseRatio` scores: designs with different scores (-1/2 and -1) print the same 1. -/
theorem C128_not_the_score : ∃ (g : Graph) (B : Sim 1) (inp : Signal 1) (k : Key) (w w' : Session 1),
    (evaluate g B inp (.snr k) w).2 = .ok (-1 / 2) ∧ (evaluate g B inp (.snr k) w').2 = .ok (-1) ∧
    (snrCell g B inp k w).2 = .ok (some 1) ∧ (snrCell g B inp k w').2 = .ok (some 1) := by
  refine ⟨Toy.g, Toy.sim, Toy.one, .node 1, Toy.w0, { Toy.w0 with params := fun _ => [1] }, Toy.snr_switches.1, ?_, ?_, ?_⟩
  · exact (C72_snr (by norm_num) Toy.g_wf Toy.g_topo.acyclic).2 ⟨_, _, Toy.delivers _ _, Toy.delivers _ _, by simp [Toy.out], by norm_num [Toy.out, Toy.w0]⟩
  · refine (C128_prints_one (by norm_num) Toy.g_wf Toy.g_topo.acyclic).2 ⟨⟨_, Toy.delivers _ _⟩, _, Toy.delivers _ _, .inl ⟨fun i => ?_, rfl⟩⟩
    norm_num [Toy.out, Toy.w0]
  · refine (C128_prints_one (by norm_num) Toy.g_wf Toy.g_topo.acyclic).2 ⟨⟨_, Toy.delivers _ _⟩, _, Toy.delivers _ _, .inl ⟨fun i => ?_, rfl⟩⟩
    norm_num [Toy.out, Toy.w0]

/-- `C128_prints_one` with light that vanishes under noise: `nan`. -/
example : (snrCell Toy.g Toy.sim Toy.one (.node 1) { Toy.w0 with params := fun _ => [-1] }).2 = .ok none :=
  (C128_prints_one (by norm_num) Toy.g_wf Toy.g_topo.acyclic).2 ⟨⟨_, Toy.delivers _ _⟩, _, Toy.delivers _ _, .inr ⟨⟨0, by norm_num [Toy.out]⟩, rfl⟩⟩

/-- `C128_script` with an optimiser that changes the parameters: two numbers are printed. -/
example : (runSnr Toy.g Toy.sim Toy.one (.node 1) (fun w => ({ w with params := fun _ => [7] }, .ok ())) Toy.w0).1 = [some 1, some 1] := by
  have h1 : ∀ (w : Session 1) c, 0 ≤ c → w.params 5 = [c] → (snrCell Toy.g Toy.sim Toy.one (.node 1) w).2 = .ok (some 1) := by
    intro w c hc hp
    refine (C128_prints_one (by norm_num) Toy.g_wf Toy.g_topo.acyclic).2 ⟨⟨_, Toy.delivers _ _⟩, _, Toy.delivers _ _, .inl ⟨fun i => ?_, rfl⟩⟩
    simp only [Toy.out, hp, List.headD_cons, if_true]
    have : (c : ℝ) + 1 ≠ 0 := by positivity
    exact_mod_cast this
  unfold runSnr
  have k1 := h1 Toy.w0 2 (by norm_num) rfl
  cases e1 : snrCell Toy.g Toy.sim Toy.one (.node 1) Toy.w0 with
  | mk w1 r1 =>
  rw [e1] at k1
  dsimp only at k1
  subst k1
  dsimp only
  have k2 := h1 { w1 with params := fun _ => [7] } 7 (by norm_num) rfl
  cases e2 : snrCell Toy.g Toy.sim Toy.one (.node 1) { w1 with params := fun _ => [7] } with
  | mk w3 r3 =>
  rw [e2] at k2
  dsimp only at k2
  subst k2
  rfl

end Verif
