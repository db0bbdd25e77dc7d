import Verif.Spec.Best
import Verif.Lemmas.Contin
import Verif.Props.Total
/-! # The score of a design as a function on the box of its settings -/

namespace Verif
open Graph Filter Topology

variable {n : Nat}

/-- The list with free parameters from `q` and the locked ones as constructed. -/
noncomputable def fill (s : Sheet) (N : Nat) (q : Fin N → ℝ) : List ℝ :=
  (List.finRange N).map (fun k => if s.locks[k.1]? = some false then q k else (((s.defaults[k.1]?.map Entry.toNum).getD 0 : ℚ) : ℝ))

/-- The same as a list of functions. -/
noncomputable def fillFun (n : Nat) (s : Sheet) (N : Nat) : List ((Fin N → ℝ) × Signal n → ℝ) :=
  (List.finRange N).map (fun k => fun q => if s.locks[k.1]? = some false then q.1 k else (((s.defaults[k.1]?.map Entry.toNum).getD 0 : ℚ) : ℝ))

theorem fillFun_at (s : Sheet) (N : Nat) (q : (Fin N → ℝ) × Signal n) : (fillFun n s N).map (· q) = fill s N q.1 := by
  unfold fillFun fill
  rw [List.map_map]
  rfl

theorem fillFun_cont (s : Sheet) (N : Nat) : ∀ f ∈ fillFun n s N, Continuous f := by
  intro f hf
  obtain ⟨k, -, rfl⟩ := List.mem_map.1 hf
  by_cases h : s.locks[k.1]? = some false
  · simp only [if_pos h]
    exact (continuous_apply k).comp continuous_fst
  · simp only [if_neg h]
    exact continuous_const

theorem fill_allows {s : Sheet} (hs : s.Sound) {N : Nat} {q : Fin N → ℝ} (h : s.Allows (List.ofFn q)) : fill s N q = List.ofFn q := by
  have hN : N = s.number := by rw [← h.length, List.length_ofFn]
  apply List.ext_getElem
  · simp [fill]
  · intro i h1 h2
    have hi : i < N := by simpa using h2
    have hq : (List.ofFn q)[i]? = some (q ⟨i, hi⟩) := by rw [List.getElem?_eq_getElem h2]; simp
    simp only [fill, List.getElem_map, List.getElem_finRange, List.getElem_ofFn, Fin.val_cast]
    split
    · rfl
    · rename_i hl
      have hlk : s.locks[i]? = some true := by
        have : i < s.locks.length := by rw [hs.locks]; omega
        rw [List.getElem?_eq_getElem this] at hl ⊢
        revert hl
        cases s.locks[i] <;> simp
      have hd : i < s.defaults.length := by rw [hs.defaults]; omega
      have := h.locked i _ _ hq hlk (List.getElem?_eq_getElem hd)
      rw [List.getElem?_eq_getElem hd]
      exact this.symm

theorem getD_cont {E : Type} [NormedAddCommGroup E] [NormedSpace ℝ E] {L : List (E → ℝ)} (hL : ∀ f ∈ L, Continuous f) (k : Nat) (q : E) :
    ContDiffAt ℝ 0 (fun q => (L.map (· q)).getD k 0) q := by
  refine (contDiff_zero.2 ?_).contDiffAt
  by_cases hk : k < L.length
  · have : (fun q => (L.map (· q)).getD k 0) = L[k] := by
      funext q
      simp [List.getD_eq_getElem?_getD, hk]
    rw [this]
    exact hL _ (List.getElem_mem hk)
  · have : (fun q : E => (L.map (· q)).getD k 0) = fun _ => 0 := by
      funext q
      simp [List.getD_eq_getElem?_getD, hk]
    rw [this]
    exact continuous_const

/-- Every class reads its parameters in a continuous way. -/
theorem reading_cont {N : Nat} {S : Settings} {rest : Part → List ℝ → Optic n} (hr : EndsContinuous rest) {p : Part} {L : List ((Fin N → ℝ) × Signal n → ℝ)}
    (hL : ∀ f ∈ L, Continuous f) (q : (Fin N → ℝ) × Signal n)
    (hamp : p = .amplifier → ∃ f, L = f :: ([1550 / 10 ^ 9, 1520 / 10 ^ 9, 1565 / 10 ^ 9, 1 / 100, 1 / 10, 3 / 2, 1, 5] : List ℝ).map (fun d _ => d))
    (hsq : p = .squareFilter → (L.map (· q)).getD 0 0 ≠ 0) :
    Optic.SmoothAt 0 q (fun q => p.optic S rest (L.map (· q))) := by
  have hc : ∀ f ∈ L, ContDiffAt ℝ 0 f q := fun f hf => (contDiff_zero.2 (hL f hf)).contDiffAt
  have g := fun k => getD_cont hL k q
  cases p with
  | dispersiveFiber => exact .fiber (g 0)
  | attenuator => exact .voa (g 0)
  | phaseModulator => exact .phaseMod (g 0) (g 1) (g 2)
  | intensityModulator => exact .intensityMod (g 0) (g 1) (g 2)
  | waveShaper =>
    have := Optic.SmoothAt.waveShaper (n := n) (a := L.take S.bins) (p := L.drop S.bins) (fun f hf => hc f (List.mem_of_mem_take hf)) (fun f hf => hc f (List.mem_of_mem_drop hf))
    simpa only [Part.optic, List.map_take, List.map_drop] using this
  | splitDelay => exact .splitDelay hc
  | amplifier =>
    obtain ⟨f, rfl⟩ := hamp rfl
    exact .edfa (A := ⟨0, 1550 / 10 ^ 9, 1520 / 10 ^ 9, 1565 / 10 ^ 9, 1 / 100, 1 / 10, 3 / 2, 1, 5⟩) (gain := f) (hc f (by simp)) (by norm_num) rfl
  | programmableFilter =>
    have := Optic.SmoothAt.progFilter (n := n) (a := L.take 10) (p := L.drop 10) (fun f hf => hc f (List.mem_of_mem_take hf)) (fun f hf => hc f (List.mem_of_mem_drop hf))
    simpa only [Part.optic, List.map_take, List.map_drop] using this
  | squareFilter => exact .squareFilter (g 0) (hsq rfl)
  | delayLine => exact .delayLine (g 0)
  | integratedDelay => exact .intDelayLine (g 0)
  | waveguide => exact .waveguide
  | phaseShifter => exact .phaseShifter (g 0)
  | _ => exact hr _ N L hL q

theorem fillFun_amplifier (S : Settings) (k N : Nat) (hN : N = 9) : ∃ f, fillFun n (sheet S .amplifier k) N =
    f :: ([1550 / 10 ^ 9, 1520 / 10 ^ 9, 1565 / 10 ^ 9, 1 / 100, 1 / 10, 3 / 2, 1, 5] : List ℝ).map (fun d _ => d) := by
  subst hN
  refine ⟨fun q => q.1 0, ?_⟩
  unfold fillFun
  rw [show List.finRange 9 = [0, 1, 2, 3, 4, 5, 6, 7, 8] by decide]
  simp [sheet, entries, Entry.toNum]

variable {P : Prop_ n} {S : Settings} {cls : ClassId → Part} {rest : Part → List ℝ → Optic n} {hasNoise : Comp → Bool} {inp : Signal n} {at_ : Key}
  {score : Signal n → Except Err ℝ} {g : Graph} {K : Set (Comp → ℕ → ℝ)} {N : Comp → ℕ} {x₀ : Comp → ℕ → ℝ}

/-- The settings written as functions. -/
def spread (N : Comp → ℕ) (x : Comp → ℕ → ℝ) (c : Comp) : List ℝ := List.ofFn (fun i : Fin (N c) => x c i)

theorem cw_coords (c : Comp) : ContinuousWithinAt (fun (x : Comp → ℕ → ℝ) (i : Fin (N c)) => x c i) K x₀ :=
  (continuous_pi fun i => (continuous_apply i.1).comp (continuous_apply c)).continuousWithinAt

theorem design_family (hS : S.Sensible) (hr : EndsContinuous rest) (hT : Tunable P S cls g) (hK : ∀ x ∈ K, Allowed S cls g (spread N x)) (hx₀ : x₀ ∈ K) :
    FamBehav (𝓝[K] x₀) x₀ (fun s => ContinuousWithinAt s K x₀) g
      (fun x => physics P (fun c => (cls c.cls).optic S rest (spread N x c)) (fun c => (cls c.cls).connector (spread N x c)) hasNoise) where
  noise := fun c => by
    by_cases h : hasNoise c
    · exact .inr fun θ => by simp [physics, h]
    · exact .inl fun θ => by simp [physics, h]
  edge := by
    intro e he s o hs h
    simp only [physics] at h ⊢
    obtain ⟨sh, hsh⟩ : ∃ sh, sh = sheet S (cls e.comp.cls) 1 := ⟨_, rfl⟩
    have hfill : ∀ x ∈ K, fill sh (N e.comp) (fun i => x e.comp i) = spread N x e.comp := by
      intro x hx
      have := (hK x hx).edges e he
      rw [← hsh] at this
      exact fill_allows (hsh ▸ C75_sheets hS _ _) this
    have hNum : N e.comp = sh.number := by
      have := ((hK x₀ hx₀).edges e he).length
      rw [← hsh] at this
      simpa [spread] using this
    obtain ⟨y, h1, h2⟩ := edge_cont P (o := fun q => (cls e.comp.cls).optic S rest (fill sh (N e.comp) q)) (cw_coords e.comp) hs (by
        simp only [← fillFun_at]
        refine reading_cont hr (fillFun_cont _ _) _ ?_ ?_
        · intro hp
          rw [hsh, hp]
          exact fillFun_amplifier S 1 _ (by rw [hNum, hsh, hp]; rfl)
        · intro hp h0
          rw [fillFun_at] at h0
          dsimp only at h0
          rw [hfill x₀ hx₀] at h0
          have ha := (hK x₀ hx₀).edges e he
          have hl := ha.length
          refine hT.free e he _ ha (.inl ⟨hp, ?_⟩)
          rw [hp] at hl
          obtain ⟨b, hb⟩ : ∃ b, spread N x₀ e.comp = [b] := List.length_eq_one_iff.1 hl
          rw [hb] at h0 ⊢
          simpa using h0) (by rw [hfill x₀ hx₀]; exact h)
    refine ⟨y, h1, ?_⟩
    filter_upwards [h2, self_mem_nhdsWithin] with x hx hxK
    rw [← hx, hfill x hxK]
  node := by
    intro v hv ss nIn nOut o hs h
    simp only [physics] at h ⊢
    cases hc : cls v.comp.cls with
    | splitter =>
      rw [hc] at h
      refine splitter_cont P (cw_coords v.comp) ?_ hs nIn nOut h
      intro x hx i
      have ha := (hK x hx).inRange.nodes v hv
      rw [hc] at ha
      exact (ratios_allowed ha).2 _ ((List.mem_ofFn' _ _).2 ⟨i, rfl⟩)
    | freqSplitter => exact freqSplitter_cont P (cw_coords v.comp) hs nIn nOut
    | _ => exact ⟨ss, hs, Eventually.of_forall fun x => rfl⟩

/-- A state wherever the evaluator may read. -/
theorem readable_some (hwf : g.WF) (hat : Readable g at_) {B : Behav (Signal n)} {old st : Store (Signal n)} (h : propagate g B inp old = .ok st) :
    ∃ s, st at_ = some s := by
  obtain ⟨-, hF⟩ := (propagate_iff hwf).1 h
  rcases hat with ⟨v, rfl, hv⟩ | ⟨e, he, rfl⟩
  · obtain ⟨m, hm, rfl⟩ := List.mem_map.1 hv.1
    obtain ⟨_, _, _, _, hs⟩ := hF.sinks m hm hv
    exact ⟨_, hs⟩
  · obtain ⟨_, _, _, _, _, _, _, _, _, _, _, _, _, hs⟩ := hF.edges e he
    exact ⟨_, hs⟩

theorem allowed_runs (hn : 3 ≤ n) (hw : 0 < P.window) (hrest : ∀ p ps x, ∃ y, (rest p ps).apply P x = .ok y) (hT : Tunable P S cls g) {θ : Comp → List ℝ}
    (ha : Allowed S cls g θ) : ∃ st, propagate g (physics P (fun c => (cls c.cls).optic S rest (θ c)) (fun c => (cls c.cls).connector (θ c)) hasNoise) inp Store.empty = .ok st :=
  (C98_runs hn hw hrest hT.wf hT.acyclic ha.inRange hasNoise inp _).2 ⟨hT.fits, fun e he => hT.free e he _ (ha.edges e he)⟩

/-- The score is continuous on every set of allowed settings. -/
theorem design_cont (hn : 3 ≤ n) (hw : 0 < P.window) (hS : S.Sensible) (hrest : ∀ p ps x, ∃ y, (rest p ps).apply P x = .ok y) (hr : EndsContinuous rest)
    (hT : Tunable P S cls g) (hat : Readable g at_) (hsc : ∀ s, Seen P S cls rest hasNoise inp at_ g s → SmoothScoreAt 0 score s)
    (hK : ∀ x ∈ K, Allowed S cls g (spread N x)) (hx₀ : x₀ ∈ K) :
    ∃ F : (Comp → ℕ → ℝ) → ℝ, ContinuousWithinAt F K x₀ ∧ ∀ᶠ x in 𝓝[K] x₀, scoreOf P S cls rest hasNoise inp at_ score g (spread N x) = .ok (F x) := by
  obtain ⟨st, hst⟩ := allowed_runs (hasNoise := hasNoise) (inp := inp) hn hw hrest hT (hK x₀ hx₀)
  obtain ⟨s, hs⟩ := readable_some hT.wf hat hst
  obtain ⟨fs, h1, h2, h3⟩ := fam_propagate (design_family hS hr hT hK hx₀) (fun p h => h.self_of_nhdsWithin hx₀) continuousWithinAt_const hst
  obtain ⟨f, hf, hev⟩ := hsc s ⟨_, st, hK x₀ hx₀, hst, hs⟩
  rw [← h2] at hs
  unfold FamStore.at at hs
  cases hfs : fs at_ with
  | none => rw [hfs] at hs; cases hs
  | some y =>
    rw [hfs] at hs
    injection hs with hs
    have hy : ContinuousWithinAt y K x₀ := h1 at_ y hfs
    have hyt : Tendsto y (𝓝[K] x₀) (𝓝 s) := by rw [← hs]; exact hy
    have hfc : ContinuousAt f (y x₀) := by
      have hs' : y x₀ = s := hs
      rw [hs']; exact hf.continuousAt
    refine ⟨fun x => f (y x), hfc.tendsto.comp hy, ?_⟩
    filter_upwards [h3, hyt.eventually hev] with x a b
    unfold scoreOf systemScore
    rw [a]
    simp only [FamStore.at, hfs, Option.map_some]
    exact b

end Verif
