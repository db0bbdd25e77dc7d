import Verif.Spec.Repeats
import Verif.Props.Optimize
/-! # Properties of repeated parameter optimisation (C131) -/

namespace Verif
open Graph

variable {g : Graph} {h0 h : Heap} {eval : Heap → ℚ} {e : OptEnv}

theorem SameLocked.symm {h1 : Heap} (s : SameLocked g h h1) : SameLocked g h1 h where
  lower m := (s.lower m).symm
  upper m := (s.upper m).symm
  dtypes m := (s.dtypes m).symm
  steps m := (s.steps m).symm
  locks m := (s.locks m).symm
  nodeLock m := (s.nodeLock m).symm
  length m := (s.length m).symm
  locked m i hmi := (s.locked m i (fun hc => hmi ⟨hc.1, s.unlocked.2 hc.2⟩)).symm

theorem pslots_same {h1 : Heap} (s : SameLocked g h h1) : pslots g h1 = pslots g h := s.same.slots _

/-- The value of a vector, as seen from `h`. -/
def valueAt (g : Graph) (eval : Heap → ℚ) (h : Heap) (x : List ℚ) : ℚ :=
  match distribute h x ((pslots g h).map (·.1)) ((pslots g h).map (·.2)) with
  | .ok h' => eval h'
  | .error _ => 0

theorem valueAt_ok {x : List ℚ} {h' : Heap} (hd : distribute h x ((pslots g h).map (·.1)) ((pslots g h).map (·.2)) = .ok h') : valueAt g eval h x = eval h' := by
  unfold valueAt
  rw [hd]

/-- The parameters in the graph have the value of the graph. -/
theorem distribute_start {ps lo up : List ℚ} {models : List ModelId} {index : List Nat} (hex : extractToList g h = .ok (ps, models, index, lo, up)) :
    distribute h ps ((pslots g h).map (·.1)) ((pslots g h).map (·.2)) = .ok h := by
  unfold extractToList at hex
  split at hex
  · cases hex
  · next ex he =>
    obtain ⟨hp, rfl⟩ := extract_eq he
    simp only [List.map_cons, List.map_nil, Except.ok.injEq, Prod.mk.injEq] at hex
    obtain ⟨rfl, -, -, -, -⟩ := hex
    have := C23_distribute_extracted he (ps := vals h .parameters (slots h (getModels g))) rfl
    have hv := vals_col (h := h) (a := .parameters) PModel.params (fun _ => rfl) (slots h (getModels g))
    rw [hv, numCol_map]
    rw [hv, nums_map] at this
    exact this

theorem runGa_le (hs0 : SameLocked g h0 h) (hp : ParamsPresent g h) {h2 : Heap} {x0 x : List ℚ} {s : ℚ} {nGen n : Nat} {rm rc : ℚ}
    (hx : x0.length = (pslots g h).length) (hr : runGa e g h0 eval x0 nGen n rm rc h = .ok (h2, x, s)) : s ≤ valueAt g eval h x0 := by
  unfold runGa at hr
  dsimp only at hr
  split at hr
  · cases hr
  · next x' s' st hga =>
    split at hr
    · cases hr
    · next h3 hc =>
      simp only [Except.ok.injEq, Prod.mk.injEq] at hr
      obtain ⟨-, -, rfl⟩ := hr
      have := (C35_never_worse (fun _ => rfl) hga).2
      obtain ⟨h', a, _, c⟩ := callF_full (eval := eval) hs0 hp (SameLocked.refl g h) hx
      rw [c] at this
      rw [valueAt_ok a]
      exact this

theorem runStrat_endsOn (hs0 : SameLocked g h0 h) (hp : ParamsPresent g h) {gr : List ℚ → List ℚ} {P : List ℚ → Prop} (t : Strat) {h1 h2 : Heap} (hs : SameLocked g h h1)
    (he : t.EndsOn (pslots g h).length (valueAt g eval h) P) {x : List ℚ} {f : ℚ} (hr : runStrat g h0 eval gr t h1 = .ok (h2, x, f)) : P x := by
  induction t generalizing h1 with
  | done y w =>
    simp only [runStrat, Except.ok.injEq, Prod.mk.injEq] at hr
    obtain ⟨-, rfl, -⟩ := hr
    exact he
  | ask y k ih =>
    obtain ⟨h', a, b, c⟩ := callF_full (eval := eval) hs0 hp hs he.1
    simp only [runStrat, c] at hr
    refine ih _ (distribute_same b hs) ?_ hr
    rw [← valueAt_ok (eval := eval) a]
    exact he.2
  | askGrad y k ih =>
    simp only [runStrat] at hr
    split at hr
    · cases hr
    · next h3 w hf => exact ih _ (callF_same hs0 hs hf) (he _) hr

/-- One run of the genetic algorithm. -/
theorem ga_once (hp : ParamsPresent g h) (hz : e.Sized (pslots g h).length) {h' : Heap} {x : List ℚ} {s : ℚ}
    (hr : parametersOptimize e g h eval none .ga h = .ok (h', x, s)) : SameLocked g h h' ∧ s = eval h' ∧ s ≤ eval h := by
  obtain ⟨a, b, c⟩ := optimize_core (SameLocked.refl g h) hp hz (by intro x hx; cases hx) hr
  refine ⟨distribute_same b (SameLocked.refl g h), c (.inl (by simp)), ?_⟩
  unfold parametersOptimize at hr
  split at hr
  · cases hr
  · next ps models index lo up hex =>
    obtain ⟨rfl, rfl, hps, -⟩ := extractToList_ok hex
    have hst := distribute_start hex
    simp only [Option.getD_none] at hr
    split at hr
    · obtain ⟨h1, a1, _, c1⟩ := callF_full (eval := eval) (SameLocked.refl g h) hp (SameLocked.refl g h) hps
      rw [c1] at hr
      simp only [Except.ok.injEq, Prod.mk.injEq] at hr
      rw [hst] at a1
      injection a1 with a1
      rw [← hr.2.2, ← a1]
    · split at hr
      · cases hr
      · next h1 x1 s1 hga =>
        split at hr
        · cases hr
        · simp only [Except.ok.injEq, Prod.mk.injEq] at hr
          obtain ⟨-, -, rfl⟩ := hr
          have := runGa_le (SameLocked.refl g h) hp hps hga
          rwa [valueAt_ok hst] at this

/-- One run of the genetic algorithm followed by L-BFGS-B. -/
theorem lbfgsGa_once (hp : ParamsPresent g h) {ps lo up : List ℚ} {models : List ModelId} {index : List Nat} (hex : extractToList g h = .ok (ps, models, index, lo, up))
    (hz : e.Sized (pslots g h).length) (hb : e.Bounded lo up) (hd : e.Descends lo up) {h' : Heap} {x : List ℚ} {s : ℚ}
    (hr : parametersOptimize e g h eval none .lbfgsGa h = .ok (h', x, s)) :
    SameLocked g h h' ∧ s = eval h' ∧ (ps ≠ [] → Respects lo up x) ∧ (Respects lo up ps → s ≤ eval h) := by
  obtain ⟨a, b, c⟩ := optimize_core (SameLocked.refl g h) hp hz (by intro x hx; cases hx) hr
  have hse := c (.inl (by simp))
  refine ⟨distribute_same b (SameLocked.refl g h), hse, ?_⟩
  obtain ⟨rfl, rfl, hps, hlo, -⟩ := extractToList_ok hex
  have hst := distribute_start hex
  have R := SameLocked.refl g h
  unfold parametersOptimize at hr
  rw [hex] at hr
  simp only [Option.getD_none] at hr
  split at hr
  · next hn0 =>
    obtain ⟨h1, a1, _, c1⟩ := callF_full (eval := eval) R hp R hps
    rw [c1] at hr
    simp only [Except.ok.injEq, Prod.mk.injEq] at hr
    rw [hst] at a1
    injection a1 with a1
    refine ⟨fun hne => absurd (List.eq_nil_of_length_eq_zero hn0) hne, fun _ => ?_⟩
    rw [← hr.2.2, ← a1]
  · split at hr
    · cases hr
    · next h1 x1 s1 hga =>
      obtain ⟨a1, b1, c1⟩ := runGa_ok R hp R hga
      split at hr
      · cases hr
      · next h2 x2 f2 hl =>
        obtain ⟨a2, b2⟩ := runStrat_same R _ a1 (hb.lbfgs _ _) hl
        have len2 : x2.length = (pslots g h).length := b2.1.trans hlo
        obtain ⟨rfl, b3, c3⟩ := finishOpt_ok R hp a2 len2 hr
        refine ⟨fun _ => b2, fun hin => ?_⟩
        have in1 : Respects lo up x1 := b1 _ _ hin hb.gen
        have := hd (valueAt g eval h) e.maxIter x1 in1
        rw [hlo] at this
        have h3 := runStrat_endsOn R hp _ a1 this hl
        rw [valueAt_ok b3] at h3
        have len1 : x1.length = (pslots g h).length := in1.1.trans hlo
        obtain ⟨h4, d4, _⟩ := callF_full (eval := eval) R hp R len1
        rw [valueAt_ok d4, ← c1 len1 _ d4] at h3
        have h5 := runGa_le R hp hps hga
        rw [valueAt_ok hst] at h5
        rw [hse]
        linarith

/-- The parameters can be extracted again after a change of unlocked ones. -/
theorem extractToList_forget {h1 : Heap} (hs : SameLocked g h h1) {ps lo up : List ℚ} {models : List ModelId} {index : List Nat}
    (hex : extractToList g h = .ok (ps, models, index, lo, up)) : ∃ ps1, extractToList g h1 = .ok (ps1, models, index, lo, up) := by
  have : ∃ r, extractToList g h1 = .ok r := by
    unfold extractToList at hex ⊢
    split at hex
    · cases hex
    · next ex he =>
      obtain ⟨hp, -⟩ := extract_eq he
      have hp1 : AttrsPresent [.parameters, .lowerBounds, .upperBounds] g h1 := by
        intro a ha s hm
        rw [hs.same.slots] at hm
        have := hp a ha s hm
        simp only [List.mem_cons, List.not_mem_nil, or_false] at ha
        rcases ha with rfl | rfl | rfl
        · rw [attr_params_length] at this ⊢
          rw [hs.length]
          exact this
        · simpa only [PModel.attr, hs.lower] using this
        · simpa only [PModel.attr, hs.upper] using this
      rw [extract_ok hp1]
      exact ⟨_, rfl⟩
  obtain ⟨⟨ps1, m1, i1, lo1, up1⟩, hx1⟩ := this
  obtain ⟨rfl, rfl, rfl, rfl⟩ := extractToList_same hs hex hx1
  exact ⟨ps1, hx1⟩

/-- What was distributed is extracted. -/
theorem extractToList_again (hp : ParamsPresent g h) (hn : (getModels g).Nodup) {ps lo up : List ℚ} {models : List ModelId} {index : List Nat}
    (hex : extractToList g h = .ok (ps, models, index, lo, up)) {h1 : Heap} {x : List ℚ} (hd : distribute h x ((pslots g h).map (·.1)) ((pslots g h).map (·.2)) = .ok h1)
    (hl : x.length = (pslots g h).length) : extractToList g h1 = .ok (x, models, index, lo, up) := by
  have hs := distribute_same hd (SameLocked.refl g h)
  obtain ⟨ps1, hx1⟩ := extractToList_forget hs hex
  obtain ⟨-, -, -, -, -, -, -, hv, -⟩ := extractToList_ok hx1
  have hpp : AttrsPresent [.parameters] g h := by
    intro at' hat s hs
    rw [List.mem_singleton.1 hat, attr_params_length]
    exact params_slots hp s hs
  obtain ⟨h2, d1, d2⟩ := C23_extract_distributed hn (extract_ok hpp) (xs := x) (by rw [hl]; exact (List.length_map _).symm)
  have hd' : distribute h x ((slots h (getModels g)).map (·.1)) ((slots h (getModels g)).map (·.2)) = .ok h1 := hd
  rw [hd'] at d1
  injection d1 with d1
  subst d1
  obtain ⟨-, d3⟩ := extract_eq d2
  have d4 := congrArg Extracted.cols d3
  simp only [List.map_cons, List.map_nil, List.cons.injEq, and_true] at d4
  unfold pslots at hv
  rw [← d4, numCol_map] at hv
  rw [hx1, hv]

/-- **C131.** Repeats with the genetic algorithm are a chain: no repeat ends above the one before it, nor above the start. -/
theorem C131_ga (hp : ParamsPresent g h) {ex : Extracted} (hex : extract [] g h = .ok ex) {es : List OptEnv} (hz : ∀ e ∈ es, e.Sized ex.models.length) {rs : List (List ℚ × ℚ)} {h' : Heap}
    (hr : repeats g eval .ga es h = .ok (rs, h')) : (eval h :: rs.map (·.2)).Pairwise (· ≥ ·) ∧ rs.length = es.length := by
  obtain ⟨hat, rfl⟩ := extract_eq hex
  have hlen : ((slots h (getModels g)).map (·.1)).length = (pslots g h).length := List.length_map _
  dsimp only at hz
  rw [hlen] at hz
  clear hex hlen hat
  induction es generalizing h rs with
  | nil =>
    simp only [repeats, Except.ok.injEq, Prod.mk.injEq] at hr
    rw [← hr.1]
    simp
  | cons e es ih =>
    simp only [repeats] at hr
    split at hr
    · cases hr
    · next h1 x s h1r =>
      split at hr
      · cases hr
      · next rs1 h2 h2r =>
        simp only [Except.ok.injEq, Prod.mk.injEq] at hr
        obtain ⟨rfl, rfl⟩ := hr
        obtain ⟨a, b, c⟩ := ga_once hp (hz e (by simp)) h1r
        obtain ⟨p, q⟩ := ih (h := h1) (hp.mono a) h2r (fun e' he' => by rw [pslots_same a]; exact hz e' (by simp [he']))
        rw [← b] at p
        refine ⟨?_, by simp [q]⟩
        rw [List.map_cons]
        refine List.pairwise_cons.2 ⟨fun y hy => ?_, p⟩
        rcases List.mem_cons.1 hy with rfl | hy
        · exact c
        · exact le_trans ((List.pairwise_cons.1 p).1 y hy) c

/-- **C131.** So are repeats with the genetic algorithm and L-BFGS-B: no repeat ends above the one before it, wherever the first started; nor above the start, if that was within the bounds. -/
theorem C131_lbfgs_ga (hp : ParamsPresent g h) (hn : (getModels g).Nodup) {ps lo up : List ℚ} {models : List ModelId} {index : List Nat} (hex : extractToList g h = .ok (ps, models, index, lo, up))
    {es : List OptEnv} (hz : ∀ e ∈ es, e.Sized models.length ∧ e.Bounded lo up ∧ e.Descends lo up) {rs : List (List ℚ × ℚ)} {h' : Heap}
    (hr : repeats g eval .lbfgsGa es h = .ok (rs, h')) :
    (rs.map (·.2)).Pairwise (· ≥ ·) ∧ (Respects lo up ps → ∀ r ∈ rs, r.2 ≤ eval h) ∧ (ps ≠ [] → ∀ r ∈ rs, Respects lo up r.1) ∧ rs.length = es.length := by
  obtain ⟨rfl, rfl, -⟩ := extractToList_ok hex
  rw [List.length_map] at hz
  induction es generalizing h rs ps with
  | nil =>
    simp only [repeats, Except.ok.injEq, Prod.mk.injEq] at hr
    rw [← hr.1]
    simp
  | cons e es ih =>
    simp only [repeats] at hr
    split at hr
    · cases hr
    · next h1 x s h1r =>
      split at hr
      · cases hr
      · next rs1 h2 h2r =>
        simp only [Except.ok.injEq, Prod.mk.injEq] at hr
        obtain ⟨rfl, rfl⟩ := hr
        obtain ⟨z1, z2, z3⟩ := hz e (by simp)
        obtain ⟨a, b, c, d⟩ := lbfgsGa_once hp hex z1 z2 z3 h1r
        obtain ⟨l1, d1, -⟩ := optimize_core (SameLocked.refl g h) hp z1 (by intro x hx; cases hx) h1r
        obtain ⟨-, -, e3, e4, -⟩ := extractToList_ok hex
        have hex1 : extractToList g h1 = .ok (x, (pslots g h1).map (·.1), (pslots g h1).map (·.2), lo, up) := by
          rw [pslots_same a]
          exact extractToList_again hp hn hex d1 l1
        obtain ⟨p, q, r, t⟩ := ih (h := h1) (hp.mono a) h2r (fun e' he' => by rw [pslots_same a]; exact hz e' (by simp [he'])) hex1
        have hxl : ps = [] → x = [] := fun h0 => List.eq_nil_of_length_eq_zero (by rw [l1, ← e3, h0]; rfl)
        have in1 : Respects lo up x := by
          by_cases h0 : ps = []
          · rw [hxl h0]
            exact ⟨by rw [e4, ← e3, h0], fun _ _ hy => by simp at hy⟩
          · exact c h0
        refine ⟨?_, fun hin r' hr' => ?_, fun hne r' hr' => ?_, by simp [t]⟩
        · rw [List.map_cons]
          refine List.pairwise_cons.2 ⟨fun y hy => ?_, p⟩
          obtain ⟨r', hr', rfl⟩ := List.mem_map.1 hy
          have := q in1 r' hr'
          rw [← b] at this
          exact this
        · rcases List.mem_cons.1 hr' with rfl | hr'
          · exact d hin
          · refine le_trans (q in1 r' hr') ?_
            rw [← b]
            exact d hin
        · rcases List.mem_cons.1 hr' with rfl | hr'
          · exact c hne
          · refine r (fun h0 => hne ?_) r' hr'
            exact List.eq_nil_of_length_eq_zero (by rw [e3, ← l1, h0]; rfl)

/-- **C131.** The genetic algorithm keeps a start outside of the bounds, if it is better than anything within them. -/
theorem C131_bounds_ignored (hp : ParamsPresent g h) {ps lo up : List ℚ} {models : List ModelId} {index : List Nat} (hex : extractToList g h = .ok (ps, models, index, lo, up))
    (hz : e.Sized models.length) {h' : Heap} {x : List ℚ} {s : ℚ} (hr : parametersOptimize e g h eval none .ga h = .ok (h', x, s))
    (hout : ∀ y hy, Respects lo up y → distribute h y models index = .ok hy → eval h < eval hy) : ¬ Respects lo up x := by
  obtain ⟨rfl, rfl, -⟩ := extractToList_ok hex
  rw [List.length_map] at hz
  obtain ⟨-, a, b⟩ := ga_once hp hz hr
  obtain ⟨-, c, -⟩ := optimize_core (SameLocked.refl g h) hp hz (by intro x hx; cases hx) hr
  intro hin
  have := hout x h' hin c
  rw [a] at b
  linarith

theorem runStrat_forget {ha hb : Heap} (hsa : SameLocked g ha h) (hsb : SameLocked g hb h) (hp : ParamsPresent g h) {gr : List ℚ → List ℚ} (t : Strat) {h1 h2 : Heap} (s1 : SameLocked g h h1)
    (s2 : SameLocked g h h2) (hk : t.Keeps (pslots g h).length) :
    ∃ hA hB x f, runStrat g ha eval gr t h1 = .ok (hA, x, f) ∧ runStrat g hb eval gr t h2 = .ok (hB, x, f) ∧ SameLocked g h hA ∧ SameLocked g h hB ∧ x.length = (pslots g h).length := by
  induction t generalizing h1 h2 with
  | done x f => exact ⟨h1, h2, x, f, rfl, rfl, s1, s2, hk⟩
  | ask x k ih =>
    obtain ⟨h3, a, b, c⟩ := callF_full (eval := eval) hsa hp s1 hk.1
    obtain ⟨h4, a', b', c'⟩ := callF_full (eval := eval) hsb hp s2 hk.1
    rw [a] at a'
    injection a' with a'
    subst a'
    simp only [runStrat, c, c']
    exact ih _ (distribute_same b s1) (distribute_same b' s2) (hk.2 _)
  | askGrad x k ih =>
    obtain ⟨h3, a, b, c⟩ := callF_full (eval := eval) hsa hp s1 hk.1
    obtain ⟨h4, a', b', c'⟩ := callF_full (eval := eval) hsb hp s2 hk.1
    simp only [runStrat, c, c']
    exact ih _ (distribute_same b s1) (distribute_same b' s2) (hk.2 _)

theorem finishOpt_forget {ha hb : Heap} (hsa : SameLocked g ha h) (hsb : SameLocked g hb h) (hp : ParamsPresent g h) {h1 h2 : Heap} (s1 : SameLocked g h h1) (s2 : SameLocked g h h2) {x : List ℚ}
    (hx : x.length = (pslots g h).length) : finishOpt g ha eval h1 x ((pslots g h).map (·.1)) ((pslots g h).map (·.2)) = finishOpt g hb eval h2 x ((pslots g h).map (·.1)) ((pslots g h).map (·.2)) := by
  obtain ⟨h3, a, b⟩ := distribute_forget s1 hp hx
  obtain ⟨h4, a', b'⟩ := distribute_forget s2 hp hx
  rw [a] at a'
  injection a' with a'
  subst a'
  have b1 : distribute h1 x ((pslots g h).map (·.1)) ((pslots g h).map (·.2)) = .ok h3 := b
  have b2 : distribute h2 x ((pslots g h).map (·.1)) ((pslots g h).map (·.2)) = .ok h3 := b'
  have s3 := distribute_same b1 s1
  obtain ⟨h5, c, _, d⟩ := callF_full (eval := eval) hsa hp s3 hx
  obtain ⟨h6, c', _, d'⟩ := callF_full (eval := eval) hsb hp s3 hx
  rw [c] at c'
  injection c' with c'
  subst c'
  unfold finishOpt
  rw [b1, b2]
  simp only [d, d']

theorem sampleAll_uniform {r : Nat → Rnd} : ∀ (j : Nat) (ps ps' ls us : List ℚ) (ds : List DType) (ss : List (Option ℚ)), ps'.length = ps.length → ls.length = ps.length → us.length = ps.length →
    ds.length = ps.length → ss.length = ps.length →
    sampleAll .uniform r j (ps'.map .num) (ls.map .num) (us.map .num) (ds.map .dtype) (ss.map .step) = sampleAll .uniform r j (ps.map .num) (ls.map .num) (us.map .num) (ds.map .dtype) (ss.map .step) ∧
    ∀ xs, sampleAll .uniform r j (ps.map .num) (ls.map .num) (us.map .num) (ds.map .dtype) (ss.map .step) = .ok xs → xs.length = ps.length
  | j, [], ps', ls, us, ds, ss, h1, h2, h3, h4, h5 => by
    rw [List.length_nil, List.length_eq_zero_iff] at h1 h2 h3 h4 h5
    subst h1 h2 h3 h4 h5
    simp [sampleAll]
  | j, p :: ps, p' :: ps', l :: ls, u :: us, d :: ds, s :: ss, h1, h2, h3, h4, h5 => by
    simp only [List.length_cons, Nat.add_right_cancel_iff] at h1 h2 h3 h4 h5
    obtain ⟨a, b⟩ := sampleAll_uniform (r := r) (j + 1) ps ps' ls us ds ss h1 h2 h3 h4 h5
    simp only [List.map_cons, sampleAll, a, true_and]
    intro xs hx
    split at hx
    · cases hx
    · split at hx
      · cases hx
      · next x _ xs' hxs =>
        injection hx with hx
        rw [← hx]
        simp [b xs' hxs]

theorem vals_wrap {β : Type} {a : Attr} (w : β → Val) (f : PModel → List β) (hf : ∀ m : PModel, m.attr a = (f m).map w) (ss : List (ModelId × Nat)) :
    vals h a ss = (ss.filterMap (fun s => (f (h s.1))[s.2]?)).map w := by
  induction ss with
  | nil => rfl
  | cons s ss ih =>
    unfold vals at *
    simp only [List.filterMap_cons]
    rw [hf, List.getElem?_map]
    cases (f (h s.1))[s.2]? with
    | none => simpa using ih
    | some x => simpa using ih

theorem sample_forget (hp : ParamsPresent g h) {h1 : Heap} (hs : SameLocked g h h1) {ex : Extracted}
    (hex : extract [.parameters, .lowerBounds, .upperBounds, .dataTypes, .stepSizes] g h = .ok ex) (r : Nat → Rnd) : sampleParameters g .uniform r h1 = sampleParameters g .uniform r h := by
  obtain ⟨hat, -⟩ := extract_eq hex
  have hat1 : AttrsPresent [.parameters, .lowerBounds, .upperBounds, .dataTypes, .stepSizes] g h1 := by
    intro a ha s hm
    rw [hs.same.slots] at hm
    have := hat a ha s hm
    simp only [List.mem_cons, List.not_mem_nil, or_false] at ha
    rcases ha with rfl | rfl | rfl | rfl | rfl
    · rw [attr_params_length] at this ⊢
      rw [hs.length]
      exact this
    · simpa only [PModel.attr, hs.lower] using this
    · simpa only [PModel.attr, hs.upper] using this
    · simpa only [PModel.attr, hs.dtypes] using this
    · simpa only [PModel.attr, hs.steps] using this
  have v1 := vals_wrap (h := h1) (a := .parameters) .num PModel.params (fun _ => rfl) (slots h (getModels g))
  have w1 := vals_wrap (h := h) (a := .parameters) .num PModel.params (fun _ => rfl) (slots h (getModels g))
  have w2 := vals_wrap (h := h) (a := .lowerBounds) .num PModel.lower (fun _ => rfl) (slots h (getModels g))
  have w3 := vals_wrap (h := h) (a := .upperBounds) .num PModel.upper (fun _ => rfl) (slots h (getModels g))
  have w4 := vals_wrap (h := h) (a := .dataTypes) .dtype PModel.dtypes (fun _ => rfl) (slots h (getModels g))
  have w5 := vals_wrap (h := h) (a := .stepSizes) .step PModel.steps (fun _ => rfl) (slots h (getModels g))
  have u2 : vals h1 .lowerBounds (slots h (getModels g)) = vals h .lowerBounds (slots h (getModels g)) := by unfold vals; simp only [PModel.attr, hs.lower]
  have u3 : vals h1 .upperBounds (slots h (getModels g)) = vals h .upperBounds (slots h (getModels g)) := by unfold vals; simp only [PModel.attr, hs.upper]
  have u4 : vals h1 .dataTypes (slots h (getModels g)) = vals h .dataTypes (slots h (getModels g)) := by unfold vals; simp only [PModel.attr, hs.dtypes]
  have u5 : vals h1 .stepSizes (slots h (getModels g)) = vals h .stepSizes (slots h (getModels g)) := by unfold vals; simp only [PModel.attr, hs.steps]
  have m1 := vals_length (h := h1) (a := .parameters) (ss := slots h (getModels g)) (by rw [← hs.same.slots]; exact hat1 _ (by simp))
  have n1 := vals_length (hat .parameters (by simp))
  have n2 := vals_length (hat .lowerBounds (by simp))
  have n3 := vals_length (hat .upperBounds (by simp))
  have n4 := vals_length (hat .dataTypes (by simp))
  have n5 := vals_length (hat .stepSizes (by simp))
  rw [v1, List.length_map] at m1
  rw [w1, List.length_map] at n1
  rw [w2, List.length_map] at n2
  rw [w3, List.length_map] at n3
  rw [w4, List.length_map] at n4
  rw [w5, List.length_map] at n5
  obtain ⟨a, b⟩ := sampleAll_uniform (r := r) 0 _ _ _ _ _ _ (m1.trans n1.symm) (n2.trans n1.symm) (n3.trans n1.symm) (n4.trans n1.symm) (n5.trans n1.symm)
  unfold sampleParameters
  rw [extract_ok hat, extract_ok hat1, hs.same.slots]
  simp only [List.map_cons, List.map_nil]
  rw [u2, u3, u4, u5, v1, w1, w2, w3, w4, w5, a]
  split
  · rfl
  · next xs hxs =>
    obtain ⟨h', c, d⟩ := distribute_forget hs hp ((b xs hxs).trans n1)
    rw [c, d]

/-- Methods that do not look at the start. -/
theorem optimize_forget (hp : ParamsPresent g h) {h1 : Heap} (hs : SameLocked g h h1) (hk : e.Keeps (pslots g h).length) {method : OptMethod} (hm : method = .pso ∨ method = .lbfgsPso ∨ method = .cheap)
    {ps lo up : List ℚ} {models : List ModelId} {index : List Nat} (hex : extractToList g h = .ok (ps, models, index, lo, up))
    (hch : method = .cheap → ps ≠ [] → ∃ ex, extract [.parameters, .lowerBounds, .upperBounds, .dataTypes, .stepSizes] g h = .ok ex) :
    parametersOptimize e g h1 eval none method h1 = parametersOptimize e g h eval none method h := by
  have R := SameLocked.refl g h
  obtain ⟨ps1, hex1⟩ := extractToList_forget hs hex
  obtain ⟨rfl, rfl, l, l2, -⟩ := extractToList_ok hex
  obtain ⟨-, -, l1, -⟩ := extractToList_ok hex1
  rw [pslots_same hs] at l1
  unfold parametersOptimize
  rw [hex, hex1]
  simp only [Option.getD_none, l, l1]
  split
  · next h0 =>
    have e0 : ps = [] := List.eq_nil_of_length_eq_zero (l.trans h0)
    have e1 : ps1 = [] := List.eq_nil_of_length_eq_zero (l1.trans h0)
    subst e0 e1
    obtain ⟨h3, a, b, c⟩ := callF_full (eval := eval) hs.symm hp hs l
    obtain ⟨h4, a', b', c'⟩ := callF_full (eval := eval) R hp R l
    rw [a] at a'
    injection a' with a'
    subst a'
    rw [c, c']
  · rcases hm with rfl | rfl | rfl
    · obtain ⟨hA, hB, x, f, p, q, sA, sB, lx⟩ := runStrat_forget (eval := eval) (gr := e.grad 0) hs.symm R hp _ hs R (hk.pso 40 40 lo up)
      dsimp only
      rw [p, q]
      dsimp only
      obtain ⟨h3, a, b⟩ := distribute_forget sA hp lx
      obtain ⟨h4, a', b'⟩ := distribute_forget sB hp lx
      rw [a] at a'
      injection a' with a'
      subst a'
      unfold pslots
      rw [b, b']
    · obtain ⟨hA, hB, x, f, p, q, sA, sB, lx⟩ := runStrat_forget (eval := eval) (gr := e.grad 0) hs.symm R hp _ hs R (hk.pso e.iterSwarm e.swarmSize lo up)
      obtain ⟨hC, hD, y, f', p', q', sC, sD, ly⟩ := runStrat_forget (eval := eval) (gr := e.grad 0) hs.symm R hp _ sA sB (hk.lbfgs 100 x lo up lx)
      dsimp only
      rw [p, q]
      dsimp only
      rw [p', q']
      exact finishOpt_forget hs.symm R hp sC sD ly
    · dsimp only
      obtain ⟨ex5, hex5⟩ := hch rfl (by rintro rfl; simp at l; omega)
      rw [sample_forget hp hs hex5]
      split
      · rfl
      · next h2 hsm =>
        have S2 := sample_same hsm
        obtain ⟨ps2, hex2⟩ := extractToList_forget S2 hex
        obtain ⟨-, -, l3, -⟩ := extractToList_ok hex2
        rw [pslots_same S2] at l3
        rw [hex2]
        dsimp only
        obtain ⟨hC, hD, y, f', p', q', sC, sD, ly⟩ := runStrat_forget (eval := eval) (gr := e.grad 0) hs.symm R hp _ S2 S2 (hk.lbfgs 5 ps2 lo up l3)
        rw [p', q']
        exact finishOpt_forget hs.symm R hp sC sD ly

theorem callF_any (hs0 : SameLocked g h0 h) (hp : ParamsPresent g h) {h1 : Heap} (hs : SameLocked g h h1) (x : List ℚ) : ∃ r, callF g h0 eval h1 x = .ok r := by
  obtain ⟨h2, hd⟩ := distribute_total (h := h1) (xs := x) (ss := slots h (getModels g)) (fun s hm => by rw [hs.length]; exact params_slots hp s hm)
  unfold callF
  rw [objective_eq hs0]
  unfold pslots
  rw [hd]
  exact ⟨_, rfl⟩

theorem callMany_any (hs0 : SameLocked g h0 h) (hp : ParamsPresent g h) (xs : List (List ℚ)) {h1 : Heap} (hs : SameLocked g h h1) : ∃ r, callMany g h0 eval h1 xs = .ok r := by
  induction xs generalizing h1 with
  | nil => exact ⟨_, rfl⟩
  | cons x xs ih =>
    obtain ⟨⟨h2, v⟩, hc⟩ := callF_any (eval := eval) hs0 hp hs x
    simp only [callMany, hc]
    exact ih (callF_same hs0 hs hc)

theorem ga_runs (hp : ParamsPresent g h) {ps lo up : List ℚ} {models : List ModelId} {index : List Nat} (hex : extractToList g h = .ok (ps, models, index, lo, up)) (hz : e.Sized models.length) :
    ∃ r, parametersOptimize e g h eval none .ga h = .ok r := by
  obtain ⟨rfl, rfl, l, -⟩ := extractToList_ok hex
  rw [List.length_map] at hz
  have R := SameLocked.refl g h
  unfold parametersOptimize
  rw [hex]
  simp only [Option.getD_none]
  split
  · obtain ⟨r, hr⟩ := callF_any (eval := eval) R hp R ps
    rw [hr]
    exact ⟨_, rfl⟩
  · next hne =>
    have : ∃ r, runGa e g h eval ps 40 30 (9 / 10) (30 / 100) h = .ok r := by
      unfold runGa
      dsimp only
      generalize hE : (⟨_, e.gen, e.raw, e.subset⟩ : GaEnv ℚ) = E
      obtain ⟨⟨x, s, st⟩, ht⟩ := C35_total (e := E) ps 40 (n := 30) (9 / 10) (30 / 100) (by norm_num)
        (fun k h0 => hne (by rw [← hE] at h0; rw [l, ← hz.gen k]; exact List.length_eq_zero_iff.2 h0))
      rw [ht]
      dsimp only
      obtain ⟨r, hr⟩ := callMany_any (eval := eval) R hp (st.evals.map (·.2)) R
      rw [hr]
      exact ⟨_, rfl⟩
    obtain ⟨⟨h1, x, s⟩, hr⟩ := this
    obtain ⟨a, -⟩ := runGa_ok R hp R hr
    rw [hr]
    obtain ⟨h2, hd⟩ := distribute_total (h := h1) (xs := x) (ss := slots h (getModels g)) (fun s hm => by rw [a.length]; exact params_slots hp s hm)
    dsimp only
    unfold pslots
    rw [hd]
    exact ⟨_, rfl⟩

/-- **C131.** Repeats with the genetic algorithm never break off. -/
theorem C131_ga_runs (hp : ParamsPresent g h) {ps lo up : List ℚ} {models : List ModelId} {index : List Nat} (hex : extractToList g h = .ok (ps, models, index, lo, up)) (es : List OptEnv)
    (hz : ∀ e ∈ es, e.Sized models.length) : ∃ r, repeats g eval .ga es h = .ok r := by
  induction es generalizing h ps with
  | nil => exact ⟨_, rfl⟩
  | cons e es ih =>
    obtain ⟨⟨h1, x, s⟩, hr⟩ := ga_runs (eval := eval) hp hex (hz e (by simp))
    have hz' := hz e (by simp)
    obtain ⟨rfl, rfl, -⟩ := extractToList_ok hex
    rw [List.length_map] at hz'
    obtain ⟨a, -⟩ := ga_once hp hz' hr
    obtain ⟨ps1, hex1⟩ := extractToList_forget a hex
    obtain ⟨⟨rs, h2⟩, hr2⟩ := ih (hp.mono a) hex1 (fun e' he' => hz e' (by simp [he']))
    simp only [repeats, hr, hr2]
    exact ⟨_, rfl⟩

/-- **C131.** With the swarm, with the swarm followed by L-BFGS-B and with `CHEAP` repeats are what they are taken for: each returns what it would return as the first one. -/
theorem C131_independent (hp : ParamsPresent g h) {ex : Extracted} (hex : extract [] g h = .ok ex) {method : OptMethod} (hm : method = .pso ∨ method = .lbfgsPso ∨ method = .cheap)
    {es : List OptEnv} (hz : ∀ e ∈ es, e.Sized ex.models.length ∧ e.Keeps ex.models.length) {rs : List (List ℚ × ℚ)} {h' : Heap}
    (hr : repeats g eval method es h = .ok (rs, h')) {i : Nat} {r : List ℚ × ℚ} {e : OptEnv} (he : es[i]? = some e) (hi : rs[i]? = some r) :
    ∃ h'', parametersOptimize e g h eval none method h = .ok (h'', r) := by
  obtain ⟨hat, rfl⟩ := extract_eq hex
  have hlen : ((slots h (getModels g)).map (·.1)).length = (pslots g h).length := List.length_map _
  dsimp only at hz
  rw [hlen] at hz
  clear hex hlen hat
  have key : ∀ (es : List OptEnv) (h1 : Heap) (rs : List (List ℚ × ℚ)) (i : Nat), SameLocked g h h1 → (∀ e ∈ es, e.Sized (pslots g h).length ∧ e.Keeps (pslots g h).length) →
      repeats g eval method es h1 = .ok (rs, h') → es[i]? = some e → rs[i]? = some r → ∃ h2 h'', SameLocked g h h2 ∧ parametersOptimize e g h2 eval none method h2 = .ok (h'', r) := by
    intro es
    induction es with
    | nil => intro _ _ i _ _ _ he; simp at he
    | cons e0 es ih =>
      intro h1 rs i hs hz hr he hi
      simp only [repeats] at hr
      split at hr
      · cases hr
      · next h2 x s h1r =>
        split at hr
        · cases hr
        · next rs1 h3 h2r =>
          simp only [Except.ok.injEq, Prod.mk.injEq] at hr
          obtain ⟨rfl, rfl⟩ := hr
          cases i with
          | zero =>
            simp only [List.getElem?_cons_zero, Option.some.injEq] at he hi
            subst he hi
            exact ⟨h1, h2, hs, h1r⟩
          | succ i =>
            have hz1 := (hz e0 (by simp)).1
            rw [← pslots_same hs] at hz1
            obtain ⟨-, d, -⟩ := optimize_core (SameLocked.refl g h1) (hp.mono hs) hz1 (by intro x hx; cases hx) h1r
            exact ih h2 rs1 i (hs.trans (distribute_same d (SameLocked.refl g h1))) (fun e' he' => hz e' (by simp [he'])) h2r (by simpa using he) (by simpa using hi)
  obtain ⟨h2, h'', hs2, h2r⟩ := key es h rs i (SameLocked.refl g h) hz hr he hi
  have hk := (hz e (List.mem_of_getElem? he)).2
  refine ⟨h'', ?_⟩
  rw [← h2r]
  have hz2 : e.Keeps (pslots g h2).length := by rw [pslots_same hs2]; exact hk
  cases hx : extractToList g h2 with
  | error er => unfold parametersOptimize at h2r; rw [hx] at h2r; cases h2r
  | ok q =>
    obtain ⟨ps, models, index, lo, up⟩ := q
    refine optimize_forget (hp.mono hs2) hs2.symm hz2 hm hx ?_
    rintro rfl hne
    unfold parametersOptimize at h2r
    rw [hx] at h2r
    simp only [Option.getD_none] at h2r
    rw [if_neg (fun h0 => hne (List.eq_nil_of_length_eq_zero h0))] at h2r
    unfold sampleParameters at h2r
    cases h5 : extract [.parameters, .lowerBounds, .upperBounds, .dataTypes, .stepSizes] g h2 with
    | error er => rw [h5] at h2r; cases h2r
    | ok ex => exact ⟨ex, rfl⟩

namespace RepeatsExample

/-- As `envOpt`; L-BFGS-B goes to its bounds if the start is outside of them.  `j` sets what is drawn. -/
def env (j : Nat) : OptEnv := { envOpt with
  lbfgs := fun _ x _ _ => if x.length = 2 ∧ ∀ y ∈ x, 0 ≤ y ∧ y ≤ 4 then .ask x (fun v => .ask [2, 3] (fun w => if w < v then .done [2, 3] w else .done x v)) else .done [0, 0] 0
  gen := fun k => [((k + j) % 5 : Nat), ((k + j) % 3 : Nat)] }

theorem box {x : List ℚ} : Respects [0, 0] [4, 4] x ↔ x.length = 2 ∧ ∀ y ∈ x, 0 ≤ y ∧ y ≤ 4 := by
  unfold Respects Fits
  constructor
  · rintro ⟨a, b⟩
    refine ⟨a, fun y hy => ?_⟩
    obtain ⟨i, hi⟩ := List.mem_iff_getElem?.1 hy
    have hlt : i < 2 := by
      rw [show (2 : Nat) = x.length from a.symm]
      exact (List.getElem?_eq_some_iff.1 hi).1
    have h2 : i = 0 ∨ i = 1 := by omega
    rcases h2 with rfl | rfl
    · exact b 0 y hi 0 4 rfl rfl
    · exact b 1 y hi 0 4 rfl rfl
  · rintro ⟨a, b⟩
    refine ⟨a, fun i y hy l u hl hu => ?_⟩
    have := b y (List.mem_of_getElem? hy)
    have hlt : i < 2 := (List.getElem?_eq_some_iff.1 hl).1
    have h2 : i = 0 ∨ i = 1 := by omega
    rcases h2 with rfl | rfl
    all_goals
      simp only [List.getElem?_cons_zero, List.getElem?_cons_succ, Option.some.injEq] at hl hu
      subst hl hu
      exact this

theorem sized (j : Nat) : (env j).Sized 2 where
  lbfgs := by
    intro k x lo up
    unfold env
    dsimp only
    split
    · next hx =>
      intro v w
      dsimp only
      split
      · rfl
      · exact hx.1
    · rfl
  pso := fun _ _ _ _ _ => rfl
  cma := fun _ _ _ => rfl
  gen := fun _ => rfl

theorem keeps (j : Nat) : (env j).Keeps 2 where
  lbfgs := by
    intro k x lo up hx
    unfold env
    dsimp only
    split
    · refine ⟨hx, fun v => ⟨rfl, fun w => ?_⟩⟩
      dsimp only
      split
      · rfl
      · exact hx
    · rfl
  pso := fun _ _ _ _ => ⟨rfl, fun _ => rfl⟩

theorem bounded (j : Nat) : (env j).Bounded [0, 0] [4, 4] where
  lbfgs := by
    intro k x
    unfold env
    dsimp only
    split
    · next hx =>
      intro v w
      dsimp only
      split
      · exact box.2 ⟨rfl, by norm_num⟩
      · exact box.2 hx
    · exact box.2 ⟨rfl, by norm_num⟩
  pso := fun _ _ _ => box.2 ⟨rfl, by norm_num⟩
  cma := fun _ => box.2 ⟨rfl, by norm_num⟩
  gen := by
    intro k
    refine box.2 ⟨rfl, ?_⟩
    simp only [env, List.mem_cons, List.not_mem_nil, or_false, forall_eq_or_imp, forall_eq]
    refine ⟨⟨Nat.cast_nonneg _, ?_⟩, Nat.cast_nonneg _, ?_⟩
    · exact_mod_cast (by omega : (k + j) % 5 ≤ 4)
    · exact_mod_cast (by omega : (k + j) % 3 ≤ 4)

theorem descends (j : Nat) : (env j).Descends [0, 0] [4, 4] := by
  intro v k x hx
  have hx' := box.1 hx
  unfold env
  dsimp only
  rw [if_pos hx']
  refine ⟨hx'.1, rfl, ?_⟩
  dsimp only
  split
  · next h => exact le_of_lt h
  · exact le_refl (v x)

theorem extracted : extractToList Fixture.line heapOpt = .ok ([1, 3], [5, 5], [0, 2], [0, 0], [4, 4]) := by decide +kernel

theorem present : ParamsPresent Fixture.line heapOpt := by unfold ParamsPresent heapOpt; decide

theorem extracted0 : extract [] Fixture.line heapOpt = .ok ⟨[], [5, 5], [0, 2]⟩ := by decide +kernel

/-- `C131_lbfgs_ga`: three repeats. -/
example : ∃ rs h', repeats Fixture.line evalOpt .lbfgsGa [env 0, env 1, env 2] heapOpt = .ok (rs, h') ∧ (rs.map (·.2)).Pairwise (· ≥ ·) ∧ rs.length = 3 := by
  have hr : ((repeats Fixture.line evalOpt .lbfgsGa [env 0, env 1, env 2] heapOpt).map (·.1)).isOk := by decide +kernel
  cases h : repeats Fixture.line evalOpt .lbfgsGa [env 0, env 1, env 2] heapOpt with
  | error e => rw [h] at hr; cases hr
  | ok r =>
    obtain ⟨a, -, -, d⟩ := C131_lbfgs_ga present (by decide) extracted (by
      intro e he
      simp only [List.mem_cons, List.not_mem_nil, or_false] at he
      rcases he with rfl | rfl | rfl <;> exact ⟨sized _, bounded _, descends _⟩) h
    exact ⟨r.1, r.2, rfl, a, d⟩

/-- `C131_ga`, `C131_ga_runs`: three repeats. -/
example : ∃ rs h', repeats Fixture.line evalOpt .ga [env 0, env 1, env 2] heapOpt = .ok (rs, h') ∧ (evalOpt heapOpt :: rs.map (·.2)).Pairwise (· ≥ ·) := by
  have hz : ∀ e ∈ [env 0, env 1, env 2], e.Sized 2 := by
    intro e he
    simp only [List.mem_cons, List.not_mem_nil, or_false] at he
    rcases he with rfl | rfl | rfl <;> exact sized _
  obtain ⟨⟨rs, h'⟩, h⟩ := C131_ga_runs (eval := evalOpt) present extracted _ hz
  exact ⟨rs, h', h, (C131_ga present extracted0 hz h).1⟩

/-- `C131_independent`: the second of two repeats with `CHEAP`. -/
example : ∃ r h', parametersOptimize (env 1) Fixture.line heapOpt evalOpt none .cheap heapOpt = .ok (h', r) := by
  have hr : ((repeats Fixture.line evalOpt .cheap [env 0, env 1] heapOpt).map (fun q => q.1.length)) = .ok 2 := by decide +kernel
  cases h : repeats Fixture.line evalOpt .cheap [env 0, env 1] heapOpt with
  | error e => rw [h] at hr; cases hr
  | ok q =>
    obtain ⟨rs, h'⟩ := q
    rw [h] at hr
    have hl : rs.length = 2 := by injection hr
    have hi : rs[1]? = some rs[1] := List.getElem?_eq_getElem _
    exact ⟨_, C131_independent (i := 1) present extracted0 (.inr (.inr rfl)) (by
      intro e he
      simp only [List.mem_cons, List.not_mem_nil, or_false] at he
      rcases he with rfl | rfl <;> exact ⟨sized _, keeps _⟩) h rfl hi⟩

/-- **C131.** Not so with the genetic algorithm and L-BFGS-B: the second of two repeats with the same random numbers returns what it does not return as the first. -/
theorem C131_not_independent : ∃ (e : OptEnv) (g : Graph) (eval : Heap → ℚ) (h : Heap), e.Sized 2 ∧ e.Keeps 2 ∧ e.Bounded [0, 0] [4, 4] ∧ e.Descends [0, 0] [4, 4] ∧ ParamsPresent g h ∧
    (parametersOptimize e g h eval none .lbfgsGa h).map (·.2) = .ok ([1, 2], 1) ∧ (repeats g eval .lbfgsGa [e, e] h).map (·.1) = .ok [([1, 2], 1), ([2, 2], 0)] :=
  ⟨env 0, Fixture.line, evalOpt, heapOpt, sized 0, keeps 0, bounded 0, descends 0, present, by decide +kernel, by decide +kernel⟩

/-- The start, outside of the bounds. -/
def heapOut : Heap := fun m => if m = 5 then ⟨[9, 2, 9], [0, 0, 0], [4, 4, 4], [.float, .float, .float], [none, none, none], [false, true, false], false⟩ else ⟨[], [], [], [], [], [], false⟩

def evalOut (h : Heap) : ℚ := -(h 5).params.sum

/-- `C131_bounds_ignored`. -/
example : ∃ h' x s, parametersOptimize (env 0) Fixture.line heapOut evalOut none .ga heapOut = .ok (h', x, s) ∧ ¬ Respects [0, 0] [4, 4] x := by
  have hex : extractToList Fixture.line heapOut = .ok ([9, 9], [5, 5], [0, 2], [0, 0], [4, 4]) := by decide +kernel
  have hp : ParamsPresent Fixture.line heapOut := by unfold ParamsPresent heapOut; decide
  obtain ⟨⟨h', x, s⟩, h⟩ := ga_runs (eval := evalOut) hp hex (sized 0)
  · refine ⟨h', x, s, h, C131_bounds_ignored hp hex (sized 0) h ?_⟩
    intro y hy hb hd
    obtain ⟨hl, hb⟩ := box.1 hb
    obtain ⟨a, b, rfl⟩ := List.length_eq_two.1 hl
    have ha := (hb a (by simp)).2
    have hb' := (hb b (by simp)).2
    have h1 : (hy 5).params = [a, 2, b] := by
      simp only [distribute] at hd
      injection hd with hd
      rw [← hd]
      rfl
    unfold evalOut
    rw [h1]
    simp only [heapOut, if_true, List.sum_cons, List.sum_nil]
    linarith

end RepeatsExample

end Verif
