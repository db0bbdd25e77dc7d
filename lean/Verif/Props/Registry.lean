import Verif.Lemmas.Registry
/-! # Properties of the operator registries and the evolver objects (C101) -/

namespace Verif

theorem make_get {s : EvSession} {call : EvolverCall} {e : EvolverObj} (h : s.regs.construct call = .ok e) :
    s.exec (.make call) = ({ s with evolvers := s.evolvers ++ [e] }, .ok ()) := by simp only [EvSession.exec, h]

theorem construct_ops {r : Registries} {call : EvolverCall} {e : EvolverObj} (h : r.construct call = .ok e) : e.ops = r.evolution.map (·.2) := by
  unfold Registries.construct at h
  split at h
  · injection h with h; subst h; rfl
  · injection h with h; subst h; rfl
  · injection h with h; subst h; rfl
  · split at h
    · cases h
    · injection h with h; subst h; rfl

/-- **C101.** Whatever a program has done before and does afterwards, an evolver has as its operators those registered when it was constructed: one per class
name, in the order in which the names were first registered, each the class registered last under its name. -/
theorem C101_operators (before later : List EvAct) {call : EvolverCall} (hmade : ((EvSession.start.run before).exec (.make call)).2 = .ok ()) :
    ∃ e, (EvSession.start.run (before ++ .make call :: later)).evolvers[(EvSession.start.run before).evolvers.length]? = some e ∧
      e.ops.map OpClass.name = firsts ((declaredOps before).map OpClass.name) ∧ (∀ c, c ∈ e.ops ↔ LatestOfName (declaredOps before) c) ∧ e.ops.Nodup := by
  rcases hc : (EvSession.start.run before).regs.construct call with err | e
  · simp [EvSession.exec, hc] at hmade
  · have h1 : ((EvSession.start.run before).exec (.make call)).1.evolvers[(EvSession.start.run before).evolvers.length]? = some e := by
      rw [make_get hc]; simp
    obtain ⟨e', h2, -, h3⟩ := run_keep h1 later
    have hnames : e'.ops.map OpClass.name = firsts ((declaredOps before).map OpClass.name) := by
      rw [h3, construct_ops hc, run_regs, List.map_map, ← regOf_keys]
      exact List.map_congr_left fun x hx => ((mem_regOf _ x).1 hx).1.symm
    refine ⟨e', ?_, hnames, fun c => ?_, ?_⟩
    · rw [show before ++ EvAct.make call :: later = before ++ [.make call] ++ later by simp, run_append, run_snoc]; exact h2
    · rw [h3, construct_ops hc, run_regs, List.mem_map]
      constructor
      · rintro ⟨x, hx, rfl⟩; exact ((mem_regOf _ x).1 hx).2
      · intro h; exact ⟨(c.name, c), (mem_regOf _ _).2 ⟨rfl, h⟩, rfl⟩
    · refine List.Nodup.of_map OpClass.name ?_
      rw [hnames, ← regOf_keys]
      exact regOf_nodup _

theorem update_plain {e : EvolverObj} (h : e.sensitive = false) (r : Registries) (gen : Option ℚ) : e.update r gen = (e, .ok ()) := by
  unfold EvolverObj.update; rw [h]

/-- Evolvers of the other two kinds never change. -/
theorem run_plain {s : EvSession} {i : Nat} {e : EvolverObj} (h : s.evolvers[i]? = some e) (hs : e.sensitive = false) (as : List EvAct) :
    (s.run as).evolvers[i]? = some e := by
  induction as using List.reverseRecOn with
  | nil => exact h
  | append_singleton as a ih =>
    obtain ⟨e', h1, -, -, h2⟩ := exec_keep ih a
    rw [run_snoc, h1]
    rcases h2 with rfl | ⟨gen, -, rfl⟩
    · rfl
    · rw [update_plain hs]

/-- **C101.** An operator-based evolver constructed without weights gives each of its operators the same, together 1, whatever happens afterwards. -/
theorem C101_equal_weights (before later : List EvAct) : ∃ e,
    (EvSession.start.run (before ++ .make (.weighted none) :: later)).evolvers[(EvSession.start.run before).evolvers.length]? = some e ∧
      (∀ c ∈ e.ops, e.weight c = .ok (1 / (e.ops.length : ℚ))) ∧ (e.ops ≠ [] → (e.ops.map fun c => (e.weight c).toOption.getD 0).sum = 1) := by
  obtain ⟨e, he⟩ : ∃ e, (EvSession.start.run before).regs.construct (.weighted none) = .ok e := ⟨_, rfl⟩
  have hw : ∀ c ∈ e.ops, e.weight c = .ok (1 / (e.ops.length : ℚ)) := by
    simp only [Registries.construct] at he
    injection he with he
    subst he
    intro c hc
    dsimp only at hc
    show dictGet _ c = .ok (1 / ((List.map (fun x : String × OpClass => x.2) _).length : ℚ))
    rw [List.length_map]
    generalize (1 / ((EvSession.start.run before).regs.evolution.length : ℚ)) = q
    generalize List.map (·.2) (EvSession.start.run before).regs.evolution = l at hc
    induction l using List.reverseRecOn with
    | nil => simp at hc
    | append_singleton l d ih =>
      rw [List.foldl_append]
      simp only [List.foldl_cons, List.foldl_nil]
      rw [dictGet_set]
      split
      · rfl
      · rename_i hd
        exact ih ((List.mem_append.1 hc).resolve_right (by simpa using hd))
  have h1 : ((EvSession.start.run before).exec (.make (.weighted none))).1.evolvers[(EvSession.start.run before).evolvers.length]? = some e := by
    rw [make_get he]; simp
  have hs : e.sensitive = false := by
    simp only [Registries.construct] at he
    injection he with he
    subst he; rfl
  refine ⟨e, ?_, hw, fun hne => ?_⟩
  · rw [show before ++ EvAct.make (.weighted none) :: later = before ++ [.make (.weighted none)] ++ later by simp, run_append, run_snoc]
    exact run_plain h1 hs later
  · rw [List.map_congr_left (g := fun _ => 1 / (e.ops.length : ℚ)) (fun c hc => by rw [hw c hc]; rfl)]
    simp only [List.map_const', List.sum_replicate, nsmul_eq_mul]
    have : (e.ops.length : ℚ) ≠ 0 := by
      intro h
      exact hne (List.length_eq_zero_iff.1 (by exact_mod_cast h))
    field_simp

theorem lastGen_snoc (i : Nat) (as : List EvAct) (a : EvAct) : lastGen i (as ++ [a]) = match a with
    | .update j (some t) => if j = i then some t else lastGen i as
    | _ => lastGen i as := by
  unfold lastGen
  rw [List.filterMap_append]
  rcases a with ⟨ds, c⟩ | call | ⟨j, _ | t⟩
  · simp
  · simp
  · by_cases h : j = i <;> simp [h]
  · by_cases h : j = i <;> simp [h]

/-- **C101.** The weights of a Hessian evolver follow its schedule: as long as no further evolution operator is declared, each operator has the weight its name has
for the generation given last to this evolver, or as constructed if none was given.  (Finding.)  Calls without a generation therefore depend on the calls before them, for whatever
design these were made. -/
theorem C101_schedule (before later : List EvAct) (hk : ∀ c ∈ declaredOps before, KnownOperator c.name) (hno : declaredOps later = []) :
    ((EvSession.start.run before).exec (.make .sensitive)).2 = .ok () ∧
    ∃ e, (EvSession.start.run (before ++ .make .sensitive :: later)).evolvers[(EvSession.start.run before).evolvers.length]? = some e ∧
      ∀ c ∈ e.ops, ∃ p, scheduled (lastGen (EvSession.start.run before).evolvers.length later) c.name = some p ∧ e.weight c = .ok p := by
  obtain ⟨s, hs⟩ : ∃ s, s = EvSession.start.run before := ⟨_, rfl⟩
  have hreg : s.regs.evolution = regOf (declaredOps before) := hs ▸ run_regs before
  have hnm : ∀ x ∈ s.regs.evolution, x.1 = x.2.name := by rw [hreg]; exact fun x hx => ((mem_regOf _ x).1 hx).1
  have hkn : ∀ x ∈ s.regs.evolution, KnownOperator x.1 := by
    intro x hx
    rw [hnm x hx]
    rw [hreg] at hx
    obtain ⟨b, a, h1, -⟩ := ((mem_regOf _ x).1 hx).2
    exact hk _ (by rw [h1]; simp)
  have hget : ∀ (g : Option ℚ) (probs : List (String × ℚ)), (∀ n, dictGet probs n = match scheduled g n with | some p => .ok p | none => .error .keyError) →
      (∀ x ∈ s.regs.evolution, ∃ p, dictGet probs x.1 = .ok p) := by
    intro g probs hp x hx
    obtain ⟨p, h⟩ := (scheduled_known g x.1).1 (hkn x hx)
    exact ⟨p, by rw [hp, h]⟩
  obtain ⟨w1, w2⟩ := setWeights_ok s.regs.evolution [] hnm (hget none _ initial_get)
  have hmk : s.regs.construct .sensitive = .ok ⟨true, s.regs.evolution.map (·.2), (setWeights initialProbs s.regs.evolution []).1⟩ := by
    simp only [Registries.construct]
    split
    · rename_i h; rw [h] at w1; cases w1
    · rename_i h; rw [h]
  rw [← hs]
  refine ⟨by rw [make_get hmk], ?_⟩
  have key : ∀ later : List EvAct, declaredOps later = [] → ∃ e, (s.run (.make .sensitive :: later)).evolvers[s.evolvers.length]? = some e ∧ e.sensitive = true ∧
      e.ops = s.regs.evolution.map (·.2) ∧ (s.run (.make .sensitive :: later)).regs.evolution = s.regs.evolution ∧
      ∀ x ∈ s.regs.evolution, ∃ p, scheduled (lastGen s.evolvers.length later) x.1 = some p ∧ e.weight x.2 = .ok p := by
    intro later hno
    induction later using List.reverseRecOn with
    | nil =>
      refine ⟨⟨true, s.regs.evolution.map (·.2), (setWeights initialProbs s.regs.evolution []).1⟩, ?_, rfl, rfl, ?_, fun x hx => ?_⟩
      · show (s.exec (.make .sensitive)).1.evolvers[s.evolvers.length]? = _
        rw [make_get hmk]; simp
      · show (s.exec (.make .sensitive)).1.regs.evolution = _
        rw [make_get hmk]
      · obtain ⟨p, h⟩ := (scheduled_known none x.1).1 (hkn x hx)
        refine ⟨p, h, ?_⟩
        show dictGet _ x.2 = _
        have hx' : (x.2.name, x.2) ∈ s.regs.evolution := by rw [← hnm x hx]; exact hx
        rw [w2, if_pos hx', ← hnm x hx, initial_get, h]
    | append_singleton later a ih =>
      rw [declaredOps_append, List.append_eq_nil_iff] at hno
      obtain ⟨e, h1, h2, h3, h4, h5⟩ := ih hno.1
      rw [← List.cons_append, run_snoc]
      obtain ⟨e', k1, k2, k3, k4⟩ := exec_keep h1 a
      refine ⟨e', k1, k2.trans h2, k3.trans h3, ?_, fun x hx => ?_⟩
      · rw [exec_regs, hno.2, h4]; rfl
      · rw [lastGen_snoc]
        have hup : ∀ t, e' = (e.update (s.run (.make .sensitive :: later)).regs (some t)).1 → ∃ p, scheduled (some t) x.1 = some p ∧ e'.weight x.2 = .ok p := by
          rintro t rfl
          obtain ⟨p, h⟩ := (scheduled_known (some t) x.1).1 (hkn x hx)
          refine ⟨p, h, ?_⟩
          have hx' : (x.2.name, x.2) ∈ s.regs.evolution := by rw [← hnm x hx]; exact hx
          have := (setWeights_ok s.regs.evolution e.weights hnm (hget (some t) _ (schedule_get t))).2 x.2
          rw [if_pos hx', ← hnm x hx, schedule_get, h] at this
          unfold EvolverObj.update
          rw [h2, h4]
          exact this
        rcases a with ⟨ds, c⟩ | call | ⟨j, _ | t⟩
        · rcases k4 with rfl | ⟨_, h, -⟩
          · exact h5 x hx
          · cases h
        · rcases k4 with rfl | ⟨_, h, -⟩
          · exact h5 x hx
          · cases h
        · rcases k4 with rfl | ⟨_, h, h'⟩
          · exact h5 x hx
          · injection h with _ h; subst h
            have : e' = e := by rw [h']; unfold EvolverObj.update; rw [h2]
            rw [this]; exact h5 x hx
        · dsimp only
          by_cases hj : j = s.evolvers.length
          · rw [if_pos hj]
            subst hj
            refine hup t ?_
            simp only [EvSession.exec, h1] at k1
            rw [List.getElem?_set_self (List.getElem?_eq_some_iff.1 h1).1] at k1
            injection k1 with k1
            exact k1.symm
          · rw [if_neg hj]
            rcases k4 with rfl | ⟨_, h, -⟩
            · exact h5 x hx
            · injection h with h _; exact absurd h hj
  obtain ⟨e, h1, -, h3, -, h5⟩ := key later hno
  refine ⟨e, by rw [run_append, ← hs]; exact h1, fun c hc => ?_⟩
  rw [h3] at hc
  obtain ⟨x, hx, rfl⟩ := List.mem_map.1 hc
  rw [← hnm x hx]
  exact h5 x hx

/-- **C101.** (Finding.)  The Hessian evolver works with exactly the four names it knows: with any other operator registered its constructor raises `KeyError`, and one made before
raises `KeyError` in every call with a generation. -/
theorem C101_unknown (before : List EvAct) :
    (((EvSession.start.run before).exec (.make .sensitive)).2 = .error .keyError ↔ ∃ c ∈ declaredOps before, ¬ KnownOperator c.name) ∧
    ((∃ c ∈ declaredOps before, ¬ KnownOperator c.name) → ∀ (i : Nat) (e : EvolverObj) (t : ℚ), (EvSession.start.run before).evolvers[i]? = some e → e.sensitive = true →
      ((EvSession.start.run before).exec (.update i (some t))).2 = .error .keyError) := by
  have hreg := run_regs before
  have hex : (∃ c ∈ declaredOps before, ¬ KnownOperator c.name) → ∀ (g : Option ℚ) (probs : List (String × ℚ)),
      (∀ n, dictGet probs n = match scheduled g n with | some p => .ok p | none => .error .keyError) →
      ∃ x ∈ (EvSession.start.run before).regs.evolution, dictGet probs x.1 = .error .keyError := by
    rintro ⟨c, hc, hn⟩ g probs hp
    have : c.name ∈ ((EvSession.start.run before).regs.evolution).map (·.1) := by
      rw [hreg, regOf_keys, mem_firsts]; exact List.mem_map_of_mem hc
    obtain ⟨x, hx, h⟩ := List.mem_map.1 this
    exact ⟨x, hx, by rw [h, hp, (scheduled_known g c.name).2 hn]⟩
  refine ⟨⟨fun h => ?_, fun h => ?_⟩, fun h i e t hi hs => ?_⟩
  · by_contra hc
    push Not at hc
    rw [(C101_schedule before [] hc rfl).1] at h
    cases h
  · have := setWeights_raise _ [] (hex h none _ initial_get)
    simp only [EvSession.exec, Registries.construct]
    split
    · rename_i e he
      split at he
      · rename_i h'; rw [h'] at this; injection he with he; rw [← he]; exact this
      · cases he
    · rename_i e he
      split at he
      · cases he
      · rename_i h'; rw [h'] at this; cases this
  · have := setWeights_raise _ e.weights (hex h (some t) _ (schedule_get t))
    simp only [EvSession.exec, hi, EvolverObj.update, hs]
    exact this

/-- **C101.** (Finding.)  If the module with the operators is executed again, or a class of the same name registered, the operators an evolver already has are no longer the registered
classes: the schedule is written for the new ones, and those the evolver draws from keep the weight they had, whatever generations follow. -/
theorem C101_frozen (before later : List EvAct) {i : Nat} {e : EvolverObj} (hi : (EvSession.start.run before).evolvers[i]? = some e) {c : OpClass}
    (hc : ¬ LatestOfName (declaredOps before) c) (hl : c ∉ declaredOps later) :
    ∃ e', (EvSession.start.run (before ++ later)).evolvers[i]? = some e' ∧ e'.ops = e.ops ∧ e'.weight c = e.weight c := by
  induction later using List.reverseRecOn with
  | nil => exact ⟨e, by simpa using hi, rfl, rfl⟩
  | append_singleton later a ih =>
    rw [declaredOps_append, List.mem_append, not_or] at hl
    obtain ⟨e1, h1, h2, h3⟩ := ih hl.1
    rw [← List.append_assoc, run_snoc]
    obtain ⟨e2, k1, k2, k3, k4⟩ := exec_keep h1 a
    refine ⟨e2, k1, k3.trans h2, ?_⟩
    rcases k4 with rfl | ⟨gen, -, rfl⟩
    · exact h3
    · rw [← h3]
      unfold EvolverObj.update
      split
      · refine setWeights_other _ _ fun x hx => ?_
        rw [run_regs] at hx
        obtain ⟨-, b, a', h4, h5⟩ := (mem_regOf _ x).1 hx
        rintro rfl
        -- the latest class of its name among all would be the latest before, or declared later
        rw [declaredOps_append] at h4
        rcases List.append_eq_append_iff.1 h4 with ⟨l, h6, h7⟩ | ⟨l, h6, h7⟩
        · exact hl.1 (by rw [h7]; simp)
        · rcases l with _ | ⟨y, l⟩
          · exact hl.1 (by rw [List.nil_append] at h7; rw [← h7]; simp)
          · rw [List.cons_append] at h7
            injection h7 with h7 h8
            subst h7
            exact hc ⟨b, l, h6, fun d hd => h5 d (by rw [h8]; exact List.mem_append_left _ hd)⟩
      · rfl

/-- **C101.** The repository's operators: all three kinds of evolver can be made after any program that has imported the module once and declared no other, their operators are the
four in the order of the file, and the Hessian evolver's weights are those of C15 for the generation given last. -/
theorem C101_repo (between later : List EvAct) (hb : declaredOps between = []) (hno : declaredOps later = []) :
    ∃ e, (EvSession.start.run (repoOperators ++ between ++ .make .sensitive :: later)).evolvers[(EvSession.start.run (repoOperators ++ between)).evolvers.length]? = some e ∧
      e.ops.map OpClass.name = [Op.addSeries, .addParallel, .remove, .swap].map Op.className ∧
      ∀ c ∈ e.ops, ∀ o, c.name = Op.className o → e.weight c = .ok (match lastGen (EvSession.start.run (repoOperators ++ between)).evolvers.length later with
        | none => if o = .remove then 4 else 1
        | some t => genWeight t o) := by
  have hd : declaredOps (repoOperators ++ between) = [⟨0, "AddSeriesComponent"⟩, ⟨1, "AddParallelComponent"⟩, ⟨2, "RemoveComponent"⟩, ⟨3, "SwapComponent"⟩] := by
    rw [declaredOps_append, hb]; rfl
  obtain ⟨h0, e, h1, h2⟩ := C101_schedule (repoOperators ++ between) later (by rw [hd]; unfold KnownOperator; decide) hno
  obtain ⟨e', h3, h4, h5, -⟩ := C101_operators (repoOperators ++ between) later h0
  rw [h1] at h3; injection h3 with h3; subst h3
  refine ⟨e, h1, ?_, fun c hc o ho => ?_⟩
  · rw [h4, hd]; decide
  · obtain ⟨p, h6, h7⟩ := h2 c hc
    rw [h7]
    rw [ho] at h6
    congr 1
    cases hg : lastGen (EvSession.start.run (repoOperators ++ between)).evolvers.length later <;> rw [hg] at h6 <;> cases o <;>
      simp [scheduled, Op.className] at h6 <;> simp [genWeight, ← h6]

/-! ### Crossover -/

theorem mapM_total {α β : Type} {f : α → Except Err β} {l : List α} (h : ∀ x ∈ l, ∃ y, f x = .ok y) : ∃ ys, l.mapM f = .ok ys ∧ ys.length = l.length ∧
    ∀ (i : Nat) x, l[i]? = some x → ∃ y, ys[i]? = some y ∧ f x = .ok y := by
  induction l with
  | nil => exact ⟨[], rfl, rfl, by simp⟩
  | cons a l ih =>
    obtain ⟨y, hy⟩ := h a List.mem_cons_self
    obtain ⟨ys, h1, h2, h3⟩ := ih fun x hx => h x (List.mem_cons_of_mem _ hx)
    refine ⟨y :: ys, ?_, by simp [h2], fun i x hx => ?_⟩
    · rw [List.mapM_cons, hy]
      simp only [bind, Except.bind]
      rw [h1]; rfl
    · cases i with
      | zero => simp only [List.getElem?_cons_zero, Option.some.injEq] at hx ⊢; subst hx; exact ⟨y, rfl, hy⟩
      | succ i => simpa using h3 i x (by simpa using hx)

/-- **C101.** `crossover_graphs` raises `RuntimeError` if no registered operator accepts the pair; otherwise what it returns was made by one that does, and each of them can
be chosen.  Nothing in the repository registers a crossover operator, so there it always raises. -/
theorem C101_crossover {G : Type} (registered : List (String × OpClass)) (verify : OpClass → Except Err Bool) (hv : ∀ x ∈ registered, ∃ b, verify x.2 = .ok b)
    (apply : OpClass → Except Err (G × G)) :
    ((∀ x ∈ registered, verify x.2 = .ok false) → ∀ pick, crossoverGraphs registered verify apply pick = .error .runtimeError) ∧
    (∀ pick a b c, crossoverGraphs registered verify apply pick = .ok (a, b, c) → (∃ n, (n, c) ∈ registered) ∧ verify c = .ok true ∧ apply c = .ok (a, b)) ∧
    (∀ x ∈ registered, verify x.2 = .ok true → ∃ pick, ∀ a b, apply x.2 = .ok (a, b) → crossoverGraphs registered verify apply pick = .ok (a, b, x.2)) ∧
    ∀ as : List EvAct, (∀ ds c, EvAct.declare ds c ∈ as → RegDeco.crossover ∉ ds) → ∀ pick,
      crossoverGraphs (EvSession.start.run (repoOperators ++ as)).regs.crossover verify apply pick = .error .runtimeError := by
  have hmem : ∀ (l : List (String × OpClass)) (ys : List Bool), ys.length = l.length → (∀ (i : Nat) x, l[i]? = some x → ∃ y, ys[i]? = some y ∧ verify x.2 = .ok y) →
      ∀ c, c ∈ ((ys.zip (l.map (·.2))).filter (·.1)).map (·.2) ↔ ∃ x ∈ l, x.2 = c ∧ verify c = .ok true := by
    intro l ys hlen hys c
    rw [List.mem_map]
    constructor
    · rintro ⟨⟨b, c'⟩, hx, rfl⟩
      obtain ⟨hz, hb⟩ := List.mem_filter.1 hx
      obtain ⟨i, hi⟩ := List.mem_iff_getElem?.1 hz
      rw [List.getElem?_zip_eq_some] at hi
      obtain ⟨h1, h2⟩ := hi
      rw [List.getElem?_map, Option.map_eq_some_iff] at h2
      obtain ⟨x, hx', rfl⟩ := h2
      obtain ⟨y, hy, hv⟩ := hys i x hx'
      dsimp only at h1 hb
      rw [h1] at hy; injection hy with hy; subst hy
      rw [hb] at hv
      exact ⟨x, List.mem_of_getElem? hx', rfl, hv⟩
    · rintro ⟨x, hx, rfl, hv⟩
      obtain ⟨i, hi⟩ := List.mem_iff_getElem?.1 hx
      obtain ⟨y, hy, hv'⟩ := hys i x hi
      rw [hv] at hv'; injection hv' with hv'; subst hv'
      refine ⟨(true, x.2), List.mem_filter.2 ⟨List.mem_iff_getElem?.2 ⟨i, ?_⟩, rfl⟩, rfl⟩
      rw [List.getElem?_zip_eq_some]
      exact ⟨hy, by simp [hi]⟩
  obtain ⟨ys, y1, y2, y3⟩ := mapM_total (f := fun x : String × OpClass => verify x.2) hv
  have hval : ∀ pick, crossoverGraphs registered verify apply pick =
      if (((ys.zip (registered.map (·.2))).filter (·.1)).map (·.2)).length = 0 then .error .runtimeError
      else match (((ys.zip (registered.map (·.2))).filter (·.1)).map (·.2))[pick]? with
        | none => .error .indexError
        | some c => (do let (a, b) ← apply c; .ok (a, b, c)) := by
    intro pick
    unfold crossoverGraphs
    rw [y1]
    rfl
  refine ⟨fun h pick => ?_, fun pick a b c h => ?_, fun x hx hxv => ?_, fun as has pick => ?_⟩
  · rw [hval, if_pos]
    rw [List.length_eq_zero_iff, List.eq_nil_iff_forall_not_mem]
    intro c hc
    obtain ⟨x, hx, rfl, hv'⟩ := (hmem _ _ y2 y3 c).1 hc
    rw [h x hx] at hv'; cases hv'
  · rw [hval] at h
    split at h
    · cases h
    split at h
    · cases h
    rename_i c' hc'
    obtain ⟨x, hx, rfl, hv'⟩ := (hmem _ _ y2 y3 c').1 (List.mem_of_getElem? hc')
    rcases ha : apply x.2 with err | ⟨a', b'⟩
    · rw [ha] at h; cases h
    · rw [ha] at h
      injection h with h; injection h with e1 h; injection h with e2 e3
      subst e1; subst e2; subst e3
      exact ⟨⟨x.1, hx⟩, hv', ha⟩
  · have hm := (hmem _ _ y2 y3 x.2).2 ⟨x, hx, rfl, hxv⟩
    obtain ⟨pick, hp⟩ := List.mem_iff_getElem?.1 hm
    refine ⟨pick, fun a b hab => ?_⟩
    rw [hval, if_neg (by rw [List.length_eq_zero_iff]; exact List.ne_nil_of_mem hm), hp]
    dsimp only
    rw [hab]; rfl
  · have : (EvSession.start.run (repoOperators ++ as)).regs.crossover = [] := by
      rw [run_append]
      have key : ∀ (as : List EvAct) (s : EvSession), (∀ ds c, EvAct.declare ds c ∈ as → RegDeco.crossover ∉ ds) → (s.run as).regs.crossover = s.regs.crossover := by
        intro as
        induction as using List.reverseRecOn with
        | nil => intro s _; rfl
        | append_singleton as a ih =>
          intro s h
          rw [run_snoc, ← ih s fun ds c hc => h ds c (List.mem_append_left _ hc)]
          cases a with
          | declare ds c => exact declare_crossover _ _ _ (h ds c (by simp))
          | make call => simp only [EvSession.exec]; split <;> rfl
          | update i gen => simp only [EvSession.exec]; split <;> rfl
      rw [key as _ has]
      rfl
    rw [this]
    rfl

/-! ### Examples -/

/-- A program: import the operators, make a Hessian evolver, use it in generations 0.1 and 0.5. -/
def evProgram : List EvAct := [.update 0 (some (1 / 10)), .update 0 none, .update 0 (some (1 / 2))]

example := C101_operators repoOperators evProgram (call := .uniform) rfl
example := C101_equal_weights (repoOperators ++ [.make .uniform]) evProgram
example := C101_schedule repoOperators evProgram (by unfold KnownOperator; decide) rfl
example : lastGen 0 evProgram = some (1 / 2) := rfl
example := C101_repo [.make .uniform] evProgram rfl rfl
/-- A fifth operator. -/
example : ((EvSession.start.run (repoOperators ++ [.declare [.evolution] ⟨4, "DuplicateComponent"⟩])).exec (.make .sensitive)).2 = .error .keyError :=
  (C101_unknown _).1.2 ⟨⟨4, "DuplicateComponent"⟩, by decide, by unfold KnownOperator; decide⟩
/-- The module executed again: the removal operator the evolver has keeps the weight of generation 0.1. -/
example : ∃ e, (EvSession.start.run (repoOperators ++ [.make .sensitive, .update 0 (some (1 / 10)), .declare [.reduction, .evolution] ⟨6, "RemoveComponent"⟩] ++
    [.update 0 (some (9 / 10))])).evolvers[0]? = some e ∧ e.weight ⟨2, "RemoveComponent"⟩ = .ok (2 * (1 / 10)) := by
  obtain ⟨e, h1, -, h3⟩ := C101_frozen (repoOperators ++ [.make .sensitive, .update 0 (some (1 / 10)), .declare [.reduction, .evolution] ⟨6, "RemoveComponent"⟩])
    [.update 0 (some (9 / 10))] (i := 0) rfl (c := ⟨2, "RemoveComponent"⟩) (by
      rw [show declaredOps _ = [⟨0, "AddSeriesComponent"⟩, ⟨1, "AddParallelComponent"⟩, ⟨2, "RemoveComponent"⟩, ⟨3, "SwapComponent"⟩] ++ [⟨6, "RemoveComponent"⟩] from rfl, latest_snoc]
      simp) (by decide)
  exact ⟨e, h1, h3.trans rfl⟩
/-- Two crossover operators, the second of which accepts. -/
example := C101_crossover (G := Nat) [("A", ⟨0, "A"⟩), ("B", ⟨1, "B"⟩)] (fun c => .ok (c.cid = 1)) (fun _ _ => ⟨_, rfl⟩) (fun c => .ok (c.cid, 7))

end Verif
