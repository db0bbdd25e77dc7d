import Verif.Spec.Farm
import Verif.Props.Evaluate
/-! # Work distributed over processes (C109) -/

namespace Verif
variable {R E D : Type} {job : Job R E D}

/-! ## Tasks -/

theorem runTasks_spec {I : Proc R → Prop} (e : E) (inputs : List D) (hk : ∀ p d, I p → I (job p e d).1) (sched : List (Nat × Nat)) (ws : Nat → Proc R)
    (hw : ∀ w, I (ws w)) :
    (∀ w, I ((runTasks job e inputs sched ws).1 w)) ∧
    ∀ i d, i ∈ sched.map (·.1) → inputs[i]? = some d → ∃ p, I p ∧ (runTasks job e inputs sched ws).2 i = some (job p e d).2 := by
  induction sched generalizing ws with
  | nil => exact ⟨hw, fun i d h => by simp at h⟩
  | cons x rest ih =>
    obtain ⟨i, w⟩ := x
    rw [runTasks]
    cases hi : inputs[i]? with
    | none =>
      obtain ⟨a, b⟩ := ih ws hw
      refine ⟨a, fun j d hj hd => b j d ?_ hd⟩
      rcases List.mem_cons.1 hj with rfl | hj
      · rw [hi] at hd; exact absurd hd (by simp)
      · exact hj
    | some d0 =>
      have hw' : ∀ v, I (if v = w then (job (ws w) e d0).1 else ws v) := by
        intro v
        split
        · exact hk _ _ (hw w)
        · exact hw v
      obtain ⟨a, b⟩ := ih _ hw'
      refine ⟨a, fun j d hj hd => ?_⟩
      by_cases hji : j = i
      · subst hji
        rw [hi] at hd
        obtain rfl := Option.some.inj hd
        exact ⟨ws w, hw w, by simp⟩
      · have hj' : j ∈ rest.map (·.1) := by
          rcases List.mem_cons.1 hj with h | h
          · exact absurd h hji
          · exact h
        obtain ⟨p, hp, e1⟩ := b j d hj' hd
        exact ⟨p, hp, by simp only [if_neg hji]; exact e1⟩

theorem rayGet_ok {l : List (Option (Except Err D))} {ds : List D} : rayGet l = .ok ds ↔ l = ds.map (fun d => some (.ok d)) := by
  induction l generalizing ds with
  | nil => cases ds <;> simp [rayGet]
  | cons a l ih =>
    cases a with
    | none => cases ds <;> simp [rayGet]
    | some r =>
      cases r with
      | error x => cases ds <;> simp [rayGet]
      | ok d =>
        rw [rayGet]
        cases h : rayGet l with
        | error x =>
          cases ds with
          | nil => simp
          | cons d' ds =>
            have := (ih (ds := ds)).not.1 (by rw [h]; simp)
            simp [this]
        | ok ds' =>
          have hl := ih.1 h
          cases ds with
          | nil => simp
          | cons d' ds =>
            simp only [Except.ok.injEq, List.cons.injEq, List.map_cons, Option.some.injEq]
            constructor
            · rintro ⟨rfl, rfl⟩; exact ⟨rfl, hl⟩
            · rintro ⟨rfl, h2⟩
              refine ⟨rfl, ?_⟩
              have := (ih (ds := ds)).2 h2
              rw [h] at this
              exact Except.ok.inj this

theorem rayGet_error {l : List (Option (Except Err D))} {x : Err} (h : rayGet l = .error x) : some (.error x) ∈ l ∨ none ∈ l := by
  induction l with
  | nil => simp [rayGet] at h
  | cons a l ih =>
    cases a with
    | none => exact Or.inr List.mem_cons_self
    | some r =>
      cases r with
      | error y =>
        simp only [rayGet, Except.error.injEq] at h
        subst h; exact Or.inl List.mem_cons_self
      | ok d =>
        rw [rayGet] at h
        cases hl : rayGet l with
        | error y =>
          rw [hl] at h
          simp only [Except.error.injEq] at h
          subst h
          rcases ih hl with h | h
          · exact Or.inl (List.mem_cons_of_mem _ h)
          · exact Or.inr (List.mem_cons_of_mem _ h)
        | ok ds => rw [hl] at h; simp at h

theorem fetchAll_ok {objs : List D} {ks : List Nat} (h : ∀ k ∈ ks, k < objs.length) :
    ∃ ds, fetchAll objs ks = .ok ds ∧ ds.length = ks.length ∧ ∀ (i k : Nat), ks[i]? = some k → ds[i]? = objs[k]? := by
  induction ks with
  | nil => exact ⟨[], rfl, rfl, fun i k h => by simp at h⟩
  | cons k ks ih =>
    obtain ⟨ds, e, hl, hg⟩ := ih (fun j hj => h j (List.mem_cons_of_mem _ hj))
    have hk := h k List.mem_cons_self
    have e1 : objs[k]? = some objs[k] := List.getElem?_eq_getElem hk
    refine ⟨objs[k] :: ds, by simp only [fetchAll, e1, e], by simp [hl], fun i j hj => ?_⟩
    cases i with
    | zero => simp only [List.getElem?_cons_zero, Option.some.injEq] at hj ⊢; subst hj; exact e1.symm
    | succ i => simp only [List.getElem?_cons_succ] at hj ⊢; exact hg i j hj

/-! ## One batch -/

/-- `ray.get` of a list of tasks, whatever the distribution over workers and the order of execution.  Results come in the order of the individuals.  Each is what the job makes, in some process, of the individual
as it was, with evaluator and propagator as they were put; what holds of all worker processes and is kept by the job holds of that process (and of all workers afterwards).  The individuals
returned are new objects, all different; those the script held before are unchanged, and so is its own process.  If any task fails one of the exceptions is raised, and nothing is
returned. -/
theorem C109_batch {I : Proc R → Prop} {s : Farm R E D} {e : E} {ks : List Nat} {sched : List (Nat × Nat)} (hs : s.stored = some e) (hks : ∀ k ∈ ks, k < s.objs.length)
    (hc : Covers sched ks.length) (hw : ∀ w, I (s.workers w)) (hk : ∀ p d, I p → I (job p e d).1) :
    ∃ p : Nat → Proc R, (∀ i, I (p i)) ∧ (∀ w, I ((s.step job (.farm ks sched)).1.workers w)) ∧
      (s.step job (.farm ks sched)).1.driver = s.driver ∧ (s.step job (.farm ks sched)).1.own = s.own ∧ (s.step job (.farm ks sched)).1.stored = s.stored ∧
      ((∃ ds, (s.step job (.farm ks sched)).2 = .ok ((List.range ks.length).map (s.objs.length + ·)) ∧ (s.step job (.farm ks sched)).1.objs = s.objs ++ ds ∧ ds.length = ks.length ∧
          ∀ i k, ks[i]? = some k → ∃ d d', s.objs[k]? = some d ∧ ds[i]? = some d' ∧ (job (p i) e d).2 = .ok d') ∨
       (∃ x i k d, (s.step job (.farm ks sched)).2 = .error x ∧ (s.step job (.farm ks sched)).1.objs = s.objs ∧ ks[i]? = some k ∧ s.objs[k]? = some d ∧ (job (p i) e d).2 = .error x)) := by
  obtain ⟨inputs, ef, hl, hg⟩ := fetchAll_ok hks
  obtain ⟨ha, hb⟩ := runTasks_spec (job := job) e inputs hk sched s.workers hw
  have hmem : ∀ i, i < ks.length → i ∈ sched.map (·.1) := fun i hi => hc.mem_iff.2 (List.mem_range.2 hi)
  have hex : ∀ i, ∃ p, I p ∧ ∀ d, i < ks.length → inputs[i]? = some d → (runTasks job e inputs sched s.workers).2 i = some (job p e d).2 := by
    intro i
    by_cases hi : i < ks.length
    · have hi' : i < inputs.length := by omega
      obtain ⟨p, hp, e1⟩ := hb i inputs[i] (hmem i hi) (List.getElem?_eq_getElem hi')
      refine ⟨p, hp, fun d _ hd => ?_⟩
      rw [List.getElem?_eq_getElem hi'] at hd
      rw [← Option.some.inj hd]
      exact e1
    · exact ⟨s.workers 0, hw 0, fun d h => absurd h hi⟩
  choose p hp hpe using hex
  have hstep : s.step job (.farm ks sched) = match rayGet ((List.range inputs.length).map (runTasks job e inputs sched s.workers).2) with
      | .error x => ({ s with workers := (runTasks job e inputs sched s.workers).1 }, .error x)
      | .ok ds' => ({ s with workers := (runTasks job e inputs sched s.workers).1, objs := s.objs ++ ds' }, .ok ((List.range ds'.length).map (s.objs.length + ·))) := by
    simp only [Farm.step, hs, ef]
    cases rayGet ((List.range inputs.length).map (runTasks job e inputs sched s.workers).2) <;> rfl
  refine ⟨p, hp, ?_⟩
  rw [hstep]
  cases hgather : rayGet ((List.range inputs.length).map (runTasks job e inputs sched s.workers).2) with
  | error x =>
    refine ⟨ha, rfl, rfl, rfl, Or.inr ?_⟩
    have : ∃ i, i < ks.length ∧ (runTasks job e inputs sched s.workers).2 i = some (.error x) := by
      rcases rayGet_error hgather with h | h
      · obtain ⟨i, hi, e1⟩ := List.mem_map.1 h
        exact ⟨i, by rw [← hl]; exact List.mem_range.1 hi, e1⟩
      · obtain ⟨i, hi, e1⟩ := List.mem_map.1 h
        have hi' : i < inputs.length := List.mem_range.1 hi
        have := hpe i inputs[i] (by omega) (List.getElem?_eq_getElem hi')
        rw [e1] at this
        exact absurd this (by simp)
    obtain ⟨i, hi, e1⟩ := this
    have hi' : i < inputs.length := by omega
    have e2 := hpe i inputs[i] hi (List.getElem?_eq_getElem hi')
    rw [e1] at e2
    exact ⟨x, i, ks[i], inputs[i], rfl, rfl, List.getElem?_eq_getElem hi, by rw [← hg i ks[i] (List.getElem?_eq_getElem hi)]; exact List.getElem?_eq_getElem hi', (Option.some.inj e2).symm⟩
  | ok ds =>
    have hds := rayGet_ok.1 hgather
    have hdl : ds.length = ks.length := by
      have := congrArg List.length hds
      simp only [List.length_map, List.length_range] at this
      omega
    refine ⟨ha, rfl, rfl, rfl, Or.inl ⟨ds, by simp only; rw [hdl], rfl, hdl, fun i k hik => ?_⟩⟩
    have hi : i < ks.length := (List.getElem?_eq_some_iff.1 hik).1
    have hi' : i < inputs.length := by omega
    have hid : i < ds.length := by omega
    refine ⟨inputs[i], ds[i], by rw [← hg i k hik]; exact List.getElem?_eq_getElem hi', List.getElem?_eq_getElem hid, ?_⟩
    have e2 := hpe i inputs[i] hi (List.getElem?_eq_getElem hi')
    have e3 := congrArg (fun l => l[i]?) hds
    simp only [List.getElem?_map, List.getElem?_range hi', Option.map_some, List.getElem?_eq_getElem hid] at e3
    rw [e2] at e3
    exact Option.some.inj (Option.some.inj e3)

/-- If the outcome of the job does not depend on the process it runs in, it does not matter how many workers there are, what they did before, which runs what and when, nor what is set in
the script's process: the same individuals or the same exception come back. -/
theorem C109_schedule (hb : job.Blind) {s s' : Farm R E D} {e : E} {ks : List Nat} {sched sched' : List (Nat × Nat)} (hs : s.stored = some e) (hs' : s'.stored = some e) (ho : s'.objs = s.objs)
    (hks : ∀ k ∈ ks, k < s.objs.length) (hc : Covers sched ks.length) (hc' : Covers sched' ks.length) :
    (s'.step job (.farm ks sched')).2 = (s.step job (.farm ks sched)).2 ∧ (s'.step job (.farm ks sched')).1.objs = (s.step job (.farm ks sched)).1.objs := by
  obtain ⟨inputs, ef, hl, hg⟩ := fetchAll_ok hks
  have key : ∀ (sched : List (Nat × Nat)) (ws : Nat → Proc R) (p0 : Proc R), Covers sched ks.length →
      (List.range inputs.length).map (runTasks job e inputs sched ws).2 = inputs.map (fun d => some (job p0 e d).2) := by
    intro sched ws p0 hc
    obtain ⟨-, hb'⟩ := runTasks_spec (job := job) (I := fun _ => True) e inputs (fun _ _ _ => trivial) sched ws (fun _ => trivial)
    refine List.ext_getElem? (fun i => ?_)
    by_cases hi : i < inputs.length
    · obtain ⟨p, -, e1⟩ := hb' i inputs[i] (hc.mem_iff.2 (List.mem_range.2 (by omega))) (List.getElem?_eq_getElem hi)
      simp only [List.getElem?_map, List.getElem?_range hi, Option.map_some, List.getElem?_eq_getElem hi, e1]
      rw [hb p p0]
    · simp [hi]
  have h1 := key sched s.workers s.driver hc
  have h2 := key sched' s'.workers s.driver hc'
  simp only [Farm.step, hs, hs', ho, ef, h1, h2]
  cases rayGet (inputs.map (fun d => some (job s.driver e d).2)) <;> exact ⟨rfl, rfl⟩

/-! ## Histories -/

theorem farm_workers {I : Proc R → Prop} {Q : E → Prop} (hk : ∀ p e d, Q e → I p → I (job p e d).1) {s : Farm R E D} (hw : ∀ w, I (s.workers w)) (hq : ∀ e, s.stored = some e → Q e)
    (o : FarmOp R E D) : ∀ w, I ((s.step job o).1.workers w) := by
  cases o with
  | farm ks sched =>
    simp only [Farm.step]
    cases hs : s.stored with
    | none => exact hw
    | some e =>
      simp only
      cases fetchAll s.objs ks with
      | error x => exact hw
      | ok ds =>
        have := (runTasks_spec (job := job) e ds (fun p d => hk p e d (hq e hs)) sched s.workers hw).1
        simp only
        split <;> exact this
  | here k =>
    simp only [Farm.step]
    split
    · exact hw
    · split <;> exact hw
  | setSwitch b => exact hw
  | seed r => exact hw
  | alter e => exact hw
  | make d => exact hw
  | put => exact hw

theorem farm_run_workers {I : Proc R → Prop} (hk : ∀ p e d, I p → I (job p e d).1) (ops : List (FarmOp R E D)) {s : Farm R E D} (hw : ∀ w, I (s.workers w)) :
    ∀ w, I ((s.run job ops).workers w) := by
  induction ops generalizing s with
  | nil => exact hw
  | cons o ops ih => exact ih (farm_workers (Q := fun _ => True) (fun p e d _ => hk p e d) hw (fun _ _ => trivial) o)

/-- Finding: the noise switch set by a script does not reach the workers.  If the job leaves noise on where it was on, then after any history, whatever the script has set, every individual
that comes back from the workers was made in a process with the noise switched on. -/
theorem C109_switch (hk : ∀ p e d, p.switch = true → (job p e d).1.switch = true) (driver : Proc R) (e0 : E) (boot : Nat → R) (ops : List (FarmOp R E D))
    {e : E} {ks : List Nat} {sched : List (Nat × Nat)} {refs : List Nat} (hs : ((Farm.start driver e0 boot).run job ops).stored = some e)
    (hks : ∀ k ∈ ks, k < ((Farm.start driver e0 boot).run job ops).objs.length) (hc : Covers sched ks.length)
    (hr : (((Farm.start driver e0 boot).run job ops).step job (.farm ks sched)).2 = .ok refs) :
    ∀ i k : Nat, ks[i]? = some k → ∃ (ref : Nat) (d d' : D) (r : R), refs[i]? = some ref ∧ ((Farm.start driver e0 boot).run job ops).objs[k]? = some d ∧
      (((Farm.start driver e0 boot).run job ops).step job (.farm ks sched)).1.objs[ref]? = some d' ∧ (job ⟨true, r⟩ e d).2 = .ok d' := by
  have hw := farm_run_workers (job := job) (I := fun p => p.switch = true) hk ops (s := Farm.start driver e0 boot) (fun _ => rfl)
  obtain ⟨p, hp, -, -, -, -, h | h⟩ := C109_batch (job := job) hs hks hc hw (fun p d => hk p e d)
  · obtain ⟨ds, e1, e2, e3, e4⟩ := h
    intro i k hik
    obtain ⟨d, d', f1, f2, f3⟩ := e4 i k hik
    have hi : i < ks.length := (List.getElem?_eq_some_iff.1 hik).1
    rw [hr] at e1
    refine ⟨((Farm.start driver e0 boot).run job ops).objs.length + i, d, d', (p i).rng, ?_, f1, ?_, ?_⟩
    · rw [Except.ok.inj e1]
      simp [hi]
    · rw [e2, List.getElem?_append_right (by omega)]
      simpa using f2
    · have : (⟨true, (p i).rng⟩ : Proc R) = p i := by
        have := hp i
        cases h : p i with
        | mk b r => rw [h] at this; simp only at this; rw [this]
      rw [this]; exact f3
  · obtain ⟨x, i, k, d, e1, -⟩ := h
    rw [hr] at e1
    exact absurd e1 (by simp)

/-- Nothing a script does to the modules of its own process, be it the noise switch or the seeds, reaches the workers: two scripts that differ in such statements only (and never call the
optimisation in their own process) have the same individuals and workers, so that the next batch is the same. -/
theorem C109_driver (driver driver' : Proc R) (e0 : E) (boot : Nat → R) (ops ops' : List (FarmOp R E D)) (h : ops.filter (fun o => !o.isDriver) = ops'.filter (fun o => !o.isDriver))
    (hh : ∀ o ∈ ops, o.isHere = false) :
    ((Farm.start driver e0 boot).run job ops).objs = ((Farm.start driver' e0 boot).run job ops').objs ∧
    ((Farm.start driver e0 boot).run job ops).workers = ((Farm.start driver' e0 boot).run job ops').workers ∧
    (∀ o, o.isHere = false → (((Farm.start driver e0 boot).run job ops).step job o).2 = (((Farm.start driver' e0 boot).run job ops').step job o).2) := by
  have hstep : ∀ (s s' : Farm R E D) (o : FarmOp R E D), s.own = s'.own → s.stored = s'.stored → s.workers = s'.workers → s.objs = s'.objs → o.isHere = false →
      ((s.step job o).1.own = (s'.step job o).1.own ∧ (s.step job o).1.stored = (s'.step job o).1.stored ∧ (s.step job o).1.workers = (s'.step job o).1.workers ∧
      (s.step job o).1.objs = (s'.step job o).1.objs) ∧ (s.step job o).2 = (s'.step job o).2 := by
    rintro ⟨a, b, c, d, f⟩ ⟨a', b', c', d', f'⟩ o rfl rfl rfl rfl ho
    cases o with
    | here k => simp [FarmOp.isHere] at ho
    | farm ks sched =>
      simp only [Farm.step]
      cases c with
      | none => exact ⟨⟨rfl, rfl, rfl, rfl⟩, rfl⟩
      | some e =>
        simp only
        cases fetchAll f ks with
        | error x => exact ⟨⟨rfl, rfl, rfl, rfl⟩, rfl⟩
        | ok ds =>
          simp only
          split <;> exact ⟨⟨rfl, rfl, rfl, rfl⟩, rfl⟩
    | setSwitch b => exact ⟨⟨rfl, rfl, rfl, rfl⟩, rfl⟩
    | seed r => exact ⟨⟨rfl, rfl, rfl, rfl⟩, rfl⟩
    | alter e => exact ⟨⟨rfl, rfl, rfl, rfl⟩, rfl⟩
    | make d => exact ⟨⟨rfl, rfl, rfl, rfl⟩, rfl⟩
    | put => exact ⟨⟨rfl, rfl, rfl, rfl⟩, rfl⟩
  have hskip : ∀ (s : Farm R E D) (o : FarmOp R E D), o.isDriver = true →
      (s.step job o).1.own = s.own ∧ (s.step job o).1.stored = s.stored ∧ (s.step job o).1.workers = s.workers ∧ (s.step job o).1.objs = s.objs := by
    intro s o ho
    cases o <;> simp [FarmOp.isDriver] at ho <;> exact ⟨rfl, rfl, rfl, rfl⟩
  have hfil : ∀ (ops : List (FarmOp R E D)) (s s' : Farm R E D), s.own = s'.own → s.stored = s'.stored → s.workers = s'.workers → s.objs = s'.objs →
      (∀ o ∈ ops.filter (fun o => !o.isDriver), o.isHere = false) →
      (s.run job ops).own = (s'.run job (ops.filter (fun o => !o.isDriver))).own ∧ (s.run job ops).stored = (s'.run job (ops.filter (fun o => !o.isDriver))).stored ∧
      (s.run job ops).workers = (s'.run job (ops.filter (fun o => !o.isDriver))).workers ∧ (s.run job ops).objs = (s'.run job (ops.filter (fun o => !o.isDriver))).objs := by
    intro ops
    induction ops with
    | nil => intro s s' h1 h2 h3 h4 _; exact ⟨h1, h2, h3, h4⟩
    | cons o ops ih =>
      intro s s' h1 h2 h3 h4 hf
      by_cases ho : o.isDriver = true
      · rw [List.filter_cons_of_neg (by simp [ho])] at hf ⊢
        obtain ⟨k1, k2, k3, k4⟩ := hskip s o ho
        exact ih _ _ (k1.trans h1) (k2.trans h2) (k3.trans h3) (k4.trans h4) hf
      · rw [List.filter_cons_of_pos (by simp [ho])] at hf ⊢
        obtain ⟨⟨k1, k2, k3, k4⟩, -⟩ := hstep s s' o h1 h2 h3 h4 (hf o List.mem_cons_self)
        exact ih _ _ k1 k2 k3 k4 (fun o' ho' => hf o' (List.mem_cons_of_mem _ ho'))
  have hf : ∀ o ∈ ops.filter (fun o => !o.isDriver), o.isHere = false := fun o ho => hh o (List.mem_filter.1 ho).1
  obtain ⟨a1, a2, a3, a4⟩ := hfil ops (Farm.start driver e0 boot) (Farm.start driver e0 boot) rfl rfl rfl rfl hf
  obtain ⟨b1, b2, b3, b4⟩ := hfil ops' (Farm.start driver' e0 boot) (Farm.start driver e0 boot) rfl rfl rfl rfl (h ▸ hf)
  rw [← h] at b1 b2 b3 b4
  exact ⟨a4.trans b4.symm, a3.trans b3.symm, fun o ho => (hstep _ _ o (a1.trans b1.symm) (a2.trans b2.symm) (a3.trans b3.symm) (a4.trans b4.symm) ho).2⟩

/-- Finding: seeding the generators in the script (`scripts/compare_evolvers.py:53-54`, `scripts/benchmark_elitism.py:50-51`) does not make a run repeatable: for every job whose outcome depends on the generator, there are workers
with which the same script, with the same seeds, gets different individuals. -/
theorem C109_seed {r r' : R} {e : E} {d d1 d2 : D} (h1 : (job ⟨true, r⟩ e d).2 = .ok d1) (h2 : (job ⟨true, r'⟩ e d).2 = .ok d2) (hne : d1 ≠ d2) :
    ∃ boot boot' : Nat → R, ∀ (driver : Proc R) (seed : R),
      ((Farm.start driver e boot).run job [.seed seed, .make d, .put, .farm [0] [(0, 0)]]).objs = [d, d1] ∧
      ((Farm.start driver e boot').run job [.seed seed, .make d, .put, .farm [0] [(0, 0)]]).objs = [d, d2] ∧ [d, d1] ≠ [d, d2] := by
  refine ⟨fun _ => r, fun _ => r', fun driver seed => ⟨?_, ?_, by simpa using hne⟩⟩
  · simp [Farm.run, Farm.step, Farm.start, fetchAll, runTasks, rayGet, Proc.boot, h1]
  · simp [Farm.run, Farm.step, Farm.start, fetchAll, runTasks, rayGet, Proc.boot, h2]

/-- Evaluator and propagator reach the tasks as they were at the last `ray.put`, whatever is done to them later. -/
theorem C109_store (s : Farm R E D) (before after : List (FarmOp R E D)) (h : ∀ o ∈ after, o.isPut = false) :
    (s.run job (before ++ .put :: after)).stored = some (s.run job before).own := by
  have key : ∀ (ops : List (FarmOp R E D)) (s : Farm R E D), (∀ o ∈ ops, o.isPut = false) → (s.run job ops).stored = s.stored := by
    intro ops
    induction ops with
    | nil => intro s _; rfl
    | cons o ops ih =>
      intro s ho
      show ((s.step job o).1.run job ops).stored = _
      rw [ih _ (fun x hx => ho x (List.mem_cons_of_mem _ hx))]
      have := ho o List.mem_cons_self
      cases o with
      | put => simp [FarmOp.isPut] at this
      | here k =>
        simp only [Farm.step]
        split
        · rfl
        · split <;> rfl
      | farm ks sched =>
        simp only [Farm.step]
        cases hs : s.stored with
        | none => exact hs
        | some e =>
          simp only
          cases fetchAll s.objs ks with
          | error x => exact hs
          | ok ds =>
            simp only
            split <;> rfl
      | setSwitch b => rfl
      | seed r => rfl
      | alter e => rfl
      | make d => rfl
  have : s.run job (before ++ .put :: after) = (((s.run job before).step job .put).1).run job after := by
    unfold Farm.run
    rw [List.foldl_append, List.foldl_cons]
  rw [this, key after _ h]
  rfl

/-! ## Designs without free parameters -/

section
variable {n : Nat} {B : Sim n} {inp : Signal n}

theorem evaluate_flag {g : Graph} {ev : Evaluator n} (w : Session n) (h : ¬ ev.IsSnr) : (evaluate g B inp ev w).1.flag = w.flag := by
  have hf : ∀ (k : Key) (w : Session n), (w.run g B inp k).1.flag = w.flag := fun k w => Session.run_frame.2
  unfold evaluate
  cases ev with
  | plain k score =>
    have := hf k w
    simp only
    cases hr : w.run g B inp k with
    | mk w1 r => rw [hr] at this; cases r <;> exact this
  | atOutput score =>
    simp only
    cases outputNode g with
    | error e => rfl
    | ok v =>
      have := hf (.node v) w
      simp only
      cases hr : w.run g B inp (.node v) with
      | mk w1 r => rw [hr] at this; cases r <;> exact this
  | timeLens k score =>
    have := hf (.edge ⟨0, 1, 0⟩) w
    simp only
    cases hr : w.run g B inp (.edge ⟨0, 1, 0⟩) with
    | mk w1 r =>
      rw [hr] at this
      cases r with
      | error e => exact this
      | ok s => simp only; cases w1.measure k <;> exact this
  | stored k score =>
    simp only
    cases w.measure k <;> rfl
  | snr k => exact absurd trivial h
  | phase cls k =>
    simp only
    split
    · next e he =>
      cases w.params e.comp.uid with
      | nil => rfl
      | cons φ ps =>
        simp only
        have : (phaseMean g B inp k e.comp.uid w φ).1.flag = w.flag := by
          unfold phaseMean
          have := hf k (w.setParams e.comp.uid [φ])
          cases hr : (w.setParams e.comp.uid [φ]).run g B inp k with
          | mk w1 r => rw [hr] at this; cases r <;> exact this
        cases hr : phaseMean g B inp k e.comp.uid w φ with
        | mk w1 r => rw [hr] at this; cases r <;> exact this
    · rfl
  | second cls m1 m2 k =>
    simp only
    split
    · rfl
    · split
      · next φ1 _ φ2 _ _ _ =>
        have : (phaseMeanBoth g B inp k m1 m2 w φ1 φ2).1.flag = w.flag := by
          unfold phaseMeanBoth
          have := hf k ((w.setParams m1 [φ1]).setParams m2 [φ2])
          cases hr : ((w.setParams m1 [φ1]).setParams m2 [φ2]).run g B inp k with
          | mk w1 r => rw [hr] at this; cases r <;> exact this
        cases hr : phaseMeanBoth g B inp k m1 m2 w φ1 φ2 with
        | mk w1 r => rw [hr] at this; cases r <;> exact this
      · rfl

theorem evalJob_switch (p : Proc R) {ev : Evaluator n} (d : Fixed) (h : ¬ ev.IsSnr) : (evalJob B inp p ev d).1.switch = p.switch := by
  have : (propagateAndEvaluate d.graph B inp ev ⟨d.params, p.switch, Store.empty⟩).1.flag = p.switch := by
    unfold propagateAndEvaluate Session.propagate
    cases Verif.propagate d.graph (B p.switch d.params) inp Store.empty with
    | error e => rfl
    | ok st => exact evaluate_flag _ h
  unfold evalJob
  cases hr : propagateAndEvaluate d.graph B inp ev ⟨d.params, p.switch, Store.empty⟩ with
  | mk w1 r => rw [hr] at this; cases r <;> exact this

theorem evalJob_score (p : Proc R) (ev : Evaluator n) (d d' : Fixed) (h : (evalJob B inp p ev d).2 = .ok d') : ∃ v, d'.score = some v ∧ d'.graph = d.graph ∧ scoreAt B inp p.switch ev d = .ok v := by
  unfold evalJob at h
  unfold scoreAt
  cases hr : propagateAndEvaluate d.graph B inp ev ⟨d.params, p.switch, Store.empty⟩ with
  | mk w1 r =>
    rw [hr] at h
    cases r with
    | error e => simp at h
    | ok v =>
      simp only [Except.ok.injEq] at h
      subst h
      exact ⟨v, rfl, rfl, rfl⟩

theorem farm_noSnr {ops : List (FarmOp R (Evaluator n) Fixed)} (ho : ∀ o ∈ ops, o.NoSnr) : ∀ {s : Farm R (Evaluator n) Fixed}, ¬ s.own.IsSnr → (∀ e, s.stored = some e → ¬ e.IsSnr) →
    (∀ w, (s.workers w).switch = true) →
    (∀ e, (s.run (evalJob B inp) ops).stored = some e → ¬ e.IsSnr) ∧ ∀ w, ((s.run (evalJob B inp) ops).workers w).switch = true := by
  induction ops with
  | nil => intro s _ h2 h3; exact ⟨h2, h3⟩
  | cons o ops ih =>
    intro s h1 h2 h3
    have h3' := farm_workers (job := evalJob B inp) (I := fun p => p.switch = true) (Q := fun e => ¬ e.IsSnr) (fun p e d hq hp => (evalJob_switch p d hq).trans hp) h3 h2 o
    have h12 : ¬ (s.step (evalJob B inp) o).1.own.IsSnr ∧ ∀ e, (s.step (evalJob B inp) o).1.stored = some e → ¬ e.IsSnr := by
      have hon := ho o List.mem_cons_self
      cases o with
      | alter e => exact ⟨hon, h2⟩
      | put => exact ⟨h1, fun e he => by obtain rfl := Option.some.inj he; exact h1⟩
      | here k =>
        simp only [Farm.step]
        split
        · exact ⟨h1, h2⟩
        · split <;> exact ⟨h1, h2⟩
      | farm ks sched =>
        simp only [Farm.step]
        cases hs : s.stored with
        | none => exact ⟨h1, h2⟩
        | some e =>
          rw [hs] at h2
          simp only
          cases fetchAll s.objs ks with
          | error x => exact ⟨h1, fun e' he => h2 e' (hs ▸ he)⟩
          | ok ds =>
            simp only
            split <;> exact ⟨h1, h2⟩
      | setSwitch b => exact ⟨h1, h2⟩
      | seed r => exact ⟨h1, h2⟩
      | make d => exact ⟨h1, h2⟩
    exact ih (fun o' h => ho o' (List.mem_cons_of_mem _ h)) h12.1 h12.2 h3'

/-- Finding: scores that come from the workers are scores with noise.  For designs without free parameters, and as long as no signal-to-noise evaluator is used, the score of every individual that comes back is the one
with the noise switched on, whatever the script has set `AdditiveNoise.simulate_with_noise` to, and when. -/
theorem C109_noise (driver : Proc R) {e0 : Evaluator n} (boot : Nat → R) {ops : List (FarmOp R (Evaluator n) Fixed)} (h0 : ¬ e0.IsSnr) (ho : ∀ o ∈ ops, o.NoSnr)
    {s : Farm R (Evaluator n) Fixed} (hrun : s = (Farm.start driver e0 boot).run (evalJob B inp) ops)
    {e : Evaluator n} {ks : List Nat} {sched : List (Nat × Nat)} {refs : List Nat} (hs : s.stored = some e) (hks : ∀ k ∈ ks, k < s.objs.length) (hc : Covers sched ks.length)
    (hr : (s.step (evalJob B inp) (.farm ks sched)).2 = .ok refs) :
    ∀ i k : Nat, ks[i]? = some k → ∃ (ref : Nat) (d d' : Fixed) (v : ℝ), refs[i]? = some ref ∧ s.objs[k]? = some d ∧ (s.step (evalJob B inp) (.farm ks sched)).1.objs[ref]? = some d' ∧
      d'.graph = d.graph ∧ d'.score = some v ∧ scoreAt B inp true e d = .ok v := by
  obtain ⟨hq, hw⟩ := farm_noSnr (B := B) (inp := inp) ho (s := Farm.start driver e0 boot) h0 (fun e he => by simp [Farm.start] at he) (fun _ => rfl)
  rw [← hrun] at hq hw
  obtain ⟨p, hp, -, -, -, -, h | h⟩ := C109_batch (job := evalJob B inp) (I := fun p => p.switch = true) hs hks hc hw (fun p d hp => (evalJob_switch p d (hq e hs)).trans hp)
  · obtain ⟨ds, e1, e2, e3, e4⟩ := h
    intro i k hik
    obtain ⟨d, d', f1, f2, f3⟩ := e4 i k hik
    have hi : i < ks.length := (List.getElem?_eq_some_iff.1 hik).1
    rw [hr] at e1
    obtain ⟨v, g1, g2, g3⟩ := evalJob_score (p i) e d d' f3
    rw [hp i] at g3
    refine ⟨s.objs.length + i, d, d', v, ?_, f1, ?_, g2, g1, g3⟩
    · rw [Except.ok.inj e1]
      simp [hi]
    · rw [e2, List.getElem?_append_right (by omega)]
      simpa using f2
  · obtain ⟨x, i, k, d, e1, -⟩ := h
    rw [hr] at e1
    exact absurd e1 (by simp)

end

/-! ## Cases -/

namespace ToyFarm

/-- The phase shifter of `Toy`, set to 2, not yet evaluated. -/
noncomputable def d0 : Fixed := ⟨fun _ => [2], Toy.g, none⟩

/-- The real part of the state at the detector. -/
noncomputable def real : Evaluator 1 := .plain (.node 1) (fun s => .ok (s 0).re)

theorem real_score (b : Bool) (d : Fixed) (hp : d.params = d0.params) (hg : d.graph = d0.graph) (r : Unit) :
    evalJob Toy.sim Toy.one ⟨b, r⟩ real d = (⟨b, r⟩, .ok ⟨d.params, d.graph, some (if b then 3 else 2)⟩) := by
  obtain ⟨pp, gg, ss⟩ := d
  simp only at hp hg
  subst hp; subst hg
  have ho : Toy.g.topoSort = .ok [0, 1] := by decide +kernel
  have : ∃ st, propagateAndEvaluate Toy.g Toy.sim Toy.one real ⟨d0.params, b, Store.empty⟩ = (⟨d0.params, b, st⟩, .ok (if b then 3 else 2)) := by
    unfold propagateAndEvaluate evaluate real Session.run Session.propagate Verif.propagate
    simp only [ho]
    cases b
    · refine ⟨_, Prod.ext rfl ?_⟩
      have : (if false then (3 : ℝ) else 2) = ((([2] : List ℝ).headD 0 : ℝ) * Toy.one 0).re := by simp [Toy.one]
      rw [this]
      rfl
    · refine ⟨_, Prod.ext rfl ?_⟩
      have : (if true then (3 : ℝ) else 2) = ((([2] : List ℝ).headD 0 : ℝ) * Toy.one 0 + 1).re := by norm_num [Toy.one]
      rw [this]
      rfl
  obtain ⟨st, h⟩ := this
  unfold evalJob
  simp only [show d0.graph = Toy.g from rfl, h]

theorem snr_fails (d : Fixed) (hp : d.params = d0.params) (hg : d.graph = d0.graph) (b : Bool) (r : Unit) :
    evalJob Toy.sim Toy.one ⟨b, r⟩ (.snr (.node 99)) d = (⟨false, r⟩, .error .keyError) := by
  obtain ⟨pp, gg, ss⟩ := d
  simp only at hp hg
  subst hp; subst hg
  have ho : Toy.g.topoSort = .ok [0, 1] := by decide +kernel
  have : ∃ st, propagateAndEvaluate Toy.g Toy.sim Toy.one (.snr (.node 99)) ⟨d0.params, b, Store.empty⟩ = (⟨d0.params, false, st⟩, .error .keyError) := by
    unfold propagateAndEvaluate evaluate Session.run Session.propagate Verif.propagate
    simp only [ho]
    cases b <;> exact ⟨_, Prod.ext rfl rfl⟩
  obtain ⟨st, h⟩ := this
  unfold evalJob
  simp only [show d0.graph = Toy.g from rfl, h]

end ToyFarm

/-- Findings.  (1) A script switches the noise off, evaluates a design itself (as the start of a run, line 79) and then by a worker (as in the run): 2 the first time, 3 the second.  (2) A signal-to-noise evaluator that fails
on a worker leaves the noise switched off there; a later task then scores 2 on this worker and 3 on any other. -/
theorem C109_noise_findings : ∃ (B : Sim 1) (inp : Signal 1) (ev : Evaluator 1) (d : Fixed),
    (∃ d2 d3 : Fixed, d2.score = some 2 ∧ d3.score = some 3 ∧
      ((Farm.start ⟨true, ()⟩ ev (fun _ => ())).run (evalJob B inp) [.setSwitch false, .make d, .put, .here 0, .farm [0] [(0, 0)]]).objs = [d2, d3]) ∧
    (∃ (bad : Evaluator 1), bad.IsSnr ∧ ∀ w : Nat, ∃ d' : Fixed, d'.score = some (if w = 0 then 2 else 3) ∧
      ((Farm.start ⟨true, ()⟩ bad (fun _ => ())).run (evalJob B inp) [.make d, .put, .farm [0] [(0, 0)], .alter ev, .put, .farm [0] [(0, w)]]).objs = [d, d']) := by
  refine ⟨Toy.sim, Toy.one, ToyFarm.real, ToyFarm.d0, ⟨{ ToyFarm.d0 with score := some 2 }, { ToyFarm.d0 with score := some 3 }, rfl, rfl, ?_⟩, .snr (.node 99), trivial, fun w => ⟨{ ToyFarm.d0 with score := some (if w = 0 then 2 else 3) }, rfl, ?_⟩⟩
  · simp [Farm.run, Farm.step, Farm.start, fetchAll, runTasks, rayGet, Proc.boot, ToyFarm.real_score]
  · have h0 := ToyFarm.snr_fails ToyFarm.d0 rfl rfl true ()
    have hr := fun b => ToyFarm.real_score b ToyFarm.d0 rfl rfl ()
    by_cases hw : w = 0
    · subst hw
      simp [Farm.run, Farm.step, Farm.start, fetchAll, runTasks, rayGet, Proc.boot, h0, hr]
    · simp [Farm.run, Farm.step, Farm.start, fetchAll, runTasks, rayGet, Proc.boot, h0, hr, hw]

namespace ToyFarm

/-- Adds what is stored, the generator, and 100 with noise; fails on 13; moves the generator on. -/
def adder : Job Nat Nat Nat := fun p e d => (⟨p.switch, p.rng + 1⟩, if d = 13 then .error .valueError else .ok (d + e + p.rng + if p.switch then 100 else 0))

/-- Two individuals, evaluator 1000 in the store (2000 in the script), workers with generators 10 and 20 and so on, noise off in the script. -/
def ops : List (FarmOp Nat Nat Nat) := [.setSwitch false, .make 1, .make 2, .put, .alter 2000]

def s : Farm Nat Nat Nat := (Farm.start ⟨true, 0⟩ 1000 (fun w => 10 * (w + 1))).run adder ops

theorem two : Covers [(1, 0), (0, 0)] 2 := by unfold Covers; decide

/-- Both on worker 0, the second first; each on its own worker; one of them failing. -/
example : ((s.step adder (.farm [0, 1] [(1, 0), (0, 0)])).1.objs, (s.step adder (.farm [0, 1] [(1, 0), (0, 0)])).2.toOption) = ([1, 2, 1112, 1112], some [2, 3]) := by decide +kernel
example : ((s.step adder (.farm [0, 1] [(1, 1), (0, 0)])).1.objs, (s.step adder (.farm [0, 1] [(1, 1), (0, 0)])).2.toOption) = ([1, 2, 1111, 1122], some [2, 3]) := by decide +kernel
example : (s.step adder (.here 0)).1.objs = [2001, 2] := by decide +kernel
example := C109_batch (job := adder) (I := fun p => p.switch = true) (s := s) (ks := [0, 1]) rfl (by decide) two (fun _ => rfl) (fun _ _ h => h)
example := C109_switch (job := adder) (fun _ _ _ h => h) ⟨true, 0⟩ 1000 (fun w => 10 * (w + 1)) ops (ks := [0, 1]) (refs := [2, 3]) rfl (by decide) two (by rfl)
example := C109_driver (job := adder) ⟨true, 0⟩ ⟨false, 7⟩ 1000 (fun w => 10 * (w + 1)) ops [.make 1, .make 2, .seed 3, .put, .alter 2000] rfl (by decide)
example := C109_seed (job := adder) (r := 1) (r' := 2) (e := 0) (d := 1) (d1 := 102) (d2 := 103) rfl rfl (by decide)
example : s.stored = some 1000 := C109_store (job := adder) (Farm.start ⟨true, 0⟩ 1000 (fun w => 10 * (w + 1))) [.setSwitch false, .make 1, .make 2] [.alter 2000] (by decide)

/-- A job that does not look at the process. -/
def sum : Job Nat Nat Nat := fun p e d => (p, .ok (d + e))

example := C109_schedule (job := sum) (s := s) (ks := [0, 1]) (sched := [(1, 0), (0, 0)]) (sched' := [(0, 3), (1, 4)]) (fun _ _ _ _ => rfl)
  (s' := { s with driver := ⟨true, 5⟩, workers := fun _ => ⟨false, 9⟩ }) rfl rfl rfl (by decide) two (by unfold Covers; decide)

example := C109_noise (B := Toy.sim) (inp := Toy.one) ⟨true, ()⟩ (e0 := real) (fun _ => ()) (ops := [.setSwitch false, .make d0, .put]) id (by simp [FarmOp.NoSnr]) rfl
  (e := real) (ks := [0]) (sched := [(0, 0)]) (refs := [1]) rfl (by simp [Farm.run, Farm.step, Farm.start]) (by unfold Covers; decide)
  (by simp [Farm.run, Farm.step, Farm.start, fetchAll, runTasks, rayGet, Proc.boot, real_score])

end ToyFarm

end Verif
