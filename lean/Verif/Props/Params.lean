import Verif.Lemmas.Params
import Verif.Props.Fixture
/-!
# Properties of parameter lists (C22, C23, C24, C45, C46)
-/

namespace Verif
open Graph

theorem lists_aligned_aux {as : List Attr} {g : Graph} {h : Heap} {ex : Extracted} (he : extract as g h = .ok ex) :
    ex.cols.length = as.length ∧ ex.index.length = ex.models.length ∧
    (∀ c ∈ ex.cols, c.length = ex.models.length) ∧
    (∀ j m i : Nat, ex.models[j]? = some m → ex.index[j]? = some i → m ∈ getModels g ∧ Unlocked h m i ∧
      ∀ (k : Nat) a c, as[k]? = some a → ex.cols[k]? = some c → ∃ v, c[j]? = some v ∧ ((h m).attr a)[i]? = some v) ∧
    (∀ m i, (Unlocked h m i → (ex.models.zip ex.index).count (m, i) = (getModels g).count m) ∧
      (¬ Unlocked h m i → (m, i) ∉ ex.models.zip ex.index)) := by
  classical
  obtain ⟨hp, rfl⟩ := extract_eq he
  have hz : ((slots h (getModels g)).map (·.1)).zip ((slots h (getModels g)).map (·.2)) = slots h (getModels g) := by
    generalize slots h (getModels g) = l
    induction l with
    | nil => rfl
    | cons x xs ih => simp [ih]
  refine ⟨by simp, by simp, ?_, ?_, ?_⟩
  · intro c hc
    obtain ⟨a, ha, rfl⟩ := List.mem_map.1 hc
    rw [vals_length (hp a ha)]
    simp
  · intro j m i hm hi
    simp only [List.getElem?_map, Option.map_eq_some_iff] at hm hi
    obtain ⟨s, hs, rfl⟩ := hm
    obtain ⟨s', hs', rfl⟩ := hi
    rw [hs] at hs'
    injection hs' with hs'
    subst hs'
    obtain ⟨h1, h2⟩ := mem_slots.1 (List.mem_of_getElem? hs)
    refine ⟨h1, h2, fun k a c hk hc => ?_⟩
    simp only [List.getElem?_map, hk, Option.map_some, Option.some.injEq] at hc
    subst hc
    have ha := hp a (List.mem_of_getElem? hk)
    rw [vals_get ha hs]
    have := ha s (List.mem_of_getElem? hs)
    exact ⟨_, List.getElem?_eq_getElem this, List.getElem?_eq_getElem this⟩
  · intro m i
    simp only [hz]
    refine ⟨fun hu => by rw [count_slots, if_pos hu], fun hu hm => hu (mem_slots.1 hm).2⟩

/-- **C22.** Entry `j` of every extracted list describes the same unlocked parameter; all lists have the same length; every
unlocked parameter appears as often as its component occurs in the graph (once, if not shared), locked ones never. -/
theorem C22_lists_aligned {as : List Attr} {g : Graph} {h : Heap} {ex : Extracted} (he : extract as g h = .ok ex) :
    ex.cols.length = as.length ∧ ex.index.length = ex.models.length ∧
    (∀ c ∈ ex.cols, c.length = ex.models.length) ∧
    (∀ j m i : Nat, ex.models[j]? = some m → ex.index[j]? = some i → m ∈ componentsOf g ∧ Unlocked h m i ∧
      ∀ (k : Nat) a c, as[k]? = some a → ex.cols[k]? = some c → ∃ v, c[j]? = some v ∧ ((h m).attr a)[i]? = some v) ∧
    (∀ m i, (Unlocked h m i → (ex.models.zip ex.index).count (m, i) = (componentsOf g).count m) ∧
      (¬ Unlocked h m i → (m, i) ∉ ex.models.zip ex.index)) := lists_aligned_aux he

/-- **C22.** The order of the entries does not depend on which attributes are extracted, so separately extracted
lists (parameters, bounds, step sizes, locations) belong together. -/
theorem C22_same_order {as as' : List Attr} {g : Graph} {h : Heap} {ex ex' : Extracted} (he : extract as g h = .ok ex)
    (he' : extract as' g h = .ok ex') : ex.models = ex'.models ∧ ex.index = ex'.index ∧
    ∀ (k k' : Nat) a, as[k]? = some a → as'[k']? = some a → ex.cols[k]? = ex'.cols[k']? := by
  obtain ⟨_, rfl⟩ := extract_eq he
  obtain ⟨_, rfl⟩ := extract_eq he'
  refine ⟨rfl, rfl, fun k k' a h1 h2 => ?_⟩
  simp only [List.getElem?_map, h1, h2]

/-- **C22.** Extraction fails exactly when some unlocked parameter lacks an entry in one of the attribute lists, and then
with an `IndexError`. -/
theorem C22_fails_iff (as : List Attr) (g : Graph) (h : Heap) :
    (∃ ex, extract as g h = .ok ex) ∨ extract as g h = .error .indexError ∧
      ∃ a ∈ as, ∃ m ∈ componentsOf g, ∃ i, Unlocked h m i ∧ ((h m).attr a)[i]? = none := by
  by_cases hp : AttrsPresent as g h
  · exact Or.inl ⟨_, extract_ok hp⟩
  · refine Or.inr ⟨extract_err hp, ?_⟩
    unfold AttrsPresent at hp
    push Not at hp
    obtain ⟨a, ha, ⟨m, i⟩, hs, hle⟩ := hp
    obtain ⟨h1, h2⟩ := mem_slots.1 hs
    exact ⟨a, ha, m, h1, i, h2, List.getElem?_eq_none hle⟩

/-- The numbers in a list of entries. -/
def nums (l : List Val) : List ℚ := l.filterMap (fun v => match v with | .num x => some x | _ => none)

theorem nums_map (xs : List ℚ) : nums (xs.map .num) = xs := by
  induction xs with
  | nil => rfl
  | cons x xs ih => unfold nums at *; simp [ih]

theorem vals_params {h : Heap} : ∀ {ss : List (ModelId × Nat)},
    vals h .parameters ss = (ss.filterMap (fun s => (h s.1).params[s.2]?)).map .num
  | [] => rfl
  | s :: ss => by
    have ih := vals_params (h := h) (ss := ss)
    unfold vals at *
    simp only [List.filterMap_cons]
    rw [show (h s.1).attr .parameters = (h s.1).params.map .num from rfl, List.getElem?_map]
    cases (h s.1).params[s.2]? with
    | none => simpa using ih
    | some x => simpa using ih

theorem attr_params_length (m : PModel) : (m.attr .parameters).length = m.params.length := by simp [PModel.attr]

/-- **C23.** Writing back what was extracted changes nothing, even when components are shared. -/
theorem C23_distribute_extracted {g : Graph} {h : Heap} {ex : Extracted} {ps}
    (he : extract [.parameters, .lowerBounds, .upperBounds] g h = .ok ex) (hc : ex.cols[0]? = some ps) :
    distribute h (nums ps) ex.models ex.index = .ok h := by
  obtain ⟨hp, rfl⟩ := extract_eq he
  simp only [List.map_cons, List.getElem?_cons_zero, Option.some.injEq] at hc
  subst hc
  rw [vals_params, nums_map]
  have hpar := hp .parameters (by simp)
  refine distribute_self (fun j s x h1 h2 => ?_)
  have h3 := vals_get hpar h1
  rw [vals_params, List.getElem?_map, h2] at h3
  rw [show (h s.1).attr .parameters = (h s.1).params.map .num from rfl, List.getElem?_map] at h3
  cases hv : (h s.1).params[s.2]? with
  | none => rw [hv] at h3; simp at h3
  | some y =>
    rw [hv] at h3
    simp only [Option.map_some, Option.some.injEq, Val.num.injEq] at h3
    rw [h3]

/-- **C23.** With components not shared, a vector with one entry per unlocked parameter can be distributed, and extracting
again gives exactly that vector and the same locations. -/
theorem C23_extract_distributed {g : Graph} {h : Heap} {ex : Extracted} (hn : (getModels g).Nodup)
    (he : extract [.parameters] g h = .ok ex) {xs : List ℚ} (hl : xs.length = ex.models.length) :
    ∃ h', distribute h xs ex.models ex.index = .ok h' ∧
      extract [.parameters] g h' = .ok { ex with cols := [xs.map .num] } := by
  obtain ⟨hp, rfl⟩ := extract_eq he
  have hpar : ∀ s ∈ slots h (getModels g), s.2 < (h s.1).params.length := fun s hs => by
    have := hp .parameters (by simp) s hs
    rwa [attr_params_length] at this
  obtain ⟨h', hd⟩ := distribute_total (xs := xs) hpar
  refine ⟨h', hd, ?_⟩
  have hsame := (distribute_ok hd).1
  have hss := hsame.slots (getModels g)
  have hp' : AttrsPresent [.parameters] g h' := by
    intro a ha s hs
    rw [List.mem_singleton.1 ha, attr_params_length, hsame.length]
    rw [hss] at hs
    exact hpar s hs
  rw [extract_ok hp', hss]
  simp only [List.map_cons, List.map_nil]
  have hl' : xs.length = (slots h (getModels g)).length := by simpa using hl
  have : vals h' .parameters (slots h (getModels g)) = xs.map .num := by
    have hp'' : ∀ s ∈ slots h (getModels g), s.2 < ((h' s.1).attr .parameters).length := by
      intro s hs
      rw [attr_params_length, hsame.length]
      exact hpar s hs
    refine List.ext_getElem? (fun j => ?_)
    cases hj : (slots h (getModels g))[j]? with
    | none =>
      have h1 := List.getElem?_eq_none_iff.1 hj
      rw [List.getElem?_eq_none (by rw [vals_length hp'']; exact h1), List.getElem?_eq_none (by simpa [hl'] using h1)]
    | some s =>
      rw [vals_get hp'' hj, show (h' s.1).attr .parameters = (h' s.1).params.map .num from rfl, List.getElem?_map,
        distribute_get (slots_nodup hn) hl' hd hj, List.getElem?_map]
  rw [this]

/-- **C23.** Distributing any vector to the extracted locations never fails and leaves locked parameters and everything
that is not a parameter value alone. -/
theorem C23_only_unlocked_change {as : List Attr} {g : Graph} {h : Heap} {ex : Extracted} (hpp : ParamsPresent g h)
    (he : extract as g h = .ok ex) (xs : List ℚ) :
    ∃ h', distribute h xs ex.models ex.index = .ok h' ∧ SameLocked g h h' := by
  obtain ⟨_, rfl⟩ := extract_eq he
  obtain ⟨h', hd⟩ := distribute_total (xs := xs) (params_slots hpp)
  obtain ⟨a, b, _⟩ := distribute_ok hd
  exact ⟨h', hd, a.lower, a.upper, a.dtypes, a.steps, a.locks, a.nodeLock, a.length,
    fun m i hmi => b m i (fun hs => hmi (mem_slots.1 hs))⟩

/-! ### C46: the objective function -/

theorem SameLocked.same {g h h'} (s : SameLocked g h h') : Same h h' :=
  ⟨s.lower, s.upper, s.dtypes, s.steps, s.locks, s.nodeLock, s.length⟩

theorem SameLocked.unlocked {g h h'} (s : SameLocked g h h') {m i} : Unlocked h' m i ↔ Unlocked h m i := by
  unfold Unlocked; rw [s.locks, s.nodeLock]

theorem SameLocked.refl (g h) : SameLocked g h h :=
  ⟨fun _ => rfl, fun _ => rfl, fun _ => rfl, fun _ => rfl, fun _ => rfl, fun _ => rfl, fun _ => rfl, fun _ _ _ => rfl⟩

theorem SameLocked.trans {g a b c} (h : SameLocked g a b) (h' : SameLocked g b c) : SameLocked g a c where
  lower m := (h'.lower m).trans (h.lower m)
  upper m := (h'.upper m).trans (h.upper m)
  dtypes m := (h'.dtypes m).trans (h.dtypes m)
  steps m := (h'.steps m).trans (h.steps m)
  locks m := (h'.locks m).trans (h.locks m)
  nodeLock m := (h'.nodeLock m).trans (h.nodeLock m)
  length m := (h'.length m).trans (h.length m)
  locked m i hn := (h'.locked m i (fun hc => hn ⟨hc.1, h.unlocked.1 hc.2⟩)).trans (h.locked m i hn)

/-- Two heaps that agree outside the unlocked parameters agree after distributing the same full vector. -/
theorem distribute_forget {g : Graph} {h h1 : Heap} {xs : List ℚ} (hs : SameLocked g h h1)
    (hp : ParamsPresent g h) (hl : xs.length = (slots h (getModels g)).length) :
    ∃ h', distribute h xs ((slots h (getModels g)).map (·.1)) ((slots h (getModels g)).map (·.2)) = .ok h' ∧
      distribute h1 xs ((slots h (getModels g)).map (·.1)) ((slots h (getModels g)).map (·.2)) = .ok h' := by
  obtain ⟨h', hd⟩ := distribute_total (xs := xs) (params_slots hp)
  obtain ⟨h'', hd'⟩ := distribute_total (xs := xs) (h := h1) (ss := slots h (getModels g)) (fun s hm => by
    rw [hs.length]; exact params_slots hp s hm)
  refine ⟨h', hd, ?_⟩
  rw [hd']
  congr 1
  -- same values: by induction over the slots, comparing the two runs
  have key : ∀ (xs : List ℚ) (ss : List (ModelId × Nat)) (a b a' b' : Heap), xs.length = ss.length → Same a b →
      (∀ m i, (m, i) ∉ ss → (b m).params[i]? = (a m).params[i]?) →
      distribute a xs (ss.map (·.1)) (ss.map (·.2)) = .ok a' → distribute b xs (ss.map (·.1)) (ss.map (·.2)) = .ok b' →
      b' = a' := by
    intro xs
    induction xs with
    | nil =>
      intro ss a b a' b' hl hs ho ha hb
      have : ss = [] := by cases ss <;> simp_all
      subst this
      simp only [distribute] at ha hb
      injection ha with ha
      injection hb with hb
      subst ha; subst hb
      exact hs.eq (fun m i => ho m i (by simp))
    | cons x xs ih =>
      intro ss a b a' b' hl hs ho ha hb
      cases ss with
      | nil => simp at hl
      | cons s ss =>
        simp only [List.map_cons, distribute] at ha hb
        split at ha
        · cases ha
        · rename_i a1 hsa
          split at hb
          · cases hb
          · rename_i b1 hsb
            obtain ⟨p1, _, p3, p4⟩ := setParam_ok hsa
            obtain ⟨q1, _, q3, q4⟩ := setParam_ok hsb
            refine ih ss a1 b1 a' b' (by simpa using hl) ((p1.symm.trans hs).trans q1) (fun m i hn => ?_) ha hb
            by_cases hc : (m, i) = (s.1, s.2)
            · injection hc with e1 e2
              subst e1; subst e2
              rw [p3, q3]
            · rw [p4 m i hc, q4 m i hc]
              exact ho m i (by
                intro hm
                rcases List.mem_cons.1 hm with hm | hm
                · exact hc (by rw [hm])
                · exact hn hm)
  exact key xs _ h h1 h' h'' hl hs.same
    (fun m i hn => hs.locked m i (fun hc => hn (mem_slots.2 hc))) hd hd'

/-- Earlier calls of the objective function. -/
def callAll (g : Graph) (h0 : Heap) (eval : Heap → Except Err ℚ) (h : Heap) : List (List ℚ) → Heap
  | [] => h
  | y :: ys => callAll g h0 eval (objective g h0 eval h y).1 ys

/-- **C46.** The value of the objective function (and the parameters it leaves behind) depends only on its argument: any
number of earlier calls, with whatever vectors, make no difference; no call changes a locked parameter. -/
theorem C46_objective_repeatable {g : Graph} {h : Heap} (hp : ParamsPresent g h) (eval : Heap → Except Err ℚ)
    (ys : List (List ℚ)) (x : List ℚ) {ex} (he : extract [] g h = .ok ex) (hl : x.length = ex.models.length) :
    objective g h eval (callAll g h eval h ys) x = objective g h eval h x ∧
      SameLocked g h (callAll g h eval h ys) := by
  have hstep : ∀ ys h1, SameLocked g h h1 → SameLocked g h (callAll g h eval h1 ys) := by
    intro ys
    induction ys with
    | nil => intro h1 hs; exact hs
    | cons y ys ih =>
      intro h1 hs
      refine ih _ ?_
      unfold objective
      rw [he]
      simp only
      split
      · exact hs
      · rename_i h2 hd
        have hp1 : ParamsPresent g h1 := fun m hm => by rw [hs.locks, hs.length]; exact hp m hm
        have he1 : extract [] g h1 = .ok ex := by
          obtain ⟨_, rfl⟩ := extract_eq he
          rw [extract_ok (by intro a ha; simp at ha), hs.same.slots]
          rfl
        obtain ⟨h2', hd', hs'⟩ := C23_only_unlocked_change hp1 he1 y
        rw [hd'] at hd
        injection hd with hd
        subst hd
        exact hs.trans hs'
  have hs := hstep ys h (SameLocked.refl g h)
  refine ⟨?_, hs⟩
  obtain ⟨_, rfl⟩ := extract_eq he
  obtain ⟨h', h1, h2⟩ := distribute_forget hs hp (by simpa using hl)
  unfold objective
  rw [he]
  simp only [h1, h2]

/-! ### C24 -/

/-- **C24.** A uniformly sampled value is within its bounds (see `WithinBounds` for the cases with step sizes). -/
theorem C24_uniform_within {low up : ℚ} {step dt} {r : Rnd} {x} (hb : low ≤ up) (hs : ∀ s, step = some s → 0 < s)
    (hu : 0 ≤ r.u ∧ r.u < 1) (h : uniformSample low up step dt r = .ok x) : WithinBounds low up step dt x :=
  uniformSample_within hb hs hu h

/-- **C24.** Sampling a float parameter never fails; sampling an integer one only when the range holds no integer step. -/
theorem C24_uniform_total {low up : ℚ} {step} {r : Rnd} (hs : ∀ s, step = some s → 0 < s) :
    (∃ x, uniformSample low up step .float r = .ok x) ∧
    (low + step.getD 1 ≤ up → 0 ≤ low → ∃ x, uniformSample low up step .int r = .ok x) ∧
    (up ≤ low → uniformSample low up step .int r = .error .valueError) ∧
    uniformSample low up step .other r = .error .valueError := by
  have mono : ∀ {a b : ℚ}, a ≤ b → pyInt a ≤ pyInt b := by
    intro a b hab
    unfold pyInt
    split <;> split
    · exact Int.floor_le_floor hab
    · linarith
    · rename_i h1 h2
      have h3 : ⌈a⌉ ≤ 0 := Int.ceil_le.2 (by push_cast; linarith)
      have h4 : 0 ≤ ⌊b⌋ := Int.floor_nonneg.2 h2
      omega
    · exact Int.ceil_le_ceil hab
  have lt1 : ∀ {a b : ℚ}, 0 ≤ a → a + 1 ≤ b → pyInt a < pyInt b := by
    intro a b ha hab
    unfold pyInt
    rw [if_pos ha, if_pos (by linarith)]
    have : ⌊a + 1⌋ ≤ ⌊b⌋ := Int.floor_le_floor hab
    rw [Int.floor_add_one] at this
    omega
  refine ⟨?_, ?_, ?_, by unfold uniformSample; rfl⟩
  · unfold uniformSample
    cases step with
    | none => exact ⟨_, rfl⟩
    | some s => simp only [(hs s rfl).ne', if_false]; exact ⟨_, rfl⟩
  · intro h1 h0
    unfold uniformSample
    cases step with
    | none =>
      have := lt1 h0 (by simpa using h1)
      simp only [randint, this, if_true]
      exact ⟨_, rfl⟩
    | some s =>
      have hsp := hs s rfl
      have : pyInt (low / s) < pyInt (up / s) := by
        refine lt1 (div_nonneg h0 hsp.le) ?_
        rw [← div_self hsp.ne', ← add_div]
        exact div_le_div_of_nonneg_right (by simpa using h1) hsp.le
      simp only [hsp.ne', if_false, randint, this, if_true]
      exact ⟨_, rfl⟩
  · intro h1
    unfold uniformSample
    cases step with
    | none =>
      have := mono h1
      simp only [randint, not_lt.2 this, if_false]
    | some s =>
      have hsp := hs s rfl
      have : pyInt (up / s) ≤ pyInt (low / s) := mono (div_le_div_of_nonneg_right h1 hsp.le)
      simp only [hsp.ne', if_false, randint, not_lt.2 this]

theorem sampleAll_ok {dist : Dist} {r : Nat → Rnd} : ∀ {j ps ls us ds ss xs},
    sampleAll dist r j ps ls us ds ss = .ok xs → ∀ k p lo up d s, ps[k]? = some (Val.num p) →
      ls[k]? = some (.num lo) → us[k]? = some (.num up) → ds[k]? = some (.dtype d) → ss[k]? = some (.step s) →
      (∀ k' < k, ∃ p lo up d s, ps[k']? = some (Val.num p) ∧
      ls[k']? = some (Val.num lo) ∧ us[k']? = some (Val.num up) ∧ ds[k']? = some (Val.dtype d) ∧ ss[k']? = some (Val.step s)) →
      ∃ x, xs[k]? = some x ∧ sampleOne dist lo up s d (r (j + k)) = .ok x := by
  intro j ps
  induction ps generalizing j with
  | nil => intro ls us ds ss xs _ k p lo up d s h; simp at h
  | cons p0 ps ih =>
    intro ls us ds ss xs h k p lo up d s h1 h2 h3 h4 h5 hall
    cases k with
    | zero =>
      cases ls <;> simp at h2
      cases us <;> simp at h3
      cases ds <;> simp at h4
      cases ss <;> simp at h5
      simp at h1
      subst h1 h2 h3 h4 h5
      simp only [sampleAll] at h
      split at h
      · cases h
      · rename_i x hx
        split at h
        · cases h
        · injection h with h
          subst h
          exact ⟨x, rfl, hx⟩
    | succ k =>
      obtain ⟨q, lo', up', d', s', g1, g2, g3, g4, g5⟩ := hall 0 (by omega)
      cases ls <;> simp at g2
      cases us <;> simp at g3
      cases ds <;> simp at g4
      cases ss <;> simp at g5
      simp at g1
      subst g1 g2 g3 g4 g5
      simp only [sampleAll] at h
      split at h
      · cases h
      · split at h
        · cases h
        · rename_i xs' hxs
          injection h with h
          subst h
          obtain ⟨x, e1, e2⟩ := ih hxs k p lo up d s (by simpa using h1) (by simpa using h2) (by simpa using h3)
            (by simpa using h4) (by simpa using h5) (fun k' hk' => by
              have := hall (k' + 1) (by omega)
              simpa using this)
          exact ⟨x, by simpa using e1, by rw [show j + (k + 1) = j + 1 + k by omega]; exact e2⟩

theorem sampleAll_length {dist : Dist} {r : Nat → Rnd} : ∀ {j ps ls us ds ss xs},
    sampleAll dist r j ps ls us ds ss = .ok xs → xs.length ≤ ps.length := by
  intro j ps ls us ds ss
  fun_induction sampleAll dist r j ps ls us ds ss with
  | case1 => intro xs h; cases h
  | case2 => intro xs h; cases h
  | case3 j p ps lo ls up us d ds s ss x hx ys hys ih =>
    intro xs h
    injection h with h
    subst h
    have := ih hys
    simpa using this
  | case4 => intro xs h; injection h with h; subst h; simp

/-- **C24.** After `sample_parameters('uniform')` every unlocked parameter of every component lies within its own bounds,
and nothing else has changed (components may be shared). -/
theorem C24_sampled_graph {g : Graph} {r : Nat → Rnd} {h h' : Heap} (hr : ∀ j, 0 ≤ (r j).u ∧ (r j).u < 1)
    (hb : ∀ m ∈ getModels g, ∀ i : Nat, Unlocked h m i → ∀ lo up, (h m).lower[i]? = some lo → (h m).upper[i]? = some up → lo ≤ up)
    (hst : ∀ m ∈ getModels g, ∀ i : Nat, Unlocked h m i → ∀ s, (h m).steps[i]? = some (some s) → 0 < s)
    (he : sampleParameters g .uniform r h = .ok h') : SameLocked g h h' ∧
    ∀ m ∈ getModels g, ∀ i, Unlocked h m i → ∃ lo up s d x, (h m).lower[i]? = some lo ∧ (h m).upper[i]? = some up ∧
      (h m).steps[i]? = some s ∧ (h m).dtypes[i]? = some d ∧ (h' m).params[i]? = some x ∧ WithinBounds lo up s d x := by
  unfold sampleParameters at he
  split at he
  · cases he
  · rename_i ex hex
    obtain ⟨hp, rfl⟩ := extract_eq hex
    simp only [List.map_cons, List.map_nil] at he
    split at he
    · cases he
    · rename_i xs hxs
      obtain ⟨a, b, c⟩ := distribute_ok he
      refine ⟨⟨a.lower, a.upper, a.dtypes, a.steps, a.locks, a.nodeLock, a.length,
        fun m i hmi => b m i (fun hs => hmi (mem_slots.1 hs))⟩, ?_⟩
      have row : ∀ (k : Nat) (s : ModelId × Nat), (slots h (getModels g))[k]? = some s → ∃ p lo up d st,
          (h s.1).params[s.2]? = some p ∧ (h s.1).lower[s.2]? = some lo ∧ (h s.1).upper[s.2]? = some up ∧
          (h s.1).dtypes[s.2]? = some d ∧ (h s.1).steps[s.2]? = some st ∧
          (vals h .parameters (slots h (getModels g)))[k]? = some (.num p) ∧
          (vals h .lowerBounds (slots h (getModels g)))[k]? = some (.num lo) ∧
          (vals h .upperBounds (slots h (getModels g)))[k]? = some (.num up) ∧
          (vals h .dataTypes (slots h (getModels g)))[k]? = some (.dtype d) ∧
          (vals h .stepSizes (slots h (getModels g)))[k]? = some (.step st) := by
        intro k s hk
        have hm := List.mem_of_getElem? hk
        have p1 := hp .parameters (by simp) s hm
        have p2 := hp .lowerBounds (by simp) s hm
        have p3 := hp .upperBounds (by simp) s hm
        have p4 := hp .dataTypes (by simp) s hm
        have p5 := hp .stepSizes (by simp) s hm
        simp only [PModel.attr, List.length_map] at p1 p2 p3 p4 p5
        refine ⟨_, _, _, _, _, List.getElem?_eq_getElem p1, List.getElem?_eq_getElem p2, List.getElem?_eq_getElem p3,
          List.getElem?_eq_getElem p4, List.getElem?_eq_getElem p5, ?_, ?_, ?_, ?_, ?_⟩
        · rw [vals_get (hp .parameters (by simp)) hk]; simp [PModel.attr, p1]
        · rw [vals_get (hp .lowerBounds (by simp)) hk]; simp [PModel.attr, p2]
        · rw [vals_get (hp .upperBounds (by simp)) hk]; simp [PModel.attr, p3]
        · rw [vals_get (hp .dataTypes (by simp)) hk]; simp [PModel.attr, p4]
        · rw [vals_get (hp .stepSizes (by simp)) hk]; simp [PModel.attr, p5]
      have hget : ∀ (k : Nat) (s : ModelId × Nat), (slots h (getModels g))[k]? = some s → ∃ p lo up d st x,
          (h s.1).params[s.2]? = some p ∧ (h s.1).lower[s.2]? = some lo ∧ (h s.1).upper[s.2]? = some up ∧
          (h s.1).dtypes[s.2]? = some d ∧ (h s.1).steps[s.2]? = some st ∧ xs[k]? = some x ∧
          sampleOne .uniform lo up st d (r (0 + k)) = .ok x := by
        intro k s hk
        obtain ⟨p, lo, up, d, st, a1, a2, a3, a4, a5, b1, b2, b3, b4, b5⟩ := row k s hk
        obtain ⟨x, c1, c2⟩ := sampleAll_ok hxs k p lo up d st b1 b2 b3 b4 b5 (fun k' hk' => by
          obtain ⟨s', hs'⟩ : ∃ s', (slots h (getModels g))[k']? = some s' := by
            have := (List.getElem?_eq_some_iff.1 hk).1
            exact ⟨_, List.getElem?_eq_getElem (by omega)⟩
          obtain ⟨p, lo, up, d, st, _, _, _, _, _, b1, b2, b3, b4, b5⟩ := row k' s' hs'
          exact ⟨p, lo, up, d, st, b1, b2, b3, b4, b5⟩)
        exact ⟨p, lo, up, d, st, x, a1, a2, a3, a4, a5, c1, c2⟩
      have hlen : xs.length = (slots h (getModels g)).length := by
        apply le_antisymm
        · have := sampleAll_length hxs
          rwa [vals_length (hp .parameters (by simp))] at this
        · by_contra hc
          push Not at hc
          obtain ⟨_, _, _, _, _, x, _, _, _, _, _, hx, _⟩ := hget xs.length _ (List.getElem?_eq_getElem hc)
          rw [List.getElem?_eq_none (le_refl _)] at hx
          cases hx
      intro m hm i hu
      obtain ⟨k, hk, x, hx1, hx2⟩ := c hlen (m, i) (mem_slots.2 ⟨hm, hu⟩)
      obtain ⟨p, lo, up, d, st, x', a1, a2, a3, a4, a5, a6, a7⟩ := hget k _ hk
      rw [hx1] at a6
      injection a6 with a6
      subst a6
      exact ⟨lo, up, st, d, x, a2, a3, a5, a4, hx2, uniformSample_within (hb m hm i hu lo up a2 a3)
        (fun s hs => hst m hm i hu s (by rw [a5, hs])) (hr _) a7⟩

/-- **C24.** Triangular sampling never works: on a system with at least one unlocked parameter `sample_parameters('triangle')`
is a `TypeError`, whatever the bounds and draws. -/
theorem C24_triangle_unusable {g : Graph} {h : Heap} {ex} (r : Nat → Rnd)
    (he : extract [.parameters, .lowerBounds, .upperBounds, .dataTypes, .stepSizes] g h = .ok ex)
    {m i} (hm : m ∈ getModels g) (hu : Unlocked h m i) : sampleParameters g .triangle r h = .error .typeError := by
  obtain ⟨hp, hex⟩ := extract_eq he
  unfold sampleParameters
  rw [he]
  simp only
  subst hex
  simp only [List.map_cons, List.map_nil]
  have hs := mem_slots.2 ⟨hm, hu⟩
  cases hl : slots h (getModels g) with
  | nil => rw [hl] at hs; simp at hs
  | cons s ss =>
    have hk : (slots h (getModels g))[0]? = some s := by rw [hl]; rfl
    have hsm := List.mem_of_getElem? hk
    have p1 := hp .parameters (by simp) s hsm
    have p2 := hp .lowerBounds (by simp) s hsm
    have p3 := hp .upperBounds (by simp) s hsm
    have p4 := hp .dataTypes (by simp) s hsm
    have p5 := hp .stepSizes (by simp) s hsm
    simp only [PModel.attr, List.length_map] at p1 p2 p3 p4 p5
    unfold vals
    simp [PModel.attr, List.getElem?_eq_getElem p1, List.getElem?_eq_getElem p2,
      List.getElem?_eq_getElem p3, List.getElem?_eq_getElem p4, List.getElem?_eq_getElem p5, sampleAll, sampleOne]

/-- With a step size the value can lie outside the bounds. -/
theorem C24_step_leaves_bounds : uniformSample 3 10 (some 2) .int ⟨0, 0⟩ = .ok 2 ∧
    uniformSample 0 (9 / 10) (some 1) .float ⟨8 / 9, 0⟩ = .ok 1 := by
  constructor <;> decide +kernel

/-! ### C45 -/

theorem indexOf_ok {names n i} (h : indexOf names n = .ok i) : names[i]? = some n ∧ i < names.length := by
  unfold indexOf at h
  split at h
  · rename_i hm
    injection h with h
    subst h
    have := List.idxOf_lt_length_of_mem hm
    exact ⟨by rw [List.getElem?_eq_getElem this]; simp, this⟩
  · cases h

theorem set_ok {V : Type} {o o' : Named V} {n v} (h : o.set n v = .ok o') : o'.names = o.names ∧
    o'.cur.length = o.cur.length ∧ o'.shared = o.shared ∧ o'.defaults = o.defaults ∧
    ∃ i, o.names[i]? = some n ∧ o'.cur = o.cur.set i v ∧ i < o.cur.length := by
  unfold Named.set at h
  split at h
  · cases h
  · rename_i i hi
    split at h
    · rename_i hl
      injection h with h
      subst h
      exact ⟨rfl, by simp, rfl, rfl, i, (indexOf_ok hi).1, rfl, hl⟩
    · cases h

/-- **C45.** Reading back a name just set returns the value; the other names keep theirs. -/
theorem C45_set_get {V : Type} {o o' : Named V} {n : String} {v : V} (h : o.set n v = .ok o') :
    o'.get n = .ok v ∧ ∀ n', n' ≠ n → o'.get n' = o.get n' := by
  unfold Named.set at h
  split at h
  · cases h
  · rename_i i hi
    split at h
    · rename_i hl
      injection h with h
      subst h
      unfold Named.get
      refine ⟨?_, fun n' hne => ?_⟩
      · simp only [hi]
        simp [hl]
      · simp only
        cases hj : indexOf o.names n' with
        | error e => rfl
        | ok j =>
          simp only
          rw [List.getElem?_set_ne]
          rintro rfl
          have h1 := (indexOf_ok hi).1
          rw [(indexOf_ok hj).1] at h1
          injection h1 with h1
          exact hne h1
    · cases h

/-- **C45.** Setting succeeds exactly for known names (one value per name), otherwise it is a `ValueError`. -/
theorem C45_unknown_name {V : Type} {o : Named V} (hl : o.names.length = o.cur.length) (n : String) (v : V) :
    (n ∈ o.names → ∃ o', o.set n v = .ok o') ∧
    (n ∉ o.names → o.set n v = .error .valueError ∧ o.get n = .error .valueError) := by
  constructor
  · intro h
    unfold Named.set indexOf
    have := List.idxOf_lt_length_of_mem h
    rw [if_pos h]
    simp only
    rw [if_pos (by omega)]
    exact ⟨_, rfl⟩
  · intro h
    unfold Named.set Named.get indexOf
    rw [if_neg h]
    exact ⟨rfl, rfl⟩

theorem setAll_ok {V : Type} : ∀ {kvs : List (String × V)} {o o' : Named V}, o.names.Nodup →
    o.setAll kvs = .ok o' → (kvs.map (·.1)).Nodup →
    o'.names = o.names ∧ o'.cur.length = o.cur.length ∧ o'.shared = o.shared ∧
    ∀ (i : Nat) n, o.names[i]? = some n →
      (∀ v, (n, v) ∈ kvs → o'.cur[i]? = some v) ∧ ((∀ v, (n, v) ∉ kvs) → o'.cur[i]? = o.cur[i]?)
  | [], o, o', _, h, _ => by
    unfold Named.setAll at h
    injection h with h
    subst h
    exact ⟨rfl, rfl, rfl, fun i n _ => ⟨fun v hv => by simp at hv, fun _ => rfl⟩⟩
  | (n0, v0) :: kvs, o, o', hn, h, hk => by
    unfold Named.setAll at h
    split at h
    · cases h
    · rename_i o1 h1
      obtain ⟨a1, a2, a3, _, j, a4, a5, a6⟩ := set_ok h1
      rw [List.map_cons, List.nodup_cons] at hk
      obtain ⟨b1, b2, b3, b4⟩ := setAll_ok (by rw [a1]; exact hn) h hk.2
      refine ⟨b1.trans a1, b2.trans a2, b3.trans a3, fun i n hi => ?_⟩
      obtain ⟨c1, c2⟩ := b4 i n (by rw [a1]; exact hi)
      have hij : n = n0 → i = j := by
        rintro rfl
        obtain ⟨hi1, hi2⟩ := List.getElem?_eq_some_iff.1 hi
        obtain ⟨hj1, hj2⟩ := List.getElem?_eq_some_iff.1 a4
        exact (List.Nodup.getElem_inj_iff hn).1 (hi2.trans hj2.symm)
      constructor
      · intro v hv
        rcases List.mem_cons.1 hv with he | hv
        · injection he with e1 e2
          subst e1; subst e2
          have hnot : ∀ v', (n, v') ∉ kvs := fun v' hv' => hk.1 (List.mem_map.2 ⟨_, hv', rfl⟩)
          rw [c2 hnot, a5, ← hij rfl, List.getElem?_set_self (by rw [hij rfl]; exact a6)]
        · exact c1 v hv
      · intro hno
        rw [c2 (fun v hv => hno v (by simp [hv])), a5]
        rw [List.getElem?_set_ne]
        rintro rfl
        have : n = n0 := by rw [a4] at hi; injection hi with hi; exact hi.symm
        exact hno v0 (by simp [this])

/-- **C45.** A component built with `parameters_from_name` has the given values at the named positions and the defaults at
all others; it can be built when every name is known. -/
theorem C45_constructor {V : Type} {names : List String} {dflt : List V} (hn : names.Nodup)
    (hl : names.length = dflt.length) {kvs : List (String × V)} (hk : (kvs.map (·.1)).Nodup) :
    ((∀ kv ∈ kvs, kv.1 ∈ names) ↔ ∃ o, Named.init names dflt (.fromName kvs) = .ok o) ∧
    ∀ o, Named.init names dflt (.fromName kvs) = .ok o → ∀ (i : Nat) n, names[i]? = some n →
      (∀ v, (n, v) ∈ kvs → o.cur[i]? = some v) ∧ ((∀ v, (n, v) ∉ kvs) → o.cur[i]? = dflt[i]?) := by
  constructor
  · unfold Named.init
    simp only
    have : ∀ (kvs : List (String × V)) (o : Named V), o.names.length = o.cur.length →
        ((∀ kv ∈ kvs, kv.1 ∈ o.names) ↔ ∃ o', o.setAll kvs = .ok o') := by
      intro kvs
      induction kvs with
      | nil => intro o _; simp [Named.setAll]
      | cons kv kvs ih =>
        obtain ⟨n, v⟩ := kv
        intro o ho
        by_cases hm : n ∈ o.names
        · obtain ⟨o1, h1⟩ := (C45_unknown_name ho n v).1 hm
          obtain ⟨a1, a2, _⟩ := set_ok h1
          have := ih o1 (by rw [a1, a2]; exact ho)
          rw [a1] at this
          simp only [Named.setAll, h1, ← this, List.forall_mem_cons, hm, true_and]
        · have h1 := ((C45_unknown_name ho n v).2 hm).1
          simp only [Named.setAll, h1, List.forall_mem_cons, hm, false_and, false_iff]
          rintro ⟨_, h⟩
          cases h
    exact this kvs ⟨names, dflt, dflt, true⟩ hl
  · intro o ho i n hi
    exact (setAll_ok (o := ⟨names, dflt, dflt, true⟩) hn ho hk).2.2.2 i n hi

/-- **C45.** A component built with `parameters=...` has exactly that list and its own copy of the defaults, which later changes by name leave
alone; built without arguments it has the defaults. -/
theorem C45_constructor_list {V : Type} (names : List String) (dflt ps : List V) :
    (∃ o, Named.init names dflt .none = .ok o ∧ o.names = names ∧ o.cur = dflt) ∧
    ∃ o, Named.init names dflt (.parameters ps) = .ok o ∧ o.names = names ∧ o.cur = ps ∧ o.defaultParameters = dflt ∧
      ∀ n v o', o.set n v = .ok o' → o'.defaultParameters = dflt := by
  refine ⟨⟨_, rfl, rfl, rfl⟩, _, rfl, rfl, rfl, rfl, fun n v o' h => ?_⟩
  obtain ⟨_, _, a3, a4, _⟩ := set_ok h
  unfold Named.defaultParameters
  simp [a3, a4]

/-- **C45.** Finding: unless built from an explicit list, the component's `default_parameters` change along with its parameters. -/
theorem C45_defaults_aliased {V : Type} {names : List String} {dflt : List V} {o o' : Named V} {n v}
    (h0 : Named.init names dflt .none = .ok o) (h : o.set n v = .ok o') :
    o'.defaultParameters = o'.cur ∧ ∃ i, names[i]? = some n ∧ o'.defaultParameters = dflt.set i v := by
  unfold Named.init at h0
  injection h0 with h0
  subst h0
  obtain ⟨_, _, a3, _, i, a4, a5, _⟩ := set_ok h
  have : o'.defaultParameters = o'.cur := by unfold Named.defaultParameters; rw [a3]; rfl
  exact ⟨this, i, a4, by rw [this, a5]⟩

/-! ### Examples -/

/-- Components with two parameters; the second is locked in component 5, component 6 is locked as a whole. -/
def heapDemo : Heap := fun m =>
  ⟨[1, 2], [0, 0], [10, 10], [.float, .int], [none, some 2], if m = 5 then [false, true] else [false, false], m = 6⟩

example : extract [.parameters, .upperBounds] Fixture.line heapDemo =
    .ok ⟨[[.num 1, .num 2, .num 1, .num 2, .num 1, .num 2, .num 1, .num 2, .num 1, .num 2, .num 1, .num 1, .num 2],
      [.num 10, .num 10, .num 10, .num 10, .num 10, .num 10, .num 10, .num 10, .num 10, .num 10, .num 10, .num 10, .num 10]],
      [0, 0, 2, 2, 3, 3, 1, 1, 4, 4, 5, 7, 7], [0, 1, 0, 1, 0, 1, 0, 1, 0, 1, 0, 0, 1]⟩ := by decide +kernel

example : (getModels Fixture.line).Nodup ∧ ParamsPresent Fixture.line heapDemo := by
  constructor
  · decide
  · unfold ParamsPresent heapDemo; decide

example : (match sampleParameters Fixture.line .uniform (fun j => ⟨1 / 2, j⟩) heapDemo with
    | .ok h' => [(h' 5).params, (h' 2).params, (h' 6).params]
    | .error _ => []) = [[5, 2], [5, 6], [1, 2]] := by decide +kernel

example : Named.init ["peak_power", "t_rep", "width"] [1, 2, 3] (.fromName [("width", 9), ("peak_power", 7)]) =
    .ok ⟨["peak_power", "t_rep", "width"], [7, 2, 9], [1, 2, 3], true⟩ := by rfl

/-! Cases of the theorems above. -/

theorem heapDemo_ok : (getModels Fixture.line).Nodup ∧ ParamsPresent Fixture.line heapDemo := by
  constructor
  · decide
  · unfold ParamsPresent heapDemo; decide

example (ex ex' : Extracted) (he : extract [.parameters, .upperBounds] Fixture.line heapDemo = .ok ex) (he' : extract [.upperBounds] Fixture.line heapDemo = .ok ex') :=
  And.intro (C22_lists_aligned he) (C22_same_order he he')
example := C22_fails_iff [.parameters, .upperBounds] Fixture.line heapDemo
example (ex : Extracted) (ps : List Val) (he : extract [.parameters, .lowerBounds, .upperBounds] Fixture.line heapDemo = .ok ex) (hc : ex.cols[0]? = some ps) :=
  C23_distribute_extracted he hc
example (ex : Extracted) (he : extract [.parameters] Fixture.line heapDemo = .ok ex) (hl : [(1 : ℚ), 2, 3, 4, 5, 6, 7, 8, 9, 8, 7, 6, 5].length = ex.models.length) :=
  C23_extract_distributed heapDemo_ok.1 he hl
example (ex : Extracted) (he : extract [.parameters] Fixture.line heapDemo = .ok ex) := C23_only_unlocked_change heapDemo_ok.2 he [9, 8, 7]
example (ex : Extracted) (he : extract [] Fixture.line heapDemo = .ok ex) (hl : [(1 : ℚ), 2, 3, 4, 5, 6, 7, 8, 9, 8, 7, 6, 5].length = ex.models.length) :=
  C46_objective_repeatable heapDemo_ok.2 (fun h => .ok (h 5).params.sum) [[3, 1], [4, 4]] _ he hl
example (x : ℚ) (h : uniformSample 0 10 (some 2) .int ⟨1 / 2, 3⟩ = .ok x) :=
  C24_uniform_within (by norm_num) (fun s hs => by cases hs; norm_num) (by norm_num) h
example := C24_uniform_total (low := 0) (up := 10) (step := some 2) (r := ⟨1 / 2, 3⟩) (fun s hs => by cases hs; norm_num)
example (h' : Heap) (he : sampleParameters Fixture.line .uniform (fun j => ⟨1 / 2, j⟩) heapDemo = .ok h') :=
  C24_sampled_graph (g := Fixture.line) (r := fun j => ⟨1 / 2, j⟩) (h := heapDemo) (fun j => by norm_num) (by
    intro m _ i _ lo up hlo hup
    have h2 : i < 2 := by
      by_contra hc
      rw [List.getElem?_eq_none (by simpa [heapDemo] using Nat.le_of_not_lt hc)] at hlo
      cases hlo
    obtain rfl | rfl : i = 0 ∨ i = 1 := by omega
    all_goals (simp [heapDemo] at hlo hup; subst hlo; subst hup; norm_num)) (by
    intro m _ i _ s hs
    have h2 : i < 2 := by
      by_contra hc
      rw [List.getElem?_eq_none (by simpa [heapDemo] using Nat.le_of_not_lt hc)] at hs
      cases hs
    obtain rfl | rfl : i = 0 ∨ i = 1 := by omega
    · simp [heapDemo] at hs
    · simp [heapDemo] at hs; subst hs; norm_num) he
example (o' : Named ℚ) (h : (⟨["peak_power", "t_rep"], [7, 2], [1, 2], true⟩ : Named ℚ).set "t_rep" 5 = .ok o') := C45_set_get h
example := C45_unknown_name (o := (⟨["peak_power", "t_rep"], [7, 2], [1, 2], true⟩ : Named ℚ)) rfl "width" 3
example := C45_constructor (names := ["peak_power", "t_rep", "width"]) (dflt := [(1 : ℚ), 2, 3]) (by decide) rfl (kvs := [("width", 9), ("peak_power", 7)]) (by decide)
example := C45_constructor_list ["peak_power", "t_rep"] [(1 : ℚ), 2] [3, 4]

end Verif
