import Verif.Spec.Params
import Mathlib.Data.List.Zip
import Mathlib.Data.List.Nodup
import Mathlib.Tactic.Linarith
import Mathlib.Tactic.FieldSimp
import Mathlib.Tactic.Ring
import Mathlib.Algebra.Order.Floor.Ring
/-! # Lemmas about parameter lists -/

namespace Verif
open Graph

/-- Indices of the unlocked entries, counted from `i`. -/
def free : Nat → List Bool → List Nat
  | _, [] => []
  | i, l :: ls => if l then free (i + 1) ls else i :: free (i + 1) ls

theorem mem_free : ∀ {i ls j}, j ∈ free i ls ↔ i ≤ j ∧ ls[j - i]? = some false
  | i, [], j => by simp [free]
  | i, l :: ls, j => by
    have ih := mem_free (i := i + 1) (ls := ls) (j := j)
    by_cases hj : j = i
    · subst hj
      unfold free
      split
      · rename_i hl; rw [ih]; simp [hl]
      · rename_i hl; simp [hl]
    · have h1 : j ∈ free i (l :: ls) ↔ j ∈ free (i + 1) ls := by
        rw [free]
        split
        · exact Iff.rfl
        · simp [hj]
      rw [h1, ih]
      by_cases hle : i + 1 ≤ j
      · rw [show j - i = (j - (i + 1)) + 1 by omega]
        simp only [List.getElem?_cons_succ]
        constructor
        · rintro ⟨_, h⟩; exact ⟨by omega, h⟩
        · rintro ⟨_, h⟩; exact ⟨hle, h⟩
      · constructor
        · rintro ⟨h, _⟩; omega
        · rintro ⟨h, _⟩; omega

theorem free_nodup : ∀ i ls, (free i ls).Nodup
  | _, [] => by simp [free]
  | i, l :: ls => by
    unfold free
    split
    · exact free_nodup _ _
    · refine List.nodup_cons.2 ⟨fun h => ?_, free_nodup _ _⟩
      have := (mem_free.1 h).1
      omega

/-- The unlocked (component, index) pairs in extraction order. -/
def slots (h : Heap) (ms : List ModelId) : List (ModelId × Nat) :=
  ms.flatMap (fun m => if (h m).nodeLock then [] else (free 0 (h m).locks).map (fun i => (m, i)))

theorem mem_slots {h : Heap} {ms m i} : (m, i) ∈ slots h ms ↔ m ∈ ms ∧ Unlocked h m i := by
  unfold slots Unlocked
  rw [List.mem_flatMap]
  constructor
  · rintro ⟨m', h1, h2⟩
    split at h2
    · simp at h2
    · rename_i hl
      obtain ⟨j, hj, he⟩ := List.mem_map.1 h2
      injection he with e1 e2
      subst e1; subst e2
      exact ⟨h1, by simpa using hl, by simpa using (mem_free.1 hj).2⟩
  · rintro ⟨h1, h2, h3⟩
    refine ⟨m, h1, ?_⟩
    rw [if_neg (by simp [h2])]
    exact List.mem_map.2 ⟨i, mem_free.2 ⟨by omega, by simpa using h3⟩, rfl⟩

theorem count_slots (h : Heap) (m i) [Decidable (Unlocked h m i)] : ∀ ms, (slots h ms).count (m, i) =
    if Unlocked h m i then ms.count m else 0
  | [] => by simp [slots]
  | m' :: ms => by
    have hs : slots h (m' :: ms) = slots h [m'] ++ slots h ms := by simp [slots]
    rw [hs, List.count_append, count_slots h m i ms]
    have h1 : (slots h [m']).count (m, i) = if Unlocked h m i ∧ m' = m then 1 else 0 := by
      have hnd : (slots h [m']).Nodup := by
        unfold slots
        simp only [List.flatMap_cons, List.flatMap_nil, List.append_nil]
        split
        · exact List.nodup_nil
        · exact (free_nodup _ _).map (fun a b h => congrArg Prod.snd h)
      split
      · rename_i hc
        exact List.count_eq_one_of_mem hnd (mem_slots.2 ⟨by simp [hc.2], hc.1⟩)
      · rename_i hc
        refine List.count_eq_zero_of_not_mem (fun hm => hc ?_)
        obtain ⟨a, b⟩ := mem_slots.1 hm
        exact ⟨b, by simpa using (List.mem_singleton.1 a).symm⟩
    rw [h1, List.count_cons]
    by_cases hu : Unlocked h m i
    · by_cases hm : m' = m
      · simp [hu, hm]; omega
      · simp [hu, hm]
    · simp [hu]

theorem slots_nodup {h : Heap} {ms : List ModelId} (hn : ms.Nodup) : (slots h ms).Nodup := by
  classical
  rw [List.nodup_iff_count_le_one]
  rintro ⟨m, i⟩
  rw [count_slots]
  split
  · exact List.nodup_iff_count_le_one.1 hn m
  · omega

/-- Values of attribute `a` at the slots. -/
def vals (h : Heap) (a : Attr) (ss : List (ModelId × Nat)) : List Val := ss.filterMap (fun s => ((h s.1).attr a)[s.2]?)

theorem pushRow_ok {m : PModel} {i : Nat} : ∀ {as cols}, cols.length = as.length →
    (∀ a ∈ as, i < (m.attr a).length) →
    pushRow m i as cols = .ok (List.zipWith (fun c a => c ++ ((m.attr a)[i]?).toList) cols as)
  | [], [], _, _ => rfl
  | [], _ :: _, h, _ => by simp at h
  | _ :: _, [], h, _ => by simp at h
  | a :: as, c :: cs, hl, hi => by
    have h1 : (m.attr a)[i]? = some ((m.attr a)[i]'(hi a (by simp))) := List.getElem?_eq_getElem _
    have h2 := pushRow_ok (m := m) (i := i) (as := as) (cols := cs) (by simpa using hl) (fun a ha => hi a (by simp [ha]))
    simp only [pushRow, h1, h2, List.zipWith_cons_cons, Option.toList_some]

theorem pushRow_err {m : PModel} {i : Nat} : ∀ {as cols}, cols.length = as.length →
    (¬ ∀ a ∈ as, i < (m.attr a).length) → pushRow m i as cols = .error .indexError
  | [], _, _, h => by simp at h
  | _ :: _, [], h, _ => by simp at h
  | a :: as, c :: cs, hl, hi => by
    by_cases ha : i < (m.attr a).length
    · have h1 : (m.attr a)[i]? = some ((m.attr a)[i]'ha) := List.getElem?_eq_getElem _
      have h2 := pushRow_err (m := m) (i := i) (as := as) (cols := cs) (by simpa using hl) (fun h => hi (by
        intro b hb
        rcases List.mem_cons.1 hb with rfl | hb
        · exact ha
        · exact h b hb))
      simp only [pushRow, h1, h2]
    · have h1 : (m.attr a)[i]? = none := List.getElem?_eq_none (by omega)
      simp only [pushRow, h1]

theorem zipWith_append_assoc {f g : Attr → List Val} : ∀ {as : List Attr} {cols : List (List Val)},
    List.zipWith (fun c a => c ++ g a) (List.zipWith (fun c a => c ++ f a) cols as) as =
      List.zipWith (fun c a => c ++ (f a ++ g a)) cols as
  | [], cols => by simp
  | _ :: _, [] => by simp
  | a :: as, c :: cs => by simp [zipWith_append_assoc (as := as) (cols := cs)]

theorem zipWith_append_nil : ∀ {as : List Attr} {cols : List (List Val)}, cols.length = as.length →
    List.zipWith (fun c (_ : Attr) => c ++ []) cols as = cols
  | [], [], _ => rfl
  | [], _ :: _, h => by simp at h
  | _ :: _, [], h => by simp at h
  | a :: as, c :: cs, h => by
    have := zipWith_append_nil (as := as) (cols := cs) (by simpa using h)
    simpa using this

theorem lockLoop_ok {as : List Attr} {m : PModel} {mid : ModelId} : ∀ {ls : List Bool} {i : Nat} {acc : Extracted},
    acc.cols.length = as.length → (∀ a ∈ as, ∀ j ∈ free i ls, j < (m.attr a).length) →
    lockLoop as m mid i ls acc = .ok
      ⟨List.zipWith (fun c a => c ++ (free i ls).filterMap (fun j => (m.attr a)[j]?)) acc.cols as,
       acc.models ++ (free i ls).map (fun _ => mid), acc.index ++ free i ls⟩
  | [], i, acc, hl, _ => by
    simp only [lockLoop, free, List.filterMap_nil, List.map_nil, List.append_nil]
    congr 1
    obtain ⟨c, ms, ix⟩ := acc
    simp only [Extracted.mk.injEq, and_true]
    have := zipWith_append_nil (as := as) (cols := c) hl
    simpa using this.symm
  | l :: ls, i, acc, hl, hi => by
    unfold lockLoop
    by_cases h : l = true
    · have hf : free i (l :: ls) = free (i + 1) ls := by simp [free, h]
      rw [if_pos h, hf]
      rw [hf] at hi
      exact lockLoop_ok hl hi
    · have hf : free i (l :: ls) = i :: free (i + 1) ls := by simp [free, h]
      rw [if_neg h]
      rw [hf] at hi
      rw [hf]
      rw [pushRow_ok hl (fun a ha => hi a ha i (by simp))]
      simp only
      rw [lockLoop_ok (by simp [hl]) (fun a ha j hj => hi a ha j (by simp [hj]))]
      congr 2
      · simp only
        rw [zipWith_append_assoc]
        congr 1
        funext c a
        congr 1
        cases hx : (m.attr a)[i]? <;> simp [hx]
      · simp
      · simp

theorem lockLoop_err {as : List Attr} {m : PModel} {mid : ModelId} : ∀ {ls : List Bool} {i : Nat} {acc : Extracted},
    acc.cols.length = as.length → (¬ ∀ a ∈ as, ∀ j ∈ free i ls, j < (m.attr a).length) →
    lockLoop as m mid i ls acc = .error .indexError
  | [], i, acc, hl, h => by simp [free] at h
  | l :: ls, i, acc, hl, hi => by
    unfold lockLoop
    by_cases h : l = true
    · have hf : free i (l :: ls) = free (i + 1) ls := by simp [free, h]
      rw [if_pos h]
      rw [hf] at hi
      exact lockLoop_err hl hi
    · have hf : free i (l :: ls) = i :: free (i + 1) ls := by simp [free, h]
      rw [if_neg h]
      rw [hf] at hi
      by_cases h1 : ∀ a ∈ as, i < (m.attr a).length
      · rw [pushRow_ok hl h1]
        simp only
        refine lockLoop_err (by simp [hl]) (fun h2 => hi (fun a ha j hj => ?_))
        rcases List.mem_cons.1 hj with rfl | hj
        · exact h1 a ha
        · exact h2 a ha j hj
      · rw [pushRow_err hl h1]

theorem slots_cons (h : Heap) (m : ModelId) (ms) : slots h (m :: ms) =
    (if (h m).nodeLock then [] else (free 0 (h m).locks).map (fun i => (m, i))) ++ slots h ms := by
  simp [slots]

theorem modelLoop_ok {as : List Attr} {h : Heap} : ∀ {ms : List ModelId} {acc : Extracted},
    acc.cols.length = as.length → (∀ a ∈ as, ∀ s ∈ slots h ms, s.2 < ((h s.1).attr a).length) →
    modelLoop as h ms acc = .ok
      ⟨List.zipWith (fun c a => c ++ vals h a (slots h ms)) acc.cols as,
       acc.models ++ (slots h ms).map (·.1), acc.index ++ (slots h ms).map (·.2)⟩
  | [], acc, hl, _ => by
    simp only [modelLoop, slots, List.flatMap_nil, vals, List.filterMap_nil, List.map_nil, List.append_nil]
    congr 1
    obtain ⟨c, ms, ix⟩ := acc
    simp only [Extracted.mk.injEq, and_true]
    have := zipWith_append_nil (as := as) (cols := c) hl
    simpa using this.symm
  | m :: ms, acc, hl, hi => by
    unfold modelLoop
    by_cases hk : (h m).nodeLock = true
    · have hs : slots h (m :: ms) = slots h ms := by rw [slots_cons, if_pos hk]; rfl
      rw [if_pos hk, hs]
      rw [hs] at hi
      exact modelLoop_ok hl hi
    · have hs : slots h (m :: ms) = (free 0 (h m).locks).map (fun i => (m, i)) ++ slots h ms := by
        rw [slots_cons, if_neg hk]
      rw [if_neg hk, hs]
      rw [hs] at hi
      rw [lockLoop_ok hl (fun a ha j hj => hi a ha (m, j) (by simp [hj]))]
      simp only
      rw [modelLoop_ok (by simp [hl]) (fun a ha s hs => hi a ha s (by simp only [List.mem_append]; exact Or.inr hs))]
      congr 2
      · simp only
        rw [zipWith_append_assoc]
        congr 1
        funext c a
        congr 1
        unfold vals
        rw [List.filterMap_append, List.filterMap_map]
        rfl
      · simp [Function.comp_def]
      · simp [Function.comp_def]

theorem modelLoop_err {as : List Attr} {h : Heap} : ∀ {ms : List ModelId} {acc : Extracted},
    acc.cols.length = as.length → (¬ ∀ a ∈ as, ∀ s ∈ slots h ms, s.2 < ((h s.1).attr a).length) →
    modelLoop as h ms acc = .error .indexError
  | [], acc, hl, hi => by simp [slots] at hi
  | m :: ms, acc, hl, hi => by
    unfold modelLoop
    by_cases hk : (h m).nodeLock = true
    · have hs : slots h (m :: ms) = slots h ms := by rw [slots_cons, if_pos hk]; rfl
      rw [if_pos hk]
      rw [hs] at hi
      exact modelLoop_err hl hi
    · have hs : slots h (m :: ms) = (free 0 (h m).locks).map (fun i => (m, i)) ++ slots h ms := by
        rw [slots_cons, if_neg hk]
      rw [if_neg hk]
      rw [hs] at hi
      by_cases h1 : ∀ a ∈ as, ∀ j ∈ free 0 (h m).locks, j < ((h m).attr a).length
      · rw [lockLoop_ok hl h1]
        simp only
        refine modelLoop_err (by simp [hl]) (fun h2 => hi (fun a ha s hs => ?_))
        rcases List.mem_append.1 hs with hs | hs
        · obtain ⟨j, hj, rfl⟩ := List.mem_map.1 hs
          exact h1 a ha j hj
        · exact h2 a ha s hs
      · rw [lockLoop_err hl h1]

/-- Every slot has a value for every attribute asked for. -/
def AttrsPresent (as : List Attr) (g : Graph) (h : Heap) : Prop :=
  ∀ a ∈ as, ∀ s ∈ slots h (getModels g), s.2 < ((h s.1).attr a).length

theorem zipWith_nil_cols {f : Attr → List Val} : ∀ as : List Attr,
    List.zipWith (fun c a => c ++ f a) (as.map (fun _ => [])) as = as.map f
  | [] => rfl
  | a :: as => by
    have := zipWith_nil_cols (f := f) as
    simp only [List.map_cons, List.zipWith_cons_cons, List.nil_append, this]

theorem extract_ok {as g h} (hp : AttrsPresent as g h) : extract as g h = .ok
    ⟨as.map (fun a => vals h a (slots h (getModels g))), (slots h (getModels g)).map (·.1),
      (slots h (getModels g)).map (·.2)⟩ := by
  unfold extract
  rw [modelLoop_ok (by simp) hp]
  simp only [zipWith_nil_cols, List.nil_append]

theorem extract_err {as g h} (hp : ¬ AttrsPresent as g h) : extract as g h = .error .indexError := by
  unfold extract
  exact modelLoop_err (by simp) hp

theorem extract_eq {as g h ex} (he : extract as g h = .ok ex) : AttrsPresent as g h ∧ ex =
    ⟨as.map (fun a => vals h a (slots h (getModels g))), (slots h (getModels g)).map (·.1),
      (slots h (getModels g)).map (·.2)⟩ := by
  by_cases hp : AttrsPresent as g h
  · rw [extract_ok hp] at he
    injection he with he
    exact ⟨hp, he.symm⟩
  · rw [extract_err hp] at he
    cases he

theorem vals_map_some {h : Heap} {a} : ∀ {ss : List (ModelId × Nat)}, (∀ s ∈ ss, s.2 < ((h s.1).attr a).length) →
    (vals h a ss).map some = ss.map (fun s => ((h s.1).attr a)[s.2]?)
  | [], _ => rfl
  | s :: ss, hp => by
    have h1 : ((h s.1).attr a)[s.2]? = some (((h s.1).attr a)[s.2]'(hp s (by simp))) := List.getElem?_eq_getElem _
    have h2 := vals_map_some (h := h) (a := a) (ss := ss) (fun s hs => hp s (by simp [hs]))
    unfold vals at *
    rw [List.filterMap_cons_some (f := fun s : ModelId × Nat => ((h s.1).attr a)[s.2]?) h1, List.map_cons, List.map_cons, h2, h1]

theorem vals_length {h : Heap} {a} {ss : List (ModelId × Nat)} (hp : ∀ s ∈ ss, s.2 < ((h s.1).attr a).length) :
    (vals h a ss).length = ss.length := by
  have := congrArg List.length (vals_map_some hp)
  simpa using this

theorem vals_get {h : Heap} {a} {ss : List (ModelId × Nat)} (hp : ∀ s ∈ ss, s.2 < ((h s.1).attr a).length) {j : Nat}
    {s : ModelId × Nat}     (hj : ss[j]? = some s) : (vals h a ss)[j]? = ((h s.1).attr a)[s.2]? := by
  have := congrArg (fun l => l[j]?) (vals_map_some hp)
  simp only [List.getElem?_map, hj, Option.map_some] at this
  cases hv : (vals h a ss)[j]? with
  | none => rw [hv] at this; simp at this
  | some v => rw [hv] at this; simpa using this

/-! ### Distribution -/

/-- Everything but parameter values is the same. -/
structure Same (h h' : Heap) : Prop where
  lower : ∀ m, (h' m).lower = (h m).lower
  upper : ∀ m, (h' m).upper = (h m).upper
  dtypes : ∀ m, (h' m).dtypes = (h m).dtypes
  steps : ∀ m, (h' m).steps = (h m).steps
  locks : ∀ m, (h' m).locks = (h m).locks
  nodeLock : ∀ m, (h' m).nodeLock = (h m).nodeLock
  length : ∀ m, (h' m).params.length = (h m).params.length

theorem Same.refl (h : Heap) : Same h h := ⟨fun _ => rfl, fun _ => rfl, fun _ => rfl, fun _ => rfl, fun _ => rfl, fun _ => rfl, fun _ => rfl⟩

theorem Same.trans {a b c : Heap} (h : Same a b) (h' : Same b c) : Same a c :=
  ⟨fun m => (h'.lower m).trans (h.lower m), fun m => (h'.upper m).trans (h.upper m),
   fun m => (h'.dtypes m).trans (h.dtypes m), fun m => (h'.steps m).trans (h.steps m),
   fun m => (h'.locks m).trans (h.locks m), fun m => (h'.nodeLock m).trans (h.nodeLock m),
   fun m => (h'.length m).trans (h.length m)⟩

theorem Same.symm {a b : Heap} (h : Same a b) : Same b a :=
  ⟨fun m => (h.lower m).symm, fun m => (h.upper m).symm, fun m => (h.dtypes m).symm, fun m => (h.steps m).symm,
   fun m => (h.locks m).symm, fun m => (h.nodeLock m).symm, fun m => (h.length m).symm⟩

theorem Same.slots {a b : Heap} (h : Same a b) (ms) : slots b ms = slots a ms := by
  unfold Verif.slots
  simp only [h.locks, h.nodeLock]

theorem setParam_ok {h h' : Heap} {m i x} (he : setParam h m i x = .ok h') : Same h h' ∧
    i < (h m).params.length ∧ (h' m).params[i]? = some x ∧
    (∀ m' i', (m', i') ≠ (m, i) → (h' m').params[i']? = (h m').params[i']?) := by
  unfold setParam at he
  split at he
  · rename_i hi
    injection he with he
    subst he
    refine ⟨⟨?_, ?_, ?_, ?_, ?_, ?_, ?_⟩, hi, ?_, ?_⟩
    iterate 7
      · intro m'
        simp only
        split
        · rename_i hm; simp [hm]
        · rfl
    · simp [hi]
    · intro m' i' hne
      simp only
      split
      · rename_i hm
        subst hm
        simp only
        rw [List.getElem?_set_ne]
        rintro rfl
        exact hne rfl
      · rfl
  · cases he

theorem setParam_total {h : Heap} {m i x} (hi : i < (h m).params.length) : ∃ h', setParam h m i x = .ok h' := by
  unfold setParam
  rw [if_pos hi]
  exact ⟨_, rfl⟩

theorem distribute_ok : ∀ {xs : List ℚ} {ss : List (ModelId × Nat)} {h h' : Heap},
    distribute h xs (ss.map (·.1)) (ss.map (·.2)) = .ok h' → Same h h' ∧
      (∀ m i, (m, i) ∉ ss → (h' m).params[i]? = (h m).params[i]?) ∧
      (xs.length = ss.length → ∀ s ∈ ss, ∃ j : Nat, ss[j]? = some s ∧ ∃ x, xs[j]? = some x ∧ (h' s.1).params[s.2]? = some x)
  | [], ss, h, h', he => by
    have : h = h' := by cases ss <;> (simp only [distribute] at he; injection he)
    subst this
    refine ⟨Same.refl _, fun _ _ _ => rfl, fun hl s hs => ?_⟩
    have : ss = [] := by cases ss <;> simp_all
    subst this
    simp at hs
  | x :: xs, [], h, h', he => by
    simp only [List.map_nil, distribute] at he
    injection he with he
    subst he
    exact ⟨Same.refl _, fun _ _ _ => rfl, fun _ s hs => by simp at hs⟩
  | x :: xs, s :: ss, h, h', he => by
    simp only [List.map_cons, distribute] at he
    split at he
    · cases he
    · rename_i h1 hs1
      obtain ⟨a1, a2, a3, a4⟩ := setParam_ok hs1
      obtain ⟨b1, b2, b3⟩ := distribute_ok he
      refine ⟨a1.trans b1, fun m i hn => ?_, fun hl t ht => ?_⟩
      · rw [b2 m i (fun h => hn (by simp [h]))]
        exact a4 m i (fun h => hn (by rw [h]; simp))
      · by_cases htm : t ∈ ss
        · obtain ⟨j, c1, y, c2, c3⟩ := b3 (by simpa using hl) t htm
          exact ⟨j + 1, by simpa using c1, y, by simpa using c2, c3⟩
        · rcases List.mem_cons.1 ht with rfl | ht
          · exact ⟨0, rfl, x, rfl, by rw [b2 t.1 t.2 htm]; exact a3⟩
          · exact absurd ht htm

theorem distribute_total : ∀ {xs : List ℚ} {ss : List (ModelId × Nat)} {h : Heap},
    (∀ s ∈ ss, s.2 < (h s.1).params.length) → ∃ h', distribute h xs (ss.map (·.1)) (ss.map (·.2)) = .ok h'
  | [], [], h, _ => ⟨h, rfl⟩
  | [], _ :: _, h, _ => ⟨h, rfl⟩
  | _ :: _, [], h, _ => ⟨h, rfl⟩
  | x :: xs, s :: ss, h, hp => by
    obtain ⟨h1, hs1⟩ := setParam_total (x := x) (hp s (by simp))
    obtain ⟨h2, hs2⟩ := distribute_total (xs := xs) (ss := ss) (h := h1) (fun t ht => by
      rw [(setParam_ok hs1).1.length]; exact hp t (by simp [ht]))
    exact ⟨h2, by simp only [List.map_cons, distribute, hs1, hs2]⟩

theorem PModel.ext' {a b : PModel} (h1 : a.params = b.params) (h2 : a.lower = b.lower) (h3 : a.upper = b.upper)
    (h4 : a.dtypes = b.dtypes) (h5 : a.steps = b.steps) (h6 : a.locks = b.locks) (h7 : a.nodeLock = b.nodeLock) : a = b := by
  cases a; cases b; simp_all

theorem Same.eq {h h' : Heap} (hs : Same h h') (hp : ∀ m i : Nat, (h' m).params[i]? = (h m).params[i]?) : h' = h :=
  funext fun m => PModel.ext' (List.ext_getElem? (hp m)) (hs.lower m) (hs.upper m) (hs.dtypes m) (hs.steps m)
    (hs.locks m) (hs.nodeLock m)

/-- Distribution of a full vector over distinct slots. -/
theorem distribute_get {xs : List ℚ} {ss : List (ModelId × Nat)} {h h' : Heap} (hn : ss.Nodup)
    (hl : xs.length = ss.length) (he : distribute h xs (ss.map (·.1)) (ss.map (·.2)) = .ok h') {j : Nat} {s}
    (hj : ss[j]? = some s) : (h' s.1).params[s.2]? = xs[j]? := by
  obtain ⟨k, h1, x, h2, h3⟩ := (distribute_ok he).2.2 hl s (List.mem_of_getElem? hj)
  have : k = j := by
    obtain ⟨hk1, hk2⟩ := List.getElem?_eq_some_iff.1 h1
    obtain ⟨hj1, hj2⟩ := List.getElem?_eq_some_iff.1 hj
    exact (List.Nodup.getElem_inj_iff hn).1 (hk2.trans hj2.symm)
  subst this
  rw [h3, h2]

/-- Writing back the present values changes nothing (slots may repeat). -/
theorem distribute_self {h : Heap} : ∀ {xs : List ℚ} {ss : List (ModelId × Nat)},
    (∀ (j : Nat) (s : ModelId × Nat) x, ss[j]? = some s → xs[j]? = some x → (h s.1).params[s.2]? = some x) →
    distribute h xs (ss.map (·.1)) (ss.map (·.2)) = .ok h
  | [], [], _ => rfl
  | [], _ :: _, _ => rfl
  | _ :: _, [], _ => rfl
  | x :: xs, s :: ss, hv => by
    have hx := hv 0 s x rfl rfl
    obtain ⟨hi, hg⟩ := List.getElem?_eq_some_iff.1 hx
    obtain ⟨h1, hs1⟩ := setParam_total (x := x) hi
    have : h1 = h := by
      obtain ⟨a1, _, a3, a4⟩ := setParam_ok hs1
      refine a1.eq (fun m i => ?_)
      by_cases hc : (m, i) = (s.1, s.2)
      · injection hc with e1 e2
        subst e1; subst e2
        rw [a3, hx]
      · exact a4 m i hc
    subst this
    simp only [List.map_cons, distribute, hs1]
    exact distribute_self (fun j t y h1 h2 => hv (j + 1) t y (by simpa using h1) (by simpa using h2))

theorem params_slots {g : Graph} {h : Heap} (hp : ParamsPresent g h) : ∀ s ∈ slots h (getModels g), s.2 < (h s.1).params.length := by
  rintro ⟨m, i⟩ hs
  obtain ⟨h1, _, h2⟩ := mem_slots.1 hs
  have := hp m h1
  obtain ⟨h3, _⟩ := List.getElem?_eq_some_iff.1 h2
  simp only
  omega

/-! ### Rounding -/

theorem pyRound_near (x : ℚ) : x - 1 / 2 ≤ pyRound x ∧ (pyRound x : ℚ) ≤ x + 1 / 2 := by
  have h1 := Int.floor_le x
  have h2 := Int.lt_floor_add_one x
  unfold pyRound
  simp only
  split
  · rename_i h; constructor <;> linarith
  · rename_i h
    split
    · rename_i h'
      push_cast
      constructor <;> linarith
    · rename_i h'
      have : x - ⌊x⌋ = 1 / 2 := le_antisymm (not_lt.1 h') (not_lt.1 h)
      split
      · constructor <;> linarith
      · push_cast
        constructor <;> linarith

theorem pyRound_ge {x : ℚ} {z : ℤ} (h : (z : ℚ) ≤ x) : z ≤ pyRound x := by
  have h1 : z ≤ ⌊x⌋ := Int.le_floor.2 h
  unfold pyRound
  simp only
  split
  · exact h1
  · split
    · omega
    · split <;> omega

theorem pyRound_le {x : ℚ} {z : ℤ} (h : x ≤ z) : pyRound x ≤ z := by
  by_contra hc
  have h1 : (z : ℚ) + 1 ≤ pyRound x := by exact_mod_cast (by omega : z + 1 ≤ pyRound x)
  have h2 := (pyRound_near x).2
  linarith

theorem pyInt_gt (x : ℚ) : x - 1 < pyInt x := by
  unfold pyInt
  split
  · have := Int.lt_floor_add_one x; linarith
  · have := Int.le_ceil x; linarith

theorem pyInt_lt (x : ℚ) : (pyInt x : ℚ) - 1 < x := by
  unfold pyInt
  split
  · have := Int.floor_le x; linarith
  · have := Int.ceil_lt_add_one x; linarith

theorem pyInt_int (z : ℤ) : pyInt (z : ℚ) = z := by
  unfold pyInt
  split <;> simp

theorem randint_ok {lo hi k : ℤ} {n} (h : randint lo hi n = .ok k) : lo ≤ k ∧ k < hi := by
  unfold randint at h
  split at h
  · rename_i hl
    injection h with h
    have h1 := Int.emod_nonneg (n : ℤ) (show hi - lo ≠ 0 by omega)
    have h2 := Int.emod_lt_of_pos (n : ℤ) (show 0 < hi - lo by omega)
    omega
  · cases h

theorem uniformSample_within {low up : ℚ} {step dt} {r : Rnd} {x} (hb : low ≤ up) (hs : ∀ s, step = some s → 0 < s)
    (hu : 0 ≤ r.u ∧ r.u < 1) (h : uniformSample low up step dt r = .ok x) : WithinBounds low up step dt x := by
  have h0 : low ≤ low + (up - low) * r.u := by nlinarith [mul_nonneg (sub_nonneg.2 hb) hu.1]
  have h1 : low + (up - low) * r.u ≤ up := by nlinarith [mul_nonneg (sub_nonneg.2 hb) (sub_nonneg.2 hu.2.le)]
  unfold uniformSample at h
  split at h
  · split at h
    · injection h with h
      subst h
      exact ⟨h0, h1⟩
    · rename_i s
      have hsp : 0 < s := hs s rfl
      split at h
      · cases h
      · injection h with h
        set q := low + (up - low) * r.u with hq
        obtain ⟨ha, hb'⟩ := pyRound_near (q / s)
        have e1 : q / s * s = q := by field_simp
        subst h
        refine ⟨⟨_, rfl⟩, ?_, ?_, ?_, ?_⟩
        · have := mul_le_mul_of_nonneg_right ha hsp.le
          rw [sub_mul, e1] at this
          linarith
        · have := mul_le_mul_of_nonneg_right hb' hsp.le
          rw [add_mul, e1] at this
          linarith
        · rintro ⟨z, hz⟩
          have : z ≤ pyRound (q / s) := pyRound_ge (by rw [le_div_iff₀ hsp, ← hz]; exact h0)
          rw [hz]
          exact mul_le_mul_of_nonneg_right (by exact_mod_cast this) hsp.le
        · rintro ⟨z, hz⟩
          have : pyRound (q / s) ≤ z := pyRound_le (by rw [div_le_iff₀ hsp, ← hz]; exact h1)
          rw [hz]
          exact mul_le_mul_of_nonneg_right (by exact_mod_cast this) hsp.le
  · split at h
    · split at h
      · cases h
      · rename_i k hk
        injection h with h
        subst h
        obtain ⟨h2, h3⟩ := randint_ok hk
        have h2' : (pyInt low : ℚ) ≤ k := by exact_mod_cast h2
        have h3' : (k : ℚ) + 1 ≤ pyInt up := by exact_mod_cast h3
        refine ⟨⟨k, rfl⟩, ?_, ?_, ?_⟩
        · have := pyInt_gt low; linarith
        · have := pyInt_lt up; linarith
        · rintro ⟨z, rfl⟩
          rw [pyInt_int] at h2'
          exact h2'
    · rename_i s
      have hsp : 0 < s := hs s rfl
      split at h
      · cases h
      · split at h
        · cases h
        · rename_i k hk
          injection h with h
          subst h
          obtain ⟨h2, h3⟩ := randint_ok hk
          have h2' : (pyInt (low / s) : ℚ) ≤ k := by exact_mod_cast h2
          have h3' : (k : ℚ) + 1 ≤ pyInt (up / s) := by exact_mod_cast h3
          refine ⟨⟨k, rfl⟩, ?_, ?_, ?_⟩
          · have := pyInt_gt (low / s)
            have : low / s - 1 < k := by linarith
            have := mul_lt_mul_of_pos_right this hsp
            rw [sub_mul, div_mul_cancel₀ _ hsp.ne'] at this
            linarith
          · have := pyInt_lt (up / s)
            have : (k : ℚ) < up / s := by linarith
            exact (lt_div_iff₀ hsp).1 this
          · rintro ⟨z, rfl⟩
            rw [mul_div_assoc, div_self hsp.ne', mul_one, pyInt_int] at h2'
            exact mul_le_mul_of_nonneg_right h2' hsp.le
  · cases h

end Verif
