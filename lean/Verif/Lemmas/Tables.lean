import Verif.Spec.Tables
import Verif.Lemmas.Params
import Verif.Lemmas.OpsMore
import Std.Data.String.ToNat
import Mathlib.Tactic.IntervalCases
import Mathlib.Tactic.NormNum
import Mathlib.Tactic.Linarith
import Mathlib.Tactic.FieldSimp
/-! # Lemmas about component tables -/

namespace Verif
open Graph

theorem numbered_length (s : String) (n : Nat) : (numbered s n).length = n := by simp [numbered]

theorem numbered_nodup (s : String) (n : Nat) : (numbered s n).Nodup := by
  refine List.nodup_range.map (fun a b h => ?_)
  exact Nat.repr_injective ((String.append_right_inj s).1 h)

theorem defRatios_length : ∀ n, (defaultRatios ℚ n).length = n - 1
  | 0 => rfl
  | 1 => rfl
  | n + 2 => by
    have := defRatios_length (n + 1)
    simp only [defaultRatios, List.length_cons, this]
    omega

theorem defRatios_mem : ∀ n, ∀ x ∈ defaultRatios ℚ n, 0 ≤ x ∧ x ≤ 1
  | 0 => by simp [defaultRatios]
  | 1 => by simp [defaultRatios]
  | n + 2 => by
    intro x hx
    simp only [defaultRatios, List.mem_cons] at hx
    rcases hx with rfl | hx
    · have h2 : (1 : ℚ) ≤ ((n + 2 : Nat) : ℚ) := by exact_mod_cast (by omega : 1 ≤ n + 2)
      have h3 : 1 / ((n + 2 : Nat) : ℚ) ≤ 1 := by rw [div_le_one (by linarith)]; exact h2
      have h4 : 0 ≤ 1 / ((n + 2 : Nat) : ℚ) := by positivity
      constructor <;> linarith
    · exact defRatios_mem (n + 1) x hx

theorem entries_get (xs : List ℚ) (i : Nat) : (entries xs)[i]? = xs[i]?.map .num := by simp [entries]

theorem entries_length (xs : List ℚ) : (entries xs).length = xs.length := by simp [entries]

/-- A good entry from numbers. -/
theorem goodEntry_mk {l u d q : ℚ} {s : Option ℚ} (h1 : l < u) (h2 : l ≤ d) (h3 : d ≤ u)
    (hs : ∀ q, s = some q → 0 < q ∧ (∃ z : ℤ, l = z * q) ∧ (∃ z : ℤ, u = z * q)) (hq : 0 < q) :
    GoodEntry (some (.num l)) (some (.num u)) (some (.num d)) (some .float) (some s) (some q) :=
  ⟨rfl, ⟨l, u, d, rfl, rfl, rfl, h1, h2, h3, s, rfl, hs⟩, q, rfl, hq⟩

/-- A good entry without step size. -/
theorem goodEntry_plain {l u d q : ℚ} (h1 : l < u) (h2 : l ≤ d) (h3 : d ≤ u) (hq : 0 < q) :
    GoodEntry (some (.num l)) (some (.num u)) (some (.num d)) (some .float) (some none) (some q) :=
  goodEntry_mk h1 h2 h3 (by simp) hq

theorem replicate_get {α : Type} {n i : Nat} (x : α) (h : i < n) : (List.replicate n x)[i]? = some x := by
  simp [h]

theorem twin_get {α : Type} {n i : Nat} (x y : α) (h : i < 2 * n) :
    (List.replicate n x ++ List.replicate n y)[i]? = some (if i < n then x else y) := by
  by_cases hi : i < n
  · rw [List.getElem?_append_left (by simpa using hi), replicate_get x hi, if_pos hi]
  · rw [List.getElem?_append_right (by simpa using Nat.le_of_not_lt hi), List.length_replicate, replicate_get y (by omega), if_neg hi]

theorem twin_names (n : Nat) : (numbered "amplitude" n ++ numbered "phase" n).Nodup := by
  refine List.nodup_append.2 ⟨numbered_nodup _ _, numbered_nodup _ _, ?_⟩
  intro a ha b hb hab
  obtain ⟨i, _, rfl⟩ := List.mem_map.1 ha
  obtain ⟨j, _, rfl⟩ := List.mem_map.1 hb
  have := congrArg String.toList hab
  simp [String.toList_append] at this

theorem emptySheet_sound (b : Bool) : (emptySheet b).Sound :=
  ⟨rfl, rfl, rfl, rfl, rfl, rfl, rfl, rfl, List.nodup_nil, by intro i hi; simp [emptySheet] at hi⟩

theorem splitSheet_sound (k : Nat) : (splitSheet k).Sound where
  defaults := by simp [splitSheet, entries_length, defRatios_length]
  lower := by simp [splitSheet, entries_length]
  upper := by simp [splitSheet, entries_length]
  dtypes := by simp [splitSheet]
  steps := by simp [splitSheet]
  imprecisions := by simp [splitSheet]
  locks := by simp [splitSheet]
  names := numbered_length _ _
  distinct := numbered_nodup _ _
  free := by
    intro i hi
    have hlt : i < k - 1 := by
      have := (List.getElem?_eq_some_iff.1 hi).1
      simpa [splitSheet] using this
    have hd : i < (defaultRatios ℚ k).length := by rw [defRatios_length]; exact hlt
    have hm := defRatios_mem k _ (List.getElem_mem hd)
    simp only [splitSheet, entries_get, replicate_get _ hlt, List.getElem?_eq_getElem hd, Option.map_some]
    exact goodEntry_plain (by norm_num) hm.1 hm.2 (by norm_num)

theorem pulseSheet_sound (b : Bool) : (pulseSheet b).Sound where
  defaults := rfl
  lower := rfl
  upper := rfl
  dtypes := rfl
  steps := rfl
  imprecisions := rfl
  locks := rfl
  names := rfl
  distinct := by simp only [pulseSheet]; decide
  free := by
    intro i hi
    have hlt : i < 7 := (List.getElem?_eq_some_iff.1 hi).1
    interval_cases i <;> first | (simp [pulseSheet] at hi; done) | exact goodEntry_plain (by norm_num) (by norm_num) (by norm_num) (by norm_num)

theorem twinSheet_free {n : Nat} {a b c d e f g k : ℚ} (h1 : a < c) (h2 : a ≤ e) (h3 : e ≤ c) (h4 : b < d) (h5 : b ≤ f) (h6 : f ≤ d) (hg : 0 < g) (hk : 0 < k)
    {i : Nat} (hi : i < 2 * n) :
    GoodEntry (entries (List.replicate n a ++ List.replicate n b))[i]? (entries (List.replicate n c ++ List.replicate n d))[i]?
      (entries (List.replicate n e ++ List.replicate n f))[i]? (List.replicate (2 * n) DType.float)[i]?
      (List.replicate n (none : Option ℚ) ++ List.replicate n none)[i]? (List.replicate n g ++ List.replicate n k)[i]? := by
  simp only [entries_get, twin_get _ _ hi, replicate_get _ hi, Option.map_some]
  by_cases hn : i < n
  · simp only [if_pos hn]
    exact goodEntry_plain h1 h2 h3 hg
  · simp only [if_neg hn]
    exact goodEntry_plain h4 h5 h6 hk

theorem sheet_sound {S : Settings} (hS : S.Sensible) : ∀ p k, (sheet S p k).Sound := by
  have hpi := hS.pi
  intro p k
  cases p with
  | terminalSource => exact emptySheet_sound _
  | terminalSink => exact emptySheet_sound _
  | splitter => exact splitSheet_sound k
  | freqSplitter => exact splitSheet_sound k
  | pulsedLaser => exact pulseSheet_sound _
  | noisySignal => exact pulseSheet_sound _
  | impulse => exact emptySheet_sound _
  | meter => exact emptySheet_sound _
  | fieldMeter => exact emptySheet_sound _
  | waveguide => exact emptySheet_sound _
  | cwLaser =>
    refine ⟨rfl, rfl, rfl, rfl, rfl, rfl, rfl, rfl, by simp only [sheet]; decide, ?_⟩
    intro i hi
    have hlt : i < 4 := (List.getElem?_eq_some_iff.1 hi).1
    interval_cases i <;> first | (simp [sheet] at hi; done) | exact goodEntry_plain (by norm_num) (by norm_num) (by norm_num) (by norm_num)
  | photodiode =>
    refine ⟨rfl, rfl, rfl, rfl, rfl, rfl, rfl, rfl, by simp only [sheet]; decide, ?_⟩
    intro i hi
    have hlt : i < 7 := (List.getElem?_eq_some_iff.1 hi).1
    simp only [sheet, replicate_get _ hlt] at hi
    cases hi
  | dispersiveFiber =>
    refine ⟨rfl, rfl, rfl, rfl, rfl, rfl, rfl, rfl, by simp only [sheet]; decide, ?_⟩
    intro i hi
    have hlt : i < 1 := (List.getElem?_eq_some_iff.1 hi).1
    interval_cases i
    refine goodEntry_mk (by norm_num) (by norm_num) (by norm_num) ?_ (by norm_num)
    rintro q hq
    injection hq with hq
    subst hq
    exact ⟨by norm_num, ⟨0, by norm_num⟩, ⟨1000000, by norm_num⟩⟩
  | attenuator =>
    refine ⟨rfl, rfl, rfl, rfl, rfl, rfl, rfl, rfl, by simp only [sheet]; decide, ?_⟩
    intro i hi
    have hlt : i < 1 := (List.getElem?_eq_some_iff.1 hi).1
    interval_cases i
    exact goodEntry_plain (by norm_num) (by norm_num) (by norm_num) (by norm_num)
  | phaseModulator =>
    refine ⟨rfl, rfl, rfl, rfl, rfl, rfl, rfl, rfl, by simp only [sheet]; decide, ?_⟩
    intro i hi
    have hlt : i < 4 := (List.getElem?_eq_some_iff.1 hi).1
    interval_cases i
    · exact goodEntry_plain (by linarith) (by norm_num) (by linarith) (by norm_num)
    · exact goodEntry_plain hS.pm hS.pmMin hS.pmMax (by norm_num)
    · exact goodEntry_plain (by linarith) (by norm_num) (by linarith) (by norm_num)
    · simp [sheet] at hi
  | intensityModulator =>
    refine ⟨rfl, rfl, rfl, rfl, rfl, rfl, rfl, rfl, by simp only [sheet]; decide, ?_⟩
    intro i hi
    have hlt : i < 4 := (List.getElem?_eq_some_iff.1 hi).1
    interval_cases i
    · exact goodEntry_plain (by linarith) (by norm_num) (by linarith) (by norm_num)
    · refine goodEntry_mk (by norm_num) (by norm_num) (by norm_num) ?_ (by norm_num)
      rintro q hq
      injection hq with hq
      subst hq
      exact ⟨by norm_num, ⟨1, by norm_num⟩, ⟨50, by norm_num⟩⟩
    · exact goodEntry_plain (by linarith) (by norm_num) (by linarith) (by norm_num)
    · exact goodEntry_plain (by linarith) (by norm_num) (by linarith) (by norm_num)
  | waveShaper =>
    refine ⟨?_, ?_, ?_, ?_, ?_, ?_, ?_, ?_, twin_names _, ?_⟩
    all_goals try (simp [sheet, entries_length, numbered_length]; done)
    all_goals try (simp [sheet, entries_length, numbered_length]; omega)
    intro i hi
    have hlt : i < 2 * S.bins := by simpa [sheet] using (List.getElem?_eq_some_iff.1 hi).1
    exact twinSheet_free hS.extinction hS.extinction.le le_rfl (by linarith) (by norm_num) (by linarith) (by norm_num) (by linarith) hlt
  | splitDelay =>
    refine ⟨rfl, rfl, rfl, rfl, rfl, rfl, rfl, rfl, numbered_nodup _ _, ?_⟩
    intro i hi
    have hlt : i < 8 := (List.getElem?_eq_some_iff.1 hi).1
    simp only [sheet, entries_get, replicate_get _ hlt, Option.map_some]
    exact goodEntry_plain (by norm_num) (by norm_num) (by norm_num) (by norm_num)
  | amplifier =>
    refine ⟨rfl, rfl, rfl, rfl, rfl, rfl, rfl, rfl, by simp only [sheet]; decide, ?_⟩
    intro i hi
    have hlt : i < 9 := (List.getElem?_eq_some_iff.1 hi).1
    interval_cases i <;> first | (simp [sheet] at hi; done) | exact goodEntry_plain (by norm_num) (by norm_num) (by norm_num) (by norm_num)
  | programmableFilter =>
    have hb := hS.bases
    refine ⟨?_, ?_, ?_, ?_, ?_, ?_, ?_, ?_, twin_names _, ?_⟩
    all_goals try (simp [sheet, entries_length, numbered_length, hb]; done)
    intro i hi
    have hlt : i < 2 * S.bases := by rw [hb]; exact (List.getElem?_eq_some_iff.1 hi).1
    exact twinSheet_free (by norm_num) (by norm_num) (by norm_num) (by linarith) (by norm_num) (by linarith) (by norm_num) (by linarith) hlt
  | squareFilter =>
    refine ⟨rfl, rfl, rfl, rfl, rfl, rfl, rfl, rfl, by simp only [sheet]; decide, ?_⟩
    intro i hi
    have hlt : i < 1 := (List.getElem?_eq_some_iff.1 hi).1
    interval_cases i
    exact goodEntry_plain (by norm_num) (by norm_num) (by norm_num) (by norm_num)
  | delayLine =>
    refine ⟨rfl, rfl, rfl, rfl, rfl, rfl, rfl, rfl, by simp only [sheet]; decide, ?_⟩
    intro i hi
    have hlt : i < 1 := (List.getElem?_eq_some_iff.1 hi).1
    interval_cases i
    exact goodEntry_plain (by norm_num) (by norm_num) (by norm_num) (by norm_num)
  | integratedDelay =>
    refine ⟨rfl, rfl, rfl, rfl, rfl, rfl, rfl, rfl, by simp only [sheet]; decide, ?_⟩
    intro i hi
    have hlt : i < 1 := (List.getElem?_eq_some_iff.1 hi).1
    interval_cases i
    refine goodEntry_mk (by norm_num) (by norm_num) (by norm_num) ?_ (by norm_num)
    rintro q hq
    injection hq with hq
    subst hq
    exact ⟨by norm_num, ⟨0, by norm_num⟩, ⟨10, by norm_num⟩⟩
  | phaseShifter =>
    refine ⟨rfl, rfl, rfl, rfl, rfl, rfl, rfl, rfl, by simp only [sheet]; decide, ?_⟩
    intro i hi
    have hlt : i < 1 := (List.getElem?_eq_some_iff.1 hi).1
    interval_cases i
    exact goodEntry_plain (by linarith) (by linarith) (by linarith) (by linarith)

/-! ### Objects through evolution -/

/-- The object has the lists of the table, and a value for every parameter. -/
structure OfSheet (s : Sheet) (m : PModel) : Prop where
  lower : m.lower = s.model.lower
  upper : m.upper = s.model.upper
  dtypes : m.dtypes = s.model.dtypes
  steps : m.steps = s.model.steps
  locks : m.locks = s.model.locks
  nodeLock : m.nodeLock = s.model.nodeLock
  length : m.params.length = s.model.params.length

theorem OfSheet.self (s : Sheet) : OfSheet s s.model := ⟨rfl, rfl, rfl, rfl, rfl, rfl, rfl⟩

theorem OfSheet.same {g : Graph} {s : Sheet} {h h' : Heap} {m : ModelId} (ho : OfSheet s (h m)) (hs : SameLocked g h h') : OfSheet s (h' m) :=
  ⟨(hs.lower m).trans ho.lower, (hs.upper m).trans ho.upper, (hs.dtypes m).trans ho.dtypes, (hs.steps m).trans ho.steps, (hs.locks m).trans ho.locks,
    (hs.nodeLock m).trans ho.nodeLock, (hs.length m).trans ho.length⟩

/-- Variable parameters of one object within bounds. -/
def InBounds (m : PModel) : Prop :=
  m.nodeLock = false → ∀ i : Nat, m.locks[i]? = some false → ∀ l u : ℚ, m.lower[i]? = some l → m.upper[i]? = some u →
    ∃ y, m.params[i]? = some y ∧ l ≤ y ∧ y ≤ u

theorem withinOwnBounds_iff {g : Graph} {h : Heap} : WithinOwnBounds g h ↔ ∀ m ∈ getModels g, InBounds (h m) :=
  ⟨fun hb m hm hn i hi l u hl hu => hb m hm i ⟨hn, hi⟩ l u hl hu, fun hb m hm i hi l u hl hu => hb m hm hi.1 i hi.2 l u hl hu⟩

theorem Sheet.Sound.inBounds {s : Sheet} (hs : s.Sound) : InBounds s.model := by
  intro _ i hi l u hl hu
  obtain ⟨l', u', d, h1, h2, h3, _, h5, h6, _⟩ := (hs.free i hi).bounds
  simp only [Sheet.model, List.getElem?_map, h1, h2, Option.map_some, Option.some.injEq, Entry.toNum] at hl hu
  subst hl; subst hu
  exact ⟨d, by simp [Sheet.model, List.getElem?_map, h3, Entry.toNum], h5, h6⟩

/-- What holds of a design before `update_graph`. -/
structure Kit (S : Settings) (cls : ClassId → Part) (g : Graph) (h : Heap) : Prop where
  wf : g.WF
  acyclic : g.Acyclic
  placed : Placed cls g
  nodes : ∀ n ∈ g.nodes, ¬ (cls n.comp.cls).IsSplitter → OfSheet (emptySheet true) (h n.comp.uid)
  edges : ∀ e ∈ g.edges, OfSheet (sheet S (cls e.comp.cls) 1) (h e.comp.uid)
  bounds : ∀ e ∈ g.edges, InBounds (h e.comp.uid)

/-- What holds of a design at all times. -/
structure Stocked (S : Settings) (cls : ClassId → Part) (g : Graph) (h : Heap) : Prop where
  wf : g.WF
  acyclic : g.Acyclic
  placed : Placed cls g
  nodes : ∀ n ∈ g.nodes, OfSheet (sheet S (cls n.comp.cls) (g.outDeg n.id)) (h n.comp.uid)
  edges : ∀ e ∈ g.edges, OfSheet (sheet S (cls e.comp.cls) 1) (h e.comp.uid)
  bounds : WithinOwnBounds g h

theorem updateNodes_ok {cls : ClassId → Part} {g : Graph} : ∀ (l : List Node) (h : Heap), (l.map (·.comp.uid)).Nodup →
    (∀ n ∈ l, (cls n.comp.cls).IsNode) → ∃ h', updateNodes cls g l h = .ok h' ∧ (∀ m, m ∉ l.map (·.comp.uid) → h' m = h m) ∧
      ∀ n ∈ l, ((cls n.comp.cls).IsSplitter → h' n.comp.uid = (splitSheet (g.outDeg n.id)).model) ∧
        (¬ (cls n.comp.cls).IsSplitter → h' n.comp.uid = h n.comp.uid)
  | [], h, _, _ => ⟨h, rfl, fun _ _ => rfl, by simp⟩
  | n :: ns, h, hn, hp => by
    rw [List.map_cons, List.nodup_cons] at hn
    have hu : ∃ m, updateModel (cls n.comp.cls) (g.outDeg n.id) (h n.comp.uid) = .ok m ∧
        ((cls n.comp.cls).IsSplitter → m = (splitSheet (g.outDeg n.id)).model) ∧ (¬ (cls n.comp.cls).IsSplitter → m = h n.comp.uid) := by
      rcases hp n (by simp) with e | e | e | e <;> rw [e]
      · exact ⟨_, rfl, fun hc => (by rcases hc with hc | hc <;> cases hc), fun _ => rfl⟩
      · exact ⟨_, rfl, fun hc => (by rcases hc with hc | hc <;> cases hc), fun _ => rfl⟩
      · exact ⟨_, rfl, fun _ => rfl, fun h => absurd (Or.inl rfl) h⟩
      · exact ⟨_, rfl, fun _ => rfl, fun h => absurd (Or.inr rfl) h⟩
    obtain ⟨m, hm, hm1, hm2⟩ := hu
    obtain ⟨h', h1, h2, h3⟩ := updateNodes_ok (g := g) ns (fun k => if k = n.comp.uid then m else h k) hn.2 (fun x hx => hp x (by simp [hx]))
    refine ⟨h', by simp only [updateNodes, hm, h1], ?_, ?_⟩
    · intro k hk
      rw [List.map_cons, List.mem_cons, not_or] at hk
      rw [h2 k hk.2, if_neg hk.1]
    · intro x hx
      rcases List.mem_cons.1 hx with rfl | hx
      · rw [h2 _ hn.1, if_pos rfl]
        exact ⟨hm1, hm2⟩
      · have hne : x.comp.uid ≠ n.comp.uid := fun e => hn.1 (e ▸ List.mem_map.2 ⟨x, hx, rfl⟩)
        obtain ⟨h4, h5⟩ := h3 x hx
        refine ⟨h4, fun hs => ?_⟩
        rw [h5 hs, if_neg hne]

theorem Placed.nodes_nodup {cls g} (hp : Placed cls g) : (g.nodes.map (·.comp.uid)).Nodup := (List.nodup_append.1 hp.distinct).1

theorem Placed.edge_not_node {cls g} (hp : Placed cls g) {e : Edge} (he : e ∈ g.edges) : e.comp.uid ∉ g.nodes.map (·.comp.uid) :=
  fun hc => (List.nodup_append.1 hp.distinct).2.2 _ hc _ (List.mem_map.2 ⟨e, he, rfl⟩) rfl

theorem sheet_terminal {S : Settings} {p : Part} {k : Nat} (hp : p.IsNode) (hs : ¬ p.IsSplitter) : sheet S p k = emptySheet true := by
  rcases hp with rfl | rfl | rfl | rfl
  · rfl
  · rfl
  · exact absurd (Or.inl rfl) hs
  · exact absurd (Or.inr rfl) hs

theorem sheet_splitter {S : Settings} {p : Part} {k : Nat} (hs : p.IsSplitter) : sheet S p k = splitSheet k := by
  rcases hs with rfl | rfl <;> rfl

/-- `update_graph` never fails and completes a design. -/
theorem Kit.update {S : Settings} {cls g h} (hk : Kit S cls g h) : ∃ h', updateDesign cls g h = .ok h' ∧ Stocked S cls g h' ∧
    (∀ m, m ∉ g.nodes.map (·.comp.uid) → h' m = h m) ∧
    ∀ n ∈ g.nodes, ((cls n.comp.cls).IsSplitter → h' n.comp.uid = (splitSheet (g.outDeg n.id)).model) ∧
        (¬ (cls n.comp.cls).IsSplitter → h' n.comp.uid = h n.comp.uid) := by
  obtain ⟨o, ho⟩ := topoSort_complete hk.wf hk.acyclic
  obtain ⟨h', h1, h2, h3⟩ := updateNodes_ok (g := g) g.nodes h hk.placed.nodes_nodup hk.placed.nodes
  have hsh : ∀ n ∈ g.nodes, OfSheet (sheet S (cls n.comp.cls) (g.outDeg n.id)) (h' n.comp.uid) ∧ InBounds (h' n.comp.uid) := by
    intro n hn
    obtain ⟨h4, h5⟩ := h3 n hn
    by_cases hs : (cls n.comp.cls).IsSplitter
    · rw [h4 hs, sheet_splitter hs]
      exact ⟨OfSheet.self _, (splitSheet_sound _).inBounds⟩
    · rw [h5 hs, sheet_terminal (hk.placed.nodes n hn) hs]
      refine ⟨hk.nodes n hn hs, fun hl => ?_⟩
      rw [(hk.nodes n hn hs).nodeLock] at hl
      cases hl
  refine ⟨h', by simp only [updateDesign, ho, h1], ⟨hk.wf, hk.acyclic, hk.placed, fun n hn => (hsh n hn).1, ?_, ?_⟩, h2, h3⟩
  · intro e he
    rw [h2 _ (hk.placed.edge_not_node he)]
    exact hk.edges e he
  · rw [withinOwnBounds_iff]
    intro m hm
    rcases List.mem_append.1 hm with hm | hm
    · obtain ⟨n, hn, rfl⟩ := List.mem_map.1 hm
      exact (hsh n hn).2
    · obtain ⟨e, he, rfl⟩ := List.mem_map.1 hm
      rw [h2 _ (hk.placed.edge_not_node he)]
      exact hk.bounds e he

theorem Stocked.kit {S cls g h} (hs : Stocked S cls g h) : Kit S cls g h where
  wf := hs.wf
  acyclic := hs.acyclic
  placed := hs.placed
  nodes := by
    intro n hn hns
    have := hs.nodes n hn
    rwa [sheet_terminal (hs.placed.nodes n hn) hns] at this
  edges := hs.edges
  bounds := fun e he => withinOwnBounds_iff.1 hs.bounds _ (List.mem_append_right _ (List.mem_map.2 ⟨e, he, rfl⟩))

/-- Where the components of an evolved design come from, and that no object is in two places. -/
theorem step_parts {cls : ClassId → Part} {lib : Library} (hf : LibraryFits cls lib) {g g' : Graph} {r : StepRec} (hw : g.WF) (ha : g.Acyclic) (hp : Placed cls g)
    (hs : LegalStep lib g r g') (hd : NewObjects g r.draw) : Placed cls g' ∧
    (∀ n ∈ g'.nodes, (∃ n0 ∈ g.nodes, n.comp = n0.comp) ∨ n.comp = r.draw.nc ∨ n.comp = r.draw.ec) ∧
    (∀ e ∈ g'.edges, (∃ e0 ∈ g.edges, e.comp = e0.comp) ∨ e.comp = r.draw.ec) := by
  have hdist := List.nodup_append.1 hp.distinct
  have hec := hd.edge
  have hnc := hd.node
  simp only [componentsOf, List.mem_append, not_or] at hec hnc
  cases legal_kind hs with
  | series i hop hloc hi hn hecl hncl h =>
    obtain ⟨e, he, hr, h', hh, hnodes, hedges⟩ := addSeries_shape hw hi hn r.draw.ec r.draw.nc
    rw [h] at hh
    injection hh with hh
    subst hh
    have hmem : ∀ x ∈ g'.edges, (∃ e0 ∈ g.edges, x.comp = e0.comp) ∨ x.comp = r.draw.ec := by
      intro x hx
      have := hedges.mem_iff.1 hx
      rcases List.mem_append.1 this with hx | hx
      · split at hx
        · simp only [List.mem_cons, List.not_mem_nil, or_false] at hx
          rcases hx with rfl | rfl
          · exact .inr rfl
          · exact .inl ⟨e, he, rfl⟩
        · simp only [List.mem_cons, List.not_mem_nil, or_false] at hx
          rcases hx with rfl | rfl
          · exact .inl ⟨e, he, rfl⟩
          · exact .inr rfl
      · exact .inl ⟨x, (mem_removeEdge.1 hx).1, rfl⟩
    have hperm : (g'.edges.map (·.comp.uid)).Perm (r.draw.ec.uid :: g.edges.map (·.comp.uid)) := by
      refine (hedges.map _).trans ?_
      have h2 := ((removeEdge_perm hw he).map (fun e : Edge => e.comp.uid)).symm
      rw [List.map_append]
      split
      · simp only [List.map_cons, List.map_nil, List.cons_append, List.nil_append]
        exact List.Perm.cons _ (by simpa using h2)
      · simp only [List.map_cons, List.map_nil, List.cons_append, List.nil_append]
        exact (List.Perm.swap _ _ _).trans (List.Perm.cons _ (by simpa using h2))
    refine ⟨⟨?_, ?_, ?_⟩, ?_, hmem⟩
    · intro n hn
      rw [hnodes] at hn
      rcases List.mem_append.1 hn with hn | hn
      · exact hp.nodes n hn
      · rw [List.mem_singleton.1 hn]; exact hf.node _ hncl
    · intro x hx
      rcases hmem x hx with ⟨e0, h0, h1⟩ | h1 <;> rw [h1]
      · exact hp.edges e0 h0
      · exact hf.edge _ hecl
    · unfold componentsOf
      rw [hnodes, List.map_append, List.map_cons, List.map_nil]
      refine (List.Perm.append_left _ hperm).nodup_iff.2 ?_
      refine List.nodup_append.2 ⟨?_, ?_, ?_⟩
      · refine List.nodup_append.2 ⟨hdist.1, by simp, ?_⟩
        intro a ha b hb hab
        rw [List.mem_singleton.1 hb] at hab
        exact hnc.1 (hab ▸ ha)
      · exact List.nodup_cons.2 ⟨hec.2, hdist.2.1⟩
      · intro a ha b hb hab
        subst hab
        rcases List.mem_append.1 ha with ha | ha <;> rcases List.mem_cons.1 hb with hb | hb
        · exact hec.1 (hb ▸ ha)
        · exact hdist.2.2 _ ha _ hb rfl
        · exact hd.differ (hb.symm.trans (List.mem_singleton.1 ha))
        · exact hnc.2 (List.mem_singleton.1 ha ▸ hb)
    · intro n hn
      rw [hnodes] at hn
      rcases List.mem_append.1 hn with hn | hn
      · exact .inl ⟨n, hn, rfl⟩
      · rw [List.mem_singleton.1 hn]; exact .inr (.inl rfl)
  | parallel u v order hop hloc ho hi hecl h =>
    subst h
    have hedges := addEdge_perm g u v r.draw.ec r.draw.ec.cls
    have hmem : ∀ x ∈ (addParallel g u v r.draw.ec).edges, (∃ e0 ∈ g.edges, x.comp = e0.comp) ∨ x.comp = r.draw.ec := by
      intro x hx
      rcases List.mem_cons.1 (hedges.mem_iff.1 hx) with rfl | hx
      · exact .inr rfl
      · exact .inl ⟨x, hx, rfl⟩
    refine ⟨⟨hp.nodes, ?_, ?_⟩, fun n hn => .inl ⟨n, hn, rfl⟩, hmem⟩
    · intro x hx
      rcases hmem x hx with ⟨e0, h0, h1⟩ | h1 <;> rw [h1]
      · exact hp.edges e0 h0
      · exact hf.edge _ hecl
    · unfold componentsOf
      refine (List.Perm.append_left _ (hedges.map _)).nodup_iff.2 ?_
      refine List.nodup_append.2 ⟨hdist.1, List.nodup_cons.2 ⟨hec.2, hdist.2.1⟩, ?_⟩
      intro a ha b hb hab
      subst hab
      rcases List.mem_cons.1 hb with hb | hb
      · exact hec.1 ((show a = r.draw.ec.uid from hb) ▸ ha)
      · exact hdist.2.2 _ ha _ hb rfl
  | remove i hop hloc hi h =>
    obtain ⟨e, he, nu, mu, nv, mv, hr, iu, iv, hnode, pe, pu, pv, hin, hout⟩ := removeLocs_spec hw hi
    obtain ⟨keep, hk, hkid, hres⟩ := removeComp_shape hw he hr hnode
    rw [h] at hres
    injection hres with hres
    by_cases hpath : (g.removeEdge e.ref).hasPath e.src e.dst = true
    · rw [if_pos hpath] at hres
      subst hres
      have hsub : ∀ x ∈ (g.removeEdge e.ref).edges, x ∈ g.edges := fun x hx => (mem_removeEdge.1 hx).1
      refine ⟨⟨hp.nodes, fun x hx => hp.edges x (hsub x hx), ?_⟩, fun n hn => .inl ⟨n, hn, rfl⟩, fun x hx => .inl ⟨x, hsub x hx, rfl⟩⟩
      exact hp.distinct.sublist (List.Sublist.append_left (List.Sublist.map _ List.filter_sublist) _)
    · rw [if_neg hpath] at hres
      have m := mergeFacts ha he hpath
      obtain ⟨a, b, c⟩ := m.no_edges ha
      obtain ⟨_, _, _, hbody⟩ := contract_edges a b c
      have hcomp : (g'.edges.map (·.comp)).Perm ((g.removeEdge e.ref).edges.map (·.comp)) := by
        rw [hres]
        have := hbody.map (fun x => x.2.2.1)
        simpa [List.map_map, Function.comp_def, Edge.body, renEdge] using this
      have hnodes : g'.nodes = (g.nodes.filter (fun n => n.id ≠ e.dst)).map (fun n => if n.id = e.src then { n with comp := keep.comp, name := keep.name } else n) := by
        rw [hres]
        simp only [setNode, contract_nodes, removeEdge_nodes]
      have hkey : ∀ n ∈ g'.nodes, ∃ n0 ∈ g.nodes, n.comp = n0.comp := by
        intro n hn
        rw [hnodes] at hn
        obtain ⟨n0, hn0, rfl⟩ := List.mem_map.1 hn
        split
        · exact ⟨keep, hk, rfl⟩
        · exact ⟨n0, List.mem_of_mem_filter hn0, rfl⟩
      have hkeyE : ∀ x ∈ g'.edges, ∃ e0 ∈ g.edges, x.comp = e0.comp := by
        intro x hx
        obtain ⟨e0, h0, h1⟩ := List.mem_map.1 (hcomp.mem_iff.1 (List.mem_map.2 ⟨x, hx, rfl⟩))
        exact ⟨e0, (mem_removeEdge.1 h0).1, h1.symm⟩
      refine ⟨⟨?_, ?_, ?_⟩, fun n hn => .inl (hkey n hn), fun x hx => .inl (hkeyE x hx)⟩
      · intro n hn
        obtain ⟨n0, h0, h1⟩ := hkey n hn
        rw [h1]; exact hp.nodes n0 h0
      · intro x hx
        obtain ⟨n0, h0, h1⟩ := hkeyE x hx
        rw [h1]; exact hp.edges n0 h0
      · refine List.nodup_append.2 ⟨?_, ?_, ?_⟩
        · rw [hnodes, List.map_map]
          have hidn : ((g.nodes.filter (fun n => n.id ≠ e.dst))).Nodup := (List.Nodup.of_map _ hw.ids_nodup).filter _
          refine List.Nodup.map_on ?_ hidn
          have hinj : ∀ x ∈ g.nodes, ∀ y ∈ g.nodes, x.comp.uid = y.comp.uid → x = y :=
            fun x hx y hy h => List.inj_on_of_nodup_map hdist.1 hx hy h
          have hinjid : ∀ x ∈ g.nodes, ∀ y ∈ g.nodes, x.id = y.id → x = y :=
            fun x hx y hy h => List.inj_on_of_nodup_map hw.ids_nodup hx hy h
          have hkd : keep.id = e.src ∨ keep.id = e.dst := by rw [hkid]; exact hnode
          intro x hx y hy hxy
          obtain ⟨hx1, hx2⟩ := List.mem_filter.1 hx
          obtain ⟨hy1, hy2⟩ := List.mem_filter.1 hy
          simp only [decide_eq_true_eq] at hx2 hy2
          simp only [Function.comp] at hxy
          by_cases h1 : x.id = e.src <;> by_cases h2 : y.id = e.src
          · exact hinjid x hx1 y hy1 (h1.trans h2.symm)
          · rw [if_pos h1, if_neg h2] at hxy
            have := hinj keep hk y hy1 hxy
            rw [this] at hkd
            exact absurd hkd (not_or.2 ⟨h2, hy2⟩)
          · rw [if_neg h1, if_pos h2] at hxy
            have := hinj x hx1 keep hk hxy
            rw [← this] at hkd
            exact absurd hkd (not_or.2 ⟨h1, hx2⟩)
          · rw [if_neg h1, if_neg h2] at hxy
            exact hinj x hx1 y hy1 hxy
        · have : (g'.edges.map (·.comp.uid)).Perm ((g.removeEdge e.ref).edges.map (·.comp.uid)) := by
            have := hcomp.map (·.uid)
            simpa [List.map_map, Function.comp_def] using this
          exact this.nodup_iff.2 (hdist.2.1.sublist (List.Sublist.map _ List.filter_sublist))
        · intro x hx y hy hxy
          obtain ⟨n, hn, rfl⟩ := List.mem_map.1 hx
          obtain ⟨f, hf', rfl⟩ := List.mem_map.1 hy
          obtain ⟨n0, h0, h1⟩ := hkey n hn
          obtain ⟨e0, h2, h3⟩ := hkeyE f hf'
          rw [h1, h3] at hxy
          exact hdist.2.2 _ (List.mem_map.2 ⟨n0, h0, rfl⟩) _ (List.mem_map.2 ⟨e0, h2, rfl⟩) hxy
  | swapNode v hop hloc hi hc h =>
    subst h
    have hkey : ∀ n ∈ (g.setNode v (fun n => { n with comp := r.draw.ec })).nodes, n ∈ g.nodes ∨ n.comp = r.draw.ec := by
      intro n hn
      obtain ⟨n0, h0, rfl⟩ := List.mem_map.1 hn
      split
      · exact .inr rfl
      · exact .inl h0
    have hcl : (cls r.draw.ec.cls).IsNode := by
      rw [hloc] at hc
      simp only [swapSet] at hc
      split at hc
      · simp at hc
      · exact hf.node _ (List.mem_of_mem_filter hc)
    refine ⟨⟨?_, hp.edges, ?_⟩, ?_, fun x hx => .inl ⟨x, hx, rfl⟩⟩
    · intro n hn
      rcases hkey n hn with hn | hn
      · exact hp.nodes n hn
      · rw [hn]; exact hcl
    · refine List.nodup_append.2 ⟨?_, hdist.2.1, ?_⟩
      · simp only [setNode, List.map_map]
        refine List.Nodup.map_on ?_ (List.Nodup.of_map _ hw.ids_nodup)
        intro x hx y hy hxy
        simp only [Function.comp] at hxy
        by_cases h1 : x.id = v <;> by_cases h2 : y.id = v
        · exact List.inj_on_of_nodup_map hw.ids_nodup hx hy (h1.trans h2.symm)
        · rw [if_pos h1, if_neg h2] at hxy
          exact absurd (List.mem_map.2 ⟨y, hy, hxy.symm⟩) hec.1
        · rw [if_neg h1, if_pos h2] at hxy
          exact absurd (List.mem_map.2 ⟨x, hx, hxy⟩) hec.1
        · rw [if_neg h1, if_neg h2] at hxy
          exact List.inj_on_of_nodup_map hdist.1 hx hy hxy
      · intro x hx y hy hxy
        obtain ⟨n, hn, rfl⟩ := List.mem_map.1 hx
        rcases hkey n hn with hn | hn
        · exact hdist.2.2 _ (List.mem_map.2 ⟨n, hn, rfl⟩) _ hy hxy
        · rw [hn] at hxy
          exact hec.2 (hxy ▸ hy)
    · intro n hn
      rcases hkey n hn with hn | hn
      · exact .inl ⟨n, hn, rfl⟩
      · exact .inr (.inr hn)
  | swapEdge v hop hloc hi hc h =>
    subst h
    have hkey : ∀ n ∈ (g.setEdge v (fun n => { n with comp := r.draw.ec })).edges, n ∈ g.edges ∨ n.comp = r.draw.ec := by
      intro n hn
      obtain ⟨n0, h0, rfl⟩ := List.mem_map.1 hn
      split
      · exact .inr rfl
      · exact .inl h0
    have hcl : ¬ (cls r.draw.ec.cls).IsNode := by
      rw [hloc] at hc
      simp only [swapSet] at hc
      split at hc
      · simp at hc
      · have hm := List.mem_of_mem_filter hc
        unfold edgeCategory at hm
        split at hm
        · exact hf.source _ hm
        · split at hm
          · exact hf.sink _ hm
          · exact hf.edge _ hm
    refine ⟨⟨hp.nodes, ?_, ?_⟩, fun x hx => .inl ⟨x, hx, rfl⟩, ?_⟩
    · intro n hn
      rcases hkey n hn with hn | hn
      · exact hp.edges n hn
      · rw [hn]; exact hcl
    · refine List.nodup_append.2 ⟨hdist.1, ?_, ?_⟩
      · simp only [setEdge, List.map_map]
        refine List.Nodup.map_on ?_ (List.Nodup.of_map _ hw.refs_nodup)
        intro x hx y hy hxy
        simp only [Function.comp] at hxy
        by_cases h1 : x.ref = v <;> by_cases h2 : y.ref = v
        · exact List.inj_on_of_nodup_map hw.refs_nodup hx hy (h1.trans h2.symm)
        · rw [if_pos h1, if_neg h2] at hxy
          exact absurd (List.mem_map.2 ⟨y, hy, hxy.symm⟩) hec.2
        · rw [if_neg h1, if_pos h2] at hxy
          exact absurd (List.mem_map.2 ⟨x, hx, hxy⟩) hec.2
        · rw [if_neg h1, if_neg h2] at hxy
          exact List.inj_on_of_nodup_map hdist.2.1 hx hy hxy
      · intro x hx y hy hxy
        obtain ⟨n, hn, rfl⟩ := List.mem_map.1 hy
        rcases hkey n hn with hn | hn
        · exact hdist.2.2 _ hx _ (List.mem_map.2 ⟨n, hn, rfl⟩) hxy
        · rw [hn] at hxy
          exact hec.1 (hxy ▸ hx)
    · intro n hn
      rcases hkey n hn with hn | hn
      · exact .inl ⟨n, hn, rfl⟩
      · exact .inr hn

end Verif
