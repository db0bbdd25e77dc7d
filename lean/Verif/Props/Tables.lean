import Verif.Lemmas.Tables
import Verif.Props.Optimize
import Verif.Props.Scaled
import Verif.Props.Fixture
/-! # Properties of the component tables and of the life of a design (C75) -/

namespace Verif
open Graph

variable {S : Settings} {cls : ClassId → Part} {lib : Library} {g g' : Graph} {h h' : Heap}

/-- **C75.** Under sensible settings the table of every component class is consistent: equally long lists, different names, and for each variable parameter a
proper interval that holds the default value, a matching step and a positive imprecision. -/
theorem C75_sheets (hS : S.Sensible) (p : Part) (nOut : Nat) : (sheet S p nOut).Sound := sheet_sound hS p nOut

theorem std_sensible : stdSettings.Sensible where
  pi := by norm_num [stdSettings]
  extinction := by norm_num [stdSettings]
  bases := rfl
  pmMin := by norm_num [stdSettings]
  pmMax := by norm_num [stdSettings]
  pm := by norm_num [stdSettings]

/-- **C75.** So with the settings the components are shipped with. -/
theorem C75_shipped (p : Part) (nOut : Nat) : (sheet stdSettings p nOut).Sound := C75_sheets std_sensible p nOut

example : (sheet stdSettings .waveShaper 1).number = 30 ∧ (sheet stdSettings .splitter 4).names = ["ratio-0", "ratio-1", "ratio-2"] := by decide +kernel

/-! ### The invariant -/

theorem Stocked.obj (hs : Stocked S cls g h) {m : ModelId} (hm : m ∈ getModels g) : ∃ p k, OfSheet (sheet S p k) (h m) := by
  rcases List.mem_append.1 hm with hm | hm
  · obtain ⟨n, hn, rfl⟩ := List.mem_map.1 hm
    exact ⟨_, _, hs.nodes n hn⟩
  · obtain ⟨e, he, rfl⟩ := List.mem_map.1 hm
    exact ⟨_, _, hs.edges e he⟩

/-- Everything about a variable parameter. -/
theorem Stocked.row (hS : S.Sensible) (hs : Stocked S cls g h) {m : ModelId} (hm : m ∈ getModels g) {i : Nat} (hu : Unlocked h m i) :
    (h m).dtypes[i]? = some .float ∧ ∃ l u x : ℚ, (h m).lower[i]? = some l ∧ (h m).upper[i]? = some u ∧ (h m).params[i]? = some x ∧ l < u ∧ l ≤ x ∧ x ≤ u ∧
      ∃ s, (h m).steps[i]? = some s ∧ ∀ q, s = some q → 0 < q ∧ (∃ z : ℤ, l = z * q) ∧ (∃ z : ℤ, u = z * q) := by
  obtain ⟨p, k, ho⟩ := hs.obj hm
  have hi : (sheet S p k).locks[i]? = some false := by
    have := hu.2
    rwa [ho.locks] at this
  have he := (sheet_sound hS p k).free i hi
  obtain ⟨l, u, d, h1, h2, h3, h4, h5, h6, s, h7, h8⟩ := he.bounds
  have hl : (h m).lower[i]? = some l := by rw [ho.lower]; simp [Sheet.model, List.getElem?_map, h1, Entry.toNum]
  have hu' : (h m).upper[i]? = some u := by rw [ho.upper]; simp [Sheet.model, List.getElem?_map, h2, Entry.toNum]
  obtain ⟨x, hx, hx1, hx2⟩ := hs.bounds m hm i hu l u hl hu'
  exact ⟨by rw [ho.dtypes]; exact he.float, l, u, x, hl, hu', hx, h4, hx1, hx2, s, by rw [ho.steps]; exact h7, h8⟩

theorem Stocked.attrs (hS : S.Sensible) (hs : Stocked S cls g h) (as : List Attr) : AttrsPresent as g h := by
  rintro a - ⟨m, i⟩ hsl
  obtain ⟨hm, hu⟩ := mem_slots.1 hsl
  obtain ⟨h1, l, u, x, h2, h3, h4, -, -, -, s, h5, -⟩ := hs.row hS hm hu
  cases a <;> simp only [PModel.attr, List.length_map]
  · exact (List.getElem?_eq_some_iff.1 h4).1
  · exact (List.getElem?_eq_some_iff.1 h2).1
  · exact (List.getElem?_eq_some_iff.1 h3).1
  · exact (List.getElem?_eq_some_iff.1 h1).1
  · exact (List.getElem?_eq_some_iff.1 h5).1

theorem Stocked.present (hS : S.Sensible) (hs : Stocked S cls g h) : ParamsPresent g h := by
  intro m hm
  obtain ⟨p, k, ho⟩ := hs.obj hm
  have := sheet_sound hS p k
  rw [ho.locks, ho.length]
  simp only [Sheet.model, List.length_map, this.locks, this.defaults, le_refl]

theorem Stocked.tune (hs : Stocked S cls g h) (hl : SameLocked g h h') (hb : WithinOwnBounds g h') : Stocked S cls g h' :=
  ⟨hs.wf, hs.acyclic, hs.placed, fun n hn => (hs.nodes n hn).same hl, fun e he => (hs.edges e he).same hl, hb⟩

theorem Stocked.sampled (hS : S.Sensible) (hs : Stocked S cls g h) {r : Nat → Rnd} (hr : ∀ j, 0 ≤ (r j).u ∧ (r j).u < 1)
    (he : sampleParameters g .uniform r h = .ok h') : SameLocked g h h' ∧ WithinOwnBounds g h' := by
  obtain ⟨h1, h2⟩ := C24_sampled_graph hr
    (fun m hm i hu lo up hl hu' => by
      obtain ⟨-, l, u, x, h2, h3, -, h4, -⟩ := hs.row hS hm hu
      rw [h2] at hl; rw [h3] at hu'
      injection hl with hl; injection hu' with hu'
      rw [← hl, ← hu']; exact h4.le)
    (fun m hm i hu s hst => by
      obtain ⟨-, l, u, x, -, -, -, -, -, -, s', h5, h6⟩ := hs.row hS hm hu
      rw [h5] at hst
      injection hst with hst
      exact (h6 s hst).1) he
  refine ⟨h1, fun m hm i hu l u hl hu' => ?_⟩
  have hu0 : Unlocked h m i := h1.unlocked.1 hu
  obtain ⟨k1, l', u', x', k2, k3, -, -, -, -, s', k5, k6⟩ := hs.row hS hm hu0
  obtain ⟨lo, up, s, d, x, a1, a2, a3, a4, a5, a6⟩ := h2 m hm i hu0
  rw [h1.lower] at hl
  rw [h1.upper] at hu'
  rw [hl] at a1 k2
  rw [hu'] at a2 k3
  rw [k5] at a3
  rw [k1] at a4
  injection a1 with a1; injection a2 with a2; injection a3 with a3; injection a4 with a4
  injection k2 with k2; injection k3 with k3
  subst a1; subst a2; subst a3; subst a4; subst k2; subst k3
  refine ⟨x, a5, ?_⟩
  cases s' with
  | none => exact a6
  | some q =>
    obtain ⟨-, q1, q2⟩ := k6 q rfl
    exact ⟨a6.2.2.2.1 q1, a6.2.2.2.2 q2⟩

theorem sampleAll_total {r : Nat → Rnd} : ∀ (j : Nat) (ps ls us ds ss : List Val), (∀ d ∈ ds, d = .dtype .float) → (∀ s ∈ ss, ∀ q, s = .step (some q) → 0 < q) →
    ∃ xs, sampleAll .uniform r j ps ls us ds ss = .ok xs := by
  intro j ps ls us ds ss
  fun_induction sampleAll .uniform r j ps ls us ds ss with
  | case1 j p ps lo ls up us d ds s ss err hx =>
    intro hd hs
    have h1 := hd _ List.mem_cons_self
    injection h1 with h1
    subst h1
    obtain ⟨x, h2⟩ := (C24_uniform_total (low := lo) (up := up) (step := s) (r := r j) (fun q hq => hs _ List.mem_cons_self q (by rw [hq]))).1
    rw [show sampleOne .uniform lo up s .float (r j) = uniformSample lo up s .float (r j) from rfl, h2] at hx
    cases hx
  | case2 j p ps lo ls up us d ds s ss x hx err he ih =>
    intro hd hs
    obtain ⟨xs, h1⟩ := ih (fun d' h' => hd d' (List.mem_cons_of_mem _ h')) (fun s' h' => hs s' (List.mem_cons_of_mem _ h'))
    rw [h1] at he
    cases he
  | case3 => exact fun _ _ => ⟨_, rfl⟩
  | case4 => exact fun _ _ => ⟨_, rfl⟩

theorem Stocked.sample_total (hS : S.Sensible) (hs : Stocked S cls g h) (r : Nat → Rnd) : ∃ h', sampleParameters g .uniform r h = .ok h' := by
  unfold sampleParameters
  rw [extract_ok (hs.attrs hS _)]
  simp only [List.map_cons, List.map_nil]
  have hv : ∀ a : Attr, ∀ v ∈ vals h a (slots h (getModels g)), ∃ m ∈ getModels g, ∃ i, Unlocked h m i ∧ ((h m).attr a)[i]? = some v := by
    intro a v hv
    unfold vals at hv
    obtain ⟨⟨m, i⟩, h1, h2⟩ := List.mem_filterMap.1 hv
    exact ⟨m, (mem_slots.1 h1).1, i, (mem_slots.1 h1).2, h2⟩
  obtain ⟨xs, hxs⟩ := sampleAll_total (r := r) 0 (vals h .parameters (slots h (getModels g))) (vals h .lowerBounds (slots h (getModels g)))
    (vals h .upperBounds (slots h (getModels g))) (vals h .dataTypes (slots h (getModels g))) (vals h .stepSizes (slots h (getModels g)))
    (fun d hd => by
      obtain ⟨m, hm, i, hu, h1⟩ := hv _ d hd
      obtain ⟨h2, -⟩ := hs.row hS hm hu
      simp only [PModel.attr, List.getElem?_map, h2, Option.map_some, Option.some.injEq] at h1
      exact h1.symm)
    (fun s hd q hq => by
      obtain ⟨m, hm, i, hu, h1⟩ := hv _ s hd
      obtain ⟨-, l, u, x, -, -, -, -, -, -, s', h5, h6⟩ := hs.row hS hm hu
      simp only [PModel.attr, List.getElem?_map, h5, Option.map_some, Option.some.injEq, hq, Val.step.injEq] at h1
      exact (h6 q h1).1)
  rw [hxs]
  refine distribute_total ?_
  rintro s hsl
  obtain ⟨hm, hu⟩ := mem_slots.1 (show (s.1, s.2) ∈ slots h (getModels g) from hsl)
  obtain ⟨-, l, u, x, -, -, h4, -⟩ := hs.row hS hm hu
  exact (List.getElem?_eq_some_iff.1 h4).1

/-! ### The assertion after evolution -/

theorem pyListLe_of : ∀ {a b : List ℚ}, a.length = b.length → (∀ (i : Nat) x y, a[i]? = some x → b[i]? = some y → x ≤ y) → pyListLe a b = true
  | [], _, _, _ => rfl
  | a :: as, [], hl, _ => by simp at hl
  | a :: as, b :: bs, hl, hle => by
    have h1 := hle 0 a b rfl rfl
    unfold pyListLe
    split
    · exact pyListLe_of (by simpa using hl) (fun i x y hx hy => hle (i + 1) x y (by simpa using hx) (by simpa using hy))
    · rename_i hne
      exact decide_eq_true (lt_of_le_of_ne h1 hne)

theorem Stocked.listed (hS : S.Sensible) (hs : Stocked S cls g h) : ∃ x ms is lo up, extractToList g h = .ok (x, ms, is, lo, up) ∧ Respects lo up x ∧
    boundsGuard x lo up = true := by
  have hx : ∃ r, extractToList g h = .ok r := by
    unfold extractToList
    rw [extract_ok (hs.attrs hS _)]
    exact ⟨_, rfl⟩
  obtain ⟨⟨x, ms, is, lo, up⟩, hx⟩ := hx
  obtain ⟨rfl, rfl, e1, e2, e3, -, -, hps, e4⟩ := extractToList_ok hx
  have hxv : ∀ (j : Nat) (s : ModelId × Nat), (pslots g h)[j]? = some s → x[j]? = (h s.1).params[s.2]? := by
    intro j s hj
    have := vals_get (hs.attrs hS [.parameters] .parameters (by simp)) hj
    have hc := vals_col (h := h) (a := .parameters) PModel.params (fun _ => rfl) (slots h (getModels g))
    rw [hps]
    have hm : s ∈ pslots g h := List.mem_of_getElem? hj
    obtain ⟨hm1, hu⟩ := mem_slots.1 (show (s.1, s.2) ∈ slots h (getModels g) from hm)
    obtain ⟨-, l, u, y, -, -, h4, -⟩ := hs.row hS hm1 hu
    rw [h4]
    simp only [PModel.attr, List.getElem?_map, h4, Option.map_some] at this
    unfold pslots
    rw [hc] at this ⊢
    rw [numCol_map]
    simpa using this
  have hb : ∀ (j : Nat) (l y u : ℚ), lo[j]? = some l → x[j]? = some y → up[j]? = some u → l ≤ y ∧ y ≤ u := by
    intro j l y u hl hy hu
    have hj : j < (pslots g h).length := by rw [← e2]; exact (List.getElem?_eq_some_iff.1 hl).1
    obtain ⟨⟨m, i⟩, hsl⟩ : ∃ s, (pslots g h)[j]? = some s := ⟨_, List.getElem?_eq_getElem hj⟩
    obtain ⟨f1, f2⟩ := e4 j _ hsl
    have f3 := hxv j _ hsl
    obtain ⟨hm1, hun⟩ := mem_slots.1 (List.mem_of_getElem? hsl)
    obtain ⟨-, l', u', y', k1, k2, k3, -, k4, k5, -⟩ := hs.row hS hm1 hun
    rw [hl] at f1; rw [hu] at f2; rw [hy] at f3
    rw [← f1] at k1; rw [← f2] at k2; rw [← f3] at k3
    injection k1 with k1; injection k2 with k2; injection k3 with k3
    subst k1; subst k2; subst k3
    exact ⟨k4, k5⟩
  refine ⟨x, _, _, lo, up, hx, ⟨by rw [e1, e2], fun i y hy l u hl hu => hb i l y u hl hy hu⟩, ?_⟩
  unfold boundsGuard
  rw [Bool.and_eq_true]
  constructor
  · refine pyListLe_of (by rw [e1, e2]) (fun i l y hl hy => ?_)
    have hi : i < up.length := by rw [e3, ← e2]; exact (List.getElem?_eq_some_iff.1 hl).1
    exact (hb i l y _ hl hy (List.getElem?_eq_getElem hi)).1
  · refine pyListLe_of (by rw [e1, e3]) (fun i y u hy hu => ?_)
    have hi : i < lo.length := by rw [e2, ← e3]; exact (List.getElem?_eq_some_iff.1 hu).1
    exact (hb i _ y u (List.getElem?_eq_getElem hi) hy hu).2

/-! ### Evolution -/

theorem construct_old {d : Draw} {m : ModelId} (hd : NewObjects g d) (hm : m ∈ componentsOf g) : construct S cls d h m = h m := by
  unfold construct
  rw [if_neg (fun e : m = d.ec.uid => hd.edge (e ▸ hm)), if_neg (fun e : m = d.nc.uid => hd.node (e ▸ hm))]

theorem construct_ec {d : Draw} : construct S cls d h d.ec.uid = newModel S (cls d.ec.cls) := if_pos rfl

theorem construct_nc {d : Draw} (hd : NewObjects g d) : construct S cls d h d.nc.uid = newModel S (cls d.nc.cls) := by
  unfold construct
  rw [if_neg (Ne.symm hd.differ), if_pos rfl]

theorem newModel_inBounds (hS : S.Sensible) (p : Part) : InBounds (newModel S p) := (sheet_sound hS p 1).inBounds

theorem Stocked.step (hS : S.Sensible) (hf : LibraryFits cls lib) (hs : Stocked S cls g h) {r : StepRec} (hl : LegalStep lib g r g')
    (hd : NewObjects g r.draw) : Kit S cls g' (construct S cls r.draw h) := by
  obtain ⟨h1, h2, h3⟩ := step_parts hf hs.wf hs.acyclic hs.placed hl hd
  refine ⟨step_wf hs.wf hs.acyclic hl, step_acyclic hs.wf hs.acyclic hl, h1, ?_, ?_, ?_⟩
  · intro n hn hsp
    rcases h2 n hn with ⟨n0, h0, e⟩ | e | e <;> rw [e]
    · rw [construct_old hd (List.mem_append_left _ (List.mem_map.2 ⟨n0, h0, rfl⟩))]
      exact hs.kit.nodes n0 h0 (by rwa [e] at hsp)
    · rw [construct_nc hd, newModel, sheet_terminal (by rw [← e]; exact h1.nodes n hn) (by rwa [e] at hsp)]
      exact OfSheet.self _
    · rw [construct_ec, newModel, sheet_terminal (by rw [← e]; exact h1.nodes n hn) (by rwa [e] at hsp)]
      exact OfSheet.self _
  · intro x hx
    rcases h3 x hx with ⟨e0, h0, e⟩ | e <;> rw [e]
    · rw [construct_old hd (List.mem_append_right _ (List.mem_map.2 ⟨e0, h0, rfl⟩))]
      exact hs.edges e0 h0
    · rw [construct_ec]
      exact OfSheet.self _
  · intro x hx
    rcases h3 x hx with ⟨e0, h0, e⟩ | e <;> rw [e]
    · rw [construct_old hd (List.mem_append_right _ (List.mem_map.2 ⟨e0, h0, rfl⟩))]
      exact hs.kit.bounds e0 h0
    · rw [construct_ec]
      exact newModel_inBounds hS _

/-- Evolution of a stocked design succeeds and gives a stocked design. -/
theorem Stocked.evolve (hS : S.Sensible) (hf : LibraryFits cls lib) (hs : Stocked S cls g h) {r : StepRec} (hl : LegalStep lib g r g')
    (hd : NewObjects g r.draw) : ∃ h', evolveDesign S cls lib g h r.op r.loc r.draw = .ok (g', h') ∧ Stocked S cls g' h' ∧
    updateDesign cls g' (construct S cls r.draw h) = .ok h' := by
  obtain ⟨h', h1, h2, -, -⟩ := (hs.step hS hf hl hd).update
  obtain ⟨x, ms, is, lo, up, h3, -, h4⟩ := h2.listed hS
  refine ⟨h', ?_, h2, h1⟩
  unfold evolveDesign
  rw [hl.2.2]
  simp only [h1, h3, h4, if_true]

/-- The invariant of a design's life. -/
theorem Lifetime.stocked (hS : S.Sensible) (hf : LibraryFits cls lib) (hl : Lifetime S cls lib g h) : Stocked S cls g h := by
  induction hl with
  | start hw ha hp hn he hu =>
    rename_i g h h'
    have hk : Kit S cls g h := ⟨hw, ha, hp,
      fun n hn' hsp => by rw [hn n hn', newModel, sheet_terminal (hp.nodes n hn') hsp]; exact OfSheet.self _,
      fun e he' => by rw [he e he']; exact OfSheet.self _, fun e he' => by rw [he e he']; exact newModel_inBounds hS _⟩
    obtain ⟨h1, h2, h3, -, -⟩ := hk.update
    rw [h2] at hu
    injection hu with hu
    exact hu ▸ h3
  | evolve _ hs hd hv ih =>
    obtain ⟨h1, h2, h3, -⟩ := ih.evolve hS hf hs hd
    rw [h2] at hv
    injection hv with hv
    injection hv with _ hv
    exact hv ▸ h3
  | tune _ hs hb ih => exact ih.tune hs hb
  | sample _ hr hs ih =>
    obtain ⟨h1, h2⟩ := ih.sampled hS hr hs
    exact ih.tune h1 h2
  | update _ hu ih =>
    obtain ⟨h1, h2, h3, -, -⟩ := ih.kit.update
    rw [h2] at hu
    injection hu with hu
    exact hu ▸ h3

/-- **C75.** At every moment of a design's life, its parameters can be extracted; each variable one is a float, has numbers as bounds (the lower below the upper)
and a value between them; sampling uniformly always succeeds, changes nothing that is locked and stays between the bounds. -/
theorem C75_ready (hS : S.Sensible) (hf : LibraryFits cls lib) (hl : Lifetime S cls lib g h) :
    (∀ as, ∃ ex, extract as g h = .ok ex) ∧
    (∀ m ∈ componentsOf g, ∀ i, Unlocked h m i → (h m).dtypes[i]? = some .float ∧
      ∃ l u x : ℚ, (h m).lower[i]? = some l ∧ (h m).upper[i]? = some u ∧ (h m).params[i]? = some x ∧ l < u ∧ l ≤ x ∧ x ≤ u) ∧
    ∀ r : Nat → Rnd, (∀ j, 0 ≤ (r j).u ∧ (r j).u < 1) → ∃ h', sampleParameters g .uniform r h = .ok h' ∧ SameLocked g h h' ∧ WithinOwnBounds g h' := by
  have hs := hl.stocked hS hf
  refine ⟨fun as => ⟨_, extract_ok (hs.attrs hS as)⟩, ?_, ?_⟩
  · intro m hm i hu
    obtain ⟨h1, l, u, x, h2, h3, h4, h5, h6, h7, -⟩ := hs.row hS hm hu
    exact ⟨h1, l, u, x, h2, h3, h4, h5, h6, h7⟩
  · intro r hr
    obtain ⟨h', h1⟩ := hs.sample_total hS r
    exact ⟨h', h1, hs.sampled hS hr h1⟩

/-- **C75.** No object of a design sits in two places, nodes hold node components, edges others. -/
theorem C75_placed (hS : S.Sensible) (hf : LibraryFits cls lib) (hl : Lifetime S cls lib g h) : Placed cls g ∧ g.WF ∧ g.Acyclic :=
  have hs := hl.stocked hS hf
  ⟨hs.placed, hs.wf, hs.acyclic⟩

theorem imprecisionLoop_ok {imp : List ℝ} : ∀ (i : Nat) (ls : List Bool), (∀ k : Nat, ls[k]? = some false → ∃ q, imp[i + k]? = some q ∧ 0 < q) →
    ∃ ss, imprecisionLoop imp i ls = .ok ss ∧ ∀ s ∈ ss, 0 < s
  | i, [], _ => ⟨[], rfl, by simp⟩
  | i, l :: ls, hk => by
    obtain ⟨ss, h1, h2⟩ := imprecisionLoop_ok (i + 1) ls (fun k hl => by
      have := hk (k + 1) (by simpa using hl)
      rwa [show i + (k + 1) = i + 1 + k by omega] at this)
    cases l with
    | true => exact ⟨ss, by simp [imprecisionLoop, h1], h2⟩
    | false =>
      obtain ⟨q, h3, h4⟩ := hk 0 rfl
      refine ⟨q :: ss, ?_, ?_⟩
      · simp only [Nat.add_zero] at h3
        simp [imprecisionLoop, h1, h3]
      · intro s hs
        rcases List.mem_cons.1 hs with rfl | hs
        · exact h4
        · exact h2 s hs

/-- **C75.** At every moment the imprecisions of the variable parameters can be extracted, one for each variable parameter, all positive (`imp` being what the
classes say). -/
theorem C75_imprecisions (hS : S.Sensible) (hf : LibraryFits cls lib) (hl : Lifetime S cls lib g h) {imp : ModelId → List ℝ}
    (hn : ∀ n ∈ g.nodes, imp n.comp.uid = (sheet S (cls n.comp.cls) (g.outDeg n.id)).imprecisions.map (fun q : ℚ => (q : ℝ)))
    (he : ∀ e ∈ g.edges, imp e.comp.uid = (sheet S (cls e.comp.cls) 1).imprecisions.map (fun q : ℚ => (q : ℝ))) :
    ∃ ss, imprecisions h imp (getModels g) = .ok ss ∧ (∀ s ∈ ss, 0 < s) ∧ ∀ as ex, extract as g h = .ok ex → ss.length = ex.models.length := by
  have hs := hl.stocked hS hf
  have hobj : ∀ m ∈ getModels g, ∃ p k, OfSheet (sheet S p k) (h m) ∧ imp m = (sheet S p k).imprecisions.map (fun q : ℚ => (q : ℝ)) := by
    intro m hm
    rcases List.mem_append.1 hm with hm | hm
    · obtain ⟨n, hn', rfl⟩ := List.mem_map.1 hm
      exact ⟨_, _, hs.nodes n hn', hn n hn'⟩
    · obtain ⟨e, he', rfl⟩ := List.mem_map.1 hm
      exact ⟨_, _, hs.edges e he', he e he'⟩
  have hall : ∀ ms : List ModelId, (∀ m ∈ ms, m ∈ getModels g) → ∃ ss, imprecisions h imp ms = .ok ss ∧ ∀ s ∈ ss, 0 < s := by
    intro ms
    induction ms with
    | nil => exact fun _ => ⟨[], rfl, by simp⟩
    | cons m ms ih =>
      intro hm
      obtain ⟨ss, h1, h2⟩ := ih (fun k hk => hm k (List.mem_cons_of_mem _ hk))
      unfold imprecisions
      split
      · exact ⟨ss, h1, h2⟩
      · obtain ⟨p, k, ho, hi⟩ := hobj m (hm m List.mem_cons_self)
        obtain ⟨ts, h3, h4⟩ := imprecisionLoop_ok (imp := imp m) 0 (h m).locks (fun j hj => by
          rw [ho.locks] at hj
          obtain ⟨q, h5, h6⟩ := ((sheet_sound hS p k).free j hj).imprecision
          refine ⟨(q : ℝ), ?_, by exact_mod_cast h6⟩
          rw [hi, Nat.zero_add, List.getElem?_map, h5]
          rfl)
        rw [h3, h1]
        refine ⟨ts ++ ss, rfl, fun s hs => ?_⟩
        rcases List.mem_append.1 hs with hs | hs
        · exact h4 s hs
        · exact h2 s hs
  obtain ⟨ss, h1, h2⟩ := hall _ (fun m hm => hm)
  exact ⟨ss, h1, h2, fun as ex hex => (C74_aligned h1 hex).1⟩

theorem splitSheet_params (k : Nat) : (splitSheet k).model.params = (List.range (k - 1)).map (fun i : Nat => 1 - 1 / ((k : ℚ) - i)) := by
  have hm : (splitSheet k).model.params = defaultRatios ℚ k := by
    simp [Sheet.model, splitSheet, entries, List.map_map, Function.comp_def, Entry.toNum]
  rw [hm]
  induction k with
  | zero => rfl
  | succ k ih =>
    cases k with
    | zero => rfl
    | succ k =>
      have ih' := ih (by simp [Sheet.model, splitSheet, entries, List.map_map, Function.comp_def, Entry.toNum])
      rw [defaultRatios, ih', show k + 1 + 1 - 1 = (k + 1 - 1) + 1 by omega, List.range_succ_eq_map, List.map_cons, List.map_map]
      congr 1
      · push_cast; ring
      · apply List.map_congr_left
        intro i _
        simp only [Function.comp]
        push_cast
        congr 2
        ring

/-- **C75.** Every legal evolution step with new objects succeeds on every design: the final assertion about bounds never fires.  A component kept on an edge
keeps its object's content, a component put there has the content of a newly constructed one; every splitter, also one whose ratios had been tuned, is set back to
even division over its present outputs. -/
theorem C75_evolve (hS : S.Sensible) (hf : LibraryFits cls lib) (hl : Lifetime S cls lib g h) {r : StepRec} (hs : LegalStep lib g r g')
    (hd : NewObjects g r.draw) : ∃ h', evolveDesign S cls lib g h r.op r.loc r.draw = .ok (g', h') ∧ Lifetime S cls lib g' h' ∧
    (∀ e ∈ g'.edges, (e.comp.uid ∈ componentsOf g ∧ h' e.comp.uid = h e.comp.uid) ∨ (e.comp = r.draw.ec ∧ h' e.comp.uid = newModel S (cls r.draw.ec.cls))) ∧
    ∀ n ∈ g'.nodes, (cls n.comp.cls).IsSplitter →
      (h' n.comp.uid).params = (List.range (g'.outDeg n.id - 1)).map (fun i : Nat => 1 - 1 / ((g'.outDeg n.id : ℚ) - i)) := by
  have hst := hl.stocked hS hf
  obtain ⟨h', h1, h2, h3⟩ := hst.evolve hS hf hs hd
  obtain ⟨h'', k1, -, k3, k4⟩ := (hst.step hS hf hs hd).update
  rw [h3] at k1
  injection k1 with k1
  subst k1
  refine ⟨h', h1, .evolve hl hs hd h1, ?_, ?_⟩
  · intro e he
    rw [k3 _ (h2.placed.edge_not_node he)]
    rcases (step_parts hf hst.wf hst.acyclic hst.placed hs hd).2.2 e he with ⟨e0, h0, e1⟩ | e1
    · have hm : e.comp.uid ∈ componentsOf g := e1 ▸ List.mem_append_right _ (List.mem_map.2 ⟨e0, h0, rfl⟩)
      exact .inl ⟨hm, construct_old hd hm⟩
    · exact .inr ⟨e1, by rw [e1]; exact construct_ec⟩
  · intro n hn hsp
    rw [(k4 n hn).1 hsp]
    exact splitSheet_params _

/-- **C75.** Updating a design (at the start of its parameter optimisation) always succeeds and changes nothing but splitters; their ratios are set back to even
division whatever they were. -/
theorem C75_update (hS : S.Sensible) (hf : LibraryFits cls lib) (hl : Lifetime S cls lib g h) : ∃ h', updateDesign cls g h = .ok h' ∧
    (∀ e ∈ g.edges, h' e.comp.uid = h e.comp.uid) ∧ (∀ n ∈ g.nodes, ¬ (cls n.comp.cls).IsSplitter → h' n.comp.uid = h n.comp.uid) ∧
    ∀ n ∈ g.nodes, (cls n.comp.cls).IsSplitter →
      (h' n.comp.uid).params = (List.range (g.outDeg n.id - 1)).map (fun i : Nat => 1 - 1 / ((g.outDeg n.id : ℚ) - i)) := by
  have hst := hl.stocked hS hf
  obtain ⟨h', k1, -, k3, k4⟩ := hst.kit.update
  refine ⟨h', k1, fun e he => k3 _ (hst.placed.edge_not_node he), fun n hn hsp => (k4 n hn).2 hsp, fun n hn hsp => ?_⟩
  rw [(k4 n hn).1 hsp]
  exact splitSheet_params _

/-- **C75.** Parameter optimisation with optimisers that keep to their bounds leads from a design to a design. -/
theorem C75_optimised (hS : S.Sensible) (hf : LibraryFits cls lib) (hl : Lifetime S cls lib g h) {h0 : Heap} (hs0 : SameLocked g h0 h) {e : OptEnv}
    {eval : Heap → ℚ} {method : OptMethod} {x : List ℚ} {s : ℚ}
    (hz : ∀ ps ms is lo up, extractToList g h = .ok (ps, ms, is, lo, up) → e.Sized ms.length ∧ e.Bounded lo up)
    (hr : parametersOptimize e g h0 eval none method h = .ok (h', x, s)) : Lifetime S cls lib g h' := by
  have hst := hl.stocked hS hf
  obtain ⟨ps, ms, is, lo, up, h1, h2, -⟩ := hst.listed hS
  obtain ⟨hz1, hz2⟩ := hz _ _ _ _ _ h1
  obtain ⟨-, h4⟩ := C52_bounds (x0 := none) hs0 (hst.present hS) h1
    (fun m hm i hu l u hl' hu' => by
      obtain ⟨-, l', u', x, h2, h3, -, h4, -⟩ := hst.row hS hm hu
      rw [h2] at hl'; rw [h3] at hu'
      injection hl' with hl'; injection hu' with hu'
      rw [← hl', ← hu']; exact h4.le) hz1 hz2 h2 hr
  obtain ⟨rfl, -, -⟩ := extractToList_ok h1
  have hex := extract_ok (hst.attrs hS [])
  obtain ⟨h5, -⟩ := C52_result hs0 (hst.present hS) hst.placed.distinct hex (by simpa [pslots] using hz1) (by simp) hr
  exact .tune hl h5 h4

/-- **C75.** The assertion at the end of an evolution step is weaker than what it is meant to check: it holds of every vector within the bounds, but with two or
more parameters also of vectors far outside. -/
theorem C75_guard : (∀ x lo up : List ℚ, lo.length = up.length → Respects lo up x → boundsGuard x lo up = true) ∧
    ∀ y : ℚ, boundsGuard [1 / 2, y] [0, 0] [1, 1] = true := by
  constructor
  · intro x lo up hl hx
    unfold boundsGuard
    rw [Bool.and_eq_true]
    constructor
    · refine pyListLe_of hx.1.symm (fun i l y hl' hy => ?_)
      have hi : i < up.length := hl ▸ (List.getElem?_eq_some_iff.1 hl').1
      exact (hx.2 i y hy l _ hl' (List.getElem?_eq_getElem hi)).1
    · refine pyListLe_of (hx.1.trans hl) (fun i y u hy hu => ?_)
      have hi : i < lo.length := hl.symm ▸ (List.getElem?_eq_some_iff.1 hu).1
      exact (hx.2 i y hy _ u (List.getElem?_eq_getElem hi) hu).2
  · intro y
    norm_num [boundsGuard, pyListLe]

/-- **C75.** Classes whose tables are off outside the sensible settings, or in a locked entry: a programmable filter with fewer than ten bases has variable
parameters without bounds; the settings of the intensity modulator's frequency are not used; the amplifier's default lower band edge is below its own bound. -/
theorem C75_tables_off (S : Settings) :
    (∀ b < 10, ∃ i : Nat, let s := sheet { S with bases := b } .programmableFilter 1
      s.locks[i]? = some false ∧ s.lower[i]? = none) ∧
    (∀ a b : ℚ, sheet { S with imMin := a, imMax := b } .intensityModulator 1 = sheet S .intensityModulator 1) ∧
    ∃ (i : Nat) (d l : ℚ), (sheet S .amplifier 1).locks[i]? = some true ∧ (sheet S .amplifier 1).defaults[i]? = some (.num d) ∧
      (sheet S .amplifier 1).lower[i]? = some (.num l) ∧ d < l := by
  refine ⟨?_, fun _ _ => rfl, ?_⟩
  · intro b hb
    refine ⟨2 * b, ?_, ?_⟩
    · have : 2 * b < 2 * 10 := by omega
      show (List.replicate (2 * 10) false)[2 * b]? = some false
      rw [List.getElem?_replicate, if_pos this]
    · simp only [sheet]
      rw [List.getElem?_eq_none]
      simp only [entries, List.length_map, List.length_append, List.length_replicate]
      omega
  · exact ⟨2, 1520 / 10 ^ 9, 1530 / 10 ^ 9, rfl, rfl, rfl, by norm_num⟩

/-! ### An example -/

/-- Classes of the fixture: laser, fibre, wave shaper, photodiode, splitters. -/
def fixCls : ClassId → Part := fun c =>
  if c = 1 then .terminalSource else if c = 2 then .terminalSink else if c = 40 then .splitter else if c = 30 then .dispersiveFiber
  else if c = 31 then .waveShaper else if c = 20 then .photodiode else .pulsedLaser

theorem fix_fits : LibraryFits fixCls Fixture.lib where
  node := by unfold Part.IsNode; decide
  edge := by unfold Part.IsNode; decide
  source := by unfold Part.IsNode; decide
  sink := by unfold Part.IsNode; decide

theorem fix_placed : Placed fixCls Fixture.g where
  nodes := by unfold Part.IsNode; decide
  edges := by unfold Part.IsNode; decide
  distinct := by decide

theorem fix_new : NewObjects Fixture.g Fixture.serStep.draw where
  edge := by decide
  node := by decide
  differ := by decide

/-- The objects of the fixture as constructed. -/
def fixHeap : Heap := fun m =>
  if m = 0 then newModel stdSettings .terminalSource else if m = 1 then newModel stdSettings .terminalSink
  else if m = 2 then newModel stdSettings .splitter else if m = 3 then newModel stdSettings .splitter
  else if m = 4 then newModel stdSettings .pulsedLaser else if m = 5 then newModel stdSettings .dispersiveFiber
  else if m = 6 then newModel stdSettings .waveShaper else newModel stdSettings .photodiode

theorem fix_start : ∃ h, Lifetime stdSettings fixCls Fixture.lib Fixture.g h := by
  have hn : ∀ n ∈ Fixture.g.nodes, fixHeap n.comp.uid = newModel stdSettings (fixCls n.comp.cls) := by
    intro n hn
    simp only [Fixture.g, List.mem_cons, List.not_mem_nil, or_false] at hn
    rcases hn with rfl | rfl | rfl | rfl <;> rfl
  have he : ∀ n ∈ Fixture.g.edges, fixHeap n.comp.uid = newModel stdSettings (fixCls n.comp.cls) := by
    intro n hn
    simp only [Fixture.g, List.mem_cons, List.not_mem_nil, or_false] at hn
    rcases hn with rfl | rfl | rfl | rfl <;> rfl
  have hk : Kit stdSettings fixCls Fixture.g fixHeap := ⟨Fixture.g_wf, Fixture.g_acyclic, fix_placed,
      fun n hn' hsp => by rw [hn n hn', newModel, sheet_terminal (fix_placed.nodes n hn') hsp]; exact OfSheet.self _,
      fun e he' => by rw [he e he']; exact OfSheet.self _, fun e he' => by rw [he e he']; exact newModel_inBounds std_sensible _⟩
  obtain ⟨h', h1, -⟩ := hk.update
  exact ⟨h', .start Fixture.g_wf Fixture.g_acyclic fix_placed hn he h1⟩

/-- A life: assembled, evolved by a series insertion, sampled. -/
example : ∃ h, Lifetime stdSettings fixCls Fixture.lib Fixture.gSer h := by
  obtain ⟨h, hl⟩ := fix_start
  obtain ⟨h1, -, h2, -⟩ := C75_evolve std_sensible fix_fits hl Fixture.ser_legal fix_new
  obtain ⟨h3, h4, -⟩ := (C75_ready std_sensible fix_fits h2).2.2 (fun _ => ⟨1 / 2, 0⟩) (fun _ => by norm_num)
  exact ⟨h3, .sample h2 (fun _ => by norm_num) h4⟩

/-- Optimisers as `C75_optimised` wants them exist for every design: for instance those that return the lower bounds. -/
example (hS : S.Sensible) (hf : LibraryFits cls lib) (hl : Lifetime S cls lib g h) : ∃ e : OptEnv,
    ∀ ps ms is lo up, extractToList g h = .ok (ps, ms, is, lo, up) → e.Sized ms.length ∧ e.Bounded lo up := by
  obtain ⟨ps, ms, is, lo, up, h1, h2, -⟩ := (hl.stocked hS hf).listed hS
  obtain ⟨-, -, e1, e2, e3, -⟩ := extractToList_ok h1
  refine ⟨⟨fun _ x => x, fun _ _ _ _ => .done lo 0, fun _ _ _ _ => .done lo 0, fun _ _ _ => .done lo 0, fun _ => lo, fun k => k, fun _ _ => [],
    fun _ => ⟨0, 0⟩, fun x => x, 1, 1, 1, 1, 1⟩, ?_⟩
  intro ps' ms' is' lo' up' h1'
  rw [h1] at h1'
  injection h1' with h1'
  injection h1' with a h1'; injection h1' with b h1'; injection h1' with c h1'; injection h1' with d f
  subst a; subst b; subst c; subst d; subst f
  have hl : lo.length = ms.length := by
    obtain ⟨rfl, -⟩ := extractToList_ok h1
    rw [List.length_map]; exact e2
  have hr : Respects lo up lo := by
    refine ⟨rfl, fun i y hy l u hl' hu => ?_⟩
    rw [hy] at hl'
    injection hl' with hl'
    subst hl'
    have hi : i < ps.length := by rw [e1, ← e2]; exact (List.getElem?_eq_some_iff.1 hy).1
    obtain ⟨h3, h4⟩ := h2.2 i _ (List.getElem?_eq_getElem hi) y u hy hu
    exact ⟨le_refl _, h3.trans h4⟩
  exact ⟨⟨fun _ _ _ _ => hl, fun _ _ _ _ => hl, fun _ _ _ => hl, fun _ => hl⟩, ⟨fun _ _ => hr, fun _ _ => hr, fun _ => hr, fun _ => hr⟩⟩

example : ∃ h, Placed fixCls Fixture.g ∧ ∃ h', updateDesign fixCls Fixture.g h = .ok h' := by
  obtain ⟨h, hl⟩ := fix_start
  obtain ⟨h', h1, -⟩ := C75_update std_sensible fix_fits hl
  exact ⟨h, (C75_placed std_sensible fix_fits hl).1, h', h1⟩

end Verif
