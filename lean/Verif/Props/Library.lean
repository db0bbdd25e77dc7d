import Verif.Lemmas.Library
import Verif.Props.Save
import Verif.Props.Distance
import Verif.Spec.Tables
/-!
# C76: the component library
-/

namespace Verif

/-- **C76.** After a script, the catalogue for evolution has exactly the classes on offer, each under the name of its base class; the catalogue for loading has
exactly the decorated classes; a category exists once some class of it has been registered, whatever `custom_library` does afterwards. -/
theorem C76_library {cmds : List Cmd} (hu : UniqueNames cmds) {s : LibSession} (hs : LibSession.start.run cmds = .ok s) :
    (∀ b c, s.config.all.Lists b c ↔ b = c.base ∧ Offered cmds c) ∧
    (∀ b c, s.config.withTerminals.Lists b c ↔ b = c.base ∧ Registered cmds c) ∧
    ∀ b, b ∈ s.config.all.map (·.1) ↔ HasCategory cmds b :=
  have h := (run_reflects cmds hu).2.2 s hs
  ⟨h.all, h.term, h.keys⟩

/-- **C76.** A script runs through exactly when every call of `custom_library` lists classes of existing categories only, and every evolver is made when all four
categories exist; otherwise it stops with a `KeyError`. -/
theorem C76_runs {cmds : List Cmd} (hu : UniqueNames cmds) :
    ((∃ s, LibSession.start.run cmds = .ok s) ↔ ∀ pre x post, cmds = pre ++ x :: post → Feasible pre x) ∧
    (LibSession.start.run cmds = .error .keyError ↔ ¬ ∀ pre x post, cmds = pre ++ x :: post → Feasible pre x) := by
  obtain ⟨h1, h2, -⟩ := run_reflects cmds hu
  by_cases h : ∀ pre x post, cmds = pre ++ x :: post → Feasible pre x
  · obtain ⟨s, hs⟩ := h1 h
    exact ⟨⟨fun _ => h, fun _ => ⟨s, hs⟩⟩, ⟨fun e => (by rw [hs] at e; cases e), fun hn => absurd h hn⟩⟩
  · have e := h2 h
    exact ⟨⟨fun ⟨s, hs⟩ => (by rw [hs] at e; cases e), fun h' => absurd h' h⟩, ⟨fun _ => h, fun _ => e⟩⟩

theorem run_evolver {cmds : List Cmd} (hu : UniqueNames cmds) {t : LibSession} (ht : LibSession.start.run cmds = .ok t) {s : LibSession}
    (hs : LibSession.start.run (cmds ++ [.evolver]) = .ok s) : ∃ lib, s.evolvers = t.evolvers ++ [lib] ∧ Draws lib cmds := by
  have hm : ∀ c, Mentions (cmds ++ [.evolver]) c → Mentions cmds c := by
    rintro c (⟨m, d, h1, h2⟩ | ⟨cs, h1, h2⟩)
    · exact .inl ⟨m, d, by simpa using h1, h2⟩
    · exact .inr ⟨cs, by simpa using h1, h2⟩
  have hu' : UniqueNames (cmds ++ [.evolver]) := ⟨fun c c' h h' => hu.ids c c' (hm _ h) (hm _ h'), fun c c' h h' => hu.classes c c' (hm _ h) (hm _ h'),
    fun m m' h h' => hu.modules m m' (by simpa using h) (by simpa using h')⟩
  rw [exec_append, ht] at hs
  obtain ⟨f1, f2⟩ := ((run_reflects cmds hu).2.2 t ht).step hu'
  by_cases hf : Feasible cmds .evolver
  · obtain ⟨s', e, -, new, h1, h2, -⟩ := f1 hf
    simp only [Except.bind, e] at hs
    injection hs with hs
    subst hs
    obtain ⟨lib, rfl, hd⟩ := h2 rfl
    exact ⟨lib, h1, hd⟩
  · simp only [Except.bind, f2 hf] at hs
    cases hs

/-- **C76.** An evolver draws exactly the classes on offer when it is made. -/
theorem C76_evolver {cmds : List Cmd} (hu : UniqueNames cmds) {s : LibSession} (hs : LibSession.start.run (cmds ++ [.evolver]) = .ok s) :
    ∃ lib, s.evolvers.getLast? = some lib ∧ Draws lib cmds := by
  cases ht : LibSession.start.run cmds with
  | error e => rw [exec_append, ht] at hs; cases hs
  | ok t =>
    obtain ⟨lib, h1, h2⟩ := run_evolver hu ht hs
    exact ⟨lib, by rw [h1]; simp, h2⟩

theorem exec_evolvers {s s' : LibSession} {x : Cmd} (h : s.exec x = .ok s') : s.evolvers <+: s'.evolvers := by
  cases x with
  | load m =>
    simp only [LibSession.exec, bind, Except.bind, pure, Except.pure] at h
    split_ifs at h
    · injection h with h; subst h; exact List.prefix_refl _
    · cases hk : s.config.execAll m.classes with
      | error e => rw [hk] at h; cases h
      | ok k => rw [hk] at h; injection h with h; subst h; exact List.prefix_refl _
  | custom cs =>
    simp only [LibSession.exec, bind, Except.bind, pure, Except.pure] at h
    cases hk : s.config.custom cs with
    | error e => rw [hk] at h; cases h
    | ok k => rw [hk] at h; injection h with h; subst h; exact List.prefix_refl _
  | evolver =>
    simp only [LibSession.exec, bind, Except.bind, pure, Except.pure] at h
    cases hk : s.config.operators with
    | error e => rw [hk] at h; cases h
    | ok k => rw [hk] at h; injection h with h; subst h; exact List.prefix_append _ _

theorem run_evolvers : ∀ (cmds : List Cmd) {s s' : LibSession}, s.run cmds = .ok s' → s.evolvers <+: s'.evolvers
  | [], s, s', h => by injection h with h; subst h; exact List.prefix_refl _
  | x :: cmds, s, s', h => by
    simp only [LibSession.run, bind, Except.bind] at h
    cases hx : s.exec x with
    | error e => rw [hx] at h; cases h
    | ok t => rw [hx] at h; exact (exec_evolvers hx).trans (run_evolvers cmds h)

theorem run_app (cmds rest : List Cmd) (s : LibSession) : s.run (cmds ++ rest) = (s.run cmds).bind (fun t => t.run rest) := by
  induction cmds generalizing s with
  | nil => rfl
  | cons c cs ih =>
    simp only [List.cons_append, LibSession.run, bind, Except.bind]
    cases s.exec c with
    | error e => rfl
    | ok t => exact ih t

/-- **C76.** An evolver keeps its library: whatever follows in the script (imports, `custom_library`, more evolvers), the libraries of the evolvers made so far are the
same; and the later ones draw what is on offer then. -/
theorem C76_snapshot {cmds rest : List Cmd} (hu : UniqueNames cmds) {s t : LibSession} (ht : LibSession.start.run (cmds ++ [.evolver]) = .ok t)
    (hs : LibSession.start.run (cmds ++ [.evolver] ++ rest) = .ok s) : ∃ lib, s.evolvers[t.evolvers.length - 1]? = some lib ∧ Draws lib cmds := by
  rw [run_app, ht] at hs
  obtain ⟨l, hl⟩ := run_evolvers rest hs
  obtain ⟨lib, h1, h2⟩ := C76_evolver hu ht
  refine ⟨lib, ?_, h2⟩
  rw [List.getLast?_eq_getElem?] at h1
  rw [← hl, List.getElem?_append_left (List.getElem?_eq_some_iff.1 h1).1]
  exact h1

/-- **C76.** After a call of `custom_library`, and as long as no further component module is imported, the evolvers draw exactly the listed classes. -/
theorem C76_custom {cmds rest : List Cmd} {cs : List PyClass} (hu : UniqueNames (cmds ++ .custom cs :: rest)) (hr : ∀ x ∈ rest, x = .evolver) {s : LibSession}
    (hs : LibSession.start.run (cmds ++ .custom cs :: rest ++ [.evolver]) = .ok s) :
    ∃ lib, s.evolvers.getLast? = some lib ∧
      (∀ x, x ∈ lib.source ↔ ∃ c ∈ cs, c.base = "SourceModel" ∧ c.cid = x) ∧ (∀ x, x ∈ lib.sink ↔ ∃ c ∈ cs, c.base = "SinkModel" ∧ c.cid = x) ∧
      (∀ x, x ∈ lib.edge ↔ ∃ c ∈ cs, c.base = "SinglePath" ∧ c.cid = x) ∧ (∀ x, x ∈ lib.node ↔ ∃ c ∈ cs, c.base = "MultiPath" ∧ c.cid = x) ∧
      ∀ c ∈ cs, ¬ c.base ∈ fourCategories → c.cid ∉ lib.source ++ lib.sink ++ lib.edge ++ lib.node := by
  obtain ⟨lib, h1, h2⟩ := C76_evolver hu hs
  have ho : ∀ c, Offered (cmds ++ .custom cs :: rest) c ↔ c ∈ cs := by
    intro c
    constructor
    · rintro ⟨pre, x, post, e, hp, hx⟩
      rcases List.append_eq_append_iff.1 e with ⟨a, rfl, h⟩ | ⟨a, rfl, h⟩
      · cases a with
        | nil =>
          simp only [List.nil_append, List.cons.injEq] at h
          obtain ⟨h, -⟩ := h
          rcases hx with ⟨cs', e', hc⟩ | ⟨m, e', -⟩
          · rw [e'] at h; cases h; exact hc
          · rw [e'] at h; cases h
        | cons y a =>
          simp only [List.cons_append, List.cons.injEq] at h
          have := hr x (by rw [h.2]; simp)
          rcases hx with ⟨cs', e', hc⟩ | ⟨m, e', -⟩ <;> (rw [this] at e'; cases e')
      · cases a with
        | nil =>
          simp only [List.nil_append, List.cons.injEq] at h
          obtain ⟨h, -⟩ := h
          rcases hx with ⟨cs', e', hc⟩ | ⟨m, e', -⟩
          · rw [e'] at h; cases h; exact hc
          · rw [e'] at h; cases h
        | cons y a =>
          simp only [List.cons_append, List.cons.injEq] at h
          exact absurd (by rw [h.2]; simp) (hp cs)
    · intro hc
      refine ⟨cmds, .custom cs, rest, rfl, ?_, .inl ⟨cs, rfl, hc⟩⟩
      intro cs' h
      cases hr _ h
  obtain ⟨d1, d2, d3, d4, -⟩ := h2
  simp only [ho] at d1 d2 d3 d4
  refine ⟨lib, h1, d1, d2, d3, d4, ?_⟩
  intro c hc hb hx
  have hid : ∀ c' ∈ cs, c'.cid = c.cid → c' = c := fun c' h e => hu.ids _ _ (.inr ⟨cs, by simp, h⟩) (.inr ⟨cs, by simp, hc⟩) e
  simp only [List.mem_append, d1, d2, d3, d4] at hx
  apply hb
  unfold fourCategories
  rcases hx with ((⟨c', h3, h4, h5⟩ | ⟨c', h3, h4, h5⟩) | ⟨c', h3, h4, h5⟩) | ⟨c', h3, h4, h5⟩ <;>
    (rw [hid c' h3 h5] at h4; rw [h4]; decide)

/-- **C76.** Loading a saved design finds a class by its name exactly if the class is decorated in some imported module; any other name is a `KeyError`. -/
theorem C76_by_name {cmds : List Cmd} (hu : UniqueNames cmds) {s : LibSession} (hs : LibSession.start.run cmds = .ok s) :
    (∀ n c, s.config.byName n = .ok c ↔ Registered cmds c ∧ c.name = n) ∧
    ∀ n, (∀ c, Registered cmds c → c.name ≠ n) → s.config.byName n = .error .keyError := by
  have h := (run_reflects cmds hu).2.2 s hs
  constructor
  · intro n c
    rcases h.byName hu n with ⟨c', e, h1, h2⟩ | ⟨e, h1⟩
    · rw [e]
      constructor
      · intro h'
        injection h' with h'
        subst h'
        exact ⟨h1, h2⟩
      · rintro ⟨h3, h4⟩
        rw [hu.classes c' c (registered_mentions h1) (registered_mentions h3) (h2.trans h4.symm)]
    · rw [e]
      constructor
      · intro h'; cases h'
      · rintro ⟨h3, h4⟩
        exact absurd h4 (h1 c h3)
  · intro n hn
    rcases h.byName hu n with ⟨c', e, h1, h2⟩ | ⟨e, h1⟩
    · exact absurd h2 (hn c' h1)
    · exact e

theorem uses_known {P : Type} {cmds : List Cmd} (hu : UniqueNames cmds) {s : LibSession} (hs : LibSession.start.run cmds = .ok s) {R : Registry P}
    (hR : R.Uses cmds s.config) {c : PyClass} (hc : Mentions cmds c) (hd : '.' ∉ c.name.toList) :
    (Registered cmds c → R.Known c.cid) ∧ (¬ Registered cmds c → R.lookup (R.name c.cid) = none) := by
  obtain ⟨h1, h2⟩ := C76_by_name hu hs
  unfold Registry.Known
  rw [hR.name c hc, hR.lookup]
  constructor
  · intro hr
    rw [(h1 c.name c).2 ⟨hr, rfl⟩]
    exact ⟨rfl, hd⟩
  · intro hr
    rw [h2 c.name (fun c' h e => hr (hu.classes c' c (registered_mentions h) hc e ▸ h))]

theorem loadNodes_keyError {P : Type} (R : Registry P) : ∀ (xs : List (Str × P)), (∃ x ∈ xs, R.lookup (nickBase x.1) = none) → loadNodes R xs = .error .keyError
  | [], h => by obtain ⟨x, hx, -⟩ := h; cases hx
  | (k, p) :: xs, h => by
    unfold loadNodes
    cases hk : R.lookup (nickBase k) with
    | none => rfl
    | some c =>
      have : ∃ x ∈ xs, R.lookup (nickBase x.1) = none := by
        obtain ⟨x, hx, e⟩ := h
        rcases List.mem_cons.1 hx with rfl | hx
        · rw [hk] at e; cases e
        · exact ⟨x, hx, e⟩
      simp only [loadNodes_keyError R xs this]

theorem loadNodes_err {P : Type} (R : Registry P) : ∀ (xs : List (Str × P)) {e : Err}, loadNodes R xs = .error e → e = .keyError
  | [], e, h => by cases h
  | (k, p) :: xs, e, h => by
    unfold loadNodes at h
    cases hk : R.lookup (nickBase k) with
    | none => rw [hk] at h; injection h with h; exact h.symm
    | some c =>
      rw [hk] at h
      cases hr : loadNodes R xs with
      | error e' =>
        rw [hr] at h
        injection h with h
        exact h ▸ loadNodes_err R xs hr
      | ok r => rw [hr] at h; cases h

theorem dictGet_err {K V : Type} [DecidableEq K] {d : List (K × V)} {k : K} {e : Err} (h : dictGet d k = .error e) : e = .keyError := by
  rcases dictGet_cases d k with ⟨v, -, e'⟩ | ⟨-, e'⟩
  · rw [e'] at h; cases h
  · rw [e'] at h; injection h with h; exact h.symm

theorem loadEdges_keyError {P : Type} (R : Registry P) (ep : List (Str × P)) : ∀ (xs : List (Str × (Str × Str × Nat))) (acc : List ((Str × Str × Nat) × (ClassId × P))),
    (∃ x ∈ xs, R.lookup (nickBase x.1) = none) → loadEdges R ep xs acc = .error .keyError
  | [], acc, h => by obtain ⟨x, hx, -⟩ := h; cases hx
  | (k, p) :: xs, acc, h => by
    unfold loadEdges
    cases hg : dictGet ep k with
    | error e => simp only [dictGet_err hg]
    | ok ps =>
      cases hk : R.lookup (nickBase k) with
      | none => rfl
      | some c =>
        have : ∃ x ∈ xs, R.lookup (nickBase x.1) = none := by
          obtain ⟨x, hx, e⟩ := h
          rcases List.mem_cons.1 hx with rfl | hx
          · rw [hk] at e; cases e
          · exact ⟨x, hx, e⟩
        simp only [loadEdges_keyError R ep xs _ this]

section
variable {L P : Type} [DecidableEq L]

/-- What is saved, whether or not it can be loaded. -/
theorem save_eq (R : Registry P) (g : SGraph L P) (hg : g.OK) (hne : g.nodes ≠ []) (hdn : ∀ n ∈ g.nodes, '.' ∉ R.name n.cls)
    (hde : ∀ e ∈ g.edges, '.' ∉ R.name e.cls) :
    saveGraph R g = .ok ⟨(nickList R (g.nodes.length - 1) (g.edges.map (·.cls))).zip (adjList (nickOf R g) g.edges),
      (nickList R 0 (g.nodes.map (·.cls))).zip (g.nodes.map (·.params)),
      (nickList R (g.nodes.length - 1) (g.edges.map (·.cls))).zip (g.edges.map (·.params))⟩ := by
  have hmap := map_nickOf R hg.labels
  have hnn : (nickList R 0 (g.nodes.map (·.cls))).Nodup := nickList_nodup (by
    intro c hc
    obtain ⟨n, hn, rfl⟩ := List.mem_map.1 hc
    exact hdn n hn) 0
  have hen : (nickList R (g.nodes.length - 1) (g.edges.map (·.cls))).Nodup := nickList_nodup (by
    intro c hc
    obtain ⟨n, hn, rfl⟩ := List.mem_map.1 hc
    exact hde n hn) _
  have hN := saveNodes_eq R g.nodes 0 [] [] (by simpa using hg.labels) (by simpa using hnn)
  simp only [List.nil_append] at hN
  have hget : ∀ l ∈ g.nodes.map (·.label), dictGet ((g.nodes.map (·.label)).zip (nickList R 0 (g.nodes.map (·.cls)))) l = .ok (nickOf R g l) := by
    intro l hl
    apply dictGet_mem
    · rw [List.map_fst_zip (by simp [nickList_length])]
      exact hg.labels
    · rw [← hmap]
      obtain ⟨i, hi, rfl⟩ := List.mem_iff_getElem.1 hl
      rw [List.mem_iff_getElem?]
      refine ⟨i, ?_⟩
      simp only [List.getElem?_zip_eq_some, List.getElem?_eq_getElem hi, List.getElem?_map, Option.map_some, true_and]
  have hE := saveEdges_eq R ((g.nodes.map (·.label)).zip (nickList R 0 (g.nodes.map (·.cls)))) (nickOf R g) g.edges
    (fun e he => hget _ (hg.src_mem e he)) (fun e he => hget _ (hg.dst_mem e he)) (g.nodes.length - 1) [] [] (by simpa using hen) (by simpa using hen)
  simp only [List.nil_append] at hE
  unfold saveGraph
  rw [hN]
  dsimp only
  rw [hE]
  split
  · next h => exact (hne h).elim
  · rfl

theorem nick_mem {Q : Type} (R : Registry P) {cs : List ClassId} {c : ClassId} (hc : c ∈ cs) (hd : '.' ∉ R.name c) (i : Nat) {ys : List Q} (hl : ys.length = cs.length) :
    ∃ x ∈ (nickList R i cs).zip ys, nickBase x.1 = R.name c := by
  obtain ⟨k, hk, rfl⟩ := List.mem_iff_getElem.1 hc
  refine ⟨(nickname (R.name cs[k]) (i + k), ys[k]'(hl ▸ hk)), ?_, nickBase_nickname hd _⟩
  rw [List.mem_iff_getElem?]
  refine ⟨k, ?_⟩
  rw [List.getElem?_zip_eq_some]
  exact ⟨by rw [nickList_get, List.getElem?_eq_getElem hk]; rfl, List.getElem?_eq_getElem (hl ▸ hk)⟩

theorem load_unknown (R : Registry P) (g : SGraph L P) (hg : g.OK) (hne : g.nodes ≠ []) (hdn : ∀ n ∈ g.nodes, '.' ∉ R.name n.cls)
    (hde : ∀ e ∈ g.edges, '.' ∉ R.name e.cls)
    (hx : (∃ n ∈ g.nodes, R.lookup (R.name n.cls) = none) ∨ ∃ e ∈ g.edges, R.lookup (R.name e.cls) = none) :
    ∃ s, saveGraph R g = .ok s ∧ loadGraph R s = .error .keyError := by
  refine ⟨_, save_eq R g hg hne hdn hde, ?_⟩
  unfold loadGraph
  dsimp only
  rcases hx with ⟨n, hn, e⟩ | ⟨n, hn, e⟩
  · obtain ⟨x, h1, h2⟩ := nick_mem (ys := g.nodes.map (·.params)) R (List.mem_map_of_mem (f := (·.cls)) hn) (hdn n hn) 0 (by simp)
    rw [loadNodes_keyError R _ ⟨x, h1, by rw [h2]; exact e⟩]
  · cases hl : loadNodes R ((nickList R 0 (g.nodes.map (·.cls))).zip (g.nodes.map (·.params))) with
    | error e' => rw [loadNodes_err R _ hl]
    | ok nodes =>
      obtain ⟨x, h1, h2⟩ := nick_mem (ys := adjList (nickOf R g) g.edges) R (List.mem_map_of_mem (f := (·.cls)) hn) (hde n hn) (g.nodes.length - 1) (by simp [adjList])
      dsimp only
      rw [loadEdges_keyError R _ _ _ ⟨x, h1, by rw [h2]; exact e⟩]

/-- **C76.** A design of classes of the script (with no dot in their names) can always be saved.  Loading it again reproduces it (C41) if every class
is registered; if one is not, which `custom_library` allows, loading raises a `KeyError`. -/
theorem C76_reload {cmds : List Cmd} (hu : UniqueNames cmds) {s : LibSession} (hs : LibSession.start.run cmds = .ok s) {R : Registry P}
    (hR : R.Uses cmds s.config) (g : SGraph L P) (hg : g.OK) (ha : g.Acyclic) (hne : g.nodes ≠ [])
    (hn : ∀ n ∈ g.nodes, ∃ c, Mentions cmds c ∧ c.cid = n.cls ∧ '.' ∉ c.name.toList) (he : ∀ e ∈ g.edges, ∃ c, Mentions cmds c ∧ c.cid = e.cls ∧ '.' ∉ c.name.toList)
    (hpar : ∀ n ∈ g.nodes, R.arity n.cls (g.inDeg n.label) (g.outDeg n.label) = R.len n.params) :
    ∃ sv, saveGraph R g = .ok sv ∧
      ((∀ x, (x ∈ g.nodes.map (·.cls) ∨ x ∈ g.edges.map (·.cls)) → ∃ c, Registered cmds c ∧ c.cid = x) → ∃ g', loadGraph R sv = .ok g' ∧ SameSystem g g') ∧
      ((∃ x, (x ∈ g.nodes.map (·.cls) ∨ x ∈ g.edges.map (·.cls)) ∧ ∀ c, Registered cmds c → c.cid ≠ x) → loadGraph R sv = .error .keyError) := by
  have hdot : ∀ x, (∃ c, Mentions cmds c ∧ c.cid = x ∧ '.' ∉ c.name.toList) → '.' ∉ R.name x := by
    rintro x ⟨c, h1, rfl, h2⟩
    rw [hR.name c h1]
    exact h2
  have hdn : ∀ n ∈ g.nodes, '.' ∉ R.name n.cls := fun n h => hdot _ (hn n h)
  have hde : ∀ n ∈ g.edges, '.' ∉ R.name n.cls := fun n h => hdot _ (he n h)
  refine ⟨_, save_eq R g hg hne hdn hde, ?_, ?_⟩
  · intro hall
    have hk : ∀ x, (∃ c, Mentions cmds c ∧ c.cid = x ∧ '.' ∉ c.name.toList) → (∃ c, Registered cmds c ∧ c.cid = x) → R.Known x := by
      rintro x ⟨c, h1, rfl, h2⟩ ⟨c', h3, h4⟩
      have := hu.ids c' c (registered_mentions h3) h1 h4
      subst this
      exact (uses_known hu hs hR h1 h2).1 h3
    obtain ⟨s', g', h1, h2, h3, -⟩ := C41_round_trip R g hg ha hne
      (fun n h => hk _ (hn n h) (hall _ (.inl (List.mem_map_of_mem (f := (·.cls)) h))))
      (fun n h => hk _ (he n h) (hall _ (.inr (List.mem_map_of_mem (f := (·.cls)) h)))) hpar
    rw [save_eq R g hg hne hdn hde] at h1
    injection h1 with h1
    subst h1
    exact ⟨g', h2, h3⟩
  · rintro ⟨x, hx, hr⟩
    have hlook : ∀ x, (∃ c, Mentions cmds c ∧ c.cid = x ∧ '.' ∉ c.name.toList) → (∀ c, Registered cmds c → c.cid ≠ x) → R.lookup (R.name x) = none := by
      rintro x ⟨c, h1, rfl, h2⟩ hr
      exact (uses_known hu hs hR h1 h2).2 (fun h => hr c h rfl)
    obtain ⟨s', h1, h2⟩ := load_unknown R g hg hne hdn hde (by
      rcases hx with hx | hx
      · obtain ⟨n, h3, rfl⟩ := List.mem_map.1 hx
        exact .inl ⟨n, h3, hlook _ (hn n h3) hr⟩
      · obtain ⟨n, h3, rfl⟩ := List.mem_map.1 hx
        exact .inr ⟨n, h3, hlook _ (he n h3) hr⟩)
    rw [save_eq R g hg hne hdn hde] at h1
    injection h1 with h1
    subst h1
    exact h2

end

/-- **C76.** The distance `vectorDIFF`, made at this point of the script, knows the classes on offer and raises a `KeyError` for every design with any other class. -/
theorem C76_vector {cmds : List Cmd} (hu : UniqueNames cmds) {s : LibSession} (hs : LibSession.start.run cmds = .ok s) :
    (∀ x, x ∈ s.config.vectorBasis ↔ ∃ c, Offered cmds c ∧ c.cid = x) ∧
    ∀ a b : Tagged, HasScheme .vectorDiff a → HasScheme .vectorDiff b →
      ((∃ n ∈ a.graph.nodes, ∀ c, Offered cmds c → c.cid ≠ n.comp.cls) ∨ ∃ e ∈ a.graph.edges, ∀ c, Offered cmds c → c.cid ≠ e.comp.cls) →
      vectorDist s.config.vectorBasis a b = .error .keyError := by
  obtain ⟨h1, h2⟩ := ((run_reflects cmds hu).2.2 s hs).basis hu
  refine ⟨h1, fun a b ha hb hx => C44_vector_unregistered h2 ha hb (.inl ?_)⟩
  rcases hx with ⟨n, hn, hx⟩ | ⟨n, hn, hx⟩
  · exact .inl ⟨n, hn, fun h => by obtain ⟨c, h3, h4⟩ := (h1 _).1 h; exact hx c h3 h4⟩
  · exact .inr ⟨n, hn, fun h => by obtain ⟨c, h3, h4⟩ := (h1 _).1 h; exact hx c h3 h4⟩

/-! ### The classes that exist -/

/-- All pairs (class, decorator) of the five modules. -/
def shippedClasses : List (PyClass × Deco) := shippedModules.flatMap (·.classes)

theorem shipped_mem {m : CompModule} (hm : m ∈ shippedModules) {x : PyClass × Deco} (hx : x ∈ m.classes) : x ∈ shippedClasses :=
  List.mem_flatMap.2 ⟨m, hm, hx⟩

theorem shipped_unique {cmds : List Cmd} (h : ShippedOnly cmds) : UniqueNames cmds := by
  have hk : ∀ c, Mentions cmds c → c ∈ shippedClasses.map (·.1) := by
    intro c hc
    obtain ⟨m, hm, d, hd⟩ := h.2 c hc
    exact List.mem_map_of_mem (f := (·.1)) (shipped_mem hm hd)
  have h1 : ∀ c ∈ shippedClasses.map (·.1), ∀ c' ∈ shippedClasses.map (·.1), c.cid = c'.cid → c = c' := by decide +kernel
  have h2 : ∀ c ∈ shippedClasses.map (·.1), ∀ c' ∈ shippedClasses.map (·.1), c.name = c'.name → c = c' := by decide +kernel
  have h3 : ∀ m ∈ shippedModules, ∀ m' ∈ shippedModules, m.name = m'.name → m = m' := by decide +kernel
  exact ⟨fun c c' a b => h1 c (hk c a) c' (hk c' b), fun c c' a b => h2 c (hk c a) c' (hk c' b), fun m m' a b => h3 m (h.1 m a) m' (h.1 m' b)⟩

/-- **C76.** Whatever a script mentions of the classes that exist, the parameter table used for it is the table of the class with that name. -/
theorem C76_tables {cmds : List Cmd} (h : ShippedOnly cmds) {c : PyClass} (hc : Mentions cmds c) : (shippedPart c.cid).className = c.name := by
  have key : ∀ c ∈ shippedClasses.map (·.1), (shippedPart c.cid).className = c.name := by decide +kernel
  obtain ⟨m, hm, d, hd⟩ := h.2 c hc
  exact key c (List.mem_map_of_mem (f := (·.1)) (shipped_mem hm hd))

/-- **C76.** In a script about the classes that exist, every evolver, with the automatic or a custom library, puts node components at nodes and edge components
on edges: what C75 asks of a library. -/
theorem C76_fits {cmds : List Cmd} (h : ShippedOnly cmds) {s : LibSession} (hs : LibSession.start.run (cmds ++ [.evolver]) = .ok s) :
    ∃ lib, s.evolvers.getLast? = some lib ∧ LibraryFits shippedPart lib := by
  obtain ⟨lib, h1, h2⟩ := C76_evolver (shipped_unique h) hs
  have hc : ∀ c, Offered cmds c → c ∈ shippedClasses.map (·.1) := by
    intro c hc
    obtain ⟨m, hm, d, hd⟩ := h.2 c (offered_mentions hc)
    exact List.mem_map_of_mem (f := (·.1)) (shipped_mem hm hd)
  have key : ∀ c ∈ shippedClasses.map (·.1), (c.base = "MultiPath" → shippedPart c.cid = .splitter ∨ shippedPart c.cid = .freqSplitter) ∧
      ((c.base = "SinglePath" ∨ c.base = "SourceModel" ∨ c.base = "SinkModel") →
        shippedPart c.cid ≠ .terminalSource ∧ shippedPart c.cid ≠ .terminalSink ∧ shippedPart c.cid ≠ .splitter ∧ shippedPart c.cid ≠ .freqSplitter) := by
    decide +kernel
  have hno : ∀ c ∈ shippedClasses.map (·.1), (c.base = "SinglePath" ∨ c.base = "SourceModel" ∨ c.base = "SinkModel") → ¬ (shippedPart c.cid).IsNode := by
    intro c hc hb hn
    obtain ⟨h1, h2, h3, h4⟩ := (key c hc).2 hb
    rcases hn with h | h | h | h
    · exact h1 h
    · exact h2 h
    · exact h3 h
    · exact h4 h
  refine ⟨lib, h1, ⟨?_, ?_, ?_, ?_⟩⟩
  · intro x hx
    obtain ⟨c, c1, c2, rfl⟩ := (h2.node x).1 hx
    rcases (key c (hc c c1)).1 c2 with h | h
    · exact .inr (.inr (.inl h))
    · exact .inr (.inr (.inr h))
  · intro x hx
    obtain ⟨c, c1, c2, rfl⟩ := (h2.edge x).1 hx
    exact hno c (hc c c1) (.inl c2)
  · intro x hx
    obtain ⟨c, c1, c2, rfl⟩ := (h2.source x).1 hx
    exact hno c (hc c c1) (.inr (.inl c2))
  · intro x hx
    obtain ⟨c, c1, c2, rfl⟩ := (h2.sink x).1 hx
    exact hno c (hc c c1) (.inr (.inr c2))

theorem loads_offered {cmds : List Cmd} (hl : ∀ x ∈ cmds, ∃ m, x = .load m) {c : PyClass} :
    Offered cmds c ↔ ∃ m, Cmd.load m ∈ cmds ∧ (c, Deco.all) ∈ m.classes := by
  induction cmds using List.reverseRecOn with
  | nil => simp [Offered]
  | append_singleton cmds x ih =>
    obtain ⟨m, rfl⟩ := hl x (by simp)
    rw [offered_load, ih (fun y hy => hl y (List.mem_append_left _ hy))]
    constructor
    · rintro (⟨m', h1, h2⟩ | ⟨-, h2⟩)
      · exact ⟨m', List.mem_append_left _ h1, h2⟩
      · exact ⟨m, by simp, h2⟩
    · rintro ⟨m', h1, h2⟩
      by_cases hm : Cmd.load m' ∈ cmds
      · exact .inl ⟨m', hm, h2⟩
      · rcases List.mem_append.1 h1 with h1 | h1
        · exact .inl ⟨m', h1, h2⟩
        · cases List.mem_singleton.1 h1
          exact .inr ⟨hm, h2⟩

/-- **C76.** The order of the imports and their repetition do not matter: any script that imports the four modules with components for evolution (and possibly the
terminals) gives evolvers with the same four sets of classes. -/
theorem C76_shipped {cmds : List Cmd} (hl : ∀ x ∈ cmds, ∃ m ∈ shippedModules, x = .load m)
    (h4 : ∀ m ∈ [modInputs, modOutputs, modSingle, modMulti], Cmd.load m ∈ cmds) :
    ∃ s lib, LibSession.start.run (cmds ++ [.evolver]) = .ok s ∧ s.evolvers = [lib] ∧ lib.source.Perm [4, 5, 6, 7] ∧ lib.sink.Perm [8, 9, 10] ∧
      lib.edge.Perm [11, 12, 13, 14, 15, 17, 18, 19, 20] ∧ lib.node.Perm [2] := by
  have hlm : ∀ m, Cmd.load m ∈ cmds → m ∈ shippedModules := by
    intro m hm
    obtain ⟨m', h1, e⟩ := hl _ hm
    cases e; exact h1
  have hs0 : ShippedOnly cmds := by
    refine ⟨hlm, ?_⟩
    rintro c (⟨m, d, h1, h2⟩ | ⟨cs, h1, h2⟩)
    · exact ⟨m, hlm m h1, d, h2⟩
    · obtain ⟨m', -, e⟩ := hl _ h1; cases e
  have hu := shipped_unique hs0
  have hcat : ∀ b ∈ fourCategories, HasCategory cmds b := by
    intro b hb
    simp only [fourCategories, List.mem_cons, List.not_mem_nil, or_false] at hb
    rcases hb with rfl | rfl | rfl | rfl
    · exact ⟨modInputs, ⟨4, "PulsedLaser", "SourceModel"⟩, h4 _ (by simp), by simp [modInputs], rfl⟩
    · exact ⟨modOutputs, ⟨8, "MeasurementDevice", "SinkModel"⟩, h4 _ (by simp), by simp [modOutputs], rfl⟩
    · exact ⟨modSingle, ⟨11, "DispersiveFiber", "SinglePath"⟩, h4 _ (by simp), by simp [modSingle], rfl⟩
    · exact ⟨modMulti, ⟨2, "VariablePowerSplitter", "MultiPath"⟩, h4 _ (by simp), by simp [modMulti], rfl⟩
  have hrun : ∃ t, LibSession.start.run cmds = .ok t := by
    refine (C76_runs hu).1.2 ?_
    intro pre x post e
    obtain ⟨m, -, rfl⟩ := hl x (by rw [e]; simp)
    trivial
  obtain ⟨t, ht⟩ := hrun
  have hev0 : ∀ (cs : List Cmd) (a b : LibSession), (∀ x ∈ cs, ∃ m, x = .load m) → a.run cs = .ok b → b.evolvers = a.evolvers := by
    intro cs
    induction cs with
    | nil => intro a b _ h; injection h with h; rw [h]
    | cons x cs ih =>
      intro a b hx h
      obtain ⟨m, rfl⟩ := hx x (by simp)
      simp only [LibSession.run, bind, Except.bind] at h
      cases he : a.exec (.load m) with
      | error e => rw [he] at h; cases h
      | ok a' =>
        rw [he] at h
        have := ih a' b (fun y hy => hx y (by simp [hy])) h
        rw [this]
        simp only [LibSession.exec, bind, Except.bind, pure, Except.pure] at he
        split_ifs at he
        · injection he with he; rw [he]
        · cases hk : a.config.execAll m.classes with
          | error e => rw [hk] at he; cases he
          | ok k => rw [hk] at he; injection he with he; rw [← he]
  obtain ⟨lib0, e0, -⟩ := (((run_reflects cmds hu).2.2 t ht).operators hu).1 hcat
  have hrun2 : ∃ s, LibSession.start.run (cmds ++ [.evolver]) = .ok s := by
    rw [exec_append, ht]
    exact ⟨{ t with evolvers := t.evolvers ++ [lib0] }, by simp only [Except.bind, LibSession.exec, e0, bind, pure, Except.pure]⟩
  obtain ⟨s, hs⟩ := hrun2
  obtain ⟨lib, h1, h2⟩ := run_evolver hu ht hs
  have hoff : ∀ c, Offered cmds c ↔ (c, Deco.all) ∈ shippedClasses := by
    intro c
    rw [loads_offered (fun x hx => by obtain ⟨m, -, e⟩ := hl x hx; exact ⟨m, e⟩)]
    constructor
    · rintro ⟨m, h1, h2⟩
      exact shipped_mem (hlm m h1) h2
    · intro h
      obtain ⟨m, h5, h6⟩ := List.mem_flatMap.1 h
      simp only [shippedModules, List.mem_cons, List.not_mem_nil, or_false] at h5
      rcases h5 with rfl | rfl | rfl | rfl | rfl
      · exact ⟨_, h4 _ (by simp), h6⟩
      · exact ⟨_, h4 _ (by simp), h6⟩
      · exact ⟨_, h4 _ (by simp), h6⟩
      · exact ⟨_, h4 _ (by simp), h6⟩
      · simp [modTerminals] at h6
  have hset : ∀ (b : String) (l : List ClassId) (xs : List ClassId), (∀ x, x ∈ l ↔ ∃ c, Offered cmds c ∧ c.base = b ∧ c.cid = x) → l.Nodup → xs.Nodup →
      (∀ x, x ∈ xs ↔ ∃ y ∈ shippedClasses, y.2 = Deco.all ∧ y.1.base = b ∧ y.1.cid = x) → l.Perm xs := by
    intro b l xs h1 h2 h3 h4
    rw [List.perm_ext_iff_of_nodup h2 h3]
    intro x
    rw [h1, h4]
    constructor
    · rintro ⟨c, c1, c2, c3⟩
      exact ⟨(c, .all), (hoff c).1 c1, rfl, c2, c3⟩
    · rintro ⟨⟨c, d⟩, c1, rfl, c2, c3⟩
      exact ⟨c, (hoff c).2 c1, c2, c3⟩
  have hx : ∀ (b : String) (xs : List ClassId), ((shippedClasses.filter (fun y => y.2 = Deco.all ∧ y.1.base = b)).map (·.1.cid)).Perm xs →
      ∀ x, x ∈ xs ↔ ∃ y ∈ shippedClasses, y.2 = Deco.all ∧ y.1.base = b ∧ y.1.cid = x := by
    intro b xs hp x
    rw [← hp.mem_iff, List.mem_map]
    simp only [List.mem_filter, decide_eq_true_eq]
    constructor
    · rintro ⟨y, ⟨y1, y2, y3⟩, rfl⟩; exact ⟨y, y1, y2, y3, rfl⟩
    · rintro ⟨y, y1, y2, y3, rfl⟩; exact ⟨y, ⟨y1, y2, y3⟩, rfl⟩
  have hte : t.evolvers = [] := hev0 cmds _ t (fun x hx => by obtain ⟨m, -, e⟩ := hl x hx; exact ⟨m, e⟩) ht
  refine ⟨s, lib, hs, by rw [h1, hte]; rfl, ?_, ?_, ?_, ?_⟩
  · exact hset "SourceModel" _ _ h2.source h2.once.1 (by decide) (hx _ _ (by decide +kernel))
  · exact hset "SinkModel" _ _ h2.sink h2.once.2.1 (by decide) (hx _ _ (by decide +kernel))
  · exact hset "SinglePath" _ _ h2.edge h2.once.2.2.1 (by decide) (hx _ _ (by decide +kernel))
  · exact hset "MultiPath" _ _ h2.node h2.once.2.2.2 (by decide) (hx _ _ (by decide +kernel))

/-- **C76.** Once the four modules are imported, `custom_library` accepts every list of components that exist, except those with a terminal; evolvers can be made
afterwards, and draw exactly the listed components. -/
theorem C76_any_custom {cmds : List Cmd} (hl : ∀ x ∈ cmds, ∃ m ∈ shippedModules, x = .load m)
    (h4 : ∀ m ∈ [modInputs, modOutputs, modSingle, modMulti], Cmd.load m ∈ cmds) (cs : List PyClass) (hc : ∀ c ∈ cs, ∃ d, (c, d) ∈ shippedClasses) :
    ((∀ c ∈ cs, shippedPart c.cid ≠ .terminalSource ∧ shippedPart c.cid ≠ .terminalSink) →
      ∃ s lib, LibSession.start.run (cmds ++ .custom cs :: [] ++ [.evolver]) = .ok s ∧ s.evolvers.getLast? = some lib ∧
        ∀ x, x ∈ lib.source ++ lib.sink ++ lib.edge ++ lib.node ↔ x ∈ cs.map (·.cid)) ∧
    ((∃ c ∈ cs, shippedPart c.cid = .terminalSource ∨ shippedPart c.cid = .terminalSink) → LibSession.start.run (cmds ++ [.custom cs]) = .error .keyError) := by
  have hlm : ∀ m, Cmd.load m ∈ cmds → m ∈ shippedModules := by
    intro m hm
    obtain ⟨m', h1, e⟩ := hl _ hm
    cases e; exact h1
  have hs0 : ∀ rest : List Cmd, (∀ x ∈ rest, x = .evolver) → ShippedOnly (cmds ++ .custom cs :: rest) := by
    intro rest hr
    constructor
    · intro m hm
      rcases List.mem_append.1 hm with hm | hm
      · exact hlm m hm
      · rcases List.mem_cons.1 hm with e | hm
        · cases e
        · cases hr _ hm
    · have hcs : ∀ c ∈ cs, ∃ m ∈ shippedModules, ∃ d, (c, d) ∈ m.classes := by
        intro c h
        obtain ⟨d, hd⟩ := hc c h
        obtain ⟨m, h1, h2⟩ := List.mem_flatMap.1 hd
        exact ⟨m, h1, d, h2⟩
      rintro c (⟨m, d, h1, h2⟩ | ⟨cs', h1, h2⟩)
      · rcases List.mem_append.1 h1 with hm | hm
        · exact ⟨m, hlm m hm, d, h2⟩
        · rcases List.mem_cons.1 hm with e | hm
          · cases e
          · cases hr _ hm
      · rcases List.mem_append.1 h1 with hm | hm
        · obtain ⟨m', -, e⟩ := hl _ hm; cases e
        · rcases List.mem_cons.1 hm with e | hm
          · cases e; exact hcs c h2
          · cases hr _ hm
  have hcat : ∀ b ∈ fourCategories, HasCategory cmds b := by
    intro b hb
    simp only [fourCategories, List.mem_cons, List.not_mem_nil, or_false] at hb
    rcases hb with rfl | rfl | rfl | rfl
    · exact ⟨modInputs, ⟨4, "PulsedLaser", "SourceModel"⟩, h4 _ (by simp), by simp [modInputs], rfl⟩
    · exact ⟨modOutputs, ⟨8, "MeasurementDevice", "SinkModel"⟩, h4 _ (by simp), by simp [modOutputs], rfl⟩
    · exact ⟨modSingle, ⟨11, "DispersiveFiber", "SinglePath"⟩, h4 _ (by simp), by simp [modSingle], rfl⟩
    · exact ⟨modMulti, ⟨2, "VariablePowerSplitter", "MultiPath"⟩, h4 _ (by simp), by simp [modMulti], rfl⟩
  have kin : ∀ x ∈ shippedClasses, (shippedPart x.1.cid ≠ .terminalSource ∧ shippedPart x.1.cid ≠ .terminalSink) → x.1.base ∈ fourCategories := by decide +kernel
  have kout : ∀ x ∈ shippedClasses, (shippedPart x.1.cid = .terminalSource ∨ shippedPart x.1.cid = .terminalSink) → ∀ y ∈ shippedClasses, y.2 = Deco.all →
      y.1.base ≠ x.1.base := by decide +kernel
  constructor
  · intro hcs
    have hb : ∀ c ∈ cs, c.base ∈ fourCategories := fun c h => by
      obtain ⟨d, hd⟩ := hc c h
      exact kin _ hd (hcs c h)
    have hu := shipped_unique (hs0 [.evolver] (by simp))
    obtain ⟨s, hs⟩ := (C76_runs hu).1.2 (by
      intro pre x post e
      have e' : (cmds ++ [.custom cs]) ++ [.evolver] = pre ++ x :: post := by rw [← e]; simp
      rcases split_snoc.1 e' with ⟨-, rfl, rfl⟩ | ⟨p, -, e2⟩
      · intro b hb
        exact hasCategory_snoc.2 (.inr (hcat b hb))
      · rcases split_snoc.1 e2 with ⟨-, rfl, rfl⟩ | ⟨p', -, e3⟩
        · intro c h
          exact hcat _ (hb c h)
        · obtain ⟨m, -, rfl⟩ := hl x (by rw [e3]; simp)
          trivial)
    have hs' : LibSession.start.run (cmds ++ .custom cs :: [] ++ [.evolver]) = .ok s := by
      rw [← hs]; simp
    obtain ⟨lib, h1, d1, d2, d3, d4, -⟩ := C76_custom (shipped_unique (hs0 [] (by simp))) (by simp) hs'
    refine ⟨s, lib, hs', h1, ?_⟩
    intro x
    simp only [List.mem_append, d1, d2, d3, d4, List.mem_map]
    constructor
    · rintro (((⟨c, c1, -, c3⟩ | ⟨c, c1, -, c3⟩) | ⟨c, c1, -, c3⟩) | ⟨c, c1, -, c3⟩) <;> exact ⟨c, c1, c3⟩
    · rintro ⟨c, c1, c3⟩
      have := hb c c1
      simp only [fourCategories, List.mem_cons, List.not_mem_nil, or_false] at this
      rcases this with h | h | h | h
      · exact .inl (.inl (.inl ⟨c, c1, h, c3⟩))
      · exact .inl (.inl (.inr ⟨c, c1, h, c3⟩))
      · exact .inl (.inr ⟨c, c1, h, c3⟩)
      · exact .inr ⟨c, c1, h, c3⟩
  · rintro ⟨c, hcc, ht⟩
    refine (C76_runs (shipped_unique (hs0 [] (by simp)))).2.2 ?_
    intro hall
    obtain ⟨m, c', g1, g2, g3⟩ := hall cmds (.custom cs) [] rfl c hcc
    obtain ⟨d, hd⟩ := hc c hcc
    exact kout _ hd ht _ (shipped_mem (hlm m g1) g2) rfl g3

/-- **C76.** A class that is not derived directly from one of the four categories is never drawn, however it is registered or listed. -/
theorem C76_foreign {cmds : List Cmd} (hu : UniqueNames cmds) {s : LibSession} (hs : LibSession.start.run (cmds ++ [.evolver]) = .ok s) {c : PyClass}
    (hc : Mentions cmds c) (hb : c.base ∉ fourCategories) :
    ∃ lib, s.evolvers.getLast? = some lib ∧ c.cid ∉ lib.source ∧ c.cid ∉ lib.sink ∧ c.cid ∉ lib.edge ∧ c.cid ∉ lib.node := by
  obtain ⟨lib, h1, h2⟩ := C76_evolver hu hs
  have key : ∀ b ∈ fourCategories, ¬ ∃ c', Offered cmds c' ∧ c'.base = b ∧ c'.cid = c.cid := by
    rintro b hb' ⟨c', h3, h4, h5⟩
    rw [hu.ids c' c (offered_mentions h3) hc h5] at h4
    exact hb (h4 ▸ hb')
  refine ⟨lib, h1, ?_, ?_, ?_, ?_⟩
  · rw [h2.source]; exact key _ (by decide)
  · rw [h2.sink]; exact key _ (by decide)
  · rw [h2.edge]; exact key _ (by decide)
  · rw [h2.node]; exact key _ (by decide)

/-- **C76 (finding).** In a script about the classes that exist, `vectorDIFF` raises a `KeyError` for every design with a terminal node, which all designs have. -/
theorem C76_vector_terminals {cmds : List Cmd} (h : ShippedOnly cmds) {s : LibSession} (hs : LibSession.start.run cmds = .ok s) (a b : Tagged)
    (ha : HasScheme .vectorDiff a) (hb : HasScheme .vectorDiff b)
    (ht : ∃ n ∈ a.graph.nodes, shippedPart n.comp.cls = .terminalSource ∨ shippedPart n.comp.cls = .terminalSink) :
    vectorDist s.config.vectorBasis a b = .error .keyError := by
  have hu := shipped_unique h
  refine (C76_vector hu hs).2 a b ha hb (.inl ?_)
  obtain ⟨n, hn, hp⟩ := ht
  refine ⟨n, hn, ?_⟩
  intro c hc e
  have hcs : ∃ x ∈ shippedClasses, x.1 = c := by
    obtain ⟨m, hm, d, hd⟩ := h.2 c (offered_mentions hc)
    exact ⟨_, shipped_mem hm hd, rfl⟩
  have h1 : ∀ x ∈ shippedClasses, (shippedPart x.1.cid = .terminalSource ∨ shippedPart x.1.cid = .terminalSink) → x.1.base = "NodeType" := by decide +kernel
  have h2 : ∀ x ∈ shippedClasses, x.2 = Deco.all → x.1.base ≠ "NodeType" := by decide +kernel
  obtain ⟨x, hx, rfl⟩ := hcs
  have hbase := h1 x hx (by rw [e]; exact hp)
  obtain ⟨pre, y, post, rfl, -, ⟨cs, rfl, hcs⟩ | ⟨m, rfl, -, hm⟩⟩ := hc
  · have hf := (C76_runs hu).1.1 ⟨s, hs⟩ pre _ post rfl
    obtain ⟨m, c', g1, g2, g3⟩ := hf _ hcs
    have hm : m ∈ shippedModules := h.1 m (by simp [g1])
    exact h2 _ (shipped_mem hm g2) rfl (g3.trans hbase)
  · have hm' : m ∈ shippedModules := h.1 m (by simp)
    exact h2 _ (shipped_mem hm' hm) rfl hbase

/-! ### Cases -/

theorem ok_of_toOption {α β : Type} {x : Except Err α} {f : α → β} {v : β} (h : x.toOption.map f = some v) : ∃ s, x = .ok s ∧ f s = v := by
  cases x with
  | error e => cases h
  | ok s => exact ⟨s, rfl, by simpa [Except.toOption] using h⟩

/-- All modules, as the scripts import them. -/
def importAll : List Cmd := [.load modTerminals, .load modInputs, .load modOutputs, .load modSingle, .load modMulti]

theorem shippedOnly_of {cmds : List Cmd} (h1 : ∀ m, Cmd.load m ∈ cmds → m ∈ shippedModules) (h2 : ∀ cs, Cmd.custom cs ∈ cmds → ∀ c ∈ cs, c ∈ shippedClasses.map (·.1)) :
    ShippedOnly cmds := by
  refine ⟨h1, ?_⟩
  rintro c (⟨m, d, g1, g2⟩ | ⟨cs, g1, g2⟩)
  · exact ⟨m, h1 m g1, d, g2⟩
  · obtain ⟨x, hx, rfl⟩ := List.mem_map.1 (h2 cs g1 c g2)
    obtain ⟨m, h3, h4⟩ := List.mem_flatMap.1 hx
    exact ⟨m, h3, x.2, h4⟩

/-- `custom_library(VariablePowerSplitter, PhaseShifter, IntegratedDelayLine)` (`scripts/run_noise_suppresion.py:54`). -/
def noiseLibrary : List PyClass := [⟨2, "VariablePowerSplitter", "MultiPath"⟩, ⟨23, "PhaseShifter", "SinglePath"⟩, ⟨21, "IntegratedDelayLine", "SinglePath"⟩]

theorem noise_shipped : ShippedOnly (importAll ++ [.custom noiseLibrary]) := by
  refine shippedOnly_of ?_ ?_
  · intro m hm
    simp only [importAll, List.cons_append, List.nil_append, List.mem_cons, Cmd.load.injEq, List.not_mem_nil, or_false, reduceCtorEq] at hm
    simp only [shippedModules, List.mem_cons, List.not_mem_nil, or_false]
    tauto
  · intro cs hcs
    simp only [importAll, List.cons_append, List.nil_append, List.mem_cons, List.not_mem_nil, or_false, reduceCtorEq, false_or, Cmd.custom.injEq] at hcs
    subst hcs
    decide +kernel

/-- The library of that script: no sources and no sinks to swap. -/
example : ∃ s, LibSession.start.run (importAll ++ [.custom noiseLibrary] ++ [.evolver]) = .ok s ∧
    (s.evolvers.map (fun l => [l.source, l.sink, l.edge, l.node]), (s.config.byName "PhaseShifter").toOption.map (·.cid)) = ([[[], [], [23, 21], [2]]], some 23) :=
  ok_of_toOption (by decide +kernel)

example : UniqueNames (importAll ++ [.custom noiseLibrary]) := shipped_unique noise_shipped
example : (shippedPart 10).className = "Photodiode" :=
  C76_tables noise_shipped (c := ⟨10, "Photodiode", "SinkModel"⟩) (.inl ⟨modOutputs, .all, by simp [importAll], by decide +kernel⟩)

/-- An evolver made before the call keeps the whole library. -/
example : ∃ s, LibSession.start.run (importAll ++ [.evolver, .custom noiseLibrary, .evolver]) = .ok s ∧ s.evolvers.map (fun l => (l.node, l.source)) = [([2], [4, 5, 6, 7]), ([2], [])] := ok_of_toOption (by decide +kernel)

/-- No evolver without sinks, no terminals in a custom library. -/
example : (LibSession.start.run [.load modInputs, .load modSingle, .load modMulti, .evolver]).toOption.isNone = true ∧
    (LibSession.start.run (importAll ++ [.custom [⟨0, "TerminalSource", "NodeType"⟩]])).toOption.isNone = true := by decide +kernel

/-- **C76 (finding).** `custom_library` accepts the two component classes that no decorator registers; evolvers draw them, but no saved design with one of them can
be loaded.  And a component module imported after `custom_library` brings its classes back. -/
theorem C76_surprises :
    (∃ s, LibSession.start.run (importAll ++ [.custom [⟨3, "FrequencySplitter", "MultiPath"⟩, ⟨16, "IntegratedSplitAndDelayLine", "SinglePath"⟩], .evolver]) = .ok s ∧
      (s.evolvers.map (·.node), s.evolvers.map (·.edge), (s.config.byName "FrequencySplitter").toOption,
        (s.config.byName "IntegratedSplitAndDelayLine").toOption) = ([[3]], [[16]], none, none)) ∧
    ∃ s, LibSession.start.run [.load modInputs, .load modOutputs, .load modMulti, .load ⟨"plugin", [(⟨24, "Link", "SinglePath"⟩, .all)]⟩,
        .custom [⟨2, "VariablePowerSplitter", "MultiPath"⟩, ⟨24, "Link", "SinglePath"⟩], .load modSingle, .evolver] = .ok s ∧
      s.evolvers.map (·.edge) = [[24, 11, 12, 13, 14, 15, 17, 18, 19, 20]] := by
  exact ⟨ok_of_toOption (by decide +kernel), ok_of_toOption (by decide +kernel)⟩

/-- A class derived from `PhaseModulator` is registered, can be loaded by name, and is never drawn. -/
example : ∃ s, LibSession.start.run (importAll ++ [.load ⟨"plugin", [(⟨24, "FastModulator", "PhaseModulator"⟩, .all)]⟩, .evolver]) = .ok s ∧
    (s.evolvers.map (·.edge), (s.config.byName "FastModulator").toOption.map (·.cid)) = ([[11, 12, 13, 14, 15, 17, 18, 19, 20]], some 24) :=
  ok_of_toOption (by decide +kernel)

example : (∀ x ∈ importAll, ∃ m ∈ shippedModules, x = .load m) ∧ ∀ m ∈ [modInputs, modOutputs, modSingle, modMulti], Cmd.load m ∈ importAll := by
  constructor
  · intro x hx
    simp only [importAll, List.mem_cons, List.not_mem_nil, or_false] at hx
    rcases hx with rfl | rfl | rfl | rfl | rfl
    · exact ⟨modTerminals, by simp [shippedModules], rfl⟩
    · exact ⟨modInputs, by simp [shippedModules], rfl⟩
    · exact ⟨modOutputs, by simp [shippedModules], rfl⟩
    · exact ⟨modSingle, by simp [shippedModules], rfl⟩
    · exact ⟨modMulti, by simp [shippedModules], rfl⟩
  · intro m hm
    simp only [List.mem_cons, List.not_mem_nil, or_false] at hm
    rcases hm with rfl | rfl | rfl | rfl <;> simp [importAll]

/-- A registry that goes by the configuration after the imports. -/
example : ∃ s, LibSession.start.run importAll = .ok s ∧ ∃ R : Registry (List Nat), R.Uses importAll s.config := by
  obtain ⟨s, hs, -⟩ : ∃ s, LibSession.start.run importAll = .ok s ∧ s.loaded.length = 5 := ok_of_toOption (by decide +kernel)
  refine ⟨s, hs, ⟨fun x => ((shippedClasses.find? (fun y => y.1.cid = x)).map (fun y => y.1.name.toList)).getD [],
    fun n => (match s.config.byName (String.ofList n) with | .ok c => some c.cid | .error _ => none), fun _ _ _ => 0, fun _ _ _ => [], List.length⟩, ?_, ?_⟩
  · have hk : ∀ x ∈ shippedClasses, ((shippedClasses.find? (fun y => y.1.cid = x.1.cid)).map (fun y => y.1.name.toList)).getD [] = x.1.name.toList := by decide +kernel
    rintro c (⟨m, d, h1, h2⟩ | ⟨cs, h1, -⟩)
    · refine hk (c, d) (shipped_mem ?_ h2)
      simp only [importAll, List.mem_cons, Cmd.load.injEq, List.not_mem_nil, or_false] at h1
      simp only [shippedModules, List.mem_cons, List.not_mem_nil, or_false]
      tauto
    · simp [importAll] at h1
  · intro n
    simp only [String.ofList_toList]
    rfl

/-! Cases of the theorems above: the components as shipped, imported, with the library of one of the scripts. -/

theorem imported {cmds : List Cmd} (h : (LibSession.start.run cmds).toOption.isSome = true) : ∃ s, LibSession.start.run cmds = .ok s := by
  cases hr : LibSession.start.run cmds with
  | ok s => exact ⟨s, rfl⟩
  | error e => rw [hr] at h; cases h

theorem importAll_loads : (∀ x ∈ importAll, ∃ m ∈ shippedModules, x = .load m) ∧ ∀ m ∈ [modInputs, modOutputs, modSingle, modMulti], Cmd.load m ∈ importAll := by
  constructor
  · intro x hx
    simp only [importAll, List.mem_cons, List.not_mem_nil, or_false] at hx
    rcases hx with rfl | rfl | rfl | rfl | rfl
    · exact ⟨modTerminals, by simp [shippedModules], rfl⟩
    · exact ⟨modInputs, by simp [shippedModules], rfl⟩
    · exact ⟨modOutputs, by simp [shippedModules], rfl⟩
    · exact ⟨modSingle, by simp [shippedModules], rfl⟩
    · exact ⟨modMulti, by simp [shippedModules], rfl⟩
  · intro m hm
    simp only [List.mem_cons, List.not_mem_nil, or_false] at hm
    rcases hm with rfl | rfl | rfl | rfl <;> simp [importAll]

example : ∃ s, LibSession.start.run (importAll ++ [.custom noiseLibrary]) = .ok s ∧ (∀ b c, s.config.all.Lists b c ↔ b = c.base ∧ Offered (importAll ++ [.custom noiseLibrary]) c) ∧
    (∀ n c, s.config.byName n = .ok c ↔ Registered (importAll ++ [.custom noiseLibrary]) c ∧ c.name = n) ∧
    ∀ x, x ∈ s.config.vectorBasis ↔ ∃ c, Offered (importAll ++ [.custom noiseLibrary]) c ∧ c.cid = x := by
  obtain ⟨s, hs⟩ := imported (cmds := importAll ++ [.custom noiseLibrary]) (by decide +kernel)
  exact ⟨s, hs, (C76_library (shipped_unique noise_shipped) hs).1, (C76_by_name (shipped_unique noise_shipped) hs).1, (C76_vector (shipped_unique noise_shipped) hs).1⟩
example := C76_runs (shipped_unique noise_shipped)
example : ∃ s lib, LibSession.start.run (importAll ++ [.custom noiseLibrary] ++ [.evolver]) = .ok s ∧ s.evolvers.getLast? = some lib ∧
    Draws lib (importAll ++ [.custom noiseLibrary]) ∧ LibraryFits shippedPart lib := by
  obtain ⟨s, hs⟩ := imported (cmds := importAll ++ [.custom noiseLibrary] ++ [.evolver]) (by decide +kernel)
  obtain ⟨lib, h1, h2⟩ := C76_evolver (shipped_unique noise_shipped) hs
  obtain ⟨lib', h3, h4⟩ := C76_fits noise_shipped hs
  rw [h1] at h3
  cases h3
  exact ⟨s, lib, hs, h1, h2, h4⟩
example (s : LibSession) (hs : LibSession.start.run (importAll ++ .custom noiseLibrary :: [] ++ [.evolver]) = .ok s) :=
  C76_custom (rest := []) (shipped_unique noise_shipped) (by simp) hs
example := C76_shipped importAll_loads.1 importAll_loads.2
example := (C76_any_custom importAll_loads.1 importAll_loads.2 noiseLibrary (fun c hc => by
  have h : ∀ c ∈ noiseLibrary, ∃ d ∈ [Deco.none, .all, .terminals], (c, d) ∈ shippedClasses := by decide +kernel
  obtain ⟨d, -, hd⟩ := h c hc
  exact ⟨d, hd⟩)).1 (by decide +kernel)

end Verif
