import Verif.Lemmas.Viewer
import Verif.Props.Copy
import Verif.Props.Files
/-! # Properties of the viewer (C78) -/

namespace Verif
open Graph

section
variable {V S O D B : Type}

theorem nickOf_dot {P : Type} (R : Registry P) {g : SGraph NodeId P} (hg : (g.nodes.map (·.label)).Nodup) (i : Nat) (n)
    (hi : g.nodes[i]? = some n) : nickOf R g n.label = nickname (R.name n.cls) i := by
  obtain ⟨hlt, rfl⟩ := List.getElem?_eq_some_iff.1 hi
  have hi' : i < (g.nodes.map (·.label)).length := by simpa using hlt
  unfold nickOf SGraph.idx
  have e1 : g.nodes[i].label = (g.nodes.map (·.label))[i] := by simp
  rw [e1, hg.idxOf_getElem i hi', List.getD_eq_getElem?_getD, nickList_get, List.getElem?_map, List.getElem?_eq_getElem hlt]
  simp

/-- Saving and loading a savable design. -/
theorem savable_round_trip {R : Registry (List V)} {g : Graph} {h : ModelId → List V} (hs : Savable R g h) :
    ∃ s g', saveGraph R (g.described h) = .ok s ∧ loadGraph R s = .ok g' ∧ SameSystem (g.described h) g' ∧ g'.Counted ∧
      ∀ i : Nat, ∀ n, g.nodes[i]? = some n → ∃ n', g'.nodes[i]? = some n' ∧ n'.label = nickname (R.name n.comp.cls) i := by
  have hok := described_ok hs.wf hs.listed h
  have hne : (g.described h).nodes ≠ [] := by
    intro hc
    exact hs.nonempty (by simpa [Graph.described] using hc)
  have hk : ∀ n ∈ (g.described h).nodes, R.Known n.cls := by
    intro n hn
    obtain ⟨m, hm, rfl⟩ := List.mem_map.1 hn
    exact hs.known m hm
  have hke : ∀ e ∈ (g.described h).edges, R.Known e.cls := by
    intro n hn
    obtain ⟨m, hm, rfl⟩ := List.mem_map.1 hn
    exact hs.knownE m hm
  have hpar : ∀ n ∈ (g.described h).nodes, R.arity n.cls ((g.described h).inDeg n.label) ((g.described h).outDeg n.label) = R.len n.params := by
    intro n hn
    obtain ⟨m, hm, rfl⟩ := List.mem_map.1 hn
    rw [described_inDeg, described_outDeg]
    exact hs.count m hm
  have hac := described_acyclic hs.acyclic h
  obtain ⟨s, g', h1, h2, h3, -, h4, -⟩ := C41_round_trip R (g.described h) hok hac hne hk hke hpar
  refine ⟨s, g', h1, h2, h3, h4, ?_⟩
  intro i n hi
  obtain ⟨s2, q1, q2⟩ := save_load R (g.described h) hok hac hne hk hke
  rw [h1] at q1
  injection q1 with q1
  rw [← q1, h2, if_pos hpar] at q2
  injection q2 with q2
  have hd : (g.described h).nodes[i]? = some ⟨n.id, n.comp.cls, h n.comp.uid⟩ := by simp [Graph.described, hi]
  refine ⟨_, by rw [q2, List.getElem?_map, hd]; rfl, ?_⟩
  exact nickOf_dot R hok.labels i _ hd

/-- **C78.** A design, saved as its minimal description, loaded and opened in the viewer, is simulated as the design itself: with the same
exception, or with the same state at every node and on every edge; classes, parameters (split ratios, too), wiring and order are those of the design. -/
theorem C78_same (K : Kinds S (List V)) {R : Registry (List V)} {g : Graph} {h : ModelId → List V} (hs : Savable R g h) :
    ∃ s g', saveGraph R (g.described h) = .ok s ∧ loadGraph R s = .ok g' ∧ ∀ (L : ViewLib) (inp : S) (old : Store S),
      (∀ x, propagate g (K.behav h) inp old = .error x → showDesign L K inp g' = .error x) ∧
      ∀ st, propagate g (K.behav h) inp old = .ok st → ∃ o, showDesign L K inp g' = .ok o ∧ Shows g h st o ∧
        o.names = nameNumbers L (g.nodes.map (·.comp.cls) ++ g.edges.map (·.comp.cls)) (fun _ => none) := by
  obtain ⟨s, g', h1, h2, h3, h4, -⟩ := savable_round_trip hs
  refine ⟨s, g', h1, h2, fun L inp old => ?_⟩
  have hrel := relabelled_sim K hs.wf h h3 h4 inp old Store.empty
  obtain ⟨σ, hinj, hn, he⟩ := h3
  have hlab : (g.described h).nodes.map (·.label) = g.ids := described_labels g h
  have hidx : ∀ l ∈ g.ids, g'.idx (σ l) = g.ids.idxOf l := by
    intro l hl
    rw [same_idx (by rw [hlab]; exact hs.wf.ids_nodup) hinj hn (by rw [hlab]; exact hl), described_idx]
  have hlenN : g'.nodes.length = g.nodes.length := by rw [hn]; simp [Graph.described]
  have hnode : ∀ i : Nat, ∀ m, g.nodes[i]? = some m → g'.nodes[i]? = some ⟨σ m.id, m.comp.cls, h m.comp.uid⟩ := by
    intro i m hm
    rw [hn]
    simp [Graph.described, hm]
  have hedge : ∀ i : Nat, ∀ e, g.edges[i]? = some e → ∃ e', g'.edges[i]? = some e' ∧ e'.src = σ e.src ∧ e'.dst = σ e.dst ∧ e'.cls = e.comp.cls ∧
      e'.params = h e.comp.uid := by
    intro i e hei
    have := congrArg (fun l => l[i]?) he
    simp only [List.getElem?_map, Graph.described, hei, Option.map_some] at this
    cases hx : g'.edges[i]? with
    | none => rw [hx] at this; cases this
    | some e' =>
      rw [hx] at this
      simp only [Option.map_some, Option.some.injEq, Prod.mk.injEq] at this
      exact ⟨e', rfl, this.1, this.2.1, this.2.2.1, this.2.2.2⟩
  have hlenE : g'.edges.length = g.edges.length := by
    have := congrArg List.length he
    simpa [Graph.described] using this
  constructor
  · intro x hx
    rw [hx] at hrel
    unfold showDesign
    cases hp : propagate (relabelled g') (K.behav (relabelledHeap g')) inp Store.empty with
    | error y =>
      rw [hp] at hrel
      have : x = y := hrel
      rw [this]
    | ok st => rw [hp] at hrel; exact hrel.elim
  · intro st hx
    rw [hx] at hrel
    unfold showDesign
    cases hp : propagate (relabelled g') (K.behav (relabelledHeap g')) inp Store.empty with
    | error y => rw [hp] at hrel; exact hrel.elim
    | ok st' =>
      rw [hp] at hrel
      obtain ⟨r1, r2⟩ := hrel
      refine ⟨_, rfl, ⟨?_, ?_, ?_⟩, ?_⟩
      · dsimp only
        rw [relabelled_ids, hlenN]
      · dsimp only
        rw [List.forall₂_iff_get]
        refine ⟨by simp [relabelled, hlenN], ?_⟩
        intro i hi hi'
        simp only [List.get_eq_getElem]
        have e1 := List.getElem?_eq_getElem hi
        have e2 := List.getElem?_eq_getElem hi'
        have e3 := relabelled_node g' i
        rw [e2, hnode i _ e1, Option.map_some, Option.some.injEq] at e3
        refine ⟨by rw [e3], ?_, r1 i _ _ e1 e2⟩
        rw [e3]
        exact heap_node g' i _ (hnode i _ e1)
      · dsimp only
        rw [List.forall₂_iff_get]
        refine ⟨by simp [relabelled, hlenE], ?_⟩
        intro i hi hi'
        simp only [List.get_eq_getElem]
        have e1 := List.getElem?_eq_getElem hi
        have e2 := List.getElem?_eq_getElem hi'
        have e3 := relabelled_edge g' i
        obtain ⟨e', q1, q2, q3, q4, q5⟩ := hedge i _ e1
        rw [e2, q1, Option.map_some, Option.some.injEq] at e3
        refine ⟨?_, ?_, by rw [e3]; exact q4, ?_, r2 i _ _ e1 e2⟩
        · rw [e3]
          show g'.idx e'.src = _
          rw [q2, hidx _ (hs.wf.src_mem _ (List.getElem_mem hi))]
        · rw [e3]
          show g'.idx e'.dst = _
          rw [q3, hidx _ (hs.wf.dst_mem _ (List.getElem_mem hi))]
        · rw [e3]
          exact (heap_edge g' i e' q1).trans q5
      · dsimp only
        congr 2
        · rw [hn]
          simp [Graph.described, List.map_map, Function.comp_def]
        · have := congrArg (List.map (fun x : Str × Str × ClassId × List V => x.2.2.1)) he
          simpa [Graph.described, List.map_map, Function.comp_def] using this

/-- **C78.** From the shown design: the output node and the state there, and the state plotted for each edge, are those of the design. -/
theorem C78_shown {g : Graph} (hw : g.WF) {h : ModelId → List V} {st : Store S} {o : Opened S V} (hs : Shows g h st o) :
    (∀ v, outputNode g = .ok v → outputNode o.graph = .ok (g.ids.idxOf v) ∧ o.saves (.node (g.ids.idxOf v)) = st (.node v)) ∧
    (∀ x, outputNode g = .error x → outputNode o.graph = .error x) ∧
    (∀ (j : Nat) (e : Edge) (s : S), g.edges[j]? = some e → st (.edge e.ref) = some s → o.plotted j = .ok s) := by
  have hids : o.graph.ids = g.ids.map g.ids.idxOf := by
    rw [hs.labels]
    apply List.ext_getElem
    · simp [Graph.ids]
    · intro i h1 h2
      have hi : i < g.ids.length := by simpa using h2
      rw [List.getElem_range, List.getElem_map, hw.ids_nodup.idxOf_getElem i hi]
  have hout : ∀ v ∈ g.ids, (o.graph.outEdges (g.ids.idxOf v) = [] ↔ g.outEdges v = []) := by
    intro v hv
    unfold Graph.outEdges
    rw [List.filter_eq_nil_iff, List.filter_eq_nil_iff]
    simp only [decide_eq_true_eq]
    constructor
    · intro hall e he hc
      obtain ⟨j, hj⟩ := List.mem_iff_getElem?.1 he
      obtain ⟨hlt, hje⟩ := List.getElem?_eq_some_iff.1 hj
      have hlt' : j < o.graph.edges.length := by rw [← hs.edges.length_eq]; exact hlt
      have := ((List.forall₂_iff_get.1 hs.edges).2 j hlt hlt').1
      simp only [List.get_eq_getElem] at this
      exact hall _ (List.getElem_mem hlt') (by rw [this, hje, hc])
    · intro hall e he hc
      obtain ⟨j, hj⟩ := List.mem_iff_getElem?.1 he
      obtain ⟨hlt', hje⟩ := List.getElem?_eq_some_iff.1 hj
      have hlt : j < g.edges.length := by rw [hs.edges.length_eq]; exact hlt'
      have := ((List.forall₂_iff_get.1 hs.edges).2 j hlt hlt').1
      simp only [List.get_eq_getElem] at this
      rw [hje, hc] at this
      exact hall _ (List.getElem_mem hlt) ((List.idxOf_inj (hw.src_mem _ (List.getElem_mem hlt))).1 this.symm)
  have hfil : o.graph.ids.filter (fun v => o.graph.outEdges v = []) = (g.ids.filter (fun v => g.outEdges v = [])).map g.ids.idxOf := by
    rw [hids, List.filter_map]
    congr 1
    apply List.filter_congr
    intro v hv
    simp only [Function.comp_apply, hout v hv]
  refine ⟨?_, ?_, ?_⟩
  · intro v hv
    unfold outputNode at hv ⊢
    rw [hfil]
    cases hf : g.ids.filter (fun v => g.outEdges v = []) with
    | nil => rw [hf] at hv; cases hv
    | cons a l =>
      rw [hf] at hv
      cases hv
      refine ⟨rfl, ?_⟩
      have hmem : v ∈ g.ids := (List.mem_filter.1 (by rw [hf]; simp : v ∈ g.ids.filter (fun v => g.outEdges v = []))).1
      have hlt : g.ids.idxOf v < g.nodes.length := by simpa [Graph.ids] using List.idxOf_lt_length_iff.2 hmem
      have hlt' : g.ids.idxOf v < o.graph.nodes.length := by rw [← hs.nodes.length_eq]; exact hlt
      have := ((List.forall₂_iff_get.1 hs.nodes).2 _ hlt hlt').2.2
      simp only [List.get_eq_getElem] at this
      have e1 : (o.graph.nodes[g.ids.idxOf v]).id = g.ids.idxOf v := by
        have : o.graph.ids[g.ids.idxOf v]? = some (g.ids.idxOf v) := by rw [hs.labels]; simp [hlt]
        have h5 : o.graph.ids[g.ids.idxOf v]? = some (o.graph.nodes[g.ids.idxOf v]).id := by
          show (o.graph.nodes.map (·.id))[g.ids.idxOf v]? = _
          rw [List.getElem?_map, List.getElem?_eq_getElem hlt', Option.map_some]
        rw [h5, Option.some.injEq] at this
        exact this
      have e2 : (g.nodes[g.ids.idxOf v]).id = v := by
        have hl2 := List.idxOf_lt_length_iff.2 hmem
        have : g.ids[g.ids.idxOf v]? = some v := by rw [List.getElem?_eq_getElem hl2, List.getElem_idxOf hl2]
        have h5 : g.ids[g.ids.idxOf v]? = some (g.nodes[g.ids.idxOf v]).id := by
          show (g.nodes.map (·.id))[g.ids.idxOf v]? = _
          rw [List.getElem?_map, List.getElem?_eq_getElem hlt, Option.map_some]
        rw [h5, Option.some.injEq] at this
        exact this
      rw [e1, e2] at this
      exact this
  · intro x hx
    unfold outputNode at hx ⊢
    rw [hfil]
    cases hf : g.ids.filter (fun v => g.outEdges v = []) with
    | nil => rw [hf] at hx; exact hx
    | cons a l => rw [hf] at hx; cases hx
  · intro j e s hj hst
    obtain ⟨hlt, rfl⟩ := List.getElem?_eq_some_iff.1 hj
    have hlt' : j < o.graph.edges.length := by rw [← hs.edges.length_eq]; exact hlt
    have := ((List.forall₂_iff_get.1 hs.edges).2 j hlt hlt').2.2.2.2
    simp only [List.get_eq_getElem] at this
    unfold Opened.plotted
    rw [List.getElem?_eq_getElem hlt']
    dsimp only
    rw [this, hst]

/-- **C78.** A label as evaluators have it by default (`'sink'`) is no label of a loaded design, and none at all of the design in the viewer. -/
theorem C78_score {R : Registry (List V)} {g : Graph} {h : ModelId → List V} (hs : Savable R g h) {s g'}
    (h1 : saveGraph R (g.described h) = .ok s) (h2 : loadGraph R s = .ok g') (saves : Store S) :
    (∀ l, '.' ∉ l → measureAt (loadedLabels g') saves (.str l) = .error .keyError) ∧
    (∀ l, measureAt (viewerLabels g') saves (.str l) = .error .keyError) ∧
    (∀ (i : Nat) (n : Node) (x : S), g.nodes[i]? = some n → saves (.node i) = some x →
      measureAt (loadedLabels g') saves (.str (nickname (R.name n.comp.cls) i)) = .ok x ∧ measureAt (viewerLabels g') saves (.int i) = .ok x) := by
  obtain ⟨s2, g2, q1, q2, q3, q4, q5⟩ := savable_round_trip hs
  rw [h1] at q1
  cases q1
  rw [h2] at q2
  cases q2
  have hlen : g'.nodes.length = g.nodes.length := by
    obtain ⟨σ, -, hn, -⟩ := q3
    rw [hn]
    simp [Graph.described]
  have hlab : ∀ n' ∈ g'.nodes, '.' ∈ n'.label := by
    intro n' hn'
    obtain ⟨i, hi⟩ := List.mem_iff_getElem?.1 hn'
    have hlt : i < g.nodes.length := by rw [← hlen]; exact (List.getElem?_eq_some_iff.1 hi).1
    obtain ⟨m, hm, hl⟩ := q5 i _ (List.getElem?_eq_getElem hlt)
    rw [hi] at hm
    cases hm
    rw [hl]
    simp [nickname]
  refine ⟨?_, ?_, ?_⟩
  · intro l hl
    unfold measureAt
    rw [if_neg]
    intro hc
    obtain ⟨n', hn', he⟩ := List.mem_map.1 hc
    injection he with he
    exact hl (he ▸ hlab n' hn')
  · intro l
    unfold measureAt
    rw [if_neg]
    intro hc
    obtain ⟨n', hn', he⟩ := List.mem_map.1 hc
    cases he
  · intro i n x hi hx
    have hlt : i < g'.nodes.length := by rw [hlen]; exact (List.getElem?_eq_some_iff.1 hi).1
    obtain ⟨m, hm, hl⟩ := q5 i n hi
    have hnd : (g'.nodes.map (·.label)).Nodup := by
      obtain ⟨σ, hinj, hn, -⟩ := q3
      have : g'.nodes.map (·.label) = ((g.described h).nodes.map (·.label)).map σ := by rw [hn]; simp [List.map_map, Function.comp_def]
      rw [this]
      exact (List.nodup_map_iff_inj_on (by rw [described_labels]; exact hs.wf.ids_nodup)).2 hinj
    have hpos1 : (loadedLabels g').idxOf (.str (nickname (R.name n.comp.cls) i)) = i := by
      have hnd' : (loadedLabels g').Nodup := by
        have : loadedLabels g' = (g'.nodes.map (·.label)).map PyLabel.str := by simp [loadedLabels, List.map_map, Function.comp_def]
        rw [this]
        exact hnd.map (fun a b hab => by injection hab)
      have hlt2 : i < (loadedLabels g').length := by simpa [loadedLabels] using hlt
      have : PyLabel.str (nickname (R.name n.comp.cls) i) = (loadedLabels g')[i] := by
        have := (List.getElem?_eq_some_iff.1 hm).2
        simp [loadedLabels, this, hl]
      rw [this]
      exact hnd'.idxOf_getElem i hlt2
    have hpos2 : (viewerLabels g').idxOf (.int i) = i := by
      have hnd' : (viewerLabels g').Nodup := List.nodup_range.map (fun a b hab => by injection hab)
      have hlt2 : i < (viewerLabels g').length := by simpa [viewerLabels] using hlt
      have : PyLabel.int i = (viewerLabels g')[i] := by simp [viewerLabels]
      rw [this]
      exact hnd'.idxOf_getElem i hlt2
    constructor
    · unfold measureAt
      rw [if_pos, hpos1, hx]
      exact List.mem_map.2 ⟨m, List.mem_of_getElem? hm, by rw [hl]⟩
    · unfold measureAt
      rw [if_pos, hpos2, hx]
      exact List.mem_map.2 ⟨i, List.mem_range.2 hlt, rfl⟩

/-! ### Names and table -/

theorem nameNumbers_get (L : ViewLib) : ∀ (cs : List ClassId) (counts : ClassId → Option Nat) (i : Nat) (c : ClassId), cs[i]? = some c →
    (nameNumbers L cs counts)[i]? = some (L.acronym c ++ decimal ((match counts c with | none => 0 | some k => k + 1) + (cs.take i).count c)) := by
  intro cs
  induction cs with
  | nil => intro counts i c h; simp at h
  | cons d cs ih =>
    intro counts i c h
    cases i with
    | zero =>
      simp only [List.getElem?_cons_zero, Option.some.injEq] at h
      subst h
      simp [nameNumbers]
      all_goals (cases counts d <;> rfl)
    | succ i =>
      simp only [List.getElem?_cons_succ] at h
      unfold nameNumbers
      rw [List.getElem?_cons_succ, ih _ i c h, List.take_succ_cons, List.count_cons]
      congr 3
      by_cases hcd : c = d
      · subst hcd
        simp only [if_true, beq_self_eq_true]
        generalize (cs.take i).count c = m
        cases counts c with
        | none => show 0 + 1 + m = 0 + (m + 1); omega
        | some k => show k + 1 + 1 + m = k + 1 + (m + 1); omega
      · have : (d == c) = false := by simp [Ne.symm hcd]
        simp only [if_neg hcd, this]
        cases counts c <;> simp

/-- **C78.** A component is shown under the acronym of its class and its number within the class, counted from 0, nodes before edges. -/
theorem C78_names (L : ViewLib) (cs : List ClassId) (i : Nat) (c : ClassId) (h : cs[i]? = some c) :
    (nameNumbers L cs (fun _ => none))[i]? = some (L.acronym c ++ decimal ((cs.take i).count c)) := by
  rw [nameNumbers_get L cs _ i c h]
  simp

theorem nameNumbers_length (L : ViewLib) (cs : List ClassId) : ∀ counts, (nameNumbers L cs counts).length = cs.length := by
  induction cs with
  | nil => intro counts; rfl
  | cons c cs ih => intro counts; simp [nameNumbers, ih]

/-- Cutting the number off. -/
theorem acronym_cut {a b x y : List Char} (hx : ∀ c ∈ x, c.isDigit = true) (hy : ∀ c ∈ y, c.isDigit = true)
    (ha : ∀ c, a.getLast? = some c → c.isDigit = false) (hb : ∀ c, b.getLast? = some c → c.isDigit = false) (h : a ++ x = b ++ y) : a = b ∧ x = y := by
  have key : ∀ {a b x y : List Char}, (∀ c ∈ x, c.isDigit = true) → (∀ c, b.getLast? = some c → c.isDigit = false) → a ++ x = b ++ y →
      b.length ≤ a.length := by
    intro a b x y hx hb h
    by_contra hc
    push Not at hc
    obtain ⟨t, rfl⟩ : ∃ t, b = a ++ t := by
      refine ⟨b.drop a.length, ?_⟩
      have h1 := congrArg (List.take a.length) h
      rw [List.take_left, List.take_append_of_le_length (by omega)] at h1
      conv_lhs => rw [← List.take_append_drop a.length b]
      rw [← h1]
    have ht : t ≠ [] := by
      rintro rfl
      simp at hc
    rw [List.append_assoc] at h
    have hxt := List.append_cancel_left h
    obtain ⟨t', z, rfl⟩ := List.eq_nil_or_concat t |>.resolve_left ht
    have h2 := hb z (by rw [List.concat_eq_append, ← List.append_assoc, List.getLast?_append]; simp)
    have h3 := hx z (by rw [hxt]; simp)
    rw [h2] at h3
    cases h3
  have h1 := key hx hb h
  have h2 := key hy ha h.symm
  exact List.append_inj h (by omega)

/-- **C78.** The names tell the components apart if the acronyms are clear; two classes with one acronym (`DelayLine` and `IntegratedDelayLine` are
both `DL`) share names: the first component of the one and the first of the other are called the same. -/
theorem C78_names_unique (L : ViewLib) (cs : List ClassId) :
    (ClearAcronyms L cs → (nameNumbers L cs (fun _ => none)).Nodup) ∧
    (∀ c d, c ≠ d → c ∈ cs → d ∈ cs → L.acronym c = L.acronym d → ¬ (nameNumbers L cs (fun _ => none)).Nodup) := by
  have hlen := nameNumbers_length L cs (fun _ => none)
  constructor
  · rintro ⟨hinj, hend⟩
    rw [List.nodup_iff_pairwise_ne, List.pairwise_iff_getElem]
    intro i j hi hj hij heq
    have hi' : i < cs.length := by rw [← hlen]; exact hi
    have hj' : j < cs.length := by rw [← hlen]; exact hj
    have e1 := C78_names L cs i _ (List.getElem?_eq_getElem hi')
    have e2 := C78_names L cs j _ (List.getElem?_eq_getElem hj')
    rw [List.getElem?_eq_getElem hi, Option.some.injEq] at e1
    rw [List.getElem?_eq_getElem hj, Option.some.injEq] at e2
    rw [e1, e2] at heq
    obtain ⟨h1, h2⟩ := acronym_cut (decimal_digits _) (decimal_digits _) (hend _ (List.getElem_mem hi')) (hend _ (List.getElem_mem hj')) heq
    have hc := hinj _ (List.getElem_mem hi') _ (List.getElem_mem hj') h1
    have hn := decimal_inj h2
    rw [← hc] at hn
    have hsub : (cs.take i ++ [cs[i]]).Sublist (cs.take j) := by
      rw [List.take_concat_get' _ _ hi']
      exact List.take_sublist_take_left (by omega)
    have := hsub.count_le cs[i]
    rw [List.count_append, List.count_singleton_self] at this
    omega
  · intro c d hcd hc hd ha hnd
    have key : ∀ c ∈ cs, ∃ i : Nat, ∃ hi : i < (nameNumbers L cs (fun _ => none)).length, cs[i]? = some c ∧
        (nameNumbers L cs (fun _ => none))[i] = L.acronym c ++ decimal 0 := by
      intro c hc
      have hlt := List.idxOf_lt_length_iff.2 hc
      have hget : cs[cs.idxOf c]? = some c := by rw [List.getElem?_eq_getElem hlt, List.getElem_idxOf]
      have e1 := C78_names L cs _ _ hget
      have hcount : (cs.take (cs.idxOf c)).count c = 0 := by
        rw [List.count_eq_zero]
        intro hm
        obtain ⟨k, hk, hkc⟩ := List.mem_iff_getElem.1 hm
        rw [List.getElem_take] at hkc
        have hk' : k < cs.idxOf c := by
          rw [List.length_take] at hk
          omega
        exact absurd hkc (by simpa using List.not_of_lt_findIdx hk')
      rw [hcount] at e1
      obtain ⟨h1, h2⟩ := List.getElem?_eq_some_iff.1 e1
      exact ⟨_, h1, hget, h2⟩
    obtain ⟨i, hi, h1, h2⟩ := key c hc
    obtain ⟨j, hj, h3, h4⟩ := key d hd
    rw [ha, ← h4] at h2
    have := (hnd.getElem_inj_iff (i := i) (j := j)).1 h2
    subst this
    rw [h1] at h3
    injection h3 with h3
    exact hcd h3

/-- **C78.** The table for a selection of edges lists the parameters of the design's components, in the order of the selection, with their names and the
component's name beside each.  The columns are equally long if every component of the selection has as many parameters as its class declares and names.
An edge which is not there is a `KeyError`. -/
theorem C78_table (L : ViewLib) {g : Graph} {h : ModelId → List V} {st : Store S} {o : Opened S V} (hs : Shows g h st o) (is : List Nat) :
    ((∀ i ∈ is, i < g.edges.length) → ∃ a b c, o.table L is = .ok (a, b, c) ∧
      a = is.flatMap (fun i => (g.edges[i]?.map (fun e => h e.comp.uid)).getD []) ∧
      b = is.flatMap (fun i => (g.edges[i]?.map (fun e => L.paramNames e.comp.cls)).getD []) ∧
      c = is.flatMap (fun i => (g.edges[i]?.map (fun e => List.replicate (L.nParams e.comp.cls) (o.names.getD (g.nodes.length + i) []))).getD []) ∧
      ((∀ i ∈ is, ∀ e, g.edges[i]? = some e → (h e.comp.uid).length = L.nParams e.comp.cls ∧ (L.paramNames e.comp.cls).length = L.nParams e.comp.cls) →
        b.length = a.length ∧ c.length = a.length)) ∧
    (∀ i ∈ is, g.edges.length ≤ i → o.table L is = .error .keyError) := by
  have hlen := hs.edges.length_eq
  have hrow : ∀ i (hi : i < g.edges.length), o.row L i = some (h g.edges[i].comp.uid, L.paramNames g.edges[i].comp.cls,
      List.replicate (L.nParams g.edges[i].comp.cls) (o.names.getD (g.nodes.length + i) [])) := by
    intro i hi
    have hi' : i < o.graph.edges.length := by omega
    obtain ⟨-, -, h1, h2, -⟩ := (List.forall₂_iff_get.1 hs.edges).2 i hi hi'
    simp only [List.get_eq_getElem] at h1 h2
    unfold Opened.row
    rw [List.getElem?_eq_getElem hi']
    dsimp only
    rw [h1, h2, hs.nodes.length_eq]
  constructor
  · intro hin
    have key : ∀ js : List Nat, (∀ i ∈ js, i < g.edges.length) → o.table L js =
        .ok (js.flatMap (fun i => (g.edges[i]?.map (fun e => h e.comp.uid)).getD []),
          js.flatMap (fun i => (g.edges[i]?.map (fun e => L.paramNames e.comp.cls)).getD []),
          js.flatMap (fun i => (g.edges[i]?.map (fun e => List.replicate (L.nParams e.comp.cls) (o.names.getD (g.nodes.length + i) []))).getD [])) := by
      intro js
      induction js with
      | nil => intro _; rfl
      | cons i js ih =>
        intro hj
        have hi := hj i (by simp)
        unfold Opened.table
        rw [hrow i hi, ih (fun k hk => hj k (by simp [hk]))]
        simp [List.getElem?_eq_getElem hi]
    refine ⟨_, _, _, key is hin, rfl, rfl, rfl, ?_⟩
    intro hcount
    clear key
    induction is with
    | nil => exact ⟨rfl, rfl⟩
    | cons i is ih =>
      obtain ⟨h1, h2⟩ := ih (fun k hk => hin k (by simp [hk])) (fun k hk => hcount k (by simp [hk]))
      have hi := hin i (by simp)
      obtain ⟨h3, h4⟩ := hcount i (by simp) _ (List.getElem?_eq_getElem hi)
      simp only [List.flatMap_cons, List.length_append, List.getElem?_eq_getElem hi, Option.map_some, Option.getD_some, List.length_replicate]
      omega
  · intro i hi hle
    induction is with
    | nil => cases hi
    | cons j is ih =>
      unfold Opened.table
      rcases List.mem_cons.1 hi with rfl | hi
      · have : o.row L i = none := by
          unfold Opened.row
          rw [List.getElem?_eq_none (by omega)]
        rw [this]
      · cases hr : o.row L j with
        | none => rfl
        | some r =>
          dsimp only
          rw [ih hi]

/-! ### From the disk -/

theorem decoded_ok_iff {d : Disk B} (h : SoundDisk d) {α : Type} (f : B → Option α) (a : α) (p : List FName) :
    decoded (readFile d p) f = .ok a ↔ ∃ b, d p = some (.file b) ∧ f b = some a := by
  cases hr : readFile d p with
  | error e =>
    refine ⟨fun hc => (by cases hc), ?_⟩
    rintro ⟨b, hb, -⟩
    rw [(readFile_ok_iff h p b).2 hb] at hr
    cases hr
  | ok b =>
    have hb := (readFile_ok_iff h p b).1 hr
    rw [hb]
    unfold decoded
    dsimp only
    cases hf : f b with
    | none => simp [hf]
    | some x => simp [hf]

/-- **C78.** Opening a file: if it holds a savable design, and a propagator and an evaluator are in the folder, the viewer shows the
design as that propagator simulates it (or ends with the exception of that simulation).  When the design cannot be opened, what was shown before stays. -/
theorem C78_open (C : Coding O D B) {R : Registry (List V)} (L : ViewLib) {info : D → Except Err (Saved (List V))} (sim : O → Kinds S (List V) × S)
    {disk : Disk B} (hd : SoundDisk disk) (cwd : List FName) (folder file : List Char) {g : Graph} {h : ModelId → List V} (hs : Savable R g h)
    {b bp be : B} {d : D} {s : Saved (List V)} {p ev : O}
    (hb : disk (viewPath cwd folder file) = some (.file b)) (hj : C.loadJson b = some d) (hi : info d = .ok s)
    (hsave : saveGraph R (g.described h) = .ok s)
    (hp : disk (viewPath cwd folder "propagator.pkl".toList) = some (.file bp)) (hpl : C.loadObj bp = some p)
    (he : disk (viewPath cwd folder "evaluator.pkl".toList) = some (.file be)) (hel : C.loadObj be = some ev) (old : Store S) :
    (∀ x, propagate g ((sim p).1.behav h) (sim p).2 old = .error x → openDesign C R L info sim disk cwd folder file = .error (.run x)) ∧
    (∀ st, propagate g ((sim p).1.behav h) (sim p).2 old = .ok st → ∃ o, openDesign C R L info sim disk cwd folder file = .ok o ∧ Shows g h st o) := by
  have e1 := (decoded_ok_iff hd C.loadJson d (viewPath cwd folder file)).2 ⟨b, hb, hj⟩
  have e2 := (decoded_ok_iff hd C.loadObj p (viewPath cwd folder "propagator.pkl".toList)).2 ⟨bp, hp, hpl⟩
  have e3 := (decoded_ok_iff hd C.loadObj ev (viewPath cwd folder "evaluator.pkl".toList)).2 ⟨be, he, hel⟩
  obtain ⟨s', g', h1, h2, h3⟩ := C78_same (sim p).1 hs
  rw [hsave] at h1
  cases h1
  obtain ⟨h4, h5⟩ := h3 L (sim p).2 old
  have hopen : openDesign C R L info sim disk cwd folder file = (match showDesign L (sim p).1 (sim p).2 g' with
      | .error e => .error (.run e)
      | .ok o => .ok o) := by
    unfold openDesign
    rw [e1]
    dsimp only
    rw [hi]
    dsimp only
    rw [h2]
    dsimp only
    rw [e2]
    dsimp only
    rw [e3]
    all_goals rfl
  constructor
  · intro x hx
    rw [hopen, h4 x hx]
  · intro st hx
    obtain ⟨o, q1, q2, -⟩ := h5 st hx
    exact ⟨o, by rw [hopen, q1], q2⟩

/-- **C78.** When the file, the propagator or the evaluator is missing or cannot be read, or when the description is not that of a design, opening
fails; and what was shown before stays. -/
theorem C78_open_fails (C : Coding O D B) (R : Registry (List V)) (L : ViewLib) (info : D → Except Err (Saved (List V))) (sim : O → Kinds S (List V) × S)
    {disk : Disk B} (hd : SoundDisk disk) (cwd : List FName) (folder file : List Char)
    (hbad : (∀ b d s g, disk (viewPath cwd folder file) = some (.file b) → C.loadJson b = some d → info d = .ok s → loadGraph R s ≠ .ok g) ∨
      (∀ b o, disk (viewPath cwd folder "propagator.pkl".toList) = some (.file b) → C.loadObj b ≠ some o) ∨
      (∀ b o, disk (viewPath cwd folder "evaluator.pkl".toList) = some (.file b) → C.loadObj b ≠ some o)) (old : Option (Opened S V)) :
    (∃ e, openDesign C R L info sim disk cwd folder file = .error e) ∧ viewLoad old (openDesign C R L info sim disk cwd folder file) = old := by
  have key : ∃ e, openDesign C R L info sim disk cwd folder file = .error e := by
    unfold openDesign
    cases e1 : decoded (readFile disk (viewPath cwd folder file)) C.loadJson with
    | error e => exact ⟨_, rfl⟩
    | ok d =>
      dsimp only
      cases e2 : info d with
      | error e => exact ⟨_, rfl⟩
      | ok s =>
        dsimp only
        cases e3 : loadGraph R s with
        | error e => exact ⟨_, rfl⟩
        | ok g =>
          dsimp only
          cases e4 : decoded (readFile disk (viewPath cwd folder "propagator.pkl".toList)) C.loadObj with
          | error e => exact ⟨_, rfl⟩
          | ok p =>
            dsimp only
            cases e5 : decoded (readFile disk (viewPath cwd folder "evaluator.pkl".toList)) C.loadObj with
            | error e => exact ⟨_, rfl⟩
            | ok ev =>
              exfalso
              rcases hbad with hbad | hbad | hbad
              · obtain ⟨b, h1, h2⟩ := (decoded_ok_iff hd _ _ _).1 e1
                exact hbad b d s g h1 h2 e2 e3
              · obtain ⟨b, h1, h2⟩ := (decoded_ok_iff hd _ _ _).1 e4
                exact hbad b p h1 h2
              · obtain ⟨b, h1, h2⟩ := (decoded_ok_iff hd _ _ _).1 e5
                exact hbad b ev h1 h2
  obtain ⟨e, he⟩ := key
  exact ⟨⟨e, he⟩, by rw [he]; rfl⟩

theorem script_sane (C : Coding O D B) : ∀ (cs : List (IoCmd O D B)) (w : IoWorld B), SoundDisk w.disk → SoundDisk (w.script C cs).1.disk := by
  intro cs
  induction cs with
  | nil => intro w h; exact h
  | cons c cs ih =>
    intro w h
    have hs := (exec_grows C h c).sane
    rw [IoWorld.script]
    rcases hw : w.exec C c with ⟨w', ⟨e⟩ | ⟨⟩⟩
    · rw [hw] at hs
      exact hs
    · rw [hw] at hs
      exact ih w' hs

theorem splitSlash_cons {a : List Char} (ha : '/' ∉ a) (s : List Char) : splitSlash (a ++ '/' :: s) = a :: splitSlash s := by
  induction a with
  | nil => simp [splitSlash]
  | cons c a ih =>
    simp only [List.mem_cons, not_or] at ha
    rw [List.cons_append, splitSlash, if_neg (Ne.symm ha.1), ih ha.2]

theorem pathParts_two {a b : List Char} (ha : PlainName a) (hb : PlainName b) : pathParts (a ++ '/' :: b) = [a, b] := by
  unfold pathParts
  rw [splitSlash_cons ha.2.2, splitSlash_plain hb.2.2]
  simp [ha.1, ha.2.1, hb.1, hb.2.1]

theorem isAbs_two {a : List Char} (ha : PlainName a) (s : List Char) : isAbs (a ++ s) = false := by
  cases a with
  | nil => exact absurd rfl ha.1
  | cons c a =>
    have : c ≠ '/' := fun h => ha.2.2 (by simp [h])
    simp [isAbs, this]

/-- **C78.** From the run to the screen: after a topology optimization in a new folder, every graph of every population and every hall of fame which
it saved can be opened in the viewer under its generation and its place, and is shown just as the run's own propagator simulated it. -/
theorem C78_run (C : Coding O D B) (hC : Faithful C) {R : Registry (List V)} (L : ViewLib) {info : D → Except Err (Saved (List V))}
    (sim : O → Kinds S (List V) × S) (w : IoWorld B) (hd : SoundDisk w.disk) (k : Nat) (r : RunData O D B) (hser : Serialisable C r) (F : List FName)
    (hF : (w.ios k).savePath = F) (hdir : w.disk F = some .dir) (hnew : ∀ q, q ≠ [] → w.disk (F ++ q) = none)
    (cwd : List FName) (folder : List Char) (hcwd : joinTo cwd (.ofStr folder) = F)
    {g : Graph} {h : ModelId → List V} (hs : Savable R g h) {s : Saved (List V)} (hsave : saveGraph R (g.described h) = .ok s) {d : D}
    (hi : info d = .ok s) (hj : ReadsBack C d) {st old : Store S} (hst : propagate g ((sim r.propagator).1.behav h) (sim r.propagator).2 old = .ok st)
    (gen ind : Nat) (pop : List (Option D)) (hind : pop[ind]? = some (some d)) :
    ∃ w', w.script C (runCmds k r) = (w', .ok ()) ∧
      (r.saveHof = true → r.halls[gen]? = some pop → ∃ o, openDesign C R L info sim w'.disk cwd folder
        ("reduced_hof_graphs".toList ++ '/' :: graphFile "hof_".toList gen ind) = .ok o ∧ Shows g h st o) ∧
      (r.saveGraphs = true → r.populations[gen]? = some pop → ∃ o, openDesign C R L info sim w'.disk cwd folder
        ("reduced_graphs".toList ++ '/' :: graphFile "graph_".toList gen ind) = .ok o ∧ Shows g h st o) := by
  obtain ⟨w', h1, h2⟩ := C77_run_new_folder C w hd k r hser F hF hdir hnew
  have hsd : SoundDisk w'.disk := by
    have := script_sane C (runCmds k r) w hd
    rw [h1] at this
    exact this
  have hpath : ∀ a b : List Char, PlainName a → PlainName b → viewPath cwd folder (a ++ '/' :: b) = F ++ [a, b] := by
    intro a b ha hb
    unfold viewPath
    rw [hcwd]
    simp [joinTo, PyPath.ofStr, isAbs_two ha, pathParts_two ha hb]
  have hpath1 : ∀ a : List Char, PlainName a → viewPath cwd folder a = F ++ [a] := by
    intro a ha
    unfold viewPath
    rw [hcwd, joinTo_plain _ ha]
  have hp := (h2 _ _).2 (RunFile.propagator (C := C) (r := r))
  have he := (h2 _ _).2 (RunFile.evaluator (C := C) (r := r))
  rw [← hpath1 _ (by unfold PlainName; decide)] at hp he
  have hpl := hC r.propagator (hser.objects _ (by simp))
  have hel := hC r.evaluator (hser.objects _ (by simp))
  refine ⟨w', h1, ?_, ?_⟩
  · intro hh hg
    have hb := (h2 _ _).2 (RunFile.hof (C := C) gen ind pop d hh hg hind)
    rw [← hpath _ _ (by unfold PlainName; decide) (graphFile_plain (by decide) _ _)] at hb
    exact (C78_open C L sim hsd cwd folder _ hs hb hj hi hsave hp hpl he hel old).2 st hst
  · intro hh hg
    have hb := (h2 _ _).2 (RunFile.graph (C := C) gen ind pop d hh hg hind)
    rw [← hpath _ _ (by unfold PlainName; decide) (graphFile_plain (by decide) _ _)] at hb
    exact (C78_open C L sim hsd cwd folder _ hs hb hj hi hsave hp hpl he hel old).2 st hst

end

/-! ### The hypotheses can be met -/

namespace ViewDemo

/-- Seven classes; a splitter holds one number less than it has outputs. -/
def reg : Registry (List Nat) where
  name := fun c => if c = 1 then ['S', 'o'] else if c = 2 then ['S', 'i'] else if c = 40 then ['V'] else if c = 10 then ['L'] else if c = 20 then ['P'] else
    if c = 30 then ['F'] else ['W']
  lookup := fun s => if s = ['S', 'o'] then some 1 else if s = ['S', 'i'] then some 2 else if s = ['V'] then some 40 else if s = ['L'] then some 10 else
    if s = ['P'] then some 20 else if s = ['F'] then some 30 else if s = ['W'] then some 31 else none
  arity := fun c _ o => if c = 40 then o - 1 else 0
  init := fun c _ o => if c = 40 then List.replicate (o - 1) 0 else []
  len := List.length

/-- The parameters of the components of `Fixture.g`: a ratio for the first splitter, none for the second. -/
def heap : ModelId → List Nat := fun m => if m = 2 then [7] else if m = 4 then [1, 2] else if m = 5 then [3] else if m = 6 then [4] else []

theorem savable : Savable reg Fixture.g heap where
  wf := Fixture.g_wf
  acyclic := Fixture.g_acyclic
  listed := Fixture.g_listed
  nonempty := by simp [Fixture.g]
  known := by simp [Fixture.g, Registry.Known, reg, Fixture.src, Fixture.snk, Fixture.split]
  knownE := by simp [Fixture.g, Registry.Known, reg, Fixture.laser, Fixture.fiber, Fixture.shaper, Fixture.diode]
  count := by decide

/-- Signals are numbers: nodes add what comes in and their ratio, edges double and add their parameters. -/
def kinds : Kinds Nat (List Nat) where
  update := fun _ _ _ o => o
  node := fun _ o ins _ nOut => .ok (List.replicate (max nOut 1) (ins.sum + o.sum))
  edge := fun _ o x => .ok (2 * x + o.sum)
  noise := fun _ _ => none

def lib : ViewLib where
  acronym := reg.name
  nParams := fun c => if c = 10 then 2 else if c = 30 ∨ c = 31 then 1 else 0
  paramNames := fun c => if c = 10 then [['a'], ['b']] else if c = 30 ∨ c = 31 then [['z']] else []

theorem run : ∃ st, propagate Fixture.g (kinds.behav heap) 5 Store.empty = .ok st ∧ st (.node 3) = some 174 := ⟨_, rfl, rfl⟩

end ViewDemo

open ViewDemo in
example : ∃ s g' o st, saveGraph reg (Fixture.g.described heap) = .ok s ∧ loadGraph reg s = .ok g' ∧ propagate Fixture.g (kinds.behav heap) 5 Store.empty = .ok st ∧
    showDesign lib kinds 5 g' = .ok o ∧ Shows Fixture.g heap st o ∧ o.saves (.node 3) = some 174 ∧ o.table lib [2, 0] = .ok ([4, 1, 2], [['z'], ['a'], ['b']],
      ["W0".toList, "L0".toList, "L0".toList]) := by
  obtain ⟨st, h1, h2⟩ := run
  obtain ⟨s, g', h3, h4, h5⟩ := C78_same kinds savable
  obtain ⟨o, h6, h7, h8⟩ := (h5 lib 5 Store.empty).2 st h1
  refine ⟨s, g', o, st, h3, h4, h1, h6, h7, ?_, ?_⟩
  · rw [← h2]
    exact ((C78_shown Fixture.g_wf h7).1 3 rfl).2
  · obtain ⟨a, b, c, e1, rfl, rfl, rfl, -⟩ := (C78_table lib h7 [2, 0]).1 (by decide)
    rw [e1, h8]
    refine congrArg Except.ok (Prod.ext rfl (Prod.ext rfl ?_))
    dsimp only
    decide +kernel

open ViewDemo in
/-- The names in the viewer of a design with two of a kind. -/
example : nameNumbers lib [1, 40, 40, 2, 10, 30, 31, 30] (fun _ => none) = ["So0", "V0", "V1", "Si0", "L0", "F0", "W0", "F1"].map String.toList ∧
    ClearAcronyms lib [1, 40, 40, 2, 10, 30, 31, 30] := by
  constructor
  · decide +kernel
  · unfold ClearAcronyms
    refine ⟨by decide, ?_⟩
    intro c hc x hx
    simp only [List.mem_cons, List.not_mem_nil, or_false] at hc
    rcases hc with rfl | rfl | rfl | rfl | rfl | rfl | rfl | rfl <;> · simp [lib, reg] at hx; subst hx; rfl

/-- `DelayLine` and `IntegratedDelayLine` in one design. -/
example : nameNumbers ⟨fun _ => "DL".toList, fun _ => 1, fun _ => []⟩ [50, 51] (fun _ => none) = ["DL0".toList, "DL0".toList] := by decide +kernel

open ViewDemo in
/-- Scoring at `'sink'` the design loaded from the file. -/
example : ∃ s g', saveGraph reg (Fixture.g.described heap) = .ok s ∧ loadGraph reg s = .ok g' ∧ ∀ saves : Store Nat,
    measureAt (loadedLabels g') saves (.str "sink".toList) = .error .keyError := by
  obtain ⟨s, g', h3, h4, -⟩ := C78_same kinds savable
  exact ⟨s, g', h3, h4, fun saves => (C78_score savable h3 h4 saves).1 _ (by decide)⟩

open ViewDemo FilesDemo in
/-- After a run of two generations, whose first hall of fame holds the design above (as the dictionary 11) in its first place. -/
example : ∃ w' o st, (world.session coding [.initSave 0 (some "run".toList) (some "20200101_1aB9".toList)]).script coding (runCmds 0 data) = (w', .ok ()) ∧
    propagate Fixture.g (kinds.behav heap) 5 Store.empty = .ok st ∧
    openDesign coding reg lib (fun n => if n = 11 then saveGraph reg (Fixture.g.described heap) else .error .keyError) (fun _ => (kinds, 5)) w'.disk
      ["home".toList, "me".toList, "asope".toList] "/home/me/asope_data/20200101_1aB9_run".toList
      ("reduced_hof_graphs".toList ++ '/' :: graphFile "hof_".toList 1 0) = .ok o ∧ Shows Fixture.g heap st o := by
  obtain ⟨st, h1, -⟩ := run
  obtain ⟨s, g', h3, h4, -⟩ := C78_same kinds savable
  obtain ⟨w', q1, q2, -⟩ := C78_run (S := Nat) coding faithful (R := reg) lib
    (info := fun n => if n = 11 then saveGraph reg (Fixture.g.described heap) else .error .keyError) (fun _ => (kinds, 5)) _
    ((C77_kept coding world sane [.initSave 0 (some "run".toList) (some "20200101_1aB9".toList)]).1) 0 data
    ⟨rfl, rfl, fun o _ => rfl, fun _ pop hpop x hx => (by
      simp [RunData.populations, data] at hpop
      rcases hpop with rfl | rfl | rfl <;> simp at hx <;> rcases hx with rfl | rfl <;> rfl), fun _ pop hpop x hx => (by
      simp [RunData.halls, data] at hpop
      rcases hpop with rfl | rfl | rfl <;> simp at hx <;> rcases hx with rfl | rfl <;> rfl)⟩
    ["home".toList, "me".toList, "asope_data".toList, "20200101_1aB9_run".toList] rfl (by decide +kernel) (fun q hq => by
      have hlen : ∀ p : List FName, 4 < p.length → disk p = none := by
        intro p hp
        have : ¬ p <+: ["home".toList, "me".toList, "asope".toList, "scripts".toList] := fun hc => by
          have := hc.length_le
          simp at this
          omega
        rw [disk, if_neg this]
      have hq' : 0 < q.length := List.length_pos_of_ne_nil hq
      rcases mkdirs_spec sane ["home".toList, "me".toList, "asope_data".toList, "20200101_1aB9_run".toList] with ⟨-, hm⟩ | ⟨⟨q', b, -, hf⟩, -⟩
      · have e : (world.session coding [.initSave 0 (some "run".toList) (some "20200101_1aB9".toList)]).disk =
            disk.withDirs ["home".toList, "me".toList, "asope_data".toList, "20200101_1aB9_run".toList] := by
          have e1 : (world.ios 0).saveDirOf (some "run".toList) (some "20200101_1aB9".toList) =
            ["home".toList, "me".toList, "asope_data".toList, "20200101_1aB9_run".toList] := by decide
          simp only [IoWorld.session, IoWorld.exec, e1]
          rw [show world.disk = disk from rfl, hm]
        rw [e, Disk.withDirs, if_neg]
        · exact hlen _ (by simp; omega)
        · rintro ⟨hc, -⟩
          have := hc.length_le
          rw [List.length_append] at this
          simp only [List.length_cons, List.length_nil] at this
          omega
      · unfold disk at hf
        split_ifs at hf
        cases hf)
    ["home".toList, "me".toList, "asope".toList] "/home/me/asope_data/20200101_1aB9_run".toList (by decide +kernel) savable h3 (d := 11)
    (by rw [if_pos rfl]; exact h3) rfl (old := Store.empty) h1 1 0 [some 11, none] rfl
  obtain ⟨o, q3, q4⟩ := q2 rfl rfl
  exact ⟨w', o, st, q1, h1, q3, q4⟩

end Verif
