import Verif.Lemmas.Save
/-! # Properties of saving and loading (C41) -/

namespace Verif

section
variable {L P : Type} [DecidableEq L]

theorem idx_inj (g : SGraph L P) {a b : L} (ha : a ∈ g.nodes.map (·.label)) (h : g.idx a = g.idx b) : a = b :=
  (List.idxOf_inj ha).1 h

omit [DecidableEq L] in
theorem idxOf_dec [DecidableEq L] {l : List L} (h : l.Nodup) (i : Nat) (hi : i < l.length) : l.idxOf l[i] = i := h.idxOf_getElem i hi

theorem bare_ids (g : SGraph L P) : g.bareGraph.ids = List.range g.nodes.length := by
  unfold SGraph.bareGraph Graph.ids
  rw [List.map_map]
  have : ((fun n : Node => n.id) ∘ fun x : SNode L P × Nat => (⟨x.2, ⟨0, 0, false, .singlePath, 0⟩, 0⟩ : Node)) = Prod.snd := rfl
  rw [this, List.zipIdx_map_snd]
  simp [List.range_eq_range']

theorem bare_adj {g : SGraph L P} {i j : Nat} : g.bareGraph.Adj i j ↔ ∃ e ∈ g.edges, g.idx e.src = i ∧ g.idx e.dst = j := by
  unfold Graph.Adj SGraph.bareGraph
  constructor
  · rintro ⟨e, he, h1, h2⟩
    obtain ⟨x, hx, rfl⟩ := List.mem_map.1 he
    exact ⟨x.1, List.fst_mem_of_mem_zipIdx hx, h1, h2⟩
  · rintro ⟨e, he, h1, h2⟩
    obtain ⟨k, hk⟩ := List.mem_iff_getElem?.1 he
    exact ⟨_, List.mem_map.2 ⟨(e, k), List.mem_zipIdx_iff_getElem?.2 hk, rfl⟩, h1, h2⟩

theorem bare_wf {g : SGraph L P} (hs : ∀ e ∈ g.edges, e.src ∈ g.nodes.map (·.label)) (hd : ∀ e ∈ g.edges, e.dst ∈ g.nodes.map (·.label)) :
    g.bareGraph.WF where
  ids_nodup := by rw [bare_ids]; exact List.nodup_range
  refs_nodup := by
    have h : ((g.bareGraph.edges.map Edge.ref).map (·.key)).Nodup := by
      unfold SGraph.bareGraph
      rw [List.map_map, List.map_map]
      have : (((fun r : EdgeRef => r.key) ∘ Edge.ref) ∘ (fun x : SEdge L P × Nat =>
          (⟨g.idx x.1.src, g.idx x.1.dst, x.2, ⟨0, 0, false, .singlePath, 0⟩, 0⟩ : Edge))) = Prod.snd := rfl
      rw [this, List.zipIdx_map_snd]
      exact List.nodup_range'
    exact List.Nodup.of_map _ h
  src_mem := by
    intro e he
    rw [bare_ids, List.mem_range]
    obtain ⟨x, hx, rfl⟩ := List.mem_map.1 he
    have := List.idxOf_lt_length_iff.2 (hs x.1 (List.fst_mem_of_mem_zipIdx hx))
    simpa [SGraph.idx] using this
  dst_mem := by
    intro e he
    rw [bare_ids, List.mem_range]
    obtain ⟨x, hx, rfl⟩ := List.mem_map.1 he
    have := List.idxOf_lt_length_iff.2 (hd x.1 (List.fst_mem_of_mem_zipIdx hx))
    simpa [SGraph.idx] using this

theorem bare_acyclic {g : SGraph L P} (hg : g.OK) (ha : g.Acyclic) : g.bareGraph.Acyclic := by
  have key : ∀ i j, Relation.TransGen g.bareGraph.Adj i j → ∃ u v, u ∈ g.nodes.map (·.label) ∧ v ∈ g.nodes.map (·.label) ∧ g.idx u = i ∧ g.idx v = j ∧
      Relation.TransGen g.Adj u v := by
    intro i j h
    induction h with
    | single h =>
      obtain ⟨e, he, h1, h2⟩ := bare_adj.1 h
      exact ⟨e.src, e.dst, hg.src_mem e he, hg.dst_mem e he, h1, h2, .single ⟨e, he, rfl, rfl⟩⟩
    | tail _ h ih =>
      obtain ⟨u, v, hu, hv, h1, h2, h3⟩ := ih
      obtain ⟨e, he, h4, h5⟩ := bare_adj.1 h
      have : v = e.src := idx_inj g hv (by rw [h2, h4])
      subst this
      exact ⟨u, e.dst, hu, hg.dst_mem e he, h1, h5, h3.tail ⟨e, he, rfl, rfl⟩⟩
  intro i hi
  obtain ⟨u, v, hu, hv, h1, h2, h3⟩ := key i i hi
  have : u = v := idx_inj g hu (by rw [h1, h2])
  subst this
  exact ha u h3

/-- The nickname given to a label. -/
def nickOf (R : Registry P) (g : SGraph L P) (l : L) : Str := (nickList R 0 (g.nodes.map (·.cls))).getD (g.idx l) []

theorem map_nickOf (R : Registry P) {g : SGraph L P} (hg : (g.nodes.map (·.label)).Nodup) :
    (g.nodes.map (·.label)).map (nickOf R g) = nickList R 0 (g.nodes.map (·.cls)) := by
  apply List.ext_getElem
  · simp [nickList_length]
  · intro i h1 h2
    rw [List.getElem_map]
    unfold nickOf SGraph.idx
    have hi : i < (g.nodes.map (·.label)).length := by simpa using h1
    rw [hg.idxOf_getElem i hi, List.getD_eq_getElem?_getD, List.getElem?_eq_getElem h2]
    rfl

theorem nickOf_inj (R : Registry P) {g : SGraph L P} (hg : (g.nodes.map (·.label)).Nodup) (hd : ∀ n ∈ g.nodes, '.' ∉ R.name n.cls) (a b : L)
    (ha : a ∈ g.nodes.map (·.label)) (hb : b ∈ g.nodes.map (·.label)) (h : nickOf R g a = nickOf R g b) : a = b := by
  have hn : ((g.nodes.map (·.label)).map (nickOf R g)).Nodup := by
    rw [map_nickOf R hg]
    apply nickList_nodup
    intro c hc
    obtain ⟨n, hn, rfl⟩ := List.mem_map.1 hc
    exact hd n hn
  exact List.inj_on_of_nodup_map hn ha hb h

/-- **C41.** Nicknames are unique, and the class name is read back from them. -/
theorem C41_nicknames (a b : Str) (ha : '.' ∉ a) (hb : '.' ∉ b) (i j : Nat) :
    nickBase (nickname a i) = a ∧ (nickname a i = nickname b j → a = b ∧ i = j) :=
  ⟨nickBase_nickname ha i, nickname_inj ha hb⟩

theorem keyed_srcdst (σ : L → Str) (es : List (SEdge L P)) (A : List (SEdge L P)) :
    (keyed σ A es).map (fun e => (e.src, e.dst)) = es.map (fun e => (σ e.src, σ e.dst)) := by
  have := congrArg (List.map (fun x : Str × Str × ClassId × P => (x.1, x.2.1))) (keyed_bare σ es A)
  simpa [List.map_map, Function.comp_def] using this

theorem count_keyed (σ : L → Str) (es A : List (SEdge L P)) (q : Str × Str → Bool) :
    ((keyed σ A es).filter (fun e => q (e.src, e.dst))).length = (es.filter (fun e => q (σ e.src, σ e.dst))).length := by
  rw [← List.countP_eq_length_filter, ← List.countP_eq_length_filter]
  have h1 := List.countP_map (p := q) (f := fun e : SEdge Str P => (e.src, e.dst)) (l := keyed σ A es)
  have h2 := List.countP_map (p := q) (f := fun e : SEdge L P => (σ e.src, σ e.dst)) (l := es)
  rw [keyed_srcdst] at h1
  exact h1.symm.trans h2

/-- The rebuilt graph before parameters are restored. -/
theorem rebuilt_bare {g : SGraph L P} (hg : g.OK) {σ : L → Str} {h : SGraph Str P} (hl : h.nodes.length = g.nodes.length)
    (hidx : ∀ l ∈ g.nodes.map (·.label), h.idx (σ l) = g.idx l) (he : h.edges = keyed σ [] g.edges) : h.bareGraph = g.bareGraph := by
  have hn : ∀ {L' : Type} [DecidableEq L'] (k : SGraph L' P), k.bareGraph.nodes =
      (List.range k.nodes.length).map (fun i => (⟨i, ⟨0, 0, false, .singlePath, 0⟩, 0⟩ : Node)) := by
    intro L' _ k
    have : k.nodes.zipIdx.map Prod.snd = List.range k.nodes.length := by rw [List.zipIdx_map_snd]; simp [List.range_eq_range']
    rw [← this, List.map_map]
    rfl
  have hedge : ∀ {L' : Type} [DecidableEq L'] (k : SGraph L' P), k.bareGraph.edges =
      (k.edges.map (fun e => (k.idx e.src, k.idx e.dst))).zipIdx.map
        (fun x => (⟨x.1.1, x.1.2, x.2, ⟨0, 0, false, .singlePath, 0⟩, 0⟩ : Edge)) := by
    intro L' _ k
    rw [List.zipIdx_map, List.map_map]
    rfl
  have hpairs : h.edges.map (fun e => (h.idx e.src, h.idx e.dst)) = g.edges.map (fun e => (g.idx e.src, g.idx e.dst)) := by
    rw [he]
    have := congrArg (List.map (fun x : Str × Str => (h.idx x.1, h.idx x.2))) (keyed_srcdst σ g.edges [])
    rw [List.map_map, List.map_map] at this
    refine this.trans ?_
    apply List.map_congr_left
    intro e hm
    simp [hidx _ (hg.src_mem e hm), hidx _ (hg.dst_mem e hm)]
  have e1 : h.bareGraph.nodes = g.bareGraph.nodes := by rw [hn, hn, hl]
  have e2 : h.bareGraph.edges = g.bareGraph.edges := by rw [hedge, hedge, hpairs]
  cases hh : h.bareGraph
  cases hg' : g.bareGraph
  rw [hh, hg'] at e1 e2
  simp only at e1 e2
  rw [e1, e2]

omit [DecidableEq L] in
theorem restore_eq (R : Registry P) (h : SGraph Str P) (saved : List (Str × P)) (hn : (saved.map (·.1)).Nodup) (ns : List (SNode L P)) (σ : L → Str)
    (ps : List (SNode Str P)) (hps : ps.map (fun n => (n.label, n.cls)) = ns.map (fun n => (σ n.label, n.cls)))
    (hs : ∀ n ∈ ns, (σ n.label, n.params) ∈ saved) :
    restoreParams R h saved ps =
      if ∀ n ∈ ns, R.arity n.cls (h.inDeg (σ n.label)) (h.outDeg (σ n.label)) = R.len n.params then
        .ok (ns.map (fun n => ⟨σ n.label, n.cls, n.params⟩)) else .error .valueError := by
  induction ns generalizing ps with
  | nil =>
    have : ps = [] := by simpa using hps
    subst this
    simp [restoreParams]
  | cons n ns ih =>
    cases ps with
    | nil => cases hps
    | cons p ps =>
      simp only [List.map_cons, List.cons.injEq, Prod.mk.injEq] at hps
      obtain ⟨⟨h1, h2⟩, h3⟩ := hps
      rw [restoreParams, h1, dictGet_mem hn (hs n List.mem_cons_self)]
      dsimp only
      rw [h2]
      by_cases ha : R.arity n.cls (h.inDeg (σ n.label)) (h.outDeg (σ n.label)) = R.len n.params
      · rw [if_neg (not_not.2 ha), ih ps h3 (fun m hm => hs m (List.mem_cons_of_mem _ hm))]
        by_cases hall : ∀ m ∈ ns, R.arity m.cls (h.inDeg (σ m.label)) (h.outDeg (σ m.label)) = R.len m.params
        · rw [if_pos hall, if_pos (by simpa [ha] using hall)]
          rw [List.map_cons, ← h1, ← h2]
        · rw [if_neg hall, if_neg (fun h' => hall (fun m hm => h' m (List.mem_cons_of_mem _ hm)))]
      · rw [if_pos ha, if_neg (fun h' => ha (h' n List.mem_cons_self))]

/-- What saving and loading does, exactly. -/
theorem save_load (R : Registry P) (g : SGraph L P) (hg : g.OK) (ha : g.Acyclic) (hne : g.nodes ≠ []) (hk : ∀ n ∈ g.nodes, R.Known n.cls)
    (hke : ∀ e ∈ g.edges, R.Known e.cls) :
    ∃ s, saveGraph R g = .ok s ∧ loadGraph R s =
      if ∀ n ∈ g.nodes, R.arity n.cls (g.inDeg n.label) (g.outDeg n.label) = R.len n.params then
        .ok ⟨g.nodes.map (fun n => ⟨nickOf R g n.label, n.cls, n.params⟩), keyed (nickOf R g) [] g.edges⟩ else .error .valueError := by
  have hdn : ∀ n ∈ g.nodes, '.' ∉ R.name n.cls := fun n hn => (hk n hn).2
  have hinj := nickOf_inj R hg.labels hdn
  have hmap := map_nickOf R hg.labels
  have hnn : (nickList R 0 (g.nodes.map (·.cls))).Nodup := nickList_nodup (by
    intro c hc
    obtain ⟨n, hn, rfl⟩ := List.mem_map.1 hc
    exact hdn n hn) 0
  have hen : (nickList R (g.nodes.length - 1) (g.edges.map (·.cls))).Nodup := nickList_nodup (by
    intro c hc
    obtain ⟨n, hn, rfl⟩ := List.mem_map.1 hc
    exact (hke n hn).2) _
  have hN := saveNodes_eq R g.nodes 0 [] [] (by simpa using hg.labels) (by simpa using hnn)
  simp only [List.nil_append] at hN
  -- looking up a label
  have hget : ∀ l ∈ g.nodes.map (·.label), dictGet ((g.nodes.map (·.label)).zip (nickList R 0 (g.nodes.map (·.cls)))) l = .ok (nickOf R g l) := by
    intro l hl
    apply dictGet_mem
    · rw [List.map_fst_zip (by simp [nickList_length])]
      exact hg.labels
    · rw [← hmap]
      obtain ⟨i, hi, rfl⟩ := List.mem_iff_getElem.1 hl
      rw [List.mem_iff_getElem?]
      refine ⟨i, ?_⟩
      simp only [List.getElem?_zip_eq_some, List.getElem?_eq_getElem hi, List.getElem?_map, Option.map_some, true_and]
  have hE := saveEdges_eq R ((g.nodes.map (·.label)).zip (nickList R 0 (g.nodes.map (·.cls)))) (nickOf R g) g.edges
    (fun e he => hget _ (hg.src_mem e he)) (fun e he => hget _ (hg.dst_mem e he)) (g.nodes.length - 1) [] [] (by simpa using hen) (by simpa using hen)
  simp only [List.nil_append] at hE
  have hsave : saveGraph R g = .ok ⟨(nickList R (g.nodes.length - 1) (g.edges.map (·.cls))).zip (adjList (nickOf R g) g.edges),
      (nickList R 0 (g.nodes.map (·.cls))).zip (g.nodes.map (·.params)),
      (nickList R (g.nodes.length - 1) (g.edges.map (·.cls))).zip (g.edges.map (·.params))⟩ := by
    unfold saveGraph
    rw [hN]
    dsimp only
    rw [hE]
    split
    · next h => exact (hne h).elim
    · rfl
  refine ⟨_, hsave, ?_⟩
  unfold loadGraph
  dsimp only
  rw [loadNodes_eq R _ (by
    intro c hc
    obtain ⟨n, hn, rfl⟩ := List.mem_map.1 hc
    exact hk n hn) 0 _ (by simp)]
  dsimp only
  rw [loadEdges_eq R _ (by
      rw [List.map_fst_zip (by simp [nickList_length])]
      exact hen) _ (by
      intro c hc
      obtain ⟨n, hn, rfl⟩ := List.mem_map.1 hc
      exact hke n hn) _ _ (g.edges.map (·.params)) [] (by simp [adjList]) (by simp) (fun x hx => hx) (by
      rw [List.map_nil, List.nil_append]
      unfold adjList
      rw [List.nodup_map_iff_inj_on (List.Nodup.of_map _ hg.refs)]
      intro x hx y hy hxy
      simp only [Prod.mk.injEq] at hxy
      refine List.inj_on_of_nodup_map hg.refs hx hy ?_
      rw [hinj _ _ (hg.src_mem x hx) (hg.src_mem y hy) hxy.1, hinj _ _ (hg.dst_mem x hx) (hg.dst_mem y hy) hxy.2.1, hxy.2.2])]
  dsimp only
  rw [List.nil_append]
  -- rebuild
  unfold initSGraph
  dsimp only
  have hidx : ∀ (ns : List (SNode Str P)) (es : List (SEdge Str P)), ns.map (·.label) = nickList R 0 (g.nodes.map (·.cls)) →
      ∀ l ∈ g.nodes.map (·.label), SGraph.idx ⟨ns, es⟩ (nickOf R g l) = g.idx l := by
    intro ns es hns l hl
    unfold SGraph.idx
    rw [hns, ← hmap]
    obtain ⟨i, hi, rfl⟩ := List.mem_iff_getElem.1 hl
    have hi2 : i < ((g.nodes.map (·.label)).map (nickOf R g)).length := by simpa using hi
    have e1 : nickOf R g (g.nodes.map (·.label))[i] = ((g.nodes.map (·.label)).map (nickOf R g))[i] := by simp
    rw [e1, hg.labels.idxOf_getElem i hi]
    exact idxOf_dec (by rw [hmap]; exact hnn) i hi2
  have hlab : ∀ f : Str × ClassId → P, (((nickList R 0 (g.nodes.map (·.cls))).zip (g.nodes.map (·.cls))).map (fun n => (⟨n.1, n.2, f n⟩ : SNode Str P))).map
      (·.label) = nickList R 0 (g.nodes.map (·.cls)) := by
    intro f
    rw [List.map_map]
    have : ((fun n : SNode Str P => n.label) ∘ fun n : Str × ClassId => (⟨n.1, n.2, f n⟩ : SNode Str P)) = Prod.fst := rfl
    rw [this, List.map_fst_zip (by simp [nickList_length])]
  rw [fold_keyed g hg (nickOf R g) hinj g.edges _ [] (hidx _ _ (hlab _)) rfl rfl]
  obtain ⟨o, ho⟩ := Graph.topoSort_complete (bare_wf hg.src_mem hg.dst_mem) (bare_acyclic hg ha)
  have hupd : ∀ ns : List (SNode Str P), ns.map (·.label) = nickList R 0 (g.nodes.map (·.cls)) →
      SGraph.update R ⟨ns, keyed (nickOf R g) [] g.edges⟩ = .ok ⟨ns.map (fun n => ⟨n.label, n.cls, R.init n.cls
        (SGraph.inDeg ⟨ns, keyed (nickOf R g) [] g.edges⟩ n.label) (SGraph.outDeg ⟨ns, keyed (nickOf R g) [] g.edges⟩ n.label)⟩),
        keyed (nickOf R g) [] g.edges⟩ := by
    intro ns hns
    unfold SGraph.update
    rw [rebuilt_bare hg (by simpa [nickList_length] using congrArg List.length hns) (hidx _ _ hns) rfl, ho]
  rw [hupd _ (hlab _)]
  dsimp only
  rw [hupd _ (by rw [List.map_map]; exact hlab _)]
  dsimp only
  have hdeg : ∀ (ns : List (SNode Str P)), ∀ n ∈ g.nodes,
      SGraph.inDeg ⟨ns, keyed (nickOf R g) [] g.edges⟩ (nickOf R g n.label) = g.inDeg n.label ∧
      SGraph.outDeg ⟨ns, keyed (nickOf R g) [] g.edges⟩ (nickOf R g n.label) = g.outDeg n.label := by
    intro ns n hn
    have hl : n.label ∈ g.nodes.map (·.label) := List.mem_map_of_mem hn
    unfold SGraph.inDeg SGraph.outDeg
    dsimp only
    rw [count_keyed _ _ _ (fun x => x.2 = nickOf R g n.label), count_keyed _ _ _ (fun x => x.1 = nickOf R g n.label)]
    constructor <;> congr 1 <;> apply List.filter_congr <;> intro e he <;> simp only [decide_eq_decide] <;> constructor
    · exact hinj _ _ (hg.dst_mem e he) hl
    · exact fun h => by rw [h]
    · exact hinj _ _ (hg.src_mem e he) hl
    · exact fun h => by rw [h]
  rw [restore_eq R _ _ (by
      rw [List.map_fst_zip (by simp [nickList_length])]
      exact hnn) g.nodes (nickOf R g) _ (by
      rw [List.map_map, List.map_map, List.map_map]
      have e1 : g.nodes.map (fun n => (nickOf R g n.label, n.cls)) = ((g.nodes.map (·.label)).map (nickOf R g)).zip (g.nodes.map (·.cls)) := by
        rw [List.map_map, List.zip_map']
        rfl
      rw [e1, hmap]
      exact List.map_id _) (by
      intro n hn
      rw [← hmap]
      have : ((g.nodes.map (·.label)).map (nickOf R g)).zip (g.nodes.map (·.params)) = g.nodes.map (fun n => (nickOf R g n.label, n.params)) := by
        rw [List.map_map, List.zip_map']
        rfl
      rw [this]
      exact List.mem_map_of_mem (f := fun n => (nickOf R g n.label, n.params)) hn)]
  by_cases hB : ∀ n ∈ g.nodes, R.arity n.cls (g.inDeg n.label) (g.outDeg n.label) = R.len n.params
  · rw [if_pos hB, if_pos (fun n hn => by rw [(hdeg _ n hn).1, (hdeg _ n hn).2]; exact hB n hn)]
  · rw [if_neg hB, if_neg (fun h => hB (fun n hn => by
      have := h n hn
      rw [(hdeg _ n hn).1, (hdeg _ n hn).2] at this
      exact this))]

theorem keyed_split (σ : L → Str) (es : List (SEdge L P)) : ∀ (A : List (SEdge L P)) (B : List (SEdge Str P)) (y : SEdge Str P) (C : List (SEdge Str P)),
    keyed σ A es = B ++ y :: C → ∃ B' x C', es = B' ++ x :: C' ∧ B = keyed σ A B' ∧ C = keyed σ (A ++ B' ++ [x]) C' ∧
      y = ⟨σ x.src, σ x.dst, ((A ++ B').filter (fun e => e.src = x.src ∧ e.dst = x.dst)).length, x.cls, x.params⟩ := by
  induction es with
  | nil => intro A B y C h; simp [keyed] at h
  | cons x es ih =>
    intro A B y C h
    cases B with
    | nil =>
      simp only [keyed, List.nil_append, List.cons.injEq] at h
      exact ⟨[], x, es, rfl, rfl, by simp [h.2], by simp [← h.1]⟩
    | cons b B =>
      simp only [keyed, List.cons_append, List.cons.injEq] at h
      obtain ⟨B', x', C', h1, h2, h3, h4⟩ := ih _ B y C h.2
      exact ⟨x :: B', x', C', by rw [h1]; rfl, by rw [h2, ← h.1]; rfl, by rw [h3]; simp, by rw [h4]; simp⟩

theorem keyed_key_eq (σ : L → Str) (es : List (SEdge L P)) : ∀ A, (∀ B x C, es = B ++ x :: C → x.key = ((A ++ B).filter (fun e => e.src = x.src ∧ e.dst = x.dst)).length) →
    (keyed σ A es).map (·.key) = es.map (·.key) := by
  induction es with
  | nil => intro A _; rfl
  | cons x es ih =>
    intro A h
    simp only [keyed, List.map_cons, List.cons.injEq]
    refine ⟨by simpa using (h [] x es rfl).symm, ih _ ?_⟩
    intro B y C hB
    have := h (x :: B) y C (by rw [hB]; rfl)
    simpa using this

/-- **C41.** Saving a system and loading the description gives the same system: node `i` has class and parameters of node `i`, edge `j`
has class and parameters of edge `j` and joins the images of its end nodes, in the same order; labels are nicknames, from which the class name is
read back; parallel edges are numbered from 0, which are the old keys if these were numbered so. -/
theorem C41_round_trip (R : Registry P) (g : SGraph L P) (hg : g.OK) (ha : g.Acyclic) (hne : g.nodes ≠ []) (hk : ∀ n ∈ g.nodes, R.Known n.cls)
    (hke : ∀ e ∈ g.edges, R.Known e.cls) (hpar : ∀ n ∈ g.nodes, R.arity n.cls (g.inDeg n.label) (g.outDeg n.label) = R.len n.params) :
    ∃ s g', saveGraph R g = .ok s ∧ loadGraph R s = .ok g' ∧ SameSystem g g' ∧ (∀ n ∈ g'.nodes, nickBase n.label = R.name n.cls) ∧
      g'.Counted ∧ (g.Counted → g'.edges.map (·.key) = g.edges.map (·.key)) := by
  obtain ⟨s, h1, h2⟩ := save_load R g hg ha hne hk hke
  rw [if_pos hpar] at h2
  have hinj := nickOf_inj R hg.labels (fun n hn => (hk n hn).2)
  refine ⟨s, _, h1, h2, ⟨nickOf R g, fun a h b h' => hinj a b h h', rfl, keyed_bare _ _ _⟩, ?_, ?_, ?_⟩
  · intro n hn
    obtain ⟨m, hm, rfl⟩ := List.mem_map.1 hn
    dsimp only
    obtain ⟨i, hi, rfl⟩ := List.mem_iff_getElem.1 hm
    have hi' : i < (g.nodes.map (·.label)).length := by simpa using hi
    have : nickOf R g g.nodes[i].label = nickname (R.name g.nodes[i].cls) (0 + i) := by
      unfold nickOf SGraph.idx
      have e1 : g.nodes[i].label = (g.nodes.map (·.label))[i] := by simp
      rw [e1, hg.labels.idxOf_getElem i hi', List.getD_eq_getElem?_getD, nickList_get, List.getElem?_map, List.getElem?_eq_getElem hi]
      rfl
    rw [this, nickBase_nickname (hk _ hm).2]
  · intro A y C hs
    obtain ⟨B', x, C', e1, e2, e3, rfl⟩ := keyed_split _ _ _ _ _ _ hs
    dsimp only
    rw [e2]
    have hx : x ∈ g.edges := by rw [e1]; simp
    have := keyed_keys (nickOf R g) (· ∈ g.nodes.map (·.label)) hinj x.src x.dst (hg.src_mem x hx) (hg.dst_mem x hx) B'
      (fun e he => by
        have : e ∈ g.edges := by rw [e1]; exact List.mem_append_left _ he
        exact ⟨hg.src_mem e this, hg.dst_mem e this⟩)
    have hlen := congrArg List.length this
    rw [List.length_map, List.length_range] at hlen
    rw [List.nil_append]
    exact hlen.symm
  · intro hc
    exact keyed_key_eq _ _ _ (fun B x C h => by rw [List.nil_append]; exact hc B x C h)

/-- **C41.** A description of a node with the wrong number of parameters is rejected. -/
theorem C41_wrong_count (R : Registry P) (g : SGraph L P) (hg : g.OK) (ha : g.Acyclic) (hk : ∀ n ∈ g.nodes, R.Known n.cls)
    (hke : ∀ e ∈ g.edges, R.Known e.cls) {n : SNode L P} (hn : n ∈ g.nodes)
    (hpar : R.arity n.cls (g.inDeg n.label) (g.outDeg n.label) ≠ R.len n.params) :
    ∃ s, saveGraph R g = .ok s ∧ loadGraph R s = .error .valueError := by
  obtain ⟨s, h1, h2⟩ := save_load R g hg ha (List.ne_nil_of_mem hn) hk hke
  rw [if_neg (fun h => hpar (h n hn))] at h2
  exact ⟨s, h1, h2⟩

end

/-- Two classes; class 0 has one parameter per outgoing edge, class 1 always two. -/
def regDemo : Registry (List Nat) where
  name := fun c => if c = 0 then ['A', 'B'] else ['C']
  lookup := fun s => if s = ['A', 'B'] then some 0 else if s = ['C'] then some 1 else none
  arity := fun c _ o => if c = 0 then o else 2
  init := fun c _ o => if c = 0 then List.replicate o 0 else [0, 0]
  len := List.length

/-- Three nodes, two parallel edges (keys 2 and 5) and one more. -/
def graphDemo : SGraph Nat (List Nat) where
  nodes := [⟨10, 0, [1, 2, 3]⟩, ⟨7, 1, [4, 5]⟩, ⟨3, 0, []⟩]
  edges := [⟨10, 7, 2, 1, [6]⟩, ⟨10, 7, 5, 0, [8]⟩, ⟨10, 3, 0, 1, [7, 9]⟩]

example : graphDemo.OK where
  labels := by decide
  refs := by decide
  src_mem := by decide
  dst_mem := by decide
  sorted := by decide
  grouped := by
    intro A B C x y h hs hd z hz
    have hl := congrArg List.length h
    simp only [graphDemo, List.length_cons, List.length_nil, List.length_append] at hl
    rcases A with _ | ⟨a, A⟩
    · rcases B with _ | ⟨b1, _ | ⟨b2, B⟩⟩
      · cases hz
      · simp only [graphDemo, List.nil_append, List.cons_append, List.cons.injEq] at h
        obtain ⟨rfl, rfl, rfl, _⟩ := h
        cases hd
      · simp only [List.length_nil, List.length_cons] at hl
        omega
    · rcases B with _ | ⟨b1, B⟩
      · cases hz
      · simp only [List.length_cons] at hl
        omega

example : graphDemo.Acyclic := by
  have h : ∀ u v, graphDemo.Adj u v → v < u := by
    rintro u v ⟨e, he, rfl, rfl⟩
    revert e
    decide
  intro v hv
  have : ∀ u v, Relation.TransGen graphDemo.Adj u v → v < u := by
    intro u v ht
    induction ht with
    | single h1 => exact h _ _ h1
    | tail _ h1 ih => exact lt_trans (h _ _ h1) ih
  exact lt_irrefl _ (this v v hv)

example : (∀ n ∈ graphDemo.nodes, regDemo.Known n.cls) ∧ (∀ e ∈ graphDemo.edges, regDemo.Known e.cls) ∧
    ∀ n ∈ graphDemo.nodes, regDemo.arity n.cls (graphDemo.inDeg n.label) (graphDemo.outDeg n.label) = regDemo.len n.params := by
  simp [graphDemo, regDemo, Registry.Known, SGraph.inDeg, SGraph.outDeg]

/-- **C41.** Keys that do not count from 0 are not kept, and an empty graph cannot be saved. -/
theorem C41_keys_lost : (∃ s g', saveGraph regDemo graphDemo = .ok s ∧ loadGraph regDemo s = .ok g' ∧ g'.edges.map (·.key) = [0, 1, 0] ∧
      graphDemo.edges.map (·.key) = [2, 5, 0]) ∧
    saveGraph regDemo (⟨[], []⟩ : SGraph Nat (List Nat)) = .error .nameError := by
  refine ⟨⟨_, _, rfl, rfl, ?_, ?_⟩, rfl⟩ <;> decide +kernel

/-! Cases of the other theorems. -/

example := C41_nicknames ['A', 'B'] ['C'] (by decide) (by decide) 1 12

end Verif
