import Verif.Spec.Closure
import Verif.Props.Params
import Verif.Props.Fixture
import Verif.Lemmas.Graph
/-!
# C73: whose objective function
-/

namespace Verif
open Graph

variable {eval : Graph → Heap → Except Err ℚ} {lib : Library}

/-! ### Components under evolution -/

theorem models_addEdge {g : Graph} {u v c name m} (h : m ∈ getModels (g.addEdge u v c name)) : m ∈ getModels g ∨ m = c.uid := by
  unfold getModels at *
  rcases List.mem_append.1 h with h | h
  · exact .inl (List.mem_append_left _ h)
  · obtain ⟨e, he, rfl⟩ := List.mem_map.1 h
    rcases List.mem_cons.1 ((addEdge_perm g u v c name).mem_iff.1 he) with rfl | he
    · exact .inr rfl
    · exact .inl (List.mem_append_right _ (List.mem_map.2 ⟨e, he, rfl⟩))

theorem models_removeEdge {g : Graph} {r m} (h : m ∈ getModels (g.removeEdge r)) : m ∈ getModels g := by
  unfold getModels removeEdge at *
  rcases List.mem_append.1 h with h | h
  · exact List.mem_append_left _ h
  · obtain ⟨e, he, rfl⟩ := List.mem_map.1 h
    exact List.mem_append_right _ (List.mem_map.2 ⟨e, (List.mem_filter.1 he).1, rfl⟩)

theorem models_addNode {g : Graph} {i c name m} (h : m ∈ getModels (g.addNode i c name)) : m ∈ getModels g ∨ m = c.uid := by
  unfold getModels addNode at *
  simp only [List.map_append, List.map_cons, List.map_nil, List.mem_append, List.mem_singleton] at *
  tauto

theorem models_removeNode {g : Graph} {v m} (h : m ∈ getModels (g.removeNode v)) : m ∈ getModels g := by
  unfold getModels removeNode at *
  rcases List.mem_append.1 h with h | h
  · obtain ⟨e, he, rfl⟩ := List.mem_map.1 h
    exact List.mem_append_left _ (List.mem_map.2 ⟨e, (List.mem_filter.1 he).1, rfl⟩)
  · obtain ⟨e, he, rfl⟩ := List.mem_map.1 h
    exact List.mem_append_right _ (List.mem_map.2 ⟨e, (List.mem_filter.1 he).1, rfl⟩)

theorem models_foldl {m} : ∀ {es : List Edge} {g : Graph}, m ∈ getModels (es.foldl (fun h e => h.addEdge e.src e.dst e.comp e.name) g) →
    m ∈ getModels g ∨ ∃ e ∈ es, m = e.comp.uid
  | [], _, h => .inl h
  | e :: es, g, h => by
    rcases models_foldl (es := es) h with h | ⟨x, hx, h⟩
    · rcases models_addEdge h with h | h
      · exact .inl h
      · exact .inr ⟨e, by simp, h⟩
    · exact .inr ⟨x, by simp [hx], h⟩

theorem models_contract {g : Graph} {u v m} (h : m ∈ getModels (g.contract u v)) : m ∈ getModels g := by
  unfold contract at h
  rcases models_foldl h with h | ⟨e, he, rfl⟩
  · exact models_removeNode h
  · have : ∃ x ∈ g.edges, x.comp = e.comp := by
      rcases List.mem_append.1 he with he | he
      · obtain ⟨x, hx, rfl⟩ := List.mem_map.1 he
        exact ⟨x, (List.mem_filter.1 hx).1, rfl⟩
      · obtain ⟨x, hx, rfl⟩ := List.mem_map.1 he
        exact ⟨x, (List.mem_filter.1 hx).1, rfl⟩
    obtain ⟨x, hx, hc⟩ := this
    rw [← hc]
    exact List.mem_append_right _ (List.mem_map.2 ⟨x, hx, rfl⟩)

theorem models_setNode {g : Graph} {i f m} (h : m ∈ getModels (g.setNode i f)) : m ∈ getModels g ∨ ∃ n ∈ g.nodes, m = (f n).comp.uid := by
  unfold getModels setNode at *
  rcases List.mem_append.1 h with h | h
  · obtain ⟨n, hn, rfl⟩ := List.mem_map.1 h
    obtain ⟨x, hx, rfl⟩ := List.mem_map.1 hn
    split
    · exact .inr ⟨x, hx, rfl⟩
    · exact .inl (List.mem_append_left _ (List.mem_map.2 ⟨x, hx, rfl⟩))
  · exact .inl (List.mem_append_right _ h)

theorem models_setEdge {g : Graph} {i f m} (h : m ∈ getModels (g.setEdge i f)) : m ∈ getModels g ∨ ∃ n ∈ g.edges, m = (f n).comp.uid := by
  unfold getModels setEdge at *
  rcases List.mem_append.1 h with h | h
  · exact .inl (List.mem_append_left _ h)
  · obtain ⟨n, hn, rfl⟩ := List.mem_map.1 h
    obtain ⟨x, hx, rfl⟩ := List.mem_map.1 hn
    split
    · exact .inr ⟨x, hx, rfl⟩
    · exact .inl (List.mem_append_right _ (List.mem_map.2 ⟨x, hx, rfl⟩))

theorem models_edge? {g : Graph} {r e} (h : g.edge? r = some e) : e.comp.uid ∈ getModels g := by
  unfold Graph.edge? at h
  exact List.mem_append_right _ (List.mem_map.2 ⟨e, List.mem_of_find?_eq_some h, rfl⟩)

theorem models_node? {g : Graph} {r e} (h : g.node? r = some e) : e.comp.uid ∈ getModels g := by
  unfold Graph.node? at h
  exact List.mem_append_left _ (List.mem_map.2 ⟨e, List.mem_of_find?_eq_some h, rfl⟩)

/-- No operator brings in components other than those drawn. -/
theorem models_applyOp {g g' : Graph} {op loc d} (h : applyOp lib g op loc d = .ok g') {m : Nat} (hm : m ∈ getModels g') :
    m ∈ getModels g ∨ m = d.ec.uid ∨ m = d.nc.uid := by
  unfold applyOp at h
  split at h
  · unfold addSeries at h
    split at h
    · cases h
    · rename_i e he
      have hu := models_edge? he
      have hbase : ∀ i, m ∈ getModels ((g.addNode d.nid d.nc d.nc.cls).removeEdge i) → m ∈ getModels g ∨ m = d.ec.uid ∨ m = d.nc.uid := by
        intro i hm
        rcases models_addNode (models_removeEdge hm) with h | h
        · exact .inl h
        · exact .inr (.inr h)
      simp only at h
      split at h
      · injection h with h; subst h
        rcases models_addEdge hm with hm | rfl
        · rcases models_addEdge hm with hm | rfl
          · exact hbase _ hm
          · exact .inr (.inl rfl)
        · exact .inl hu
      · injection h with h; subst h
        rcases models_addEdge hm with hm | rfl
        · rcases models_addEdge hm with hm | rfl
          · exact hbase _ hm
          · exact .inl hu
        · exact .inr (.inl rfl)
  · injection h with h; subst h
    rcases models_addEdge hm with hm | rfl
    · exact .inl hm
    · exact .inr (.inl rfl)
  · unfold removeComp at h
    split at h
    · cases h
    · simp only at h
      split at h
      · injection h with h; subst h
        exact .inl (models_removeEdge hm)
      · split at h
        · cases h
        · rename_i keep hk
          injection h with h; subst h
          rcases models_setNode hm with hm | ⟨n, _, rfl⟩
          · exact .inl (models_removeEdge (models_contract hm))
          · have := models_removeEdge (models_node? hk)
            exact .inl this
  · unfold swapComp at h
    split at h
    · split at h
      · cases h
      · split at h
        · simp at h; subst h; exact .inl hm
        · injection h with h; subst h
          rcases models_setNode hm with hm | ⟨n, _, rfl⟩
          · exact .inl hm
          · exact .inr (.inl rfl)
    · split at h
      · cases h
      · split at h
        · simp at h; subst h; exact .inl hm
        · injection h with h; subst h
          rcases models_setEdge hm with hm | ⟨n, _, rfl⟩
          · exact .inl hm
          · exact .inr (.inl rfl)
    · cases h
  · cases h

theorem models_rename {f : ModelId → ModelId} {g : Graph} : getModels (renameComps f g) = (getModels g).map f := by
  simp [getModels, renameComps, List.map_map, Function.comp_def]

/-! ### Distribution -/

theorem setParam_frame {h h' : Heap} {m i x} (he : setParam h m i x = .ok h') : ∀ k, k ≠ m → h' k = h k := by
  unfold setParam at he
  split at he
  · injection he with he; subst he
    intro k hk
    simp [hk]
  · cases he

theorem distribute_frame : ∀ {xs : List ℚ} {ms : List ModelId} {is : List Nat} {h h' : Heap}, distribute h xs ms is = .ok h' → ∀ k, k ∉ ms → h' k = h k
  | [], _, _, h, h', he, k, _ => by simp only [distribute] at he; injection he with he; rw [he]
  | _ :: _, [], _, h, h', he, k, _ => by simp only [distribute] at he; injection he with he; rw [he]
  | _ :: _, _ :: _, [], h, h', he, k, _ => by simp only [distribute] at he; injection he with he; rw [he]
  | x :: xs, m :: ms, i :: is, h, h', he, k, hk => by
    simp only [distribute] at he
    split at he
    · cases he
    · rename_i h1 hs
      rw [distribute_frame he k (fun hc => hk (by simp [hc])), setParam_frame hs k (fun hc => hk (by simp [hc]))]

/-- On components where two heaps agree, distribution behaves alike; entries for components outside do not matter. -/
theorem distribute_agree {P : ModelId → Prop} : ∀ {xs : List ℚ} {ms : List ModelId} {is : List Nat} {a b : Heap}, (∀ m ∈ ms, P m) → (∀ m, P m → a m = b m) →
    (∃ a' b', distribute a xs ms is = .ok a' ∧ distribute b xs ms is = .ok b' ∧ ∀ m, P m → a' m = b' m) ∨
    (∃ e, distribute a xs ms is = .error e ∧ distribute b xs ms is = .error e)
  | [], _, _, a, b, _, hab => .inl ⟨a, b, by simp [distribute], by simp [distribute], hab⟩
  | _ :: _, [], _, a, b, _, hab => .inl ⟨a, b, by simp [distribute], by simp [distribute], hab⟩
  | _ :: _, _ :: _, [], a, b, _, hab => .inl ⟨a, b, by simp [distribute], by simp [distribute], hab⟩
  | x :: xs, m :: ms, i :: is, a, b, hP, hab => by
    have hm : a m = b m := hab m (hP m (by simp))
    by_cases hi : i < (a m).params.length
    · have ha : setParam a m i x = .ok (fun k => if k = m then { a m with params := (a m).params.set i x } else a k) := by
        unfold setParam; rw [if_pos hi]
      have hb : setParam b m i x = .ok (fun k => if k = m then { b m with params := (b m).params.set i x } else b k) := by
        unfold setParam; rw [if_pos (hm ▸ hi)]
      simp only [distribute, ha, hb]
      refine distribute_agree (fun k hk => hP k (by simp [hk])) (fun k hk => ?_)
      by_cases hkm : k = m
      · simp [hkm, hm]
      · simp [hkm, hab k hk]
    · right
      refine ⟨.indexError, ?_, ?_⟩
      · simp [distribute, setParam, hi]
      · rw [hm] at hi
        simp [distribute, setParam, hi]

theorem distribute_agree_vals {P : ModelId → Prop} : ∀ {xs ys : List ℚ} {ms : List ModelId} {is : List Nat} {a b a' b' : Heap}, xs.length = ys.length →
    (∀ (k : Nat) m, ms[k]? = some m → P m → xs[k]? = ys[k]?) → (∀ m, P m → a m = b m) → distribute a xs ms is = .ok a' → distribute b ys ms is = .ok b' →
    ∀ m, P m → a' m = b' m
  | [], [], _, _, a, b, a', b', _, _, hab, h1, h2 => by
    simp only [distribute] at h1 h2
    injection h1 with h1; injection h2 with h2
    rw [← h1, ← h2]; exact hab
  | [], _ :: _, _, _, _, _, _, _, hl, _, _, _, _ => by simp at hl
  | _ :: _, [], _, _, _, _, _, _, hl, _, _, _, _ => by simp at hl
  | _ :: _, _ :: _, [], _, a, b, a', b', _, _, hab, h1, h2 => by
    simp only [distribute] at h1 h2
    injection h1 with h1; injection h2 with h2
    rw [← h1, ← h2]; exact hab
  | _ :: _, _ :: _, _ :: _, [], a, b, a', b', _, _, hab, h1, h2 => by
    simp only [distribute] at h1 h2
    injection h1 with h1; injection h2 with h2
    rw [← h1, ← h2]; exact hab
  | x :: xs, y :: ys, m :: ms, i :: is, a, b, a', b', hl, hv, hab, h1, h2 => by
    simp only [distribute] at h1 h2
    split at h1
    · cases h1
    · rename_i a1 ha1
      split at h2
      · cases h2
      · rename_i b1 hb1
        refine distribute_agree_vals (by simpa using hl) (fun k m' hk hp => by have := hv (k + 1) m' (by simpa using hk) hp; simpa using this) ?_ h1 h2
        intro k hk
        by_cases hkm : k = m
        · subst hkm
          have hxy : x = y := by simpa using hv 0 k (by simp) hk
          subst hxy
          have := hab k hk
          unfold setParam at ha1 hb1
          split at ha1
          · split at hb1
            · injection ha1 with ha1; injection hb1 with hb1
              rw [← ha1, ← hb1]
              simp [this]
            · cases hb1
          · cases ha1
        · rw [setParam_frame ha1 k hkm, setParam_frame hb1 k hkm, hab k hk]

/-! ### Separation -/

theorem componentsOf_eq (g : Graph) : componentsOf g = getModels g := rfl

theorem extract_models_sub {as g h ex} (he : extract as g h = .ok ex) : ∀ m ∈ ex.models, m ∈ getModels g := by
  obtain ⟨_, rfl⟩ := extract_eq he
  intro m hm
  obtain ⟨s, hs, rfl⟩ := List.mem_map.1 hm
  exact (mem_slots.1 hs).1

/-- One operation keeps graph objects separate. -/
theorem separate_exec {w : Process} (hs : Separate w) (op : POp) : Separate (exec eval lib op w).1 := by
  unfold exec
  cases ho : w.objs[op.target]? with
  | none => exact hs
  | some o =>
    have hlt : op.target < w.objs.length := (List.getElem?_eq_some_iff.1 ho).1
    cases op with
    | init i =>
      simp only [POp.target] at ho hlt ⊢
      cases he : extract [] o.graph w.heap with
      | error e => exact hs
      | ok ex =>
        simp only
        have hget : ∀ (j : Nat) (o' : GObj), (w.objs.set i { o with func := some ⟨i, ex.models, ex.index⟩ })[j]? = some o' →
            (j = i ∧ o' = { o with func := some ⟨i, ex.models, ex.index⟩ }) ∨ (j ≠ i ∧ w.objs[j]? = some o') := by
          intro j o' h
          by_cases hj : j = i
          · subst hj; rw [List.getElem?_set_self hlt] at h; exact .inl ⟨rfl, (Option.some.inj h).symm⟩
          · rw [List.getElem?_set_ne (fun h => hj h.symm)] at h; exact .inr ⟨hj, h⟩
        have hgr : ∀ (j : Nat) (o' : GObj), (w.objs.set i { o with func := some ⟨i, ex.models, ex.index⟩ })[j]? = some o' →
            ∃ o0 : GObj, w.objs[j]? = some o0 ∧ o0.graph = o'.graph := by
          intro j o' h
          rcases hget j o' h with ⟨rfl, rfl⟩ | ⟨_, h⟩
          · exact ⟨o, ho, rfl⟩
          · exact ⟨o', h, rfl⟩
        constructor
        · intro j o' h m hm
          obtain ⟨o0, h0, hg⟩ := hgr j o' h
          exact hs.used j o0 h0 m (hg ▸ hm)
        · intro j k o' o'' h h' m hm hm'
          obtain ⟨o0, h0, hg⟩ := hgr j o' h
          obtain ⟨o1, h1, hg1⟩ := hgr k o'' h'
          exact hs.disjoint j k o0 o1 h0 h1 m (hg ▸ hm) (hg1 ▸ hm')
        · intro j o' c h hc
          rw [List.length_set]
          rcases hget j o' h with ⟨rfl, rfl⟩ | ⟨_, h⟩
          · have := Option.some.inj hc
            subst this
            refine ⟨hlt, fun m hm => ⟨hs.used _ o ho m (extract_models_sub he m hm), fun k o'' hk hm' => ?_⟩⟩
            obtain ⟨o0, h0, hg⟩ := hgr k o'' hk
            exact hs.disjoint k j o0 o h0 ho m (hg ▸ hm') (extract_models_sub he m hm)
          · obtain ⟨a, b⟩ := hs.funcs j o' c h hc
            refine ⟨a, fun m hm => ⟨(b m hm).1, fun k o'' hk hm' => ?_⟩⟩
            obtain ⟨o0, h0, hg⟩ := hgr k o'' hk
            exact (b m hm).2 k o0 h0 (hg ▸ hm')
    | copy i =>
      simp only [POp.target] at ho hlt ⊢
      have hget : ∀ (j : Nat) (o' : GObj), (w.objs ++ [{ o with graph := renameComps (fun u => w.next + u) o.graph }])[j]? = some o' →
          (j = w.objs.length ∧ o' = { o with graph := renameComps (fun u => w.next + u) o.graph }) ∨ (j < w.objs.length ∧ w.objs[j]? = some o') := by
        intro j o' h
        by_cases hj : j < w.objs.length
        · rw [List.getElem?_append_left hj] at h; exact .inr ⟨hj, h⟩
        · rw [List.getElem?_append_right (by omega)] at h
          have := (List.getElem?_eq_some_iff.1 h).1
          simp at this
          have hj' : j = w.objs.length := by omega
          subst hj'
          simp at h
          exact .inl ⟨rfl, h.symm⟩
      have hnew : ∀ m : Nat, m ∈ componentsOf (renameComps (fun u => w.next + u) o.graph) → w.next ≤ m ∧ m < w.next + w.next := by
        intro m hm
        rw [componentsOf_eq, models_rename] at hm
        obtain ⟨u, hu, rfl⟩ := List.mem_map.1 hm
        have : u < w.next := hs.used _ o ho u hu
        exact ⟨Nat.le_add_right _ _, Nat.add_lt_add_left this _⟩
      constructor
      · intro j o' h m hm
        rcases hget j o' h with ⟨rfl, rfl⟩ | ⟨_, h⟩
        · exact (hnew m hm).2
        · have := hs.used j o' h m hm
          simp only; omega
      · intro j k o' o'' h h' m hm hm'
        rcases hget j o' h with ⟨rfl, rfl⟩ | ⟨_, h⟩ <;> rcases hget k o'' h' with ⟨rfl, rfl⟩ | ⟨_, h'⟩
        · rfl
        · have := (hnew m hm).1; have := hs.used k o'' h' m hm'; omega
        · have := (hnew m hm').1; have := hs.used j o' h m hm; omega
        · exact hs.disjoint j k o' o'' h h' m hm hm'
      · intro j o' c h hc
        have hold : ∃ (j0 : Nat) (o0 : GObj), w.objs[j0]? = some o0 ∧ o0.func = some c := by
          rcases hget j o' h with ⟨rfl, rfl⟩ | ⟨_, h⟩
          · exact ⟨_, o, ho, hc⟩
          · exact ⟨j, o', h, hc⟩
        obtain ⟨j0, o0, h0, hc0⟩ := hold
        obtain ⟨a, b⟩ := hs.funcs j0 o0 c h0 hc0
        refine ⟨by simp only [List.length_append]; exact Nat.lt_succ_of_lt a, fun m hm => ⟨by have := (b m hm).1; simp only; omega, fun k o'' hk hm' => ?_⟩⟩
        rcases hget k o'' hk with ⟨rfl, rfl⟩ | ⟨_, hk⟩
        · have := (hnew m hm').1; have := (b m hm).1; omega
        · exact (b m hm).2 k o'' hk hm'
    | evolve i eop loc d pe pn =>
      simp only [POp.target] at ho hlt ⊢
      split
      · exact hs
      · rename_i g' hg'
        have hget : ∀ (j : Nat) (o' : GObj), (w.objs.set i { o with graph := g' })[j]? = some o' →
            (j = i ∧ o' = { o with graph := g' }) ∨ (j ≠ i ∧ w.objs[j]? = some o') := by
          intro j o' h
          by_cases hj : j = i
          · subst hj; rw [List.getElem?_set_self hlt] at h; exact .inl ⟨rfl, (Option.some.inj h).symm⟩
          · rw [List.getElem?_set_ne (fun h => hj h.symm)] at h; exact .inr ⟨hj, h⟩
        have hnew : ∀ m : Nat, m ∈ componentsOf g' → m ∈ componentsOf o.graph ∨ m = w.next ∨ m = w.next + 1 := fun m hm => models_applyOp hg' hm
        constructor
        · intro j o' h m hm
          rcases hget j o' h with ⟨rfl, rfl⟩ | ⟨_, h⟩
          · rcases hnew m hm with h | h | h
            · have := hs.used j o ho m h; simp only; omega
            · simp only; omega
            · simp only; omega
          · have := hs.used j o' h m hm; simp only; omega
        · intro j k o' o'' h h' m hm hm'
          rcases hget j o' h with ⟨rfl, rfl⟩ | ⟨_, h1⟩ <;> rcases hget k o'' h' with ⟨rfl, rfl⟩ | ⟨_, h2⟩
          · rfl
          · have := hs.used k o'' h2 m hm'
            rcases hnew m hm with hm | hm | hm
            · exact hs.disjoint j k o o'' ho h2 m hm hm'
            · omega
            · omega
          · have := hs.used j o' h1 m hm
            rcases hnew m hm' with hm' | hm' | hm'
            · exact hs.disjoint j k o' o h1 ho m hm hm'
            · omega
            · omega
          · exact hs.disjoint j k o' o'' h1 h2 m hm hm'
        · intro j o' c h hc
          have hold : ∃ (j0 : Nat) (o0 : GObj), w.objs[j0]? = some o0 ∧ o0.func = some c := by
            rcases hget j o' h with ⟨rfl, rfl⟩ | ⟨_, h⟩
            · exact ⟨_, o, ho, hc⟩
            · exact ⟨j, o', h, hc⟩
          obtain ⟨j0, o0, h0, hc0⟩ := hold
          obtain ⟨a, b⟩ := hs.funcs j0 o0 c h0 hc0
          refine ⟨by simpa using a, fun m hm => ⟨by have := (b m hm).1; simp only; omega, fun k o'' hk hm' => ?_⟩⟩
          rcases hget k o'' hk with ⟨rfl, rfl⟩ | ⟨_, hk⟩
          · have := (b m hm).1
            rcases hnew m hm' with hm' | hm' | hm'
            · exact (b m hm).2 k o ho hm'
            · omega
            · omega
          · exact (b m hm).2 k o'' hk hm'
    | alter i f => exact ⟨hs.used, hs.disjoint, hs.funcs⟩
    | call i x =>
      simp only
      split
      · exact hs
      · split
        · exact hs
        · split
          · exact hs
          · exact ⟨hs.used, hs.disjoint, hs.funcs⟩

theorem separate_execAll : ∀ (ops : List POp) {w : Process}, Separate w → Separate (execAll eval lib ops w)
  | [], _, hs => hs
  | op :: ops, _, hs => separate_execAll ops (separate_exec hs op)

/-! ### Freshly initialised functions -/

theorem exec_call {w : Process} {i o c s x} (ho : w.objs[i]? = some o) (hc : o.func = some c) (hs : w.objs[c.self]? = some s) :
    exec eval lib (.call i x) w = match distribute w.heap x c.models c.index with
      | .error e => (w, .error e)
      | .ok h' => ({ w with heap := h' }, (eval s.graph h').map some) := by
  unfold exec
  simp only [POp.target, ho, hc, hs]
  cases distribute w.heap x c.models c.index <;> rfl

/-- Calls of the own function. -/
theorem calls_own {i : Nat} {g : Graph} {h : Heap} {ex : Extracted} (hpp : ParamsPresent g h) (he : extract [] g h = .ok ex) :
    ∀ (ys : List (List ℚ)) (w : Process), w.objs[i]? = some ⟨g, some ⟨i, ex.models, ex.index⟩⟩ → SameLocked g h w.heap →
      (execAll eval lib (ys.map (.call i)) w).objs = w.objs ∧ (execAll eval lib (ys.map (.call i)) w).next = w.next ∧
      SameLocked g h (execAll eval lib (ys.map (.call i)) w).heap
  | [], _, _, hs => ⟨rfl, rfl, hs⟩
  | y :: ys, w, ho, hs => by
    have hp1 : ParamsPresent g w.heap := fun m hm => by rw [hs.locks, hs.length]; exact hpp m hm
    have he1 : extract [] g w.heap = .ok ex := by
      obtain ⟨_, rfl⟩ := extract_eq he
      rw [extract_ok (by intro a ha; simp at ha), hs.same.slots]
      rfl
    obtain ⟨h2, hd, hs2⟩ := C23_only_unlocked_change hp1 he1 y
    have hx := exec_call (eval := eval) (lib := lib) (x := y) ho rfl ho
    simp only [hd] at hx
    obtain ⟨a, b, c⟩ := calls_own hpp he ys (exec eval lib (.call i y) w).1 (by rw [hx]; exact ho) (by rw [hx]; exact hs.trans hs2)
    simp only [List.map_cons, execAll]
    refine ⟨a.trans (by rw [hx]), b.trans (by rw [hx]), c⟩

theorem setTo_of {g : Graph} {h h1 : Heap} {ex : Extracted} (hpp : ParamsPresent g h) (hn : (componentsOf g).Nodup) (he : extract [] g h = .ok ex)
    (hs : SameLocked g h h1) {x : List ℚ} (hl : x.length = ex.models.length) :
    ∃ h', distribute h1 x ex.models ex.index = .ok h' ∧ SetTo g h x h' := by
  obtain ⟨_, rfl⟩ := extract_eq he
  simp only [List.length_map] at hl
  obtain ⟨h', d1, d2⟩ := distribute_forget hs hpp hl
  refine ⟨h', d2, ?_, ?_⟩
  · obtain ⟨h'', hd, hsl⟩ := C23_only_unlocked_change hpp he x
    simp only at hd
    rw [d1] at hd
    injection hd with hd
    rw [hd]; exact hsl
  · have hap : AttrsPresent [.parameters] g h := by
      intro a ha s hs
      rw [List.mem_singleton.1 ha, attr_params_length]
      exact params_slots hpp s hs
    obtain ⟨h'', hd, hx⟩ := C23_extract_distributed hn (extract_ok hap) (xs := x) (by simpa using hl)
    simp only at hd
    rw [d1] at hd
    injection hd with hd
    exact ⟨_, by rw [hd]; exact hx, rfl⟩

/-- **C73.** `parameters_optimize_complete` scores the graph it is given: whatever functions graph objects hold at that time, the score is that of graph `i` with its free
parameters set to the optimiser's result `x`; these are the parameters left behind, and nothing of any other graph changes. -/
theorem C73_complete {w : Process} {i : Nat} {o : GObj} (ho : w.objs[i]? = some o) {f : ModelId → PModel → PModel} {h : Heap}
    (hh : ∀ m, h m = if m ∈ componentsOf o.graph then f m (w.heap m) else w.heap m) (hpp : ParamsPresent o.graph h) (hn : (componentsOf o.graph).Nodup)
    (ys : List (List ℚ)) {x : List ℚ} (hl : ∀ ex, extract [] o.graph h = .ok ex → x.length = ex.models.length) :
    ∃ h', SetTo o.graph h x h' ∧ (optimizeComplete eval lib i f ys x w).1.heap = h' ∧
      (optimizeComplete eval lib i f ys x w).2 = (eval o.graph h').map some ∧
      ∀ j, j ≠ i → (optimizeComplete eval lib i f ys x w).1.objs[j]? = w.objs[j]? := by
  have hlt : i < w.objs.length := (List.getElem?_eq_some_iff.1 ho).1
  obtain ⟨ex, he⟩ : ∃ ex, extract [] o.graph h = .ok ex := ⟨_, extract_ok (by intro a ha; simp at ha)⟩
  have h1 : exec eval lib (.alter i f) w = ({ w with heap := h }, .ok none) := by
    unfold exec
    simp only [POp.target, ho]
    have : (fun m => if m ∈ getModels o.graph then f m (w.heap m) else w.heap m) = h := by funext m; exact (hh m).symm
    rw [this]
  have h2 : exec eval lib (.init i) { w with heap := h } =
      ({ w with heap := h, objs := w.objs.set i { o with func := some ⟨i, ex.models, ex.index⟩ } }, .ok none) := by
    unfold exec
    simp only [POp.target, ho, he]
  have ho2 : (w.objs.set i { o with func := some ⟨i, ex.models, ex.index⟩ })[i]? = some ⟨o.graph, some ⟨i, ex.models, ex.index⟩⟩ := by
    rw [List.getElem?_set_self hlt]
  obtain ⟨c1, c2, c3⟩ := calls_own (eval := eval) (lib := lib) hpp he ys
    { w with heap := h, objs := w.objs.set i { o with func := some ⟨i, ex.models, ex.index⟩ } } ho2 (SameLocked.refl _ _)
  obtain ⟨h', hd, hset⟩ := setTo_of hpp hn he c3 (hl ex he)
  refine ⟨h', hset, ?_⟩
  unfold optimizeComplete
  simp only [execAll, h1, h2]
  have hx := exec_call (eval := eval) (lib := lib) (x := x) (by rw [c1]; exact ho2) rfl (by rw [c1]; exact ho2)
  simp only [hd] at hx
  rw [hx]
  refine ⟨rfl, rfl, fun j hj => ?_⟩
  simp only [c1]
  rw [List.getElem?_set_ne (fun h => hj h.symm)]

/-- Graph object `i` as initialised, only free parameters of it having moved, and no other function about it around. -/
structure Kept (i : Nat) (g : Graph) (c : Closure) (h : Heap) (w : Process) : Prop where
  sep : Separate w
  obj : w.objs[i]? = some ⟨g, some c⟩
  sole : ∀ (j : Nat) (o : GObj) (c' : Closure), w.objs[j]? = some o → o.func = some c' → c'.self = i → c' = c
  heap : SameLocked g h (fun m => if m ∈ getModels g then w.heap m else h m)

theorem kept_call {g : Graph} {h : Heap} {ex : Extracted} (hpp : ParamsPresent g h) (he : extract [] g h = .ok ex) {hw : Heap}
    (hk : SameLocked g h (fun m => if m ∈ getModels g then hw m else h m)) (x : List ℚ) :
    ∃ h' hp', distribute hw x ex.models ex.index = .ok h' ∧
      distribute (fun m => if m ∈ getModels g then hw m else h m) x ex.models ex.index = .ok hp' ∧
      SameLocked g h hp' ∧ (∀ m ∈ getModels g, h' m = hp' m) ∧ (fun m => if m ∈ getModels g then h' m else h m) = hp' := by
  have hp1 : ParamsPresent g (fun m => if m ∈ getModels g then hw m else h m) := fun m hm => by rw [hk.locks, hk.length]; exact hpp m hm
  have he1 : extract [] g (fun m => if m ∈ getModels g then hw m else h m) = .ok ex := by
    obtain ⟨_, rfl⟩ := extract_eq he
    rw [extract_ok (by intro a ha; simp at ha), hk.same.slots]
    rfl
  obtain ⟨hp', hd, hs⟩ := C23_only_unlocked_change hp1 he1 x
  rcases distribute_agree (P := fun m => m ∈ getModels g) (xs := x) (ms := ex.models) (is := ex.index) (a := hw)
    (b := fun m => if m ∈ getModels g then hw m else h m) (extract_models_sub he) (fun m hm => by simp [hm]) with ⟨a', b', d1, d2, hab⟩ | ⟨e, _, d2⟩
  · rw [hd] at d2
    injection d2 with d2
    subst d2
    refine ⟨a', hp', d1, hd, hk.trans hs, hab, ?_⟩
    funext m
    by_cases hm : m ∈ getModels g
    · simp only [hm, if_true]; exact hab m hm
    · simp only [hm, if_false]
      rw [distribute_frame hd m (fun hc => hm (extract_models_sub he m hc))]
      simp [hm]
  · rw [hd] at d2; cases d2

theorem Kept.frame {i g c h w w'} (hk : Kept i g c h w) (sep : Separate w') (obj : w'.objs[i]? = some ⟨g, some c⟩)
    (sole : ∀ (j : Nat) (o : GObj) (c' : Closure), w'.objs[j]? = some o → o.func = some c' → c'.self = i → c' = c)
    (hh : ∀ m : Nat, m ∈ getModels g → w'.heap m = w.heap m) : Kept i g c h w' := by
  refine ⟨sep, obj, sole, ?_⟩
  have : (fun m => if m ∈ getModels g then w'.heap m else h m) = (fun m => if m ∈ getModels g then w.heap m else h m) := by
    funext m
    by_cases hm : m ∈ getModels g
    · simp only [hm, if_true]; exact hh m hm
    · simp only [hm, if_false]
  rw [this]
  exact hk.heap

theorem kept_exec {i : Nat} {g : Graph} {h : Heap} {ex : Extracted} (hpp : ParamsPresent g h) (he : extract [] g h = .ok ex) {w : Process}
    (hk : Kept i g ⟨i, ex.models, ex.index⟩ h w) {op : POp} (hop : op.Leaves i) : Kept i g ⟨i, ex.models, ex.index⟩ h (exec eval lib op w).1 := by
  have hsep := separate_exec (eval := eval) (lib := lib) hk.sep op
  unfold exec at hsep ⊢
  cases ho : w.objs[op.target]? with
  | none => exact hk
  | some o =>
    rw [ho] at hsep
    simp only at hsep ⊢
    have hlt : op.target < w.objs.length := (List.getElem?_eq_some_iff.1 ho).1
    have hilt : i < w.objs.length := (List.getElem?_eq_some_iff.1 hk.obj).1
    cases op with
    | init j =>
      simp only [POp.target, POp.Leaves] at ho hlt hop hsep ⊢
      cases hj : extract [] o.graph w.heap with
      | error e => exact hk
      | ok ex' =>
        simp only [hj] at hsep ⊢
        refine hk.frame hsep (by simp only; rw [List.getElem?_set_ne hop]; exact hk.obj) (fun k o' c' h1 h2 h3 => ?_) (fun _ _ => rfl)
        simp only at h1
        by_cases hkj : k = j
        · subst hkj
          rw [List.getElem?_set_self hlt] at h1
          have := Option.some.inj h1
          subst this
          have := Option.some.inj h2
          subst this
          exact absurd h3 hop
        · rw [List.getElem?_set_ne (fun h => hkj h.symm)] at h1
          exact hk.sole k o' c' h1 h2 h3
    | copy j =>
      simp only [POp.target] at ho hlt hsep ⊢
      refine hk.frame hsep (by simp only; rw [List.getElem?_append_left hilt]; exact hk.obj) (fun k o' c' h1 h2 h3 => ?_) (fun m hm => ?_)
      · simp only at h1
        by_cases hkl : k < w.objs.length
        · rw [List.getElem?_append_left hkl] at h1
          exact hk.sole k o' c' h1 h2 h3
        · rw [List.getElem?_append_right (by omega)] at h1
          have hk0 := (List.getElem?_eq_some_iff.1 h1).1
          simp at hk0
          have : k - w.objs.length = 0 := by omega
          rw [this] at h1
          simp only [List.getElem?_cons_zero, Option.some.injEq] at h1
          subst h1
          exact hk.sole _ o c' ho h2 h3
      · have := hk.sep.used i _ hk.obj m hm
        simp only
        rw [if_neg (by omega)]
    | evolve j eop loc d pe pn =>
      simp only [POp.target, POp.Leaves] at ho hlt hop hsep ⊢
      cases hj : applyOp lib o.graph eop loc { d with ec := { d.ec with uid := w.next }, nc := { d.nc with uid := w.next + 1 } } with
      | error e => exact hk
      | ok g' =>
        simp only [hj] at hsep ⊢
        refine hk.frame hsep (by simp only; rw [List.getElem?_set_ne hop]; exact hk.obj) (fun k o' c' h1 h2 h3 => ?_) (fun m hm => ?_)
        · simp only at h1
          by_cases hkj : k = j
          · subst hkj
            rw [List.getElem?_set_self hlt] at h1
            have := Option.some.inj h1
            subst this
            exact hk.sole k o c' ho h2 h3
          · rw [List.getElem?_set_ne (fun h => hkj h.symm)] at h1
            exact hk.sole k o' c' h1 h2 h3
        · have := hk.sep.used i _ hk.obj m hm
          simp only
          rw [if_neg (Nat.ne_of_lt this), if_neg (Nat.ne_of_lt (Nat.lt_succ_of_lt this))]
    | alter j f =>
      simp only [POp.target, POp.Leaves] at ho hlt hop hsep ⊢
      refine hk.frame hsep hk.obj hk.sole (fun m hm => ?_)
      exact if_neg (fun hc : m ∈ getModels o.graph => hop (hk.sep.disjoint j i o _ ho hk.obj m hc hm))
    | call j x =>
      simp only [POp.target] at ho hlt hsep ⊢
      cases hf : o.func with
      | none => exact hk
      | some c' =>
        simp only [hf] at hsep ⊢
        cases hs : w.objs[c'.self]? with
        | none => exact hk
        | some s =>
          simp only [hs] at hsep ⊢
          cases hd : distribute w.heap x c'.models c'.index with
          | error e => exact hk
          | ok h' =>
            simp only [hd] at hsep ⊢
            by_cases hself : c'.self = i
            · have := hk.sole j o c' ho hf hself
              subst this
              obtain ⟨h'', hp', d1, -, d3, -, d5⟩ := kept_call hpp he hk.heap x
              simp only at hd
              rw [d1] at hd
              injection hd with hd
              subst hd
              refine ⟨hsep, hk.obj, hk.sole, ?_⟩
              simp only
              rw [d5]
              exact d3
            · refine hk.frame hsep hk.obj hk.sole (fun m hm => ?_)
              simp only
              rw [distribute_frame hd m (fun hc => hself (((hk.sep.funcs j o c' ho hf).2 m hc).2 i _ hk.obj hm).symm)]

theorem kept_execAll {i : Nat} {g : Graph} {h : Heap} {ex : Extracted} (hpp : ParamsPresent g h) (he : extract [] g h = .ok ex) :
    ∀ (ops : List POp) {w : Process}, Kept i g ⟨i, ex.models, ex.index⟩ h w → (∀ op ∈ ops, op.Leaves i) → Kept i g ⟨i, ex.models, ex.index⟩ h (execAll eval lib ops w)
  | [], _, hk, _ => hk
  | op :: ops, _, hk, hops => kept_execAll hpp he ops (kept_exec hpp he hk (hops op (by simp))) (fun x hx => hops x (by simp [hx]))

/-- **C73.** After `initialize_func_grad_hess`, calling `graph.func(x)` scores that graph with its free parameters set to `x`, no matter what happened in between to other
graph objects, what copies were made, and which functions were called, provided no function from before about this graph object was still around. -/
theorem C73_own {w w1 : Process} (hsep : Separate w) (hev : OwnHeap eval) {i : Nat} {o : GObj} (ho : w.objs[i]? = some o) (hi : exec eval lib (.init i) w = (w1, .ok none))
    (hold : ∀ (j : Nat) (o' : GObj) (c : Closure), j ≠ i → w.objs[j]? = some o' → o'.func = some c → c.self ≠ i)
    (hpp : ParamsPresent o.graph w.heap) (hn : (componentsOf o.graph).Nodup) {ops : List POp} (hops : ∀ op ∈ ops, op.Leaves i) {x : List ℚ}
    (hl : ∀ ex, extract [] o.graph w.heap = .ok ex → x.length = ex.models.length) :
    ∃ h', SetTo o.graph w.heap x h' ∧ (exec eval lib (.call i x) (execAll eval lib ops w1)).2 = (eval o.graph h').map some ∧
      ∀ m ∈ componentsOf o.graph, (exec eval lib (.call i x) (execAll eval lib ops w1)).1.heap m = h' m := by
  have hlt : i < w.objs.length := (List.getElem?_eq_some_iff.1 ho).1
  obtain ⟨ex, he⟩ : ∃ ex, extract [] o.graph w.heap = .ok ex := ⟨_, extract_ok (by intro a ha; simp at ha)⟩
  have hw1 : w1 = { w with objs := w.objs.set i { o with func := some ⟨i, ex.models, ex.index⟩ } } := by
    unfold exec at hi
    simp only [POp.target, ho, he] at hi
    exact (congrArg Prod.fst hi).symm
  have hk : Kept i o.graph ⟨i, ex.models, ex.index⟩ w.heap w1 := by
    refine ⟨?_, ?_, ?_, ?_⟩
    · have := separate_exec (eval := eval) (lib := lib) hsep (.init i)
      rw [hi] at this
      exact this
    · rw [hw1]; simp only; rw [List.getElem?_set_self hlt]
    · intro j o' c h1 h2 h3
      rw [hw1] at h1
      simp only at h1
      by_cases hj : j = i
      · subst hj
        rw [List.getElem?_set_self hlt] at h1
        have := Option.some.inj h1
        subst this
        exact (Option.some.inj h2).symm
      · rw [List.getElem?_set_ne (fun h => hj h.symm)] at h1
        exact absurd h3 (hold j o' c hj h1 h2)
    · have : (fun m => if m ∈ getModels o.graph then w1.heap m else w.heap m) = w.heap := by
        funext m; rw [hw1]; simp
      rw [this]
      exact SameLocked.refl _ _
  have hk2 := kept_execAll (eval := eval) (lib := lib) hpp he ops hk hops
  obtain ⟨h', hp', d1, d2, -, d4, -⟩ := kept_call hpp he hk2.heap x
  obtain ⟨h'', d6, hset⟩ := setTo_of hpp hn he hk2.heap (hl ex he)
  rw [d2] at d6
  injection d6 with d6
  subst d6
  have hx := exec_call (eval := eval) (lib := lib) (x := x) hk2.obj rfl hk2.obj
  simp only [d1] at hx
  refine ⟨hp', hset, ?_, ?_⟩
  · rw [hx]
    simp only
    rw [hev o.graph h' hp' d4]
  · intro m hm
    rw [hx]
    exact d4 m hm

/-! ### Copies -/

/-- What a copy does to the process. -/
theorem exec_copy {w : Process} {i : Nat} {o : GObj} (ho : w.objs[i]? = some o) :
    exec eval lib (.copy i) w = ({ heap := fun m => if w.next ≤ m then w.heap (m - w.next) else w.heap m
                                   objs := w.objs ++ [{ o with graph := renameComps (fun u => w.next + u) o.graph }]
                                   next := w.next + w.next }, .ok none) := by
  unfold exec
  simp only [POp.target, ho]

theorem func_kept {w : Process} {i : Nat} {o : GObj} {op : POp} (ho : w.objs[i]? = some o) (hop : op.KeepsFunc i) :
    ∃ o', (exec eval lib op w).1.objs[i]? = some o' ∧ o'.func = o.func := by
  have hi : i < w.objs.length := (List.getElem?_eq_some_iff.1 ho).1
  unfold exec
  cases hj : w.objs[op.target]? with
  | none => exact ⟨o, ho, rfl⟩
  | some a =>
    simp only
    cases op with
    | init j =>
      simp only [POp.target, POp.KeepsFunc] at hj hop ⊢
      split
      · exact ⟨o, ho, rfl⟩
      · exact ⟨o, by simp only; rw [List.getElem?_set_ne hop]; exact ho, rfl⟩
    | copy j => exact ⟨o, by simp only; rw [List.getElem?_append_left hi]; exact ho, rfl⟩
    | evolve j eop loc d pe pn =>
      simp only [POp.target] at hj ⊢
      split
      · exact ⟨o, ho, rfl⟩
      · rename_i g' _
        by_cases hji : j = i
        · subst hji
          rw [hj] at ho
          have := Option.some.inj ho
          subst this
          exact ⟨{ a with graph := g' }, by simp only; rw [List.getElem?_set_self hi], rfl⟩
        · exact ⟨o, by simp only; rw [List.getElem?_set_ne hji]; exact ho, rfl⟩
    | alter j f => exact ⟨o, ho, rfl⟩
    | call j x =>
      simp only
      split
      · exact ⟨o, ho, rfl⟩
      · split
        · exact ⟨o, ho, rfl⟩
        · split <;> exact ⟨o, ho, rfl⟩

theorem func_keptAll {i : Nat} : ∀ (ops : List POp) {w : Process} {o : GObj}, w.objs[i]? = some o → (∀ op ∈ ops, op.KeepsFunc i) →
    ∃ o', (execAll eval lib ops w).objs[i]? = some o' ∧ o'.func = o.func
  | [], _, o, ho, _ => ⟨o, ho, rfl⟩
  | op :: ops, w, o, ho, hops => by
    obtain ⟨o1, h1, e1⟩ := func_kept (eval := eval) (lib := lib) ho (hops op (by simp))
    obtain ⟨o2, h2, e2⟩ := func_keptAll ops h1 (fun x hx => hops x (by simp [hx]))
    exact ⟨o2, h2, e2.trans e1⟩

/-- **C73.** The objective function of a deep copy is that of the original: as long as neither is re-initialised, calling one is the same as calling the other, in value and
in effect, and the copy's own parameters are never touched by it. -/
theorem C73_copy {w : Process} (hsep : Separate w) {i j : Nat} {o : GObj} (ho : w.objs[i]? = some o) (hj : j = w.objs.length) {ops : List POp}
    (hops : ∀ op ∈ ops, op.KeepsFunc i ∧ op.KeepsFunc j) (x : List ℚ) :
    exec eval lib (.call j x) (execAll eval lib (.copy i :: ops) w) = exec eval lib (.call i x) (execAll eval lib (.copy i :: ops) w) ∧
    ∀ o', (execAll eval lib (.copy i :: ops) w).objs[j]? = some o' → ∀ m ∈ componentsOf o'.graph,
      (exec eval lib (.call j x) (execAll eval lib (.copy i :: ops) w)).1.heap m = (execAll eval lib (.copy i :: ops) w).heap m := by
  have hi : i < w.objs.length := (List.getElem?_eq_some_iff.1 ho).1
  have hx := exec_copy (eval := eval) (lib := lib) ho
  have hsep1 := separate_exec (eval := eval) (lib := lib) hsep (.copy i)
  have hsep2 : Separate (execAll eval lib (.copy i :: ops) w) := separate_execAll _ hsep
  have a1 : (exec eval lib (.copy i) w).1.objs[i]? = some o := by
    rw [hx]; simp only; rw [List.getElem?_append_left hi]; exact ho
  have a2 : (exec eval lib (.copy i) w).1.objs[j]? = some { o with graph := renameComps (fun u => w.next + u) o.graph } := by
    rw [hx, hj]; simp
  obtain ⟨oi, b1, e1⟩ := func_keptAll (eval := eval) (lib := lib) ops a1 (fun op h => (hops op h).1)
  obtain ⟨oj, b2, e2⟩ := func_keptAll (eval := eval) (lib := lib) ops a2 (fun op h => (hops op h).2)
  change (execAll eval lib (.copy i :: ops) w).objs[i]? = some oi at b1
  change (execAll eval lib (.copy i :: ops) w).objs[j]? = some oj at b2
  generalize hW : execAll eval lib (.copy i :: ops) w = W at *
  simp only at e2
  constructor
  · unfold exec
    simp only [POp.target, b1, b2, e1, e2]
  · intro o' h' m hm
    rw [b2] at h'
    have := Option.some.inj h'
    subst this
    unfold exec
    simp only [POp.target, b2, e2]
    cases hf : o.func with
    | none => rfl
    | some c =>
      simp only
      cases hs : W.objs[c.self]? with
      | none => rfl
      | some s =>
        simp only
        cases hd : distribute W.heap x c.models c.index with
        | error e => rfl
        | ok h2 =>
          simp only
          refine distribute_frame hd m (fun hc => ?_)
          have hcj : j = c.self := ((hsep2.funcs j oj c b2 (by rw [e2, hf])).2 m hc).2 j oj b2 hm
          have hc0 := (hsep.funcs i o c ho hf).1
          rw [← hcj, hj] at hc0
          exact lt_irrefl _ hc0

/-- Evolution or change of graph object `j` only. -/
def POp.Reshapes (j : GraphId) : POp → Prop
  | .evolve k _ _ _ _ _ => k = j
  | .alter k _ => k = j
  | _ => False

/-- Operations on a graph object made of new components leave the older world alone. -/
theorem reshape_frame {j b : Nat} {F : Option Closure} : ∀ (ops : List POp) {W : Process} {o : GObj}, W.objs[j]? = some o → o.func = F → b ≤ W.next →
    (∀ m : Nat, m ∈ getModels o.graph → b ≤ m) → (∀ op ∈ ops, op.Reshapes j) →
    (∃ o', (execAll eval lib ops W).objs[j]? = some o' ∧ o'.func = F) ∧ (∀ k, k ≠ j → (execAll eval lib ops W).objs[k]? = W.objs[k]?) ∧
    (∀ m : Nat, m < b → (execAll eval lib ops W).heap m = W.heap m)
  | [], _, o, ho, hf, _, _, _ => ⟨⟨o, ho, hf⟩, fun _ _ => rfl, fun _ _ => rfl⟩
  | op :: ops, W, o, ho, hf, hb, hm, hops => by
    have hr := hops op (by simp)
    have hlt : j < W.objs.length := (List.getElem?_eq_some_iff.1 ho).1
    have rec_ := fun {W' : Process} {o' : GObj} (h1 : W'.objs[j]? = some o') h2 h3 h4 =>
      reshape_frame (b := b) (F := F) ops (W := W') (o := o') h1 h2 h3 h4 (fun x hx => hops x (by simp [hx]))
    cases op with
    | init k => exact hr.elim
    | copy k => exact hr.elim
    | call k x => exact hr.elim
    | alter k f =>
      have hk : k = j := hr
      subst hk
      have hx : exec eval lib (.alter k f) W = ({ W with heap := fun m => if m ∈ getModels o.graph then f m (W.heap m) else W.heap m }, .ok none) := by
        unfold exec; simp only [POp.target, ho]
      simp only [execAll, hx]
      obtain ⟨a, b1, c⟩ := rec_ (W' := { W with heap := fun m => if m ∈ getModels o.graph then f m (W.heap m) else W.heap m }) (o' := o) ho hf hb hm
      refine ⟨a, b1, fun m hmb => (c m hmb).trans ?_⟩
      exact if_neg (fun hc => Nat.not_le_of_lt hmb (hm m hc))
    | evolve k eop loc d pe pn =>
      have hk : k = j := hr
      subst hk
      cases hg : applyOp lib o.graph eop loc { d with ec := { d.ec with uid := W.next }, nc := { d.nc with uid := W.next + 1 } } with
      | error e =>
        have hx : exec eval lib (.evolve k eop loc d pe pn) W = (W, .error e) := by
          unfold exec; simp only [POp.target, ho, hg]
        simp only [execAll, hx]
        exact rec_ ho hf hb hm
      | ok g' =>
        have hx : exec eval lib (.evolve k eop loc d pe pn) W =
            ({ heap := fun m => if m = W.next then pe else if m = W.next + 1 then pn else W.heap m
               objs := W.objs.set k { o with graph := g' }
               next := W.next + 2 }, .ok none) := by
          unfold exec; simp only [POp.target, ho, hg]
        simp only [execAll, hx]
        obtain ⟨a, b1, c⟩ := rec_ (W' := ⟨fun m => if m = W.next then pe else if m = W.next + 1 then pn else W.heap m, W.objs.set k { o with graph := g' }, W.next + 2⟩) (o' := { o with graph := g' }) (by simp only; rw [List.getElem?_set_self hlt]) hf
          (by simp only; omega) (fun m hmm => by
            rcases models_applyOp hg hmm with h | h | h
            · exact hm m h
            · simp only at h; omega
            · simp only at h; omega)
        refine ⟨a, fun q hq => (b1 q hq).trans (by simp only; rw [List.getElem?_set_ne (fun h => hq h.symm)]), fun m hmb => (c m hmb).trans ?_⟩
        have h1 : m ≠ W.next := by omega
        have h2 : m ≠ W.next + 1 := by omega
        simp [h1, h2]

/-- **C73.** Evolving or otherwise changing a deep copy without re-initialising makes no difference to its objective function: every value is that of the original design. -/
theorem C73_copy_blind {w : Process} (hsep : Separate w) (hev : OwnHeap eval) {i j : Nat} {o : GObj} (ho : w.objs[i]? = some o) (hj : j = w.objs.length)
    {ops : List POp} (hops : ∀ op ∈ ops, op.Reshapes j) (x : List ℚ) :
    (exec eval lib (.call j x) (execAll eval lib (.copy i :: ops) w)).2 = (exec eval lib (.call i x) w).2 := by
  have hx := exec_copy (eval := eval) (lib := lib) ho
  have a2 : (exec eval lib (.copy i) w).1.objs[j]? = some { o with graph := renameComps (fun u => w.next + u) o.graph } := by
    rw [hx, hj]; simp
  obtain ⟨⟨oj, b1, b2⟩, b3, b4⟩ := reshape_frame (eval := eval) (lib := lib) (F := o.func) (b := w.next) ops a2 rfl (by rw [hx]; simp)
    (fun m hm => by
      rw [models_rename] at hm
      obtain ⟨u, _, rfl⟩ := List.mem_map.1 hm
      exact Nat.le_add_right _ _) hops
  change (execAll eval lib (.copy i :: ops) w).objs[j]? = some oj at b1
  change ∀ k, k ≠ j → (execAll eval lib (.copy i :: ops) w).objs[k]? = _ at b3
  change ∀ m : Nat, m < w.next → (execAll eval lib (.copy i :: ops) w).heap m = _ at b4
  generalize execAll eval lib (.copy i :: ops) w = W at *
  have hheap : ∀ m : Nat, m < w.next → W.heap m = w.heap m := by
    intro m hm
    rw [b4 m hm, hx]
    simp only
    rw [if_neg (by omega)]
  have hobj : ∀ k : Nat, k < w.objs.length → W.objs[k]? = w.objs[k]? := by
    intro k hk
    rw [b3 k (by omega), hx]
    simp only
    rw [List.getElem?_append_left hk]
  unfold exec
  simp only [POp.target, b1, b2, ho]
  cases hf : o.func with
  | none => rfl
  | some c =>
    simp only
    obtain ⟨c1, c2⟩ := hsep.funcs i o c ho hf
    rw [hobj c.self c1]
    cases hs : w.objs[c.self]? with
    | none => rfl
    | some s =>
      simp only
      rcases distribute_agree (P := fun m : Nat => m < w.next) (xs := x) (ms := c.models) (is := c.index) (a := W.heap) (b := w.heap)
        (fun m hm => (c2 m hm).1) hheap with ⟨a', b', d1, d2, hab⟩ | ⟨e, d1, d2⟩
      · simp only [d1, d2]
        rw [hev s.graph a' b' (fun m hm => hab m (hsep.used c.self s hs m hm))]
      · simp only [d1, d2]

/-! ### Stale functions -/

theorem distribute_surplus : ∀ {xs ys : List ℚ} {ms : List ModelId} {is : List Nat} {h : Heap}, xs.length = ms.length → distribute h (xs ++ ys) ms is = distribute h xs ms is
  | [], ys, [], is, h, _ => by cases ys <;> simp [distribute]
  | [], _, _ :: _, _, _, hl => by simp at hl
  | _ :: _, _, [], _, _, hl => by simp at hl
  | x :: xs, ys, m :: ms, [], h, _ => by simp [distribute]
  | x :: xs, ys, m :: ms, i :: is, h, hl => by
    simp only [List.cons_append, distribute]
    cases setParam h m i x with
    | error e => rfl
    | ok h' => exact distribute_surplus (by simpa using hl)

/-- **C73.** A function that is not renewed after the graph evolved in place is stale: it never sets a parameter of a component added since, ignores the entries of a vector beyond the
old number of parameters, and the entries of removed components have no effect. -/
theorem C73_stale {w w1 w2 : Process} (hsep : Separate w) (hev : OwnHeap eval) {i : Nat} {o o2 : GObj} (ho : w.objs[i]? = some o)
    (hpp : ParamsPresent o.graph w.heap) (h1 : exec eval lib (.init i) w = (w1, .ok none)) {op loc d pe pn}
    (h2 : exec eval lib (.evolve i op loc d pe pn) w1 = (w2, .ok none)) (ho2 : w2.objs[i]? = some o2) (x : List ℚ) :
    (∀ m : Nat, m ∈ componentsOf o2.graph → m ∉ componentsOf o.graph → (exec eval lib (.call i x) w2).1.heap m = w2.heap m) ∧
    (∀ ex y, extract [] o.graph w.heap = .ok ex → x.length = ex.models.length → exec eval lib (.call i (x ++ y)) w2 = exec eval lib (.call i x) w2) ∧
    (∀ ex (k : Nat) v m, extract [] o.graph w.heap = .ok ex → ex.models[k]? = some m → m ∉ componentsOf o2.graph →
      (exec eval lib (.call i (x.set k v)) w2).2 = (exec eval lib (.call i x) w2).2) := by
  have hlt : i < w.objs.length := (List.getElem?_eq_some_iff.1 ho).1
  obtain ⟨ex, he⟩ : ∃ ex, extract [] o.graph w.heap = .ok ex := ⟨_, extract_ok (by intro a ha; simp at ha)⟩
  have hw1 : w1 = { w with objs := w.objs.set i { o with func := some ⟨i, ex.models, ex.index⟩ } } := by
    unfold exec at h1
    simp only [POp.target, ho, he] at h1
    exact (congrArg Prod.fst h1).symm
  have ho1 : w1.objs[i]? = some ⟨o.graph, some ⟨i, ex.models, ex.index⟩⟩ := by
    rw [hw1]; simp only; rw [List.getElem?_set_self hlt]
  have hlt1 : i < w1.objs.length := (List.getElem?_eq_some_iff.1 ho1).1
  obtain ⟨g', hg', hw2⟩ : ∃ g', applyOp lib o.graph op loc { d with ec := { d.ec with uid := w1.next }, nc := { d.nc with uid := w1.next + 1 } } = .ok g' ∧
      w2 = { heap := fun m => if m = w1.next then pe else if m = w1.next + 1 then pn else w1.heap m
             objs := w1.objs.set i ⟨g', some ⟨i, ex.models, ex.index⟩⟩
             next := w1.next + 2 } := by
    unfold exec at h2
    simp only [POp.target, ho1] at h2
    split at h2
    · cases congrArg Prod.snd h2
    · rename_i g' hg'
      exact ⟨g', hg', (congrArg Prod.fst h2).symm⟩
  have ho2' : w2.objs[i]? = some ⟨g', some ⟨i, ex.models, ex.index⟩⟩ := by
    rw [hw2]; simp only; rw [List.getElem?_set_self hlt1]
  rw [ho2'] at ho2
  have := Option.some.inj ho2
  subst this
  have hcall := fun y => exec_call (eval := eval) (lib := lib) (x := y) ho2' rfl ho2'
  simp only at hcall
  have hheap : ∀ m : Nat, m ∈ getModels o.graph → w2.heap m = w.heap m := by
    intro m hm
    have hlt : m < w.next := hsep.used i o ho m hm
    have hn : w1.next = w.next := by rw [hw1]
    rw [hw2]
    simp only [hn]
    rw [if_neg (Nat.ne_of_lt hlt), if_neg (Nat.ne_of_lt (Nat.lt_succ_of_lt hlt)), hw1]
  have htot : ∀ y, ∃ h', distribute w2.heap y ex.models ex.index = .ok h' := by
    intro y
    obtain ⟨_, hex⟩ := extract_eq he
    have : ex.models = (slots w.heap (getModels o.graph)).map (·.1) ∧ ex.index = (slots w.heap (getModels o.graph)).map (·.2) := by rw [hex]; exact ⟨rfl, rfl⟩
    rw [this.1, this.2]
    exact distribute_total (fun s hs => by
      rw [hheap s.1 (mem_slots.1 (show (s.1, s.2) ∈ _ from hs)).1]
      exact params_slots hpp s hs)
  refine ⟨?_, ?_, ?_⟩
  · intro m _ hm
    obtain ⟨h', hd⟩ := htot x
    rw [hcall x, hd]
    exact distribute_frame hd m (fun hc => hm (extract_models_sub he m hc))
  · intro ex' y he' hl
    rw [he] at he'
    injection he' with he'
    subst he'
    rw [hcall, hcall, distribute_surplus hl]
  · intro ex' k v m he' hk hm
    rw [he] at he'
    injection he' with he'
    subst he'
    obtain ⟨a', hd1⟩ := htot (x.set k v)
    obtain ⟨b', hd2⟩ := htot x
    rw [hcall, hcall, hd1, hd2]
    simp only
    rw [hev g' a' b' (fun q hq => distribute_agree_vals (P := fun q => q ∈ getModels g') (by simp) (fun t q' ht hq' => ?_) (fun _ _ => rfl) hd1 hd2 q hq)]
    by_cases htk : k = t
    · subst htk
      rw [hk] at ht
      have := Option.some.inj ht
      subst this
      exact absurd hq' hm
    · rw [List.getElem?_set_ne htk]

/-! ### A case -/

namespace Func

/-- Nodes have no parameters, every other component has one free parameter, equal to its identity. -/
def heap : Heap := fun m => if m < 4 then ⟨[], [], [], [], [], [], false⟩ else ⟨[(m : ℚ)], [0], [100], [.float], [none], [false], false⟩

/-- The score is the sum of all parameters. -/
def total (g : Graph) (h : Heap) : Except Err ℚ := .ok (((componentsOf g).map (fun m => (h m).params.sum)).sum)

theorem total_own : OwnHeap total := by
  intro g h h' hm
  unfold total
  congr 2
  exact List.map_congr_left (fun m hx => by rw [hm m hx])

/-- One graph object: `Fixture.line`, not initialised. -/
def w0 : Process := ⟨heap, [⟨Fixture.line, none⟩], 8⟩

theorem w0_sep : Separate w0 where
  used := by
    intro i o h m hm
    match i, h with
    | 0, h =>
      have := Option.some.inj h
      subst this
      exact (show ∀ m ∈ componentsOf Fixture.line, m < 8 by decide) m hm
    | i + 1, h => simp [w0] at h
  disjoint := by
    intro i j o o' h h' m _ _
    match i, j, h, h' with
    | 0, 0, _, _ => rfl
    | i + 1, _, h, _ => simp [w0] at h
    | 0, j + 1, _, h' => simp [w0] at h'
  funcs := by
    intro i o c h hc
    match i, h with
    | 0, h =>
      have := Option.some.inj h
      subst this
      cases hc
    | i + 1, h => simp [w0] at h

/-- Inserting a component with parameter 50 in series on edge `(1, 2, 0)` of object `i`. -/
def grow (i : Nat) : POp := .evolve i .addSeries (.iface ⟨2, ⟨1, 2, 0⟩⟩) ⟨9, Fixture.fiber 0, Fixture.split 0⟩ ⟨[50], [0], [100], [.float], [none], [false], false⟩
  ⟨[], [], [], [], [], [], false⟩

def val (r : Process × Except Err (Option ℚ)) : Option ℚ := r.2.toOption.join

/-- The objective function of an evolved copy still scores the original (parameters 1, 1, 1: score 3), whatever is passed for the new component; renewed, it scores the copy. -/
theorem wrong_design : val (exec total Fixture.lib (.call 1 [1, 1, 1, 1]) (execAll total Fixture.lib [.init 0, .copy 0, grow 1] w0)) = some 3 ∧
    val (exec total Fixture.lib (.call 1 [1, 1, 1, 1]) (execAll total Fixture.lib [.init 0, .copy 0, grow 1, .init 1] w0)) = some 4 := by decide +kernel

/-- After evolution in place a vector of three is needed for the function, and the new component keeps its 50; renewed, it takes four. -/
example : val (exec total Fixture.lib (.call 0 [1, 1, 1, 1]) (execAll total Fixture.lib [.init 0, grow 0] w0)) = some 53 ∧
    val (exec total Fixture.lib (.call 0 [1, 1, 1, 1]) (execAll total Fixture.lib [.init 0, grow 0, .init 0] w0)) = some 4 := by decide +kernel

example : ParamsPresent Fixture.line heap ∧ (componentsOf Fixture.line).Nodup := by
  constructor
  · intro m _
    unfold heap
    split <;> simp
  · decide

example : ∃ h', SetTo Fixture.line heap [1, 2, 3] h' ∧
    (exec total Fixture.lib (.call 0 [1, 2, 3]) (execAll total Fixture.lib [.copy 0, grow 1, .call 1 [9, 9, 9], .init 1, .call 1 [7]]
      (exec total Fixture.lib (.init 0) w0).1)).2 = (total Fixture.line h').map some := by
  obtain ⟨h', a, b, -⟩ := C73_own (eval := total) (lib := Fixture.lib) w0_sep total_own (i := 0) (o := ⟨Fixture.line, none⟩) rfl (by rfl)
    (fun j o' c hj h hc => by
      match j, hj, h with
      | 0, hj, _ => exact absurd rfl hj
      | j + 1, _, h => simp [w0] at h)
    (by intro m _; simp only [w0]; unfold heap; split <;> simp) (by decide)
    (ops := [.copy 0, grow 1, .call 1 [9, 9, 9], .init 1, .call 1 [7]])
    (by simp [POp.Leaves, grow]) (x := [1, 2, 3]) (fun ex he => by
      have : extract [] Fixture.line heap = .ok ⟨[], [4, 5, 7], [0, 0, 0]⟩ := by decide +kernel
      have he' : extract [] Fixture.line heap = .ok ex := he
      rw [this] at he'
      injection he' with he'
      rw [← he']
      rfl)
  exact ⟨h', a, b⟩

/-- Cases of the other theorems: a run on the line of the fixture, the copy before and after it grows, the line after it has grown. -/
theorem line_ex (ex : Extracted) (he : extract [] Fixture.line heap = .ok ex) : ex.models.length = 3 := by
  have : extract [] Fixture.line heap = .ok ⟨[], [4, 5, 7], [0, 0, 0]⟩ := by decide +kernel
  rw [this] at he
  injection he with he
  rw [← he]
  rfl

theorem line_params : ParamsPresent Fixture.line heap := by intro m _; unfold heap; split <;> simp

example := C73_complete (eval := total) (lib := Fixture.lib) (w := w0) (i := 0) (o := ⟨Fixture.line, none⟩) rfl (f := fun _ p => p) (h := heap) (by simp [w0])
  line_params (by decide) [[9, 9, 9], [8, 8, 8]] (x := [1, 2, 3]) (fun ex he => (line_ex ex he).symm)
example := C73_copy (eval := total) (lib := Fixture.lib) w0_sep (i := 0) (j := 1) (o := ⟨Fixture.line, none⟩) rfl rfl (ops := [grow 1, .call 0 [5, 5, 5]])
  (by simp [POp.KeepsFunc, grow]) [1, 2, 3]
example := C73_copy_blind (eval := total) (lib := Fixture.lib) w0_sep total_own (i := 0) (j := 1) (o := ⟨Fixture.line, none⟩) rfl rfl (ops := [grow 1])
  (by simp [POp.Reshapes, grow]) [1, 2, 3]
example := C73_stale (eval := total) (lib := Fixture.lib) w0_sep total_own (i := 0) (o := ⟨Fixture.line, none⟩) rfl line_params
  (w1 := (exec total Fixture.lib (.init 0) w0).1) rfl (w2 := (exec total Fixture.lib (grow 0) (exec total Fixture.lib (.init 0) w0).1).1)
  (op := .addSeries) (loc := .iface ⟨2, ⟨1, 2, 0⟩⟩) (d := ⟨9, Fixture.fiber 0, Fixture.split 0⟩) (pe := ⟨[50], [0], [100], [.float], [none], [false], false⟩)
  (pn := ⟨[], [], [], [], [], [], false⟩) rfl (o2 := _) rfl [1, 1, 1]

end Func

/-- **C73.** Finding: there are runs in which the function of an evolved copy gives a value other than that of the design it belongs to. -/
theorem C73_wrong_design : ∃ (eval : Graph → Heap → Except Err ℚ) (w : Process) (j : Nat) (x : List ℚ) (a b : ℚ), OwnHeap eval ∧ Separate w ∧ a ≠ b ∧
    (exec eval Fixture.lib (.call j x) w).2 = .ok (some a) ∧ (exec eval Fixture.lib (.call j x) (exec eval Fixture.lib (.init j) w).1).2 = .ok (some b) := by
  have key : ∀ {r : Process × Except Err (Option ℚ)} {v}, Func.val r = some v → r.2 = .ok (some v) := by
    intro r v h
    unfold Func.val at h
    cases hr : r.2 with
    | error e => rw [hr] at h; simp [Except.toOption] at h
    | ok y => rw [hr] at h; simp [Except.toOption] at h; rw [h]
  exact ⟨Func.total, execAll Func.total Fixture.lib [.init 0, .copy 0, Func.grow 1] Func.w0, 1, [1, 1, 1, 1], 3, 4, Func.total_own,
    separate_execAll _ Func.w0_sep, by decide, key Func.wrong_design.1, key Func.wrong_design.2⟩

end Verif
