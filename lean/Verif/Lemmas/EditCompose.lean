import Verif.Props.Distance
/-! # One edit after another (used for C107) -/

namespace Verif
open Graph

section
variable {α : Type} [DecidableEq α]

/-- The pair of `l` that begins with `y`. -/
def firstAt (l : List (α × α)) (y : α) : Option (α × α) := l.find? (fun q => q.1 = y)

/-- The correspondences of `l₁` followed by those of `l₂`. -/
def followed (l₁ l₂ : List (α × α)) : List (α × α) := l₁.filterMap (fun p => (firstAt l₂ p.2).map (fun q => (p.1, q.2)))

/-- The pairs of `l₂` that are used. -/
def usedBy (l₁ l₂ : List (α × α)) : List (α × α) := l₁.filterMap (fun p => firstAt l₂ p.2)

theorem firstAt_some {l : List (α × α)} {y : α} {q : α × α} (h : firstAt l y = some q) : q ∈ l ∧ q.1 = y :=
  ⟨List.mem_of_find?_eq_some h, by simpa using List.find?_some h⟩

theorem firstAt_eq {l : List (α × α)} (hn : (l.map (·.1)).Nodup) {q : α × α} (h : q ∈ l) : firstAt l q.1 = some q := by
  induction l with
  | nil => cases h
  | cons a l ih =>
    rw [List.map_cons, List.nodup_cons] at hn
    unfold firstAt
    rcases List.mem_cons.1 h with rfl | h
    · simp
    · have : a.1 ≠ q.1 := fun e => hn.1 (e ▸ List.mem_map_of_mem h)
      rw [List.find?_cons_of_neg (by simpa using this)]
      exact ih hn.2 h

theorem firstAt_none {l : List (α × α)} {y : α} (h : firstAt l y = none) : y ∉ l.map (·.1) := by
  intro hy
  obtain ⟨q, hq, rfl⟩ := List.mem_map.1 hy
  have := List.find?_eq_none.1 h q hq
  simp at this

theorem mem_followed {l₁ l₂ : List (α × α)} {r : α × α} (h : r ∈ followed l₁ l₂) :
    ∃ p ∈ l₁, ∃ q ∈ l₂, p.2 = q.1 ∧ r = (p.1, q.2) := by
  obtain ⟨p, hp, hr⟩ := List.mem_filterMap.1 h
  obtain ⟨q, hq, rfl⟩ := Option.map_eq_some_iff.1 hr
  obtain ⟨h1, h2⟩ := firstAt_some hq
  exact ⟨p, hp, q, h1, h2.symm, rfl⟩

theorem followed_mem {l₁ l₂ : List (α × α)} (hn : (l₂.map (·.1)).Nodup) {p q : α × α} (hp : p ∈ l₁) (hq : q ∈ l₂) (e : p.2 = q.1) :
    (p.1, q.2) ∈ followed l₁ l₂ := by
  refine List.mem_filterMap.2 ⟨p, hp, ?_⟩
  rw [e, firstAt_eq hn hq]
  rfl

theorem followed_fst {l₁ l₂ : List (α × α)} : ((followed l₁ l₂).map (·.1)).Sublist (l₁.map (·.1)) := by
  induction l₁ with
  | nil => simp [followed]
  | cons p l ih =>
    unfold followed at ih ⊢
    rw [List.filterMap_cons]
    cases h : firstAt l₂ p.2 with
    | none => simpa using ih.cons _
    | some q => simpa using ih.cons_cons p.1

theorem usedBy_fst {l₁ l₂ : List (α × α)} : ((usedBy l₁ l₂).map (·.1)).Sublist (l₁.map (·.2)) := by
  induction l₁ with
  | nil => simp [usedBy]
  | cons p l ih =>
    unfold usedBy at ih ⊢
    rw [List.filterMap_cons]
    cases h : firstAt l₂ p.2 with
    | none => simpa using ih.cons _
    | some q =>
      have := (firstAt_some h).2
      simpa [this] using ih.cons_cons p.2

theorem usedBy_nodup {l₁ l₂ : List (α × α)} (hn : (l₁.map (·.2)).Nodup) : (usedBy l₁ l₂).Nodup :=
  List.Nodup.of_map _ (usedBy_fst.nodup hn)

theorem usedBy_subset {l₁ l₂ : List (α × α)} : usedBy l₁ l₂ ⊆ l₂ := by
  intro q hq
  obtain ⟨p, -, h⟩ := List.mem_filterMap.1 hq
  exact (firstAt_some h).1

theorem followed_snd (l₁ l₂ : List (α × α)) : (followed l₁ l₂).map (·.2) = (usedBy l₁ l₂).map (·.2) := by
  induction l₁ with
  | nil => rfl
  | cons p l ih =>
    unfold followed usedBy at ih ⊢
    rw [List.filterMap_cons, List.filterMap_cons]
    cases h : firstAt l₂ p.2 with
    | none => simpa using ih
    | some q => simpa using ih

theorem followed_snd_nodup {l₁ l₂ : List (α × α)} (hn : (l₁.map (·.2)).Nodup) (h2 : (l₂.map (·.2)).Nodup) :
    ((followed l₁ l₂).map (·.2)).Nodup := by
  rw [followed_snd]
  refine List.Nodup.map_on ?_ (usedBy_nodup hn)
  intro x hx y hy e
  exact List.inj_on_of_nodup_map h2 (usedBy_subset hx) (usedBy_subset hy) e

theorem followed_cost {c : α → α → ℚ} (h0 : ∀ x y, 0 ≤ c x y) (ht : ∀ x y z, c x z ≤ c x y + c y z) {l₁ l₂ : List (α × α)}
    (hn : (l₁.map (·.2)).Nodup) :
    ((followed l₁ l₂).map (fun p => c p.1 p.2)).sum ≤ (l₁.map (fun p => c p.1 p.2)).sum + (l₂.map (fun p => c p.1 p.2)).sum := by
  have key : ((followed l₁ l₂).map (fun p => c p.1 p.2)).sum ≤
      (l₁.map (fun p => c p.1 p.2)).sum + ((usedBy l₁ l₂).map (fun p => c p.1 p.2)).sum := by
    clear hn
    induction l₁ with
    | nil => simp [followed, usedBy]
    | cons p l ih =>
      unfold followed usedBy at ih ⊢
      rw [List.filterMap_cons, List.filterMap_cons]
      cases h : firstAt l₂ p.2 with
      | none =>
        simp only [Option.map_none, List.map_cons, List.sum_cons]
        have := h0 p.1 p.2
        linarith
      | some q =>
        simp only [Option.map_some, List.map_cons, List.sum_cons]
        have := ht p.1 q.1 q.2
        rw [(firstAt_some h).2] at this ⊢
        linarith
  have sub : ((usedBy l₁ l₂).map (fun p => c p.1 p.2)).sum ≤ (l₂.map (fun p => c p.1 p.2)).sum := by
    obtain ⟨l, hl, hs⟩ := List.subperm_of_subset (usedBy_nodup (l₂ := l₂) hn) usedBy_subset
    rw [← (hl.map _).sum_eq]
    refine List.Sublist.sum_le_sum (hs.map _) ?_
    intro x hx
    obtain ⟨y, -, rfl⟩ := List.mem_map.1 hx
    exact h0 _ _
  linarith

theorem followed_length {l₁ l₂ : List (α × α)} {h : List α} (hn : (l₁.map (·.2)).Nodup) (hn2 : (l₂.map (·.1)).Nodup)
    (s1 : ∀ p ∈ l₁, p.2 ∈ h) (s2 : ∀ q ∈ l₂, q.1 ∈ h) : l₁.length + l₂.length ≤ h.length + (followed l₁ l₂).length := by
  have e1 : (followed l₁ l₂).length + ((l₁.map (·.2)).filter (fun y => y ∉ l₂.map (·.1))).length = l₁.length := by
    clear hn s1
    induction l₁ with
    | nil => simp [followed]
    | cons p l ih =>
      unfold followed at ih ⊢
      rw [List.filterMap_cons, List.map_cons]
      cases hf : firstAt l₂ p.2 with
      | none =>
        rw [List.filter_cons_of_pos (by simpa using firstAt_none hf)]
        simp only [Option.map_none, List.length_cons]
        omega
      | some q =>
        have : p.2 ∈ l₂.map (·.1) := by
          have := firstAt_some hf
          exact List.mem_map.2 ⟨q, this.1, this.2⟩
        rw [List.filter_cons_of_neg (by simpa using this)]
        simp only [Option.map_some, List.length_cons]
        omega
  have e2 : ((l₁.map (·.2)).filter (fun y => y ∉ l₂.map (·.1)) ++ l₂.map (·.1)).length ≤ h.length := by
    refine (List.subperm_of_subset (List.Nodup.append (hn.filter _) hn2 ?_) ?_).length_le
    · intro x hx hx2
      simp only [List.mem_filter, decide_eq_true_eq] at hx
      exact hx.2 hx2
    · intro x hx
      rcases List.mem_append.1 hx with hx | hx
      · obtain ⟨p, hp, rfl⟩ := List.mem_map.1 (List.mem_of_mem_filter hx)
        exact s1 p hp
      · obtain ⟨p, hp, rfl⟩ := List.mem_map.1 hx
        exact s2 p hp
  rw [List.length_append, List.length_map] at e2
  omega

end

/-- One edit after another. -/
def EditMap.andThen (m m' : EditMap) : EditMap := ⟨followed m.nodes m'.nodes, followed m.edges m'.edges⟩

theorem EditMap.Valid.andThen {m m' : EditMap} {g h k : Graph} (hh : h.WF) (hm : m.Valid g h) (hm' : m'.Valid h k) : (m.andThen m').Valid g k where
  n1 := followed_fst.nodup hm.n1
  n2 := followed_snd_nodup hm.n2 hm'.n2
  e1 := followed_fst.nodup hm.e1
  e2 := followed_snd_nodup hm.e2 hm'.e2
  sn1 := by
    intro r hr
    obtain ⟨p, hp, q, hq, -, rfl⟩ := mem_followed hr
    exact hm.sn1 p hp
  sn2 := by
    intro r hr
    obtain ⟨p, hp, q, hq, -, rfl⟩ := mem_followed hr
    exact hm'.sn2 q hq
  se1 := by
    intro r hr
    obtain ⟨p, hp, q, hq, -, rfl⟩ := mem_followed hr
    exact hm.se1 p hp
  se2 := by
    intro r hr
    obtain ⟨p, hp, q, hq, -, rfl⟩ := mem_followed hr
    exact hm'.se2 q hq
  ends := by
    intro r hr
    obtain ⟨p, hp, q, hq, e, rfl⟩ := mem_followed hr
    obtain ⟨⟨x, hx, hx1, hx2⟩, y, hy, hy1, hy2⟩ := hm.ends p hp
    obtain ⟨⟨x', hx', hx1', hx2'⟩, y', hy', hy1', hy2'⟩ := hm'.ends q hq
    have inj := fun {u v : Node} (hu : u ∈ h.nodes) (hv : v ∈ h.nodes) (e : u.id = v.id) => List.inj_on_of_nodup_map hh.ids_nodup hu hv e
    refine ⟨⟨_, followed_mem hm'.n1 hx hx' (inj (hm.sn2 _ hx) (hm'.sn1 _ hx') ?_), hx1, hx2'⟩,
      _, followed_mem hm'.n1 hy hy' (inj (hm.sn2 _ hy) (hm'.sn1 _ hy') ?_), hy1, hy2'⟩
    · rw [hx2, hx1', e]
    · rw [hy2, hy1', e]

theorem nodeMatch_triangle (x y z : Node) : nodeMatch x z ≤ nodeMatch x y + nodeMatch y z := by
  unfold nodeMatch
  by_cases h1 : x.comp.cls = y.comp.cls
  · by_cases h2 : y.comp.cls = z.comp.cls
    · simp [h1, h2]
    · simp [h1, h2]
  · split_ifs <;> norm_num

theorem edgeMatch_triangle (x y z : Edge) : edgeMatch x z ≤ edgeMatch x y + edgeMatch y z := by
  unfold edgeMatch
  by_cases h1 : x.comp.cls = y.comp.cls
  · by_cases h2 : y.comp.cls = z.comp.cls
    · simp [h1, h2]
    · simp [h1, h2]
  · split_ifs <;> norm_num

theorem andThen_cost {m m' : EditMap} {g h k : Graph} (hm : m.Valid g h) (hm' : m'.Valid h k) :
    (m.andThen m').cost nodeMatch edgeMatch g k ≤ m.cost nodeMatch edgeMatch g h + m'.cost nodeMatch edgeMatch h k := by
  have a1 := followed_cost nodeMatch_nonneg nodeMatch_triangle (l₂ := m'.nodes) hm.n2
  have a2 := followed_cost edgeMatch_nonneg edgeMatch_triangle (l₂ := m'.edges) hm.e2
  have b1 := followed_length hm.n2 hm'.n1 hm.sn2 hm'.sn1
  have b2 := followed_length hm.e2 hm'.e1 hm.se2 hm'.se1
  have c1 : (m.nodes.length : ℚ) + m'.nodes.length ≤ h.nodes.length + (followed m.nodes m'.nodes).length := by exact_mod_cast b1
  have c2 : (m.edges.length : ℚ) + m'.edges.length ≤ h.edges.length + (followed m.edges m'.edges).length := by exact_mod_cast b2
  unfold EditMap.cost EditMap.andThen
  dsimp only
  linarith

end Verif
