import Verif.Model.Layout
import Verif.Spec.Layout
import Verif.Lemmas.Topo
/-! # Lemmas about the layout -/

namespace Verif
open Graph

variable {g : Graph}

theorem Graph.Walk.append {u v w n m} (h : g.Walk u v n) (h' : g.Walk v w m) : g.Walk u w (n + m) := by
  induction h' with
  | nil => exact h
  | snoc _ ha ih => exact ih.snoc ha

theorem Graph.Walk.split {u w n} (h : g.Walk u w n) : ∀ k, k ≤ n → ∃ x, g.Walk u x k ∧ g.Walk x w (n - k) := by
  induction h with
  | nil =>
    intro k hk
    have : k = 0 := by omega
    subst this
    exact ⟨u, .nil, .nil⟩
  | @snoc v w n hv ha ih =>
    intro k hk
    by_cases hkn : k = n + 1
    · subst hkn
      exact ⟨w, hv.snoc ha, by rw [Nat.sub_self]; exact .nil⟩
    · obtain ⟨x, h1, h2⟩ := ih k (by omega)
      refine ⟨x, h1, ?_⟩
      rw [show n + 1 - k = n - k + 1 by omega]
      exact h2.snoc ha

theorem Graph.Walk.reach {u v n} (h : g.Walk u v n) : g.Reach u v := by
  induction h with
  | nil => exact .refl
  | snoc _ ha ih => exact ih.tail ha

theorem Graph.Reach.walk {u v} (h : g.Reach u v) : ∃ n, g.Walk u v n := by
  induction h with
  | refl => exact ⟨0, .nil⟩
  | tail _ ha ih => obtain ⟨n, hn⟩ := ih; exact ⟨n + 1, hn.snoc ha⟩

theorem Graph.Walk.pos {u v n} (h : g.Walk u v n) (hne : u ≠ v) : 0 < n := by
  cases h with
  | nil => exact absurd rfl hne
  | snoc _ _ => omega

theorem Graph.Walk.idx {order} (ho : g.IsTopo order) {u v n} (h : g.Walk u v n) :
    order.idxOf u + n ≤ order.idxOf v := by
  induction h with
  | nil => omega
  | snoc _ ha ih =>
    obtain ⟨e, he, h1, h2⟩ := ha
    have := ho.forward e he
    rw [h1, h2] at this
    omega

theorem Graph.Walk.mem (hw : g.WF) {u v n} (h : g.Walk u v n) (hu : u ∈ g.ids) : v ∈ g.ids := by
  cases h with
  | nil => exact hu
  | snoc _ ha => obtain ⟨e, he, _, rfl⟩ := ha; exact hw.dst_mem e he

theorem longest_exists {order} (ho : g.IsTopo order) {u v} (h : g.Reach u v) : ∃ n, g.IsLongest u v n := by
  obtain ⟨n, hn⟩ := Graph.Reach.walk h
  have hb : ∀ d n, g.Walk u v n → order.idxOf v ≤ n + d → ∃ n, g.IsLongest u v n := by
    intro d
    induction d with
    | zero =>
      intro n hn hd
      exact ⟨n, hn, fun m hm => by have := hm.idx ho; omega⟩
    | succ d ih =>
      intro n hn hd
      by_cases hc : ∃ m, g.Walk u v m ∧ n < m
      · obtain ⟨m, hm, hlt⟩ := hc
        exact ih m hm (by omega)
      · exact ⟨n, hn, fun m hm => by by_contra h; exact hc ⟨m, hm, by omega⟩⟩
  exact hb _ n hn (Nat.le_add_left _ _)

theorem Graph.IsLongest.unique {u v n m} (h : g.IsLongest u v n) (h' : g.IsLongest u v m) : n = m :=
  Nat.le_antisymm (h'.2 _ h.1) (h.2 _ h'.1)

/-- Prefixes of longest walks are longest. -/
theorem Graph.IsLongest.prefix {u v n k} (h : g.IsLongest u v n) (hk : k ≤ n) :
    ∃ x, g.IsLongest u x k ∧ g.Walk x v (n - k) := by
  obtain ⟨x, h1, h2⟩ := h.1.split k hk
  refine ⟨x, ⟨h1, fun m hm => ?_⟩, h2⟩
  have := h.2 _ (hm.append h2)
  omega

theorem mem_sucSet {u v} : v ∈ sucSet g u ↔ g.Adj u v := by
  unfold sucSet Graph.Adj outEdges
  simp [and_assoc]

theorem isAncestor_iff {i j} : isAncestor g j i = true ↔ j ≠ i ∧ g.Reach j i := by
  unfold isAncestor
  rw [Bool.and_eq_true, decide_eq_true_iff, hasPath_iff]

/-- Loop invariant: everything of level `< row` is placed, `cur` is the level `row`. -/
structure LInv (g : Graph) (s : NodeId) (x : LayoutState) : Prop where
  cur : ∀ v, v ∈ x.cur ↔ g.IsLongest s v x.row
  rem : ∀ v, v ∈ x.rem ↔ ∃ n, g.IsLongest s v n ∧ x.row ≤ n
  pos : ∀ v n, x.pos v = some n ↔ g.IsLongest s v n ∧ n < x.row

theorem LInv.step {s order} (ho : g.IsTopo order) {x : LayoutState} (h : LInv g s x) : LInv g s (layoutStep g x) := by
  have hnext : ∀ v, v ∈ x.cur.biUnion (sucSet g) ↔ ∃ u, g.IsLongest s u x.row ∧ g.Adj u v := by
    intro v
    simp only [Finset.mem_biUnion, mem_sucSet, h.cur]
  have hlev : ∀ v, g.IsLongest s v (x.row + 1) → v ∈ x.cur.biUnion (sucSet g) := by
    intro v hv
    obtain ⟨u, h1, h2⟩ := hv.prefix (k := x.row) (by omega)
    rw [show x.row + 1 - x.row = 0 + 1 by omega] at h2
    refine (hnext v).2 ⟨u, h1, ?_⟩
    cases h2 with
    | snoc h3 ha => cases h3; exact ha
  refine ⟨fun v => ?_, fun v => ?_, fun v n => ?_⟩
  · -- the next row is the next level
    show v ∈ (x.cur.biUnion (sucSet g)) \ _ ↔ g.IsLongest s v (x.row + 1)
    rw [Finset.mem_sdiff, Finset.mem_filter]
    constructor
    · rintro ⟨h1, h2⟩
      obtain ⟨u, hu, ha⟩ := (hnext v).1 h1
      have hwalk := hu.1.snoc ha
      obtain ⟨n, hn⟩ := longest_exists ho hwalk.reach
      have hge := hn.2 _ hwalk
      by_cases heq : n = x.row + 1
      · rw [← heq]; exact hn
      · obtain ⟨y, hy, hyv⟩ := hn.prefix (k := x.row + 1) hge
        exfalso
        refine h2 ⟨h1, y, hlev y hy, isAncestor_iff.2 ⟨?_, hyv.reach⟩⟩
        rintro rfl
        exact heq (hn.unique hy)
    · intro hv
      refine ⟨hlev v hv, ?_⟩
      rintro ⟨_, j, hj, hanc⟩
      obtain ⟨hne, hr⟩ := isAncestor_iff.1 hanc
      obtain ⟨u, hu, ha⟩ := (hnext j).1 hj
      obtain ⟨m, hm⟩ := Graph.Reach.walk hr
      have := hm.pos hne
      have := hv.2 _ ((hu.1.snoc ha).append hm)
      omega
  · show v ∈ x.rem \ x.cur ↔ ∃ n, g.IsLongest s v n ∧ x.row + 1 ≤ n
    rw [Finset.mem_sdiff, h.rem, h.cur]
    constructor
    · rintro ⟨⟨n, h1, h2⟩, h3⟩
      refine ⟨n, h1, ?_⟩
      rcases Nat.lt_or_ge x.row n with h | h
      · exact h
      · exact absurd (by rw [show x.row = n by omega]; exact h1) h3
    · rintro ⟨n, h1, h2⟩
      refine ⟨⟨n, h1, by omega⟩, fun h3 => ?_⟩
      have := h1.unique h3
      omega
  · show (if v ∈ x.cur then some x.row else x.pos v) = some n ↔ g.IsLongest s v n ∧ n < x.row + 1
    split
    · rename_i hc
      have hc := (h.cur v).1 hc
      constructor
      · intro he
        injection he with he
        subst he
        exact ⟨hc, by omega⟩
      · rintro ⟨h1, _⟩
        rw [h1.unique hc]
    · rename_i hc
      rw [h.pos]
      constructor
      · rintro ⟨h1, h2⟩; exact ⟨h1, by omega⟩
      · rintro ⟨h1, h2⟩
        refine ⟨h1, ?_⟩
        by_contra hlt
        have : n = x.row := by omega
        subst this
        exact hc ((h.cur v).2 h1)

theorem layoutLoop_spec {s order} (ho : g.IsTopo order) {N : Nat} (hN : ∀ v n, g.IsLongest s v n → n < N) :
    ∀ {fuel x}, LInv g s x → N ≤ fuel + x.row → ∃ pos, layoutLoop g fuel x = some pos ∧
      ∀ v n, pos v = some n ↔ g.IsLongest s v n := by
  have hdone : ∀ x, LInv g s x → x.rem.card = 0 → ∀ v n, x.pos v = some n ↔ g.IsLongest s v n := by
    intro x hx hc v n
    rw [Finset.card_eq_zero] at hc
    rw [hx.pos]
    refine ⟨fun h => h.1, fun h => ⟨h, ?_⟩⟩
    by_contra hlt
    have := (hx.rem v).2 ⟨n, h, by omega⟩
    rw [hc] at this
    simp at this
  intro fuel
  induction fuel with
  | zero =>
    intro x hx hle
    have hc : x.rem.card = 0 := by
      rw [Finset.card_eq_zero, Finset.eq_empty_iff_forall_notMem]
      intro v hv
      obtain ⟨n, h1, h2⟩ := (hx.rem v).1 hv
      have := hN v n h1
      omega
    exact ⟨x.pos, by unfold layoutLoop; rw [if_pos hc], hdone x hx hc⟩
  | succ fuel ih =>
    intro x hx hle
    unfold layoutLoop
    by_cases hc : x.rem.card = 0
    · exact ⟨x.pos, by rw [if_pos hc], hdone x hx hc⟩
    · obtain ⟨pos, h1, h2⟩ := ih (hx.step ho) (by show N ≤ fuel + (x.row + 1); omega)
      exact ⟨pos, by rw [if_neg hc]; exact h1, h2⟩

/-- A node that cannot be reached from the first one stays in `nodes_remaining`. -/
theorem layoutLoop_stuck {s v} (hv : ¬ g.Reach s v) : ∀ {fuel} {x : LayoutState}, (∀ u ∈ x.cur, g.Reach s u) →
    v ∈ x.rem → layoutLoop g fuel x = none := by
  have hne : ∀ x : LayoutState, v ∈ x.rem → x.rem.card ≠ 0 := fun x h => by
    rw [Ne, Finset.card_eq_zero]; rintro he; rw [he] at h; simp at h
  intro fuel
  induction fuel with
  | zero => intro x _ hr; unfold layoutLoop; rw [if_neg (hne x hr)]
  | succ fuel ih =>
    intro x hc hr
    unfold layoutLoop
    rw [if_neg (hne x hr)]
    refine ih (fun u hu => ?_) ?_
    · have := (Finset.mem_sdiff.1 hu).1
      obtain ⟨w, hw, hwu⟩ := Finset.mem_biUnion.1 this
      exact (hc w hw).tail (mem_sucSet.1 hwu)
    · exact Finset.mem_sdiff.2 ⟨hr, fun h => hv (hc v h)⟩

end Verif
