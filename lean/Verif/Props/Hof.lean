import Verif.Lemmas.Hof
import Mathlib.Data.Nat.Basic
/-!
# Properties of the hall of fame (C25, C26, C27)
-/

namespace Verif
variable {α G : Type} [LinearOrder α]

theorem init_pairwise (n : Nat) : (initHof n : Hof α G).Pairwise SlotLe :=
  List.pairwise_replicate.2 (Or.inr (fun t h e => by cases e))

/-- **C25.** Over any sequence of generations the hall of fame keeps its number of slots and stays in order: scored entries
first, ascending, then the empty slots. -/
theorem C25_size_and_order (n : Nat) (gens : List ((G → G → Bool) × List (α × G))) :
    (runHof (initHof n) gens).length = n ∧ HofSorted (runHof (initHof n) gens) := by
  obtain ⟨h1, h2, _⟩ := runHof_inv (gens := gens) (init_pairwise (α := α) (G := G) n)
  exact ⟨by rw [h2]; simp [initHof], hofSorted_iff.2 h1⟩

/-- **C26.** The first entry scores as well as the best individual ever offered and is one of them; so is every entry. -/
theorem C26_best_ever {n : Nat} (hn : 0 < n) (gens : List ((G → G → Bool) × List (α × G)))
    (hne : ∃ gen ∈ gens, gen.2 ≠ []) :
    (∃ s g, (runHof (initHof n) gens)[0]? = some (some (s, g)) ∧ ∀ gen ∈ gens, ∀ ind ∈ gen.2, s ≤ ind.1) ∧
    ∀ ind, some ind ∈ runHof (initHof n) gens → ∃ gen ∈ gens, ind ∈ gen.2 := by
  obtain ⟨_, _, _, h4, h5⟩ := runHof_inv (gens := gens) (init_pairwise (α := α) (G := G) n)
  have hne' : (initHof n : Hof α G) ≠ [] := by
    intro h
    have := congrArg List.length h
    simp [initHof] at this
    omega
  constructor
  · obtain ⟨gen, hg, hgne⟩ := hne
    obtain ⟨ind, hi⟩ := List.exists_mem_of_ne_nil _ hgne
    obtain ⟨s, g, hs, _⟩ := h5 hne' gen hg ind hi
    refine ⟨s, g, hs, fun gen hg ind hi => ?_⟩
    obtain ⟨s', g', hs', hle⟩ := h5 hne' gen hg ind hi
    rw [hs] at hs'
    injection hs' with hs'
    injection hs' with hs'
    injection hs' with hs' _
    rw [hs']
    exact hle
  · intro ind hi
    rcases h4 _ hi with h | ⟨gen, hg, x, hx, he⟩
    · have := List.eq_of_mem_replicate h
      cases this
    · injection he with he
      exact ⟨gen, hg, he ▸ hx⟩

/-- **C26.** From any point of a run on, no slot gets worse (a filled slot stays filled, its score never rises). -/
theorem C26_never_worse (n : Nat) (before after : List ((G → G → Bool) × List (α × G))) :
    HofNotWorse (runHof (initHof n) before) (runHof (initHof n) (before ++ after)) := by
  obtain ⟨h1, _⟩ := runHof_inv (gens := before) (init_pairwise (α := α) (G := G) n)
  rw [runHof_append]
  exact (runHof_inv (gens := after) h1).2.2.1

/-- **C27.** When nothing is inserted: the individual beats no entry, or a better-placed entry is similar to it. -/
theorem C27_rejected (sim : G → G → Bool) (hof : Hof α G) (ind : α × G)
    (h : (∀ x ∈ hof, AtMost ind.1 x) ∨
      (∃ better c rest, hof = better ++ c :: rest ∧ (∀ x ∈ better, AtMost ind.1 x) ∧ Above ind.1 c ∧
        ∃ x ∈ better, Similar sim ind.2 x)) :
    updateHof1 sim hof ind = hof := by
  rcases h with h | ⟨better, c, rest, rfl, hb, hc, x, hx, hs⟩
  · unfold updateHof1; rw [findSlot_eq_none h]
  · unfold updateHof1
    rw [findSlot_eq hb hc]
    simp only
    obtain ⟨pre, d, post, h1, h2, h3⟩ : ∃ pre d post, better = pre ++ d :: post ∧
        (∀ y ∈ pre, ¬ Similar sim ind.2 y) ∧ Similar sim ind.2 d := by
      clear hb
      induction better with
      | nil => simp at hx
      | cons b bs ih =>
        by_cases hsb : Similar sim ind.2 b
        · exact ⟨[], b, bs, rfl, by simp, hsb⟩
        · rcases List.mem_cons.1 hx with rfl | hx
          · exact absurd hs hsb
          · obtain ⟨pre, d, post, e1, e2, e3⟩ := ih hx
            refine ⟨b :: pre, d, post, by rw [e1]; rfl, fun y hy => ?_, e3⟩
            rcases List.mem_cons.1 hy with rfl | hy
            · exact hsb
            · exact e2 y hy
    rw [h1, List.append_assoc, List.cons_append, findSimilar_eq h2 h3]
    simp only
    rw [if_pos (by simp)]

/-- **C27.** When it is inserted: behind the entries that are at least as good, none of which is similar; the first similar entry
behind it is dropped, or the last slot when there is none. -/
theorem C27_inserted (sim : G → G → Bool) (better rest : Hof α G) (c) (ind : α × G) (hb : ∀ x ∈ better, AtMost ind.1 x)
    (hc : Above ind.1 c) (hs : ∀ x ∈ better, ¬ Similar sim ind.2 x) :
    (∀ mid d tail, c :: rest = mid ++ d :: tail → (∀ x ∈ mid, ¬ Similar sim ind.2 x) → Similar sim ind.2 d →
      updateHof1 sim (better ++ c :: rest) ind = better ++ some ind :: (mid ++ tail)) ∧
    ((∀ x ∈ c :: rest, ¬ Similar sim ind.2 x) →
      updateHof1 sim (better ++ c :: rest) ind = better ++ some ind :: (c :: rest).dropLast) := by
  constructor
  · intro mid d tail he hm hd
    unfold updateHof1
    rw [findSlot_eq hb hc]
    simp only
    rw [he, ← List.append_assoc, findSimilar_eq (fun x hx => by
      rcases List.mem_append.1 hx with hx | hx
      · exact hs x hx
      · exact hm x hx) hd, List.append_assoc]
    simp only
    rw [if_neg (by simp), Nat.zero_add, Nat.zero_add, List.length_append]
    exact replaceSlot_eq better mid d tail ind
  · intro hm
    unfold updateHof1
    rw [findSlot_eq hb hc, findSimilar_eq_none (fun x hx => by
      rcases List.mem_append.1 hx with hx | hx
      · exact hs x hx
      · exact hm x hx)]
    simp only
    have he : c :: rest = (c :: rest).dropLast ++ [(c :: rest).getLast (by simp)] :=
      (List.dropLast_append_getLast _).symm
    have := replaceSlot_eq better (c :: rest).dropLast ((c :: rest).getLast (by simp)) [] ind
    rw [← he, List.append_nil] at this
    rw [Nat.zero_add, ← this]
    congr 1
    simp

/-- **C27.** The three cases cover everything. -/
theorem C27_exhaustive (sim : G → G → Bool) (hof : Hof α G) (ind : α × G) :
    (∀ x ∈ hof, AtMost ind.1 x) ∨ ∃ better c rest, hof = better ++ c :: rest ∧ (∀ x ∈ better, AtMost ind.1 x) ∧
      Above ind.1 c ∧ ((∃ x ∈ better, Similar sim ind.2 x) ∨ (∀ x ∈ better, ¬ Similar sim ind.2 x)) := by
  cases hj : findSlot ind.1 hof 0 with
  | none => exact Or.inl (findSlot_none hj)
  | some j =>
    obtain ⟨better, c, rest, h1, _, h3, h4⟩ := findSlot_some hj
    refine Or.inr ⟨better, c, rest, h1, h3, h4, ?_⟩
    by_cases h : ∃ x ∈ better, Similar sim ind.2 x
    · exact Or.inl h
    · exact Or.inr (fun x hx hs => h ⟨x, hx, hs⟩)

/-- Similarity used in the examples: numbers closer than 5. -/
def near (a b : Nat) : Bool := decide (a < b + 5) && decide (b < a + 5)

/-- **C27.** Finding: entries of the hall of fame can be similar to one another.  Graph 12 is similar to both 10 and 15; only the
first of them is dropped, and 12 and 15 stay side by side. -/
theorem C27_similar_pair_possible : ∃ gens : List ((Nat → Nat → Bool) × List (Nat × Nat)),
    runHof (initHof 3) gens = [some (1, 12), some (3, 15), none] ∧ near 12 15 = true ∧
      ∀ gen ∈ gens, gen.1 = near :=
  ⟨[(near, [(2, 10), (3, 15)]), (near, [(1, 12)])], by decide, by decide, by simp⟩

/-- Three generations with a better similar one, a worse similar one and a new one. -/
example : runHof (initHof 3 : Hof Nat Nat) [(near, [(7, 10), (9, 20)]), (near, [(8, 11), (5, 21)]), (near, [(6, 40), (1, 60)])]
    = [some (1, 60), some (5, 21), some (6, 40)] := by decide

/-! Cases of the theorems above. -/

example := C25_size_and_order (α := Nat) 3 [(near, [(7, 10), (9, 20)]), (near, [(8, 11), (5, 21)])]
example := C26_best_ever (α := Nat) (n := 3) (by decide) [(near, [(7, 10), (9, 20)]), (near, [(8, 11), (5, 21)])] ⟨_, List.mem_cons_self, by simp⟩
example := C26_never_worse (α := Nat) 3 [(near, [(7, 10), (9, 20)])] [(near, [(8, 11), (5, 21)])]
example : updateHof1 near [some (5, 21), some (7, 10), none] (6, 22) = [some (5, 21), some (7, 10), none] :=
  C27_rejected near _ _ (.inr ⟨[some (5, 21)], some (7, 10), [none], rfl, by simp [AtMost], by simp [Above], some (5, 21), by simp, by simp [Similar, near]⟩)
example : updateHof1 near [some (5, 21), some (7, 10), none] (6, 50) = [some (5, 21), some (6, 50), some (7, 10)] :=
  (C27_inserted near [some (5, 21)] [none] (some (7, 10)) (6, 50) (by simp [AtMost]) (by simp [Above]) (by simp [Similar, near])).2 (by simp [Similar, near])
example := C27_exhaustive near ([some (5, 21), some (7, 10), none] : Hof Nat Nat) (6, 22)

end Verif
