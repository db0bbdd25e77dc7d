import Verif.Spec.Hof
import Mathlib.Data.List.Basic
/-! # Lemmas about the hall of fame -/

namespace Verif
variable {α G : Type} [LinearOrder α]

theorem findSlot_none {s : α} : ∀ {hof : Hof α G} {j}, findSlot s hof j = none → ∀ x ∈ hof, AtMost s x
  | [], _, _ => by simp
  | none :: _, j, h => by simp [findSlot] at h
  | some (t, g) :: rest, j, h => by
    unfold findSlot at h
    split at h
    · cases h
    · rename_i hlt
      intro x hx
      rcases List.mem_cons.1 hx with rfl | hx
      · exact ⟨t, g, rfl, not_lt.1 hlt⟩
      · exact findSlot_none h x hx

theorem findSlot_some {s : α} : ∀ {hof : Hof α G} {i j}, findSlot s hof i = some j →
    ∃ better c rest, hof = better ++ c :: rest ∧ j = i + better.length ∧ (∀ x ∈ better, AtMost s x) ∧ Above s c
  | [], _, _, h => by simp [findSlot] at h
  | none :: rest, i, j, h => by
    simp only [findSlot, Option.some.injEq] at h
    exact ⟨[], none, rest, rfl, by simp [h], by simp, fun t h e => by cases e⟩
  | some (t, g) :: rest, i, j, h => by
    unfold findSlot at h
    split at h
    · rename_i hlt
      injection h with h
      exact ⟨[], _, rest, rfl, by simp [h], by simp, fun t' h' e => by injection e with e; injection e with e1 _; rw [← e1]; exact hlt⟩
    · rename_i hlt
      obtain ⟨better, c, rest', h1, h2, h3, h4⟩ := findSlot_some h
      refine ⟨some (t, g) :: better, c, rest', by rw [h1]; rfl, by simp [h2]; omega, ?_, h4⟩
      intro x hx
      rcases List.mem_cons.1 hx with rfl | hx
      · exact ⟨t, g, rfl, not_lt.1 hlt⟩
      · exact h3 x hx

theorem findSlot_eq {s : α} : ∀ {better : Hof α G} {c rest i}, (∀ x ∈ better, AtMost s x) → Above s c →
    findSlot s (better ++ c :: rest) i = some (i + better.length)
  | [], none, rest, i, _, _ => by simp [findSlot]
  | [], some (t, g), rest, i, _, hc => by simp [findSlot, hc t g rfl]
  | x :: better, c, rest, i, hb, hc => by
    obtain ⟨t, g, rfl, ht⟩ := hb x (by simp)
    have := findSlot_eq (better := better) (rest := rest) (i := i + 1) (fun y hy => hb y (by simp [hy])) hc
    simp only [List.cons_append, findSlot, not_lt.2 ht, if_false, this, List.length_cons]
    congr 1; omega

theorem findSlot_eq_none {s : α} : ∀ {hof : Hof α G} {i}, (∀ x ∈ hof, AtMost s x) → findSlot s hof i = none
  | [], _, _ => rfl
  | x :: hof, i, hb => by
    obtain ⟨t, g, rfl, ht⟩ := hb x (by simp)
    simp only [findSlot, not_lt.2 ht, if_false]
    exact findSlot_eq_none (fun y hy => hb y (by simp [hy]))

omit [LinearOrder α] in
theorem findSimilar_none {sim : G → G → Bool} {g : G} : ∀ {hof : Hof α G} {k}, findSimilar sim g hof k = none →
    ∀ x ∈ hof, ¬ Similar sim g x
  | [], _, _ => by simp
  | none :: rest, k, h => by
    intro x hx
    rcases List.mem_cons.1 hx with rfl | hx
    · rintro ⟨t, h, e, _⟩; cases e
    · exact findSimilar_none (hof := rest) (k := k + 1) (by simpa [findSimilar] using h) x hx
  | some (t, h') :: rest, k, h => by
    unfold findSimilar at h
    split at h
    · cases h
    · rename_i hs
      intro x hx
      rcases List.mem_cons.1 hx with rfl | hx
      · rintro ⟨t', h'', e, hs'⟩
        injection e with e; injection e with _ e
        exact hs (e ▸ hs')
      · exact findSimilar_none h x hx

omit [LinearOrder α] in
theorem findSimilar_some {sim : G → G → Bool} {g : G} : ∀ {hof : Hof α G} {i k}, findSimilar sim g hof i = some k →
    ∃ pre d post, hof = pre ++ d :: post ∧ k = i + pre.length ∧ (∀ x ∈ pre, ¬ Similar sim g x) ∧ Similar sim g d
  | [], _, _, h => by simp [findSimilar] at h
  | none :: rest, i, k, h => by
    obtain ⟨pre, d, post, h1, h2, h3, h4⟩ := findSimilar_some (hof := rest) (by simpa [findSimilar] using h)
    refine ⟨none :: pre, d, post, by rw [h1]; rfl, by simp [h2]; omega, ?_, h4⟩
    intro x hx
    rcases List.mem_cons.1 hx with rfl | hx
    · rintro ⟨t, h, e, _⟩; cases e
    · exact h3 x hx
  | some (t, h') :: rest, i, k, h => by
    unfold findSimilar at h
    split at h
    · rename_i hs
      injection h with h
      exact ⟨[], _, rest, rfl, by simp [h], by simp, ⟨t, h', rfl, hs⟩⟩
    · rename_i hs
      obtain ⟨pre, d, post, h1, h2, h3, h4⟩ := findSimilar_some h
      refine ⟨some (t, h') :: pre, d, post, by rw [h1]; rfl, by simp [h2]; omega, ?_, h4⟩
      intro x hx
      rcases List.mem_cons.1 hx with rfl | hx
      · rintro ⟨t', h'', e, hs'⟩
        injection e with e; injection e with _ e
        exact hs (e ▸ hs')
      · exact h3 x hx

omit [LinearOrder α] in
theorem findSimilar_eq {sim : G → G → Bool} {g : G} : ∀ {pre : Hof α G} {d post i}, (∀ x ∈ pre, ¬ Similar sim g x) →
    Similar sim g d → findSimilar sim g (pre ++ d :: post) i = some (i + pre.length)
  | [], d, post, i, _, ⟨t, h, e, hs⟩ => by subst e; simp [findSimilar, hs]
  | none :: pre, d, post, i, hp, hd => by
    have := findSimilar_eq (pre := pre) (post := post) (i := i + 1) (fun y hy => hp y (by simp [hy])) hd
    simp only [List.cons_append, findSimilar, this, List.length_cons]
    congr 1; omega
  | some (t, h) :: pre, d, post, i, hp, hd => by
    have := findSimilar_eq (pre := pre) (post := post) (i := i + 1) (fun y hy => hp y (by simp [hy])) hd
    have hns : sim g h ≠ true := fun hs => hp _ (by simp) ⟨t, h, rfl, hs⟩
    simp only [List.cons_append, findSimilar, hns, this, List.length_cons]
    simp only [Bool.false_eq_true, if_false]
    congr 1; omega

omit [LinearOrder α] in
theorem findSimilar_eq_none {sim : G → G → Bool} {g : G} : ∀ {hof : Hof α G} {i}, (∀ x ∈ hof, ¬ Similar sim g x) →
    findSimilar sim g hof i = none
  | [], _, _ => rfl
  | none :: rest, i, hp => by
    simp only [findSimilar]
    exact findSimilar_eq_none (fun y hy => hp y (by simp [hy]))
  | some (t, h) :: rest, i, hp => by
    have hns : sim g h ≠ true := fun hs => hp _ (by simp) ⟨t, h, rfl, hs⟩
    simp only [findSimilar, hns]
    simp only [Bool.false_eq_true, if_false]
    exact findSimilar_eq_none (fun y hy => hp y (by simp [hy]))

theorem filterMap_some_id {β : Type} (l : List β) : (l.map some).filterMap id = l := by
  induction l with
  | nil => rfl
  | cons x xs ih => simp

omit [LinearOrder α] in
theorem replaceSlot_eq (better mid : Hof α G) (d) (tail : Hof α G) (new : α × G) :
    replaceSlot (better ++ (mid ++ d :: tail)) better.length (better.length + mid.length) new =
      better ++ some new :: (mid ++ tail) := by
  unfold replaceSlot
  simp only
  have h1 : ((better ++ (mid ++ d :: tail)).map some).set (better.length + mid.length) none =
      better.map some ++ (mid.map some ++ (none : Option (HofEntry α G)) :: tail.map some) := by
    rw [List.map_append, List.map_append, List.map_cons, List.set_append_right _ _ (by simp),
      List.length_map, Nat.add_sub_cancel_left, List.set_append_right _ _ (by simp), List.length_map, Nat.sub_self]
    rfl
  rw [h1]
  have h2 : (better.map some ++ (mid.map some ++ (none : Option (HofEntry α G)) :: tail.map some)).insertIdx better.length
      (some (some new)) = better.map some ++ some (some new) :: (mid.map some ++ none :: tail.map some) := by
    have : better.length = (better.map (some : HofEntry α G → _)).length := by simp
    rw [this]
    generalize (better.map (some : HofEntry α G → _)) = l
    induction l with
    | nil => simp
    | cons x xs ih => simpa using ih
  rw [h2]
  have h3 : better.map some ++ some (some new) :: (mid.map some ++ (none : Option (HofEntry α G)) :: tail.map some) =
      (better ++ some new :: mid).map some ++ none :: tail.map some := by simp
  rw [h3]
  have h4 : ∀ l : Hof α G, ((l.map some) ++ (none : Option (HofEntry α G)) :: tail.map some).findIdx (fun x => x.isNone)
      = l.length := by
    intro l
    induction l with
    | nil => simp [List.findIdx_cons]
    | cons x xs ih =>
      rw [List.map_cons, List.cons_append, List.findIdx_cons, ih]
      simp
  rw [h4, List.eraseIdx_append_of_length_le (by simp), List.length_map, Nat.sub_self, List.eraseIdx_cons_zero,
    ← List.map_append, filterMap_some_id]
  simp

/-- One update, in all its cases. -/
theorem updateHof1_cases (sim : G → G → Bool) (hof : Hof α G) (ind : α × G) :
    updateHof1 sim hof ind = hof ∧ ((∀ x ∈ hof, AtMost ind.1 x) ∨ ∃ x ∈ hof, AtMost ind.1 x ∧ Similar sim ind.2 x) ∨
    ∃ better mid d tail, hof = better ++ (mid ++ d :: tail) ∧ (∀ x ∈ better, AtMost ind.1 x) ∧
      (∀ x ∈ better, ¬ Similar sim ind.2 x) ∧ (∀ x ∈ mid, ¬ Similar sim ind.2 x) ∧
      (∀ x, (mid ++ d :: tail)[0]? = some x → Above ind.1 x) ∧
      (Similar sim ind.2 d ∨ tail = [] ∧ ¬ Similar sim ind.2 d) ∧
      updateHof1 sim hof ind = better ++ some ind :: (mid ++ tail) := by
  unfold updateHof1
  cases hj : findSlot ind.1 hof 0 with
  | none => exact Or.inl ⟨rfl, Or.inl (findSlot_none hj)⟩
  | some j =>
    obtain ⟨better, c, rest, h1, h2, h3, h4⟩ := findSlot_some hj
    rw [Nat.zero_add] at h2
    simp only
    cases hk : findSimilar sim ind.2 hof 0 with
    | none =>
      right
      have hns := findSimilar_none hk
      have hlast : ∃ mid d, c :: rest = mid ++ [d] := ⟨(c :: rest).dropLast, (c :: rest).getLast (by simp), (List.dropLast_append_getLast _).symm⟩
      obtain ⟨mid, d, hmd⟩ := hlast
      have hof_eq : hof = better ++ (mid ++ d :: []) := by rw [h1, hmd]
      refine ⟨better, mid, d, [], hof_eq, h3, fun x hx => hns x (by rw [h1]; simp [hx]),
        fun x hx => hns x (by rw [hof_eq]; simp [hx]), ?_, Or.inr ⟨rfl, hns d (by rw [hof_eq]; simp)⟩, ?_⟩
      · intro x hx
        rw [← hmd] at hx
        simp only [List.getElem?_cons_zero, Option.some.injEq] at hx
        subst hx
        exact h4
      · simp only
        have : hof.length - 1 = better.length + mid.length := by rw [hof_eq]; simp
        rw [this, hof_eq, h2]
        exact replaceSlot_eq better mid d [] ind
    | some k =>
      obtain ⟨pre, d, post, g1, g2, g3, g4⟩ := findSimilar_some hk
      rw [Nat.zero_add] at g2
      simp only
      by_cases hkj : k < j
      · rw [if_pos hkj]
        left
        refine ⟨rfl, Or.inr ⟨d, by rw [g1]; simp, h3 d ?_, g4⟩⟩
        have hget : hof[k]? = some d := by rw [g1, g2]; simp
        rw [h1, List.getElem?_append_left (by omega)] at hget
        exact List.mem_of_getElem? hget
      · rw [if_neg hkj]
        right
        have hlen : better.length ≤ pre.length := by omega
        have hpre : pre = better ++ (pre.drop better.length) := by
          have hp : better <+: pre ++ d :: post := by rw [← g1, h1]; exact List.prefix_append _ _
          have hp' : better <+: pre := List.prefix_of_prefix_length_le hp (List.prefix_append _ _) hlen
          obtain ⟨t, rfl⟩ := hp'
          simp
        set mid := pre.drop better.length with hmid
        have hof_eq : hof = better ++ (mid ++ d :: post) := by rw [g1, hpre]; simp
        have hrest : c :: rest = mid ++ d :: post := by
          have := h1.symm.trans hof_eq
          exact List.append_cancel_left this
        refine ⟨better, mid, d, post, hof_eq, h3, fun x hx => g3 x (by rw [hpre]; simp [hx]),
          fun x hx => g3 x (by rw [hpre]; simp [hx]), ?_, Or.inl g4, ?_⟩
        · intro x hx
          rw [← hrest] at hx
          simp only [List.getElem?_cons_zero, Option.some.injEq] at hx
          subst hx
          exact h4
        · have hk' : k = better.length + mid.length := by rw [g2, hpre]; simp
          rw [hk', h2, hof_eq]
          exact replaceSlot_eq better mid d post ind


/-- Slot `x` may stand before slot `y`. -/
def SlotLe (x y : HofEntry α G) : Prop := ∀ t h, y = some (t, h) → ∃ t' h', x = some (t', h') ∧ t' ≤ t

theorem hofSorted_iff {hof : Hof α G} : HofSorted hof ↔ hof.Pairwise SlotLe := by
  constructor
  · rintro ⟨es, n, rfl, hp⟩
    rw [List.pairwise_append]
    refine ⟨?_, ?_, ?_⟩
    · rw [List.pairwise_map]
      refine hp.imp (fun {a b} hab t h e => ?_)
      injection e with e
      exact ⟨a.1, a.2, rfl, by rw [e] at hab; exact hab⟩
    · rw [List.pairwise_replicate]
      exact Or.inr (fun t h e => by cases e)
    · intro a _ b hb t h e
      rw [List.eq_of_mem_replicate hb] at e
      cases e
  · intro hp
    induction hof with
    | nil => exact ⟨[], 0, rfl, List.Pairwise.nil⟩
    | cons x xs ih =>
      obtain ⟨h1, h2⟩ := List.pairwise_cons.1 hp
      obtain ⟨es, n, rfl, h3⟩ := ih h2
      cases x with
      | none =>
        have : es = [] := by
          cases es with
          | nil => rfl
          | cons e es =>
            obtain ⟨_, _, hc, _⟩ := h1 (some e) (by simp) e.1 e.2 rfl
            cases hc
        subst this
        exact ⟨[], n + 1, by simp [List.replicate_succ], List.Pairwise.nil⟩
      | some e =>
        refine ⟨e :: es, n, by simp, List.pairwise_cons.2 ⟨fun e' he' => ?_, h3⟩⟩
        obtain ⟨t', h', hc, hle⟩ := h1 (some e') (by simp [he']) e'.1 e'.2 rfl
        injection hc with hc
        rw [hc]
        exact hle

theorem updateHof1_sorted {sim : G → G → Bool} {hof : Hof α G} {ind : α × G} (hs : hof.Pairwise SlotLe) :
    (updateHof1 sim hof ind).Pairwise SlotLe ∧ (updateHof1 sim hof ind).length = hof.length ∧
    HofNotWorse hof (updateHof1 sim hof ind) ∧
    (∀ x, x ∈ updateHof1 sim hof ind → x ∈ hof ∨ x = some ind) ∧
    (hof ≠ [] → ∃ t h, (updateHof1 sim hof ind)[0]? = some (some (t, h)) ∧ t ≤ ind.1) := by
  rcases updateHof1_cases sim hof ind with ⟨h, hc⟩ | ⟨better, mid, d, tail, h1, h2, h3, h4, h5, h6, h⟩
  · rw [h]
    refine ⟨hs, rfl, fun i t g hg => ⟨t, g, hg, le_refl _⟩, fun x hx => Or.inl hx, fun hne => ?_⟩
    cases hof with
    | nil => exact absurd rfl hne
    | cons y ys =>
      rcases hc with hc | ⟨x, hx, ⟨t, g, rfl, ht⟩, _⟩
      · obtain ⟨t, g, rfl, ht⟩ := hc y (by simp)
        exact ⟨t, g, rfl, ht⟩
      · rcases List.mem_cons.1 hx with rfl | hx
        · exact ⟨t, g, rfl, ht⟩
        · obtain ⟨t', g', rfl, ht'⟩ := (List.pairwise_cons.1 hs).1 _ hx t g rfl
          exact ⟨t', g', rfl, le_trans ht' ht⟩
  · rw [h]
    rw [h1] at hs
    obtain ⟨hs1, hs2, hs3⟩ := List.pairwise_append.1 hs
    have hsub : (mid ++ tail).Sublist (mid ++ d :: tail) :=
      (List.Sublist.refl _).append (List.sublist_cons_self _ _)
    have habove : ∀ y ∈ mid ++ d :: tail, ∀ t g, y = some (t, g) → ind.1 < t := by
      intro y hy t g e
      cases hm : mid ++ d :: tail with
      | nil => rw [hm] at hy; simp at hy
      | cons c cs =>
        rw [hm] at hy hs2
        have hc := h5 c (by rw [hm]; rfl)
        rcases List.mem_cons.1 hy with rfl | hy
        · exact hc t g e
        · obtain ⟨t', g', hc', hle⟩ := (List.pairwise_cons.1 hs2).1 y hy t g e
          exact lt_of_lt_of_le (hc t' g' hc') hle
    refine ⟨?_, ?_, ?_, ?_, ?_⟩
    · rw [List.pairwise_append]
      refine ⟨hs1, List.pairwise_cons.2 ⟨?_, hs2.sublist hsub⟩, ?_⟩
      · intro y hy t g e
        exact ⟨ind.1, ind.2, rfl, le_of_lt (habove y (hsub.subset hy) t g e)⟩
      · intro a ha y hy
        rcases List.mem_cons.1 hy with rfl | hy
        · intro t g e
          injection e with e
          obtain ⟨t', g', rfl, hle⟩ := h2 a ha
          exact ⟨t', g', rfl, by rw [e] at hle; exact hle⟩
        · exact hs3 a ha y (hsub.subset hy)
    · rw [h1]; simp; omega
    · intro i t g hg
      rw [h1] at hg
      by_cases hi : i < better.length
      · rw [List.getElem?_append_left hi] at hg ⊢
        exact ⟨t, g, hg, le_refl _⟩
      · rw [List.getElem?_append_right (by omega)] at hg ⊢
        cases hm : i - better.length with
        | zero =>
          rw [hm] at hg
          refine ⟨ind.1, ind.2, rfl, ?_⟩
          exact le_of_lt (habove _ (List.mem_of_getElem? hg) t g rfl)
        | succ m =>
          rw [hm] at hg
          rw [List.getElem?_cons_succ]
          by_cases hmid : m < mid.length
          · have e1 : (mid ++ d :: tail)[m]? = some (mid[m]) := by
              rw [List.getElem?_append_left hmid]; exact List.getElem?_eq_getElem hmid
            have e2 : (mid ++ tail)[m]? = some (mid[m]) := by
              rw [List.getElem?_append_left hmid]; exact List.getElem?_eq_getElem hmid
            rw [e2]
            have hR : SlotLe mid[m] (some (t, g)) := by
              obtain ⟨b1, b2⟩ := List.getElem?_eq_some_iff.1 hg
              obtain ⟨a1, a2⟩ := List.getElem?_eq_some_iff.1 e1
              rw [← b2, ← a2]
              exact List.pairwise_iff_getElem.1 hs2 m (m + 1) a1 b1 (by omega)
            obtain ⟨t', g', hx, hle⟩ := hR t g rfl
            exact ⟨t', g', by rw [hx], hle⟩
          · rw [List.getElem?_append_right (by omega)] at hg ⊢
            rw [show m + 1 - mid.length = (m - mid.length) + 1 by omega, List.getElem?_cons_succ] at hg
            exact ⟨t, g, hg, le_refl _⟩
    · intro x hx
      rcases List.mem_append.1 hx with hx | hx
      · exact Or.inl (by rw [h1]; simp [hx])
      · rcases List.mem_cons.1 hx with rfl | hx
        · exact Or.inr rfl
        · exact Or.inl (by rw [h1]; exact List.mem_append.2 (Or.inr (hsub.subset hx)))
    · intro _
      cases better with
      | nil => exact ⟨ind.1, ind.2, rfl, le_refl _⟩
      | cons b bs =>
        obtain ⟨t, g, rfl, ht⟩ := h2 b (by simp)
        exact ⟨t, g, rfl, ht⟩

theorem HofNotWorse.trans {a b c : Hof α G} (h : HofNotWorse a b) (h' : HofNotWorse b c) : HofNotWorse a c := by
  intro i t g hg
  obtain ⟨t1, g1, h1, l1⟩ := h i t g hg
  obtain ⟨t2, g2, h2, l2⟩ := h' i t1 g1 h1
  exact ⟨t2, g2, h2, le_trans l2 l1⟩

theorem updateHof_inv {sim : G → G → Bool} : ∀ {pop : List (α × G)} {hof : Hof α G}, hof.Pairwise SlotLe →
    (updateHof sim hof pop).Pairwise SlotLe ∧ (updateHof sim hof pop).length = hof.length ∧
    HofNotWorse hof (updateHof sim hof pop) ∧
    (∀ x, x ∈ updateHof sim hof pop → x ∈ hof ∨ ∃ ind ∈ pop, x = some ind) ∧
    (hof ≠ [] → ∀ ind ∈ pop, ∃ t h, (updateHof sim hof pop)[0]? = some (some (t, h)) ∧ t ≤ ind.1)
  | [], hof, hs => ⟨hs, rfl, fun i t g hg => ⟨t, g, hg, le_refl _⟩, fun x hx => Or.inl hx, fun _ ind hi => by simp at hi⟩
  | ind :: pop, hof, hs => by
    obtain ⟨a1, a2, a3, a4, a5⟩ := updateHof1_sorted (sim := sim) (ind := ind) hs
    obtain ⟨b1, b2, b3, b4, b5⟩ := updateHof_inv (sim := sim) (pop := pop) a1
    unfold updateHof
    refine ⟨b1, b2.trans a2, a3.trans b3, fun x hx => ?_, fun hne x hx => ?_⟩
    · rcases b4 x hx with h | ⟨i, hi, rfl⟩
      · rcases a4 x h with h | rfl
        · exact Or.inl h
        · exact Or.inr ⟨ind, by simp, rfl⟩
      · exact Or.inr ⟨i, by simp [hi], rfl⟩
    · rcases List.mem_cons.1 hx with rfl | hx
      · obtain ⟨t, g, hg, hle⟩ := a5 hne
        obtain ⟨t', g', hg', hle'⟩ := b3 0 t g hg
        exact ⟨t', g', hg', le_trans hle' hle⟩
      · exact b5 (fun h => hne (List.length_eq_zero_iff.1 (by rw [← a2, h]; rfl))) x hx

theorem runHof_inv : ∀ {gens : List ((G → G → Bool) × List (α × G))} {hof : Hof α G}, hof.Pairwise SlotLe →
    (runHof hof gens).Pairwise SlotLe ∧ (runHof hof gens).length = hof.length ∧
    HofNotWorse hof (runHof hof gens) ∧
    (∀ x, x ∈ runHof hof gens → x ∈ hof ∨ ∃ gen ∈ gens, ∃ ind ∈ gen.2, x = some ind) ∧
    (hof ≠ [] → ∀ gen ∈ gens, ∀ ind ∈ gen.2, ∃ t h, (runHof hof gens)[0]? = some (some (t, h)) ∧ t ≤ ind.1)
  | [], hof, hs => ⟨hs, rfl, fun i t g hg => ⟨t, g, hg, le_refl _⟩, fun x hx => Or.inl hx, fun _ gen hg => by simp at hg⟩
  | (sim, pop) :: gens, hof, hs => by
    obtain ⟨a1, a2, a3, a4, a5⟩ := updateHof_inv (sim := sim) (pop := pop) hs
    obtain ⟨b1, b2, b3, b4, b5⟩ := runHof_inv (gens := gens) a1
    unfold runHof
    refine ⟨b1, b2.trans a2, a3.trans b3, fun x hx => ?_, fun hne gen hg x hx => ?_⟩
    · rcases b4 x hx with h | ⟨gen, hg, i, hi, rfl⟩
      · rcases a4 x h with h | ⟨i, hi, rfl⟩
        · exact Or.inl h
        · exact Or.inr ⟨(sim, pop), by simp, i, hi, rfl⟩
      · exact Or.inr ⟨gen, by simp [hg], i, hi, rfl⟩
    · rcases List.mem_cons.1 hg with rfl | hg
      · obtain ⟨t, g, hg, hle⟩ := a5 hne x hx
        obtain ⟨t', g', hg', hle'⟩ := b3 0 t g hg
        exact ⟨t', g', hg', le_trans hle' hle⟩
      · exact b5 (fun h => hne (List.length_eq_zero_iff.1 (by rw [← a2, h]; rfl))) gen hg x hx

theorem runHof_append (hof : Hof α G) (a b) : runHof hof (a ++ b) = runHof (runHof hof a) b := by
  induction a generalizing hof with
  | nil => rfl
  | cons x xs ih => obtain ⟨sim, pop⟩ := x; exact ih _

end Verif
