import Verif.Spec.Logger
import Mathlib.Data.Rat.Cast.Order
import Mathlib.Data.List.Induction
import Mathlib.Data.Nat.Cast.Basic
import Mathlib.Tactic.FieldSimp
import Mathlib.Tactic.Ring
/-! # Properties of the optimisation log (C42) -/

namespace Verif

section
variable {K : Type} [Field K] [LinearOrder K] [IsStrictOrderedRing K]

omit [IsStrictOrderedRing K] in
theorem logAll_append (l : Logger K) (xs ys : List K) : l.logAll (xs ++ ys) = match l.logAll xs with | .error e => .error e | .ok l' => l'.logAll ys := by
  induction xs generalizing l with
  | nil => rfl
  | cons x xs ih =>
    simp only [List.cons_append, Logger.logAll]
    cases l.log x with
    | error e => rfl
    | ok l' => exact ih l'

omit [Field K] [IsStrictOrderedRing K] [LinearOrder K] in
theorem gen_snoc (n : Nat) (hn : 0 < n) (ss : List K) (s : K) (r : Nat) :
    genScores n (ss ++ [s]) r = if r = ss.length / n then genScores n ss r ++ [s] else genScores n ss r := by
  unfold genScores
  have hdm := Nat.div_add_mod ss.length n
  have hm := Nat.mod_lt ss.length hn
  by_cases hr : r = ss.length / n
  · rw [if_pos hr]
    have h1 : r * n ≤ ss.length := by rw [hr]; exact Nat.div_mul_le_self _ _
    have h2 : (ss.drop (r * n)).length < n := by
      rw [List.length_drop, hr, mul_comm]
      omega
    rw [List.drop_append_of_le_length h1, List.take_of_length_le (by rw [List.length_append, List.length_singleton]; exact h2), List.take_of_length_le h2.le]
  · rw [if_neg hr]
    by_cases hlt : r < ss.length / n
    · have h1 : (r + 1) * n ≤ ss.length := le_trans (Nat.mul_le_mul_right n hlt) (Nat.div_mul_le_self _ _)
      rw [add_mul, one_mul] at h1
      rw [List.drop_append_of_le_length (by omega), List.take_append_of_le_length (by rw [List.length_drop]; omega)]
    · have h1 : ss.length / n + 1 ≤ r := by omega
      have h2 := Nat.mul_le_mul_right n h1
      rw [add_mul, one_mul, mul_comm] at h2
      rw [List.drop_of_length_le (by rw [List.length_append]; simp; omega), List.drop_of_length_le (by omega)]

omit [Field K] [IsStrictOrderedRing K] [LinearOrder K] in
theorem gen_length (n : Nat) (hn : 0 < n) (ss : List K) : (genScores n ss (ss.length / n)).length = ss.length % n := by
  unfold genScores
  have hdm := Nat.div_add_mod ss.length n
  have hm := Nat.mod_lt ss.length hn
  rw [List.length_take, List.length_drop, mul_comm]
  omega

/-- State after scores `ss` have been logged. -/
structure LogInv (l0 l : Logger K) (a : String) (n : Nat) (ss : List K) : Prop where
  started : l.started = true
  alg : l.alg = some a
  pop : l.pop = some n
  number : l.logNumber = ss.length
  offset : l.rowOffset = l0.rowOffset
  scores : l.scores = genScores n ss (ss.length / n) ++ List.replicate (n - ss.length % n) 0
  rows : ∀ r, r * n < ss.length → ∃ row, l.rows (l0.rowOffset + r) = some row ∧ RightRow a n ss r row
  before : ∀ i, i < l0.rowOffset → l.rows i = l0.rows i
  after : ∀ r, ss.length ≤ r * n → l.rows (l0.rowOffset + r) = l0.rows (l0.rowOffset + r)

theorem log_inv {l0 l : Logger K} {a : String} {n : Nat} (hn : 0 < n) {ss : List K} (I : LogInv l0 l a n ss) (s : K) :
    ∃ l', l.log s = .ok l' ∧ LogInv l0 l' a n (ss ++ [s]) := by
  obtain ⟨m, rfl⟩ : ∃ m, n = m + 1 := ⟨n - 1, by omega⟩
  generalize hq : ss.length / (m + 1) = q
  generalize hk : ss.length % (m + 1) = k
  have hdm : (m + 1) * q + k = ss.length := by rw [← hq, ← hk]; exact Nat.div_add_mod _ _
  have hkm : k < m + 1 := by rw [← hk]; exact Nat.mod_lt _ (by omega)
  have hgl : (genScores (m + 1) ss q).length = k := by rw [← hq, ← hk]; exact gen_length _ (by omega) ss
  have hsc : l.scores = genScores (m + 1) ss q ++ List.replicate (m + 1 - k) 0 := by rw [I.scores, hq, hk]
  have hset : l.scores.set k s = genScores (m + 1) ss q ++ [s] ++ List.replicate (m - k) 0 := by
    rw [hsc, List.set_append_right _ _ (by omega), hgl, Nat.sub_self, show m + 1 - k = (m - k) + 1 by omega, List.replicate_succ]
    simp
  have hsl : l.scores.length = m + 1 := by rw [hsc, List.length_append, List.length_replicate, hgl]; omega
  have hlog : l.log s = .ok { l with
      rows := fun i => if i = l0.rowOffset + q then some ⟨a, q, m + 1, extreme min (k = 0) s ((l.rows (l0.rowOffset + q)).map (·.minimum)),
        meanOf (l.scores.set k s), extreme max (k = 0) s ((l.rows (l0.rowOffset + q)).map (·.maximum)), varOf (l.scores.set k s)⟩ else l.rows i
      logNumber := ss.length + 1
      scores := if (ss.length + 1) % (m + 1) = 0 then List.replicate (m + 1) 0 else l.scores.set k s } := by
    unfold Logger.log
    simp only [I.pop, I.number, hk, hq, I.started, I.alg, I.offset, Bool.not_true, Bool.false_eq_true, if_false, Option.getD_some]
    rw [if_neg (by omega)]
  refine ⟨_, hlog, ?_⟩
  have hgq : genScores (m + 1) (ss ++ [s]) q = genScores (m + 1) ss q ++ [s] := by rw [gen_snoc _ (by omega), hq, if_pos rfl]
  have hgr : ∀ r, r ≠ q → genScores (m + 1) (ss ++ [s]) r = genScores (m + 1) ss r := fun r hr => by
    rw [gen_snoc _ (by omega), hq, if_neg hr]
  have hn0 : ((m + 1 : Nat) : K) ≠ 0 := by exact_mod_cast Nat.succ_ne_zero m
  refine ⟨I.started, I.alg, I.pop, by simp, I.offset, ?_, ?_, ?_, ?_⟩
  · -- scores
    dsimp only
    rw [List.length_append, List.length_singleton]
    by_cases hend : (ss.length + 1) % (m + 1) = 0
    · have hk' : k = m := by
        rw [← hdm, add_assoc, Nat.mul_add_mod] at hend
        by_contra hne
        rw [Nat.mod_eq_of_lt (by omega)] at hend
        omega
      have hq' : (ss.length + 1) / (m + 1) = q + 1 := by
        rw [← hdm, hk', add_assoc, Nat.mul_add_div (by omega), Nat.div_self (by omega)]
      rw [if_pos hend, hend, hq', hgr _ (by omega)]
      have : genScores (m + 1) ss (q + 1) = [] := by
        unfold genScores
        rw [List.drop_of_length_le (by rw [add_mul, one_mul, mul_comm]; omega), List.take_nil]
      rw [this]
      simp
    · have hk' : k + 1 < m + 1 := by
        by_contra hne
        apply hend
        have : k = m := by omega
        rw [← hdm, this, add_assoc, Nat.mul_add_mod, Nat.mod_self]
      have hq' : (ss.length + 1) / (m + 1) = q := by
        rw [← hdm, add_assoc, Nat.mul_add_div (by omega), Nat.div_eq_of_lt hk', add_zero]
      have hm' : (ss.length + 1) % (m + 1) = k + 1 := by
        rw [← hdm, add_assoc, Nat.mul_add_mod, Nat.mod_eq_of_lt hk']
      rw [if_neg hend, hq', hm', hgq, hset, show m + 1 - (k + 1) = m - k by omega]
  · -- rows
    intro r hr
    rw [List.length_append, List.length_singleton] at hr
    dsimp only
    by_cases hrq : r = q
    · subst hrq
      rw [if_pos rfl]
      refine ⟨_, rfl, ?_⟩
      have hlen : (l.scores.set k s).length = m + 1 := by rw [List.length_set, hsl]
      have hmean : meanOf (l.scores.set k s) * ((m + 1 : Nat) : K) = (genScores (m + 1) ss r ++ [s]).sum := by
        unfold meanOf
        rw [hlen, div_mul_cancel₀ _ hn0, hset, List.sum_append (l₁ := _ ++ [s]), List.sum_replicate, nsmul_eq_mul, mul_zero, add_zero]
      have hvar : varOf (l.scores.set k s) * ((m + 1 : Nat) : K) = ((genScores (m + 1) ss r ++ [s]).map (fun x => (x - meanOf (l.scores.set k s)) ^ 2)).sum +
          ((m + 1 - (genScores (m + 1) ss r ++ [s]).length : Nat) : K) * meanOf (l.scores.set k s) ^ 2 := by
        unfold varOf
        rw [hlen, div_mul_cancel₀ _ hn0]
        generalize meanOf (l.scores.set k s) = μ
        rw [hset, List.map_append (l₁ := _ ++ [s]), List.sum_append (l₁ := List.map _ (_ ++ [s])), List.map_replicate, List.sum_replicate, List.length_append,
          List.length_singleton, hgl, nsmul_eq_mul, show m + 1 - (k + 1) = m - k by omega]
        ring
      -- the row before
      have hext : ∀ (f : K → K → K) (proj : LogRow K → K), k ≠ 0 → ∃ row, l.rows (l0.rowOffset + r) = some row ∧ RightRow a (m + 1) ss r row ∧
          extreme f (k = 0) s ((l.rows (l0.rowOffset + r)).map proj) = f s (proj row) := by
        intro f proj hk0
        obtain ⟨row, h1, h2⟩ := I.rows r (by rw [mul_comm]; omega)
        refine ⟨row, h1, h2, ?_⟩
        unfold extreme
        simp [hk0, h1]
      have hnil : k = 0 → genScores (m + 1) ss r = [] := fun h => List.length_eq_zero_iff.1 (by rw [hgl, h])
      have hfresh : ∀ (f : K → K → K) (x : Option K), k = 0 → extreme f (k = 0) s x = s := by
        intro f x h0
        simp [extreme, h0]
      refine ⟨rfl, rfl, rfl, ?_, ?_, ?_, ?_, ?_, ?_⟩
      · dsimp only
        rw [hgq]
        by_cases h0 : k = 0
        · rw [hfresh _ _ h0]; simp
        · obtain ⟨row, h1, h2, h3⟩ := hext min (·.minimum) h0
          rw [h3]
          rcases min_choice s row.minimum with h | h <;> rw [h]
          · simp
          · exact List.mem_append_left _ h2.min_mem
      · dsimp only
        rw [hgq]
        intro x hx
        by_cases h0 : k = 0
        · rw [hfresh _ _ h0]
          rw [hnil h0] at hx
          rw [List.mem_singleton.1 hx]
        · obtain ⟨row, h1, h2, h3⟩ := hext min (·.minimum) h0
          rw [h3]
          rcases List.mem_append.1 hx with hx | hx
          · exact (min_le_right _ _).trans (h2.min_le x hx)
          · rw [List.mem_singleton.1 hx]; exact min_le_left _ _
      · dsimp only
        rw [hgq]
        by_cases h0 : k = 0
        · rw [hfresh _ _ h0]; simp
        · obtain ⟨row, h1, h2, h3⟩ := hext max (·.maximum) h0
          rw [h3]
          rcases max_choice s row.maximum with h | h <;> rw [h]
          · simp
          · exact List.mem_append_left _ h2.max_mem
      · dsimp only
        rw [hgq]
        intro x hx
        by_cases h0 : k = 0
        · rw [hfresh _ _ h0]
          rw [hnil h0] at hx
          rw [List.mem_singleton.1 hx]
        · obtain ⟨row, h1, h2, h3⟩ := hext max (·.maximum) h0
          rw [h3]
          rcases List.mem_append.1 hx with hx | hx
          · exact (h2.le_max x hx).trans (le_max_right _ _)
          · rw [List.mem_singleton.1 hx]; exact le_max_left _ _
      · rw [hgq]; exact hmean
      · rw [hgq]; exact hvar
    · rw [if_neg (by omega)]
      have hlt : r < q := by
        by_contra hge
        have : q + 1 ≤ r := by omega
        have := Nat.mul_le_mul_right (m + 1) this
        rw [add_mul, one_mul, mul_comm q] at this
        omega
      obtain ⟨row, h1, h2⟩ := I.rows r (by
        have := Nat.mul_le_mul_right (m + 1) hlt
        rw [Nat.succ_mul, mul_comm q] at this
        omega)
      refine ⟨row, h1, ?_⟩
      have e := hgr r hrq
      exact ⟨h2.alg, h2.gen, h2.npop, by rw [e]; exact h2.min_mem, by rw [e]; exact h2.min_le, by rw [e]; exact h2.max_mem, by rw [e]; exact h2.le_max,
        by rw [e]; exact h2.mean, by rw [e]; exact h2.variance⟩
  · intro i hi
    dsimp only
    rw [if_neg (by omega)]
    exact I.before i hi
  · intro r hr
    rw [List.length_append, List.length_singleton] at hr
    dsimp only
    rw [if_neg (by
      intro h
      have : r = q := by omega
      subst this
      rw [mul_comm] at hr
      omega)]
    exact I.after r (by omega)

theorem logAll_inv {l0 : Logger K} {a : String} {n : Nat} (hn : 0 < n) (h0 : Announced l0 a n) (ss : List K) :
    ∃ l, l0.logAll ss = .ok l ∧ LogInv l0 l a n ss := by
  induction ss using List.reverseRecOn with
  | nil =>
    refine ⟨l0, rfl, h0.started, h0.alg, h0.pop, h0.number, rfl, ?_, ?_, fun _ _ => rfl, fun _ _ => rfl⟩
    · rw [h0.scores]; simp [genScores]
    · intro r hr; simp at hr
  | append_singleton ss s ih =>
    obtain ⟨l, h1, h2⟩ := ih
    obtain ⟨l', h3, h4⟩ := log_inv hn h2 s
    refine ⟨l', ?_, h4⟩
    rw [logAll_append, h1]
    simp [Logger.logAll, h3]

/-- **C42.** An announced algorithm may log any number of scores; afterwards, row `r` from its first row on is right for generation `r`, for every
generation that has begun, and all other rows are as before. -/
theorem C42_rows {l0 : Logger K} {a : String} {n : Nat} (hn : 0 < n) (h0 : Announced l0 a n) (ss : List K) :
    ∃ l, l0.logAll ss = .ok l ∧ (∀ r, r * n < ss.length → ∃ row, l.rows (l0.rowOffset + r) = some row ∧ RightRow a n ss r row) ∧
      (∀ i, i < l0.rowOffset → l.rows i = l0.rows i) ∧ (∀ r, ss.length ≤ r * n → l.rows (l0.rowOffset + r) = l0.rows (l0.rowOffset + r)) := by
  obtain ⟨l, h, I⟩ := logAll_inv hn h0 ss
  exact ⟨l, h, I.rows, I.before, I.after⟩

omit [IsStrictOrderedRing K] [LinearOrder K] in
theorem setAlg_ok (l : Logger K) (hs : l.started = true) {a : String} (ha : a ∈ validAlgorithms) (n : Nat) (hp : l.pop ≠ some 0) :
    ∃ l', l.setAlg a n = (l', .ok ()) ∧ Announced l' a n ∧ l'.rows = l.rows ∧
      l'.rowOffset = (match l.pop with | none => 0 | some q => l.logNumber / q) := by
  unfold Logger.setAlg
  split
  · next h => exact (hp h).elim
  · rw [if_pos ha]
    refine ⟨_, rfl, ⟨hs, rfl, rfl, rfl, rfl⟩, rfl, ?_⟩
    cases l.pop <;> rfl

/-- State after one complete run of an algorithm on logger `l`. -/
theorem phase_inv (l : Logger K) (hs : l.started = true) {a : String} (ha : a ∈ validAlgorithms) {n : Nat} (hn : 0 < n) (hp : l.pop ≠ some 0) (ss : List K) :
    ∃ l', l.phase a n ss = .ok l' ∧ l'.started = true ∧ l'.pop = some n ∧ l'.logNumber = ss.length ∧
      ∃ o, o = (match l.pop with | none => 0 | some q => l.logNumber / q) ∧ l'.rowOffset = o ∧
      (∀ r, r * n < ss.length → ∃ row, l'.rows (o + r) = some row ∧ RightRow a n ss r row) ∧ (∀ i, i < o → l'.rows i = l.rows i) ∧
      (∀ r, ss.length ≤ r * n → l'.rows (o + r) = l.rows (o + r)) := by
  obtain ⟨l1, h1, h2, h3, h4⟩ := setAlg_ok l hs ha n hp
  obtain ⟨l2, h5, I⟩ := logAll_inv hn h2 ss
  refine ⟨l2, ?_, I.started, I.pop, I.number, l1.rowOffset, h4, I.offset, I.rows, ?_, ?_⟩
  · unfold Logger.phase
    rw [h1]
    exact h5
  · intro i hi; rw [I.before i hi, h3]
  · intro r hr; rw [I.after r hr, h3]

/-- **C42.** Two algorithms on a new log, the first of which fills `k` generations: the rows of the first are right and remain, and those of the second
begin at row `k`. -/
theorem C42_two {a b : String} (ha : a ∈ validAlgorithms) (hb : b ∈ validAlgorithms) {n m k : Nat} (hn : 0 < n) (hm : 0 < m) (ss ts : List K)
    (hk : ss.length = k * n) :
    ∃ l1 l2, (Logger.new.start : Logger K).phase a n ss = .ok l1 ∧ l1.phase b m ts = .ok l2 ∧
      (∀ r, r < k → ∃ row, l2.rows r = some row ∧ RightRow a n ss r row) ∧
      (∀ r, r * m < ts.length → ∃ row, l2.rows (k + r) = some row ∧ RightRow b m ts r row) ∧
      (∀ r, ts.length ≤ r * m → l2.rows (k + r) = none) := by
  obtain ⟨l1, h1, h2, h3, h4, o, ho, _, h5, h6, h7⟩ := phase_inv (Logger.new.start : Logger K) rfl ha hn (by simp [Logger.new, Logger.start]) ss
  obtain ⟨l2, g1, _, _, _, o2, ho2, _, g5, g6, g7⟩ := phase_inv l1 h2 hb hm (by rw [h3]; simp; omega) ts
  have ho' : o = 0 := by rw [ho]; rfl
  subst ho'
  have ho2' : o2 = k := by
    rw [ho2, h3, h4, hk]
    exact Nat.mul_div_cancel k hn
  subst ho2'
  refine ⟨l1, l2, h1, g1, ?_, g5, ?_⟩
  · intro r hr
    obtain ⟨row, e1, e2⟩ := h5 r (by rw [hk]; exact (Nat.mul_lt_mul_right hn).2 hr)
    rw [Nat.zero_add] at e1
    exact ⟨row, by rw [g6 r hr, e1], e2⟩
  · intro r hr
    rw [g7 r hr]
    have := h7 (o2 + r) (by rw [hk]; exact Nat.mul_le_mul_right n (Nat.le_add_right _ _))
    rw [Nat.zero_add] at this
    rw [this]
    rfl

/-- **C42.** A first algorithm that stops within a generation loses the row of that generation to the second. -/
theorem C42_partial_lost {a b : String} (ha : a ∈ validAlgorithms) (hb : b ∈ validAlgorithms) {n m : Nat} (hn : 0 < n) (hm : 0 < m) (ss ts : List K)
    (ht : ts ≠ []) :
    ∃ l1 l2, (Logger.new.start : Logger K).phase a n ss = .ok l1 ∧ l1.phase b m ts = .ok l2 ∧
      ∃ row, l2.rows (ss.length / n) = some row ∧ RightRow b m ts 0 row := by
  obtain ⟨l1, h1, h2, h3, h4, _⟩ := phase_inv (Logger.new.start : Logger K) rfl ha hn (by simp [Logger.new, Logger.start]) ss
  obtain ⟨l2, g1, _, _, _, o2, ho2, _, g5, g6, g7⟩ := phase_inv l1 h2 hb hm (by rw [h3]; simp; omega) ts
  rw [h3, h4] at ho2
  subst ho2
  obtain ⟨row, e1, e2⟩ := g5 0 (by rw [Nat.zero_mul]; exact List.length_pos_iff.2 ht)
  exact ⟨l1, l2, h1, g1, row, e1, e2⟩

/-- **C42.** The rows of a third algorithm begin at the number of generations of the *second*, whatever the first has logged: if the first two fill
`k₁` and `k₂` generations and `k₂ < k₁ + k₂`, row `k₂`, which belonged to one of them, is overwritten. -/
theorem C42_third_overwrites {a b c : String} (ha : a ∈ validAlgorithms) (hb : b ∈ validAlgorithms) (hc : c ∈ validAlgorithms) {n m p k₁ k₂ : Nat}
    (hn : 0 < n) (hm : 0 < m) (hp : 0 < p) (ss ts us : List K) (hk1 : ss.length = k₁ * n) (hk2 : ts.length = k₂ * m) (h0 : 0 < k₁) (hu : us ≠ []) :
    ∃ l1 l2 l3, (Logger.new.start : Logger K).phase a n ss = .ok l1 ∧ l1.phase b m ts = .ok l2 ∧ l2.phase c p us = .ok l3 ∧
      (∃ row, l2.rows k₂ = some row ∧ (RightRow a n ss k₂ row ∨ RightRow b m ts (k₂ - k₁) row)) ∧
      ∃ row, l3.rows k₂ = some row ∧ RightRow c p us 0 row := by
  obtain ⟨l1, h1, h2, h3, h4, o, ho, _, h5, h6, h7⟩ := phase_inv (Logger.new.start : Logger K) rfl ha hn (by simp [Logger.new, Logger.start]) ss
  obtain ⟨l2, g1, g2, g3, g4, o2, ho2, _, g5, g6, g7⟩ := phase_inv l1 h2 hb hm (by rw [h3]; simp; omega) ts
  obtain ⟨l3, e1, _, _, _, o3, ho3, _, e5, _, _⟩ := phase_inv l2 g2 hc hp (by rw [g3]; simp; omega) us
  have ho' : o = 0 := by rw [ho]; rfl
  subst ho'
  rw [h3, h4, hk1] at ho2
  have ho2' : o2 = k₁ := by rw [ho2]; exact Nat.mul_div_cancel k₁ hn
  subst ho2'
  rw [g3, g4, hk2] at ho3
  have ho3' : o3 = k₂ := by rw [ho3]; exact Nat.mul_div_cancel k₂ hm
  subst ho3'
  refine ⟨l1, l2, l3, h1, g1, e1, ?_, ?_⟩
  · by_cases hlt : o3 < o2
    · obtain ⟨row, x1, x2⟩ := h5 o3 (by rw [hk1]; exact (Nat.mul_lt_mul_right hn).2 hlt)
      rw [Nat.zero_add] at x1
      exact ⟨row, by rw [g6 _ hlt, x1], .inl x2⟩
    · obtain ⟨row, x1, x2⟩ := g5 (o3 - o2) (by rw [hk2]; exact (Nat.mul_lt_mul_right hm).2 (by omega))
      rw [show o2 + (o3 - o2) = o3 by omega] at x1
      exact ⟨row, x1, .inr x2⟩
  · obtain ⟨row, x1, x2⟩ := e5 0 (by rw [Nat.zero_mul]; exact List.length_pos_iff.2 hu)
    exact ⟨row, x1, x2⟩

omit [LinearOrder K] [IsStrictOrderedRing K] in
/-- **C42.** Exactly five names can be announced. -/
theorem C42_algorithms (l : Logger K) (hp : l.pop ≠ some 0) (a : String) (n : Nat) :
    (l.setAlg a n).2 = .ok () ↔ a = "L-BFGS" ∨ a = "PSO" ∨ a = "CMA" ∨ a = "ADAM" ∨ a = "GA" := by
  have h : a ∈ validAlgorithms ↔ a = "L-BFGS" ∨ a = "PSO" ∨ a = "CMA" ∨ a = "ADAM" ∨ a = "GA" := by
    simp [validAlgorithms]
  rw [← h]
  unfold Logger.setAlg
  split
  · rename_i e; exact absurd e hp
  · dsimp only
    split
    · rename_i h1; exact ⟨fun _ => h1, fun _ => rfl⟩
    · rename_i h1; exact ⟨fun h2 => by simp at h2, fun h2 => absurd h2 h1⟩

example : ((Logger.new : Logger ℚ).setAlg "" 4).2 ≠ .ok () := by
  rw [Ne, C42_algorithms _ (by simp [Logger.new])]; decide +kernel

omit [IsStrictOrderedRing K] in
/-- **C42.** Logging without an algorithm, without a clock, or with population size 0 raises; so does announcing an unknown algorithm, which nevertheless
moves the rows. -/
theorem C42_errors (l : Logger K) (s : K) :
    (l.pop = none → l.log s = .error .indexError) ∧
    (l.pop = some 0 → l.log s = .error .zeroDivision) ∧
    (∀ a n, Announced { l with started := true } a n → 0 < n → l.started = false → l.log s = .error .typeError) ∧
    (∀ a n q, a ∉ validAlgorithms → l.pop = some q → 0 < q → (l.setAlg a n).2 = .error .valueError ∧ (l.setAlg a n).1.rowOffset = l.logNumber / q ∧
      (l.setAlg a n).1.logNumber = 0 ∧ (l.setAlg a n).1.alg = l.alg) := by
  refine ⟨fun h => by simp [Logger.log, h], fun h => by simp [Logger.log, h], ?_, ?_⟩
  · intro a n h hn hs
    obtain ⟨m, rfl⟩ : ∃ m, n = m + 1 := ⟨n - 1, by omega⟩
    have h1 : l.pop = some (m + 1) := h.pop
    have h2 : l.scores = List.replicate (m + 1) 0 := h.scores
    unfold Logger.log
    have hlt : l.logNumber % (m + 1) < m + 1 := Nat.mod_lt _ (Nat.succ_pos m)
    simp only [h1, hs, h2, List.length_replicate]
    rw [if_neg (by omega)]
    rfl
  · intro a n q ha hp hq
    obtain ⟨m, rfl⟩ : ∃ m, q = m + 1 := ⟨q - 1, by omega⟩
    simp [Logger.setAlg, hp, ha]

omit [IsStrictOrderedRing K] in
/-- **C42.** A new logger does not log before its clock is started, whatever algorithms were announced: the only way is `start_logger_time`, after which every
score is accepted. -/
theorem C42_needs_start {a : String} (ha : a ∈ validAlgorithms) {n : Nat} (hn : 0 < n) (s : K) :
    (Logger.new : Logger K).log s = .error .indexError ∧ (Logger.new : Logger K).start.log s = .error .indexError ∧
    ((Logger.new : Logger K).setAlg a n).1.log s = .error .typeError ∧
    (∃ l, ((Logger.new : Logger K).setAlg a n).1.start.log s = .ok l) ∧ ∃ l, ((Logger.new : Logger K).start.setAlg a n).1.log s = .ok l := by
  obtain ⟨m, rfl⟩ : ∃ m, n = m + 1 := ⟨n - 1, by omega⟩
  refine ⟨rfl, rfl, ?_, ?_, ?_⟩ <;> simp [Logger.setAlg, Logger.new, Logger.start, Logger.log, ha]

end

example : "GA" ∈ validAlgorithms := by decide
example : Announced (((Logger.new : Logger ℚ).start).setAlg "GA" 3).1 "GA" 3 := by
  have h : ("GA" : String) ∈ validAlgorithms := by decide
  simp only [Logger.setAlg, Logger.new, Logger.start, h, if_true]
  exact ⟨rfl, rfl, rfl, rfl, rfl⟩

/-- Five scores in generations of three. -/
def logDemo : Except Err (Logger ℚ) := ((Logger.new : Logger ℚ).start).phase "GA" 3 [5, -2, 4, 7, 6]

example : (logDemo.toOption.bind (fun l => l.rows 0)).map (fun r => (r.minimum, r.maximum, r.mean)) = some (-2, 5, 7 / 3) := by decide +kernel
example : (logDemo.toOption.bind (fun l => l.rows 1)).map (fun r => (r.minimum, r.maximum, r.mean)) = some (6, 7, 13 / 3) := by decide +kernel
example : (logDemo.toOption.bind (fun l => l.rows 2)).map (fun r => r.gen) = none := by decide +kernel

/-! Cases of the theorems above. -/

theorem announced_demo : Announced (((Logger.new : Logger ℚ).start).setAlg "GA" 3).1 "GA" 3 := by
  have h : ("GA" : String) ∈ validAlgorithms := by decide
  simp only [Logger.setAlg, Logger.new, Logger.start, h, if_true]
  exact ⟨rfl, rfl, rfl, rfl, rfl⟩

example := C42_rows (by norm_num) announced_demo [5, -2, 4, 7, 6]
example := C42_two (a := "GA") (b := "ADAM") (by decide) (by decide) (n := 3) (m := 1) (k := 2) (by norm_num) (by norm_num) [(5 : ℚ), -2, 4, 7, 6, 1] [3, 2, 1] rfl
example := C42_partial_lost (a := "GA") (b := "ADAM") (by decide) (by decide) (n := 3) (m := 1) (by norm_num) (by norm_num) [(5 : ℚ), -2, 4, 7] [3, 2, 1] (by simp)
example := C42_third_overwrites (a := "GA") (b := "ADAM") (c := "GA") (by decide) (by decide) (by decide) (n := 3) (m := 1) (p := 2) (k₁ := 2) (k₂ := 3)
  (by norm_num) (by norm_num) (by norm_num) [(5 : ℚ), -2, 4, 7, 6, 1] [3, 2, 1] [8, 9] rfl rfl (by norm_num) (by simp)
example := C42_errors (Logger.new : Logger ℚ) 5
example := C42_needs_start (a := "GA") (by decide) (n := 3) (by norm_num) (5 : ℚ)

end Verif
