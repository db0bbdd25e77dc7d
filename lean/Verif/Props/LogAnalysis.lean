import Verif.Spec.LogAnalysis
import Verif.Props.Harness
import Mathlib.Algebra.Order.Field.Basic
import Mathlib.Tactic.FieldSimp
import Mathlib.Tactic.Ring
import Mathlib.Tactic.Linarith
import Mathlib.Algebra.BigOperators.Group.List.Basic
import Mathlib.Data.Rat.Defs
import Mathlib.Algebra.Order.Ring.Rat
import Mathlib.Algebra.Field.Rat
/-!
# C113: what the analysis of the logs shows
-/

namespace Verif

section
variable {K : Type} [Field K] {O D B : Type}

/-! ## Averages -/

theorem addFilled_length (a b : LogTable K) : (addFilled a b).length = max a.length b.length := by
  induction a generalizing b with
  | nil => simp [addFilled]
  | cons x a ih =>
    cases b with
    | nil => simp [addFilled]
    | cons y b => simp only [addFilled, List.length_cons, ih]; omega

theorem addFilled_entry (a b : LogTable K) (g : Nat) (c : LogColumn) : (addFilled a b).entry g c = a.entry g c + b.entry g c := by
  induction a generalizing b g with
  | nil => simp [addFilled, LogTable.entry]
  | cons x a ih =>
    cases b with
    | nil => simp [addFilled, LogTable.entry]
    | cons y b =>
      cases g with
      | zero => simp [addFilled, LogTable.entry]
      | succ g =>
        have := ih b g
        simpa only [addFilled, LogTable.entry, List.getElem?_cons_succ] using this

theorem sumLogs_some {read : FName → Except AnalysisErr (LogTable K)} {log : FName → LogTable K} (names : List FName)
    (h : ∀ n ∈ names, read n = .ok (log n)) (s : LogTable K) :
    ∃ t, sumLogs read names (some s) = .ok (some t) ∧ (∀ g, g < t.length ↔ g < s.length ∨ ∃ n ∈ names, g < (log n).length) ∧
      ∀ g c, t.entry g c = s.entry g c + (names.map (fun n => (log n).entry g c)).sum := by
  induction names generalizing s with
  | nil => exact ⟨s, rfl, by simp, by simp⟩
  | cons n ns ih =>
    obtain ⟨t, h1, h2, h3⟩ := ih (fun m hm => h m (List.mem_cons_of_mem _ hm)) (addFilled s (log n))
    refine ⟨t, ?_, fun g => ?_, fun g c => ?_⟩
    · rw [sumLogs, h n List.mem_cons_self]; exact h1
    · rw [h2, addFilled_length, lt_max_iff]; simp [or_assoc]
    · rw [h3, addFilled_entry, List.map_cons, List.sum_cons]; ring

theorem sumLogs_none {read : FName → Except AnalysisErr (LogTable K)} {log : FName → LogTable K} {names : List FName} (hn : names ≠ [])
    (h : ∀ n ∈ names, read n = .ok (log n)) :
    ∃ t, sumLogs read names none = .ok (some t) ∧ (∀ g, g < t.length ↔ ∃ n ∈ names, g < (log n).length) ∧
      ∀ g c, t.entry g c = (names.map (fun n => (log n).entry g c)).sum := by
  obtain ⟨n, ns, rfl⟩ := List.exists_cons_of_ne_nil hn
  obtain ⟨t, h1, h2, h3⟩ := sumLogs_some ns (fun m hm => h m (List.mem_cons_of_mem _ hm)) (log n)
  refine ⟨t, ?_, fun g => ?_, fun g c => ?_⟩
  · rw [sumLogs, h n List.mem_cons_self]; exact h1
  · rw [h2]; simp
  · rw [h3, List.map_cons, List.sum_cons]

theorem entry_div (t : LogTable K) (d : K) (g : Nat) (c : LogColumn) : LogTable.entry (t.map (fun row c => row c / d)) g c = t.entry g c / d := by
  unfold LogTable.entry
  rw [List.getElem?_map]
  cases t[g]? <;> simp

/-- **C113 (what is averaged).**  For a category whose folder can be listed and holds a readable log in each of its entries, there is a row for each generation
that some run has; its entries are the sums over the runs that have the row, divided by the number of all runs. -/
theorem C113_average (C : Coding O D B) (asLog : O → LogTable K) (ls : List FName → Except IoErr (List FName)) (disk : Disk B) (dir : List FName) {pop : Nat}
    {r : ElitismRatio} {sub : List Char} (hsub : analysisFolder pop r = .ok sub) {names : List FName} (hls : ls (dir ++ [sub]) = .ok names) (hn : names ≠ [])
    {log : FName → LogTable K} (hread : ∀ n ∈ names, readLog C asLog disk (dir ++ [sub, n]) = .ok (log n)) :
    ∃ t, categoryMean C asLog ls disk dir pop r = .ok (t, names.length) ∧ (∀ g, g < t.length ↔ ∃ n ∈ names, g < (log n).length) ∧
      ∀ g c, t.entry g c = ((reached log names g).map (fun n => (log n).entry g c)).sum / (names.length : K) := by
  obtain ⟨t, h1, h2, h3⟩ := sumLogs_none (log := log) hn hread
  refine ⟨t.map (fun row c => row c / (names.length : K)), ?_, fun g => ?_, fun g c => ?_⟩
  · unfold categoryMean; rw [hsub]; dsimp only; rw [hls]; dsimp only; rw [h1]
  · rw [List.length_map, h2]
  · rw [entry_div, h3]
    congr 1
    unfold reached
    clear h1 h2 h3 hn hls hread
    induction names with
    | nil => rfl
    | cons n ns ih =>
      rw [List.map_cons, List.sum_cons, ih]
      by_cases h : g < (log n).length
      · rw [List.filter_cons_of_pos (by simpa using h), List.map_cons, List.sum_cons]
      · have : (log n).entry g c = 0 := by
          unfold LogTable.entry
          rw [List.getElem?_eq_none (by omega)]
        rw [List.filter_cons_of_neg (by simpa using h), this, zero_add]

theorem sum_const_gen {α : Type} (log : α → LogTable K) (l : List α) (g : Nat) (h : ∀ n ∈ l, (log n).entry g .generation = (g : K)) :
    (l.map (fun n => (log n).entry g .generation)).sum = (l.length : K) * g := by
  induction l with
  | nil => simp
  | cons a l ih =>
    rw [List.map_cons, List.sum_cons, ih (fun n hn => h n (List.mem_cons_of_mem _ hn)), h a List.mem_cons_self, List.length_cons]
    push_cast; ring

omit [Field K] in
theorem mem_reached {α : Type} {log : α → LogTable K} {l : List α} {g : Nat} {n : α} : n ∈ reached log l g ↔ n ∈ l ∧ g < (log n).length := by
  unfold reached; simp

/-- **C113 (runs of the same length).**  If all runs of a category have made the same number of generations, the curves are what one expects: a point for each generation,
at the number of the generation, with the mean over the runs. -/
theorem C113_complete [CharZero K] (C : Coding O D B) (asLog : O → LogTable K) (ls : List FName → Except IoErr (List FName)) (disk : Disk B) (dir : List FName) {pop : Nat}
    {r : ElitismRatio} {sub : List Char} (hsub : analysisFolder pop r = .ok sub) {names : List FName} (hls : ls (dir ++ [sub]) = .ok names) (hn : names ≠ [])
    {log : FName → LogTable K} (hread : ∀ n ∈ names, readLog C asLog disk (dir ++ [sub, n]) = .ok (log n)) (hnum : ∀ n ∈ names, NumberedLog (log n))
    {L : Nat} (hlen : ∀ n ∈ names, (log n).length = L) :
    ∃ t, categoryMean C asLog ls disk dir pop r = .ok (t, names.length) ∧ t.length = L ∧
      ∀ g < L, t.entry g .generation = g ∧ ∀ c, t.entry g c = meanOverRuns log names g c := by
  obtain ⟨t, h1, h2, h3⟩ := C113_average C asLog ls disk dir hsub hls hn hread
  obtain ⟨n0, hn0⟩ := List.exists_mem_of_ne_nil names hn
  have hall : ∀ g < L, reached log names g = names := by
    intro g hg
    unfold reached
    rw [List.filter_eq_self]
    intro n hm
    simp [hlen n hm, hg]
  refine ⟨t, h1, ?_, fun g hg => ⟨?_, fun c => ?_⟩⟩
  · by_contra hne
    rcases Nat.lt_or_gt_of_ne hne with h | h
    · exact absurd ((h2 t.length).2 ⟨n0, hn0, by rw [hlen n0 hn0]; exact h⟩) (Nat.lt_irrefl _)
    · obtain ⟨n, hm, hlt⟩ := (h2 L).1 h
      rw [hlen n hm] at hlt
      exact absurd hlt (Nat.lt_irrefl _)
  · rw [h3, hall g hg, sum_const_gen log names g (fun n hm => hnum n hm g (by rw [hlen n hm]; exact hg))]
    have : (names.length : K) ≠ 0 := by
      rw [Nat.cast_ne_zero]
      exact fun h => hn (List.length_eq_zero_iff.1 h)
    field_simp
  · rw [h3, hall g hg]; rfl

/-- **C113 (runs of different lengths).**  For a generation that only some of the runs have, the curve is not at that generation but at the fraction of it given by the
share of these runs, that is further to the left; and the value is the mean over these runs times the same share: too low wherever their mean is positive. -/
theorem C113_short [LinearOrder K] [IsStrictOrderedRing K] (C : Coding O D B) (asLog : O → LogTable K) (ls : List FName → Except IoErr (List FName)) (disk : Disk B) (dir : List FName) {pop : Nat}
    {r : ElitismRatio} {sub : List Char} (hsub : analysisFolder pop r = .ok sub) {names : List FName} (hls : ls (dir ++ [sub]) = .ok names)
    {log : FName → LogTable K} (hread : ∀ n ∈ names, readLog C asLog disk (dir ++ [sub, n]) = .ok (log n)) (hnum : ∀ n ∈ names, NumberedLog (log n))
    (g : Nat) (hsome : ∃ n ∈ names, g < (log n).length) (hless : ∃ n ∈ names, ¬ g < (log n).length) :
    ∃ t, categoryMean C asLog ls disk dir pop r = .ok (t, names.length) ∧ g < t.length ∧
      t.entry g .generation = (g : K) * ((reached log names g).length / names.length) ∧ (0 < g → t.entry g .generation < g) ∧
      (∀ c, t.entry g c = meanOverRuns log (reached log names g) g c * ((reached log names g).length / names.length)) ∧
      (∀ c, 0 < meanOverRuns log (reached log names g) g c → t.entry g c < meanOverRuns log (reached log names g) g c) := by
  obtain ⟨n1, hn1, hg1⟩ := hsome
  obtain ⟨n2, hn2, hg2⟩ := hless
  obtain ⟨t, h1, h2, h3⟩ := C113_average C asLog ls disk dir hsub hls (List.ne_nil_of_mem hn1) hread
  have hpos : 0 < (reached log names g).length := List.length_pos_of_mem (mem_reached.2 ⟨hn1, hg1⟩)
  have hlt : (reached log names g).length < names.length := by
    have : (reached log names g).length ≠ names.length := by
      intro e
      unfold reached at e
      rw [List.length_filter_eq_length_iff] at e
      exact hg2 (by simpa using e n2 hn2)
    have := List.length_filter_le (fun n => decide (g < (log n).length)) names
    unfold reached at *
    omega
  have hm : (0 : K) < (reached log names g).length := by exact_mod_cast hpos
  have hN : ((reached log names g).length : K) < names.length := by exact_mod_cast hlt
  have hN0 : (0 : K) < names.length := lt_trans hm hN
  have hq : ((reached log names g).length : K) / names.length < 1 := by rw [div_lt_one hN0]; exact hN
  have e1 : t.entry g .generation = (g : K) * ((reached log names g).length / names.length) := by
    rw [h3, sum_const_gen log _ g (fun n hm => hnum n (mem_reached.1 hm).1 g (mem_reached.1 hm).2)]
    ring
  have e2 : ∀ c, t.entry g c = meanOverRuns log (reached log names g) g c * ((reached log names g).length / names.length) := by
    intro c
    rw [h3]
    unfold meanOverRuns
    field_simp
  refine ⟨t, h1, (h2 g).2 ⟨n1, hn1, hg1⟩, e1, fun hg => ?_, e2, fun c hc => ?_⟩
  · rw [e1]
    have : (0 : K) < g := by exact_mod_cast hg
    nlinarith
  · rw [e2]
    nlinarith

/-! ## Folders -/

theorem dot_decimal (n : Nat) : '.' ∉ decimal n := fun hc => absurd (decimal_digits n _ hc) (by decide)

theorem map_keep {l : List Char} (h : '.' ∉ l) : l.map (fun c => if c = '.' then '_' else c) = l := by
  induction l with
  | nil => rfl
  | cons c l ih =>
    simp only [List.mem_cons, not_or] at h
    rw [List.map_cons, ih h.2, if_neg (fun e => h.1 e.symm)]

theorem afterDot_append {a : List Char} (h : '.' ∉ a) (b : List Char) : afterDot (a ++ '.' :: b) = .ok b := by
  induction a with
  | nil => simp [afterDot]
  | cons c a ih =>
    simp only [List.mem_cons, not_or] at h
    rw [List.cons_append, afterDot, if_neg (fun e => h.1 e.symm), ih h.2]

theorem afterDot_none {a : List Char} (h : '.' ∉ a) : afterDot a = .error .indexError := by
  induction a with
  | nil => rfl
  | cons c a ih =>
    simp only [List.mem_cons, not_or] at h
    rw [afterDot, if_neg (fun e => h.1 e.symm), ih h.2]

/-- **C113 (which folder).**  For a ratio that Python writes without an exponent, the analysis looks in the folder that the benchmark makes for the setting: the population size, the ratio,
and an underscore for the point. -/
theorem C113_folder {r : ElitismRatio} {text : List Char} (h : RatioText r text) (pop : Nat) :
    analysisFolder pop r = .ok ("popSize".toList ++ decimal pop ++ "_elitismRatio".toList ++ text.map (fun c => if c = '.' then '_' else c)) ∧
    analysisFolder pop r = .ok (elitismFolder pop text) := by
  have key : analysisFolder pop r = .ok ("popSize".toList ++ decimal pop ++ "_elitismRatio".toList ++ text.map (fun c => if c = '.' then '_' else c)) := by
    cases h with
    | int n => rw [map_keep (dot_decimal n)]; rfl
    | float n frac hf =>
      unfold analysisFolder
      dsimp only
      rw [afterDot_append (dot_decimal n)]
      dsimp only
      rw [List.map_append, List.map_cons, map_keep (dot_decimal n), map_keep (fun hc => absurd (hf _ hc) (by decide)), if_pos rfl]
      simp only [List.append_assoc]
  exact ⟨key, key⟩

/-- **C113 (small ratios).**  A ratio that Python writes with an exponent is not found: without a point the name of the folder cannot be made, and with one the name begins with the integer
part of the ratio and not with the digit in front of the point, and is that of no folder made by the benchmark for this ratio. -/
theorem C113_folder_exponent (pop : Nat) (text : List Char) (whole : Nat) :
    ('.' ∉ text → analysisFolder pop (.float text whole) = .error .indexError) ∧
    (∀ n rest, text = decimal n ++ '.' :: rest → n ≠ whole →
      ∃ sub, analysisFolder pop (.float text whole) = .ok sub ∧ ∀ pop', sub ≠ elitismFolder pop' text) := by
  refine ⟨fun h => ?_, fun n rest ht hn => ?_⟩
  · unfold analysisFolder
    dsimp only
    rw [afterDot_none h]
  · subst ht
    refine ⟨_, by unfold analysisFolder; dsimp only; rw [afterDot_append (dot_decimal n)], fun pop' e => ?_⟩
    have e' : "popSize".toList ++ decimal pop ++ ('_' :: "elitismRatio".toList) ++ (decimal whole ++ '_' :: rest) =
        "popSize".toList ++ decimal pop' ++ ('_' :: "elitismRatio".toList) ++ (decimal n ++ '_' :: rest.map (fun c => if c = '.' then '_' else c)) := by
      unfold elitismFolder at e
      rw [List.map_append, List.map_cons, map_keep (dot_decimal n), if_pos rfl] at e
      rw [← List.append_assoc (_ ++ _ ++ _) (decimal whole)]
      exact e
    exact hn (decimal_inj (cut_at (underscore_decimal whole) (underscore_decimal n) (popFolder_inj e').2).1).symm

/-! ## What is drawn -/

omit [Field K] in
theorem mem_categoryCurves {i : Nat} {x : LogColumn} {yaxis : List String} {t : LogTable K} {l : LogCurve K} :
    l ∈ categoryCurves i x yaxis t ↔ l.category = i ∧ l.points = t.map (fun row => (row x, row l.column)) ∧
      (l.column = .mean ∧ "mean" ∈ yaxis ∨ l.column = .minimum ∧ "minimum" ∈ yaxis ∨ l.column = .maximum ∧ "maximum" ∈ yaxis) := by
  obtain ⟨j, c, ps⟩ := l
  unfold categoryCurves
  simp only [List.mem_append]
  constructor
  · rintro ((h | h) | h) <;> split_ifs at h with hy <;> simp at h <;> obtain ⟨rfl, rfl, rfl⟩ := h <;> simp [hy]
  · rintro ⟨h1, h2, (⟨rfl, hy⟩ | ⟨rfl, hy⟩ | ⟨rfl, hy⟩)⟩ <;> subst h1 h2 <;> simp [hy]

omit [Field K] in
theorem categoryLoop_ok {mean : Nat → ElitismRatio → Except AnalysisErr (LogTable K × Nat)} (x : LogColumn) (yaxis : List String)
    {tab : Nat × ElitismRatio → LogTable K} {num : Nat × ElitismRatio → Nat} (cats : List (Nat × ElitismRatio)) (h : ∀ p ∈ cats, mean p.1 p.2 = .ok (tab p, num p)) (i : Nat) (o : Option Nat) :
    ∃ l m, categoryLoop mean x yaxis cats i o = .ok (l, m) ∧ (∀ p, cats.getLast? = some p → m = some (num p)) ∧ (cats = [] → m = o) ∧
      ∀ k, k ∈ l ↔ ∃ (j : Nat) (p : Nat × ElitismRatio), cats[j]? = some p ∧ k ∈ categoryCurves (i + j) x yaxis (tab p) := by
  induction cats generalizing i o with
  | nil => exact ⟨[], o, rfl, by simp, fun _ => rfl, by simp⟩
  | cons p cats ih =>
    obtain ⟨l, m, h1, h2, h3, h4⟩ := ih (fun q hq => h q (List.mem_cons_of_mem _ hq)) (i + 1) (some (num p))
    obtain ⟨pop, r⟩ := p
    refine ⟨categoryCurves i x yaxis (tab (pop, r)) ++ l, m, ?_, fun q hq => ?_, by simp, fun k => ?_⟩
    · rw [categoryLoop, h (pop, r) List.mem_cons_self]
      dsimp only
      rw [h1]
    · cases cats with
      | nil =>
        rw [h3 rfl]
        simp at hq
        rw [hq]
      | cons a cats => exact h2 q (by rwa [List.getLast?_cons_cons] at hq)
    · rw [List.mem_append, h4]
      constructor
      · rintro (hk | ⟨j, q, hj, hk⟩)
        · exact ⟨0, (pop, r), rfl, hk⟩
        · exact ⟨j + 1, q, hj, by rwa [show i + (j + 1) = i + 1 + j by omega]⟩
      · rintro ⟨j, q, hj, hk⟩
        cases j with
        | zero => simp at hj; subst hj; exact Or.inl hk
        | succ j => exact Or.inr ⟨j, q, hj, by rwa [show i + 1 + j = i + (j + 1) by omega]⟩

/-- **C113 (what is shown).**  If all categories can be averaged, then for each category, and for each of the mean, the minimum and the maximum that is asked for, there is a curve with one point for each row
of the averaged table; and there is no other curve.  The number of runs in the title is that of the last category, whatever the others have. -/
theorem C113_shown (C : Coding O D B) (asLog : O → LogTable K) (ls : List FName → Except IoErr (List FName)) (disk : Disk B) (dir : List FName) (yaxis : List String)
    {cats : List (Nat × ElitismRatio)} {last : Nat × ElitismRatio} (hlast : cats.getLast? = some last) {tab : Nat × ElitismRatio → LogTable K} {num : Nat × ElitismRatio → Nat}
    (h : ∀ p ∈ cats, categoryMean C asLog ls disk dir p.1 p.2 = .ok (tab p, num p)) {xaxis : String} {x : LogColumn} (hx : xaxis = "generation" ∧ x = .generation ∨ xaxis = "time" ∧ x = .time) :
    ∃ l, displayLog C asLog ls disk dir xaxis yaxis cats = .ok (l, num last) ∧
      ∀ k : LogCurve K, k ∈ l ↔ ∃ p, cats[k.category]? = some p ∧ k.points = (tab p).map (fun row => (row x, row k.column)) ∧
        (k.column = .mean ∧ "mean" ∈ yaxis ∨ k.column = .minimum ∧ "minimum" ∈ yaxis ∨ k.column = .maximum ∧ "maximum" ∈ yaxis) := by
  obtain ⟨l, m, h1, h2, -, h4⟩ := categoryLoop_ok x yaxis cats h 0 none
  refine ⟨l, ?_, fun k => ?_⟩
  · unfold displayLog
    have hin : ¬ xaxis ∉ ["generation", "time"] := by rcases hx with ⟨rfl, -⟩ | ⟨rfl, -⟩ <;> simp
    have hcol : (if xaxis = "generation" then LogColumn.generation else .time) = x := by
      rcases hx with ⟨rfl, rfl⟩ | ⟨rfl, rfl⟩
      · rfl
      · rw [if_neg (by decide)]
    rw [if_neg hin]
    dsimp only
    rw [hcol, h1, h2 last hlast]
  · rw [h4]
    constructor
    · rintro ⟨j, p, hj, hk⟩
      obtain ⟨c1, c2, c3⟩ := mem_categoryCurves.1 hk
      refine ⟨p, ?_, c2, c3⟩
      rw [c1, Nat.zero_add]; exact hj
    · rintro ⟨p, hp, c2, c3⟩
      exact ⟨k.category, p, hp, mem_categoryCurves.2 ⟨by omega, c2, c3⟩⟩

theorem sumLogs_error {read : FName → Except AnalysisErr (LogTable K)} {names : List FName} {n : FName} (hn : n ∈ names) {e : AnalysisErr} (h : read n = .error e) (s : Option (LogTable K)) :
    ∃ e', sumLogs read names s = .error e' := by
  induction names generalizing s with
  | nil => simp at hn
  | cons a names ih =>
    rw [sumLogs]
    cases hr : read a with
    | error e' => exact ⟨e', rfl⟩
    | ok log =>
      have hn' : n ∈ names := by
        rcases List.mem_cons.1 hn with rfl | hn
        · rw [h] at hr; cases hr
        · exact hn
      cases s with
      | none => exact ih hn' _
      | some t => exact ih hn' _

omit [Field K] in
theorem categoryLoop_error {mean : Nat → ElitismRatio → Except AnalysisErr (LogTable K × Nat)} (x : LogColumn) (yaxis : List String) {cats : List (Nat × ElitismRatio)}
    {p : Nat × ElitismRatio} (hp : p ∈ cats) {e : AnalysisErr} (h : mean p.1 p.2 = .error e) (i : Nat) (o : Option Nat) : ∃ e', categoryLoop mean x yaxis cats i o = .error e' := by
  induction cats generalizing i o with
  | nil => simp at hp
  | cons a cats ih =>
    obtain ⟨pop, r⟩ := a
    rw [categoryLoop]
    cases hm : mean pop r with
    | error e' => exact ⟨e', rfl⟩
    | ok tn =>
      have hp' : p ∈ cats := by
        rcases List.mem_cons.1 hp with rfl | hp
        · rw [h] at hm; cases hm
        · exact hp
      obtain ⟨t, n⟩ := tn
      obtain ⟨e', he⟩ := ih hp' (i + 1) (some n)
      exact ⟨e', by dsimp only; rw [he]⟩

/-- **C113 (all or nothing).**  If in the folder of one category a single entry has no readable `log.pkl`, or the folder is empty, or cannot be listed, nothing is shown: the call raises whatever the other
categories hold.  So it does for an empty list of categories and for another name of the horizontal axis. -/
theorem C113_missing (C : Coding O D B) (asLog : O → LogTable K) (ls : List FName → Except IoErr (List FName)) (disk : Disk B) (dir : List FName) (xaxis : String) (yaxis : List String) (cats : List (Nat × ElitismRatio)) :
    (∀ pop r sub, (pop, r) ∈ cats → analysisFolder pop r = .ok sub →
      ((∃ names n e, ls (dir ++ [sub]) = .ok names ∧ n ∈ names ∧ readLog C asLog disk (dir ++ [sub, n]) = .error e) ∨ ls (dir ++ [sub]) = .ok [] ∨ ∃ e, ls (dir ++ [sub]) = .error e) →
      ∃ e, displayLog C asLog ls disk dir xaxis yaxis cats = .error e) ∧
    (∃ e, displayLog C asLog ls disk dir xaxis yaxis [] = .error e) ∧
    (xaxis ≠ "generation" → xaxis ≠ "time" → displayLog C asLog ls disk dir xaxis yaxis cats = .error (.run .valueError)) := by
  have key : (∃ p ∈ cats, ∃ e, categoryMean C asLog ls disk dir p.1 p.2 = .error e) → ∃ e, displayLog C asLog ls disk dir xaxis yaxis cats = .error e := by
    rintro ⟨p, hp, e, he⟩
    unfold displayLog
    by_cases hx : xaxis ∉ ["generation", "time"]
    · exact ⟨_, by rw [if_pos hx]⟩
    · obtain ⟨e', he'⟩ := categoryLoop_error (if xaxis = "generation" then .generation else .time) yaxis hp he 0 none
      exact ⟨e', by rw [if_neg hx]; dsimp only; rw [he']⟩
  refine ⟨fun pop r sub hp hsub hbad => key ⟨(pop, r), hp, ?_⟩, ?_, fun h1 h2 => ?_⟩
  · unfold categoryMean
    dsimp only
    rw [hsub]
    dsimp only
    rcases hbad with ⟨names, n, e, hls, hn, he⟩ | hls | ⟨e, hls⟩
    · obtain ⟨e', he'⟩ := sumLogs_error (read := fun n => readLog C asLog disk (dir ++ [sub, n])) hn he none
      exact ⟨e', by rw [hls]; dsimp only; rw [he']⟩
    · exact ⟨_, by rw [hls]; rfl⟩
    · exact ⟨_, by rw [hls]⟩
  · unfold displayLog
    by_cases hx : xaxis ∉ ["generation", "time"]
    · exact ⟨_, by rw [if_pos hx]⟩
    · exact ⟨_, by rw [if_neg hx]; rfl⟩
  · unfold displayLog
    rw [if_pos (by simp [h1, h2])]

/-! ## From the benchmark to the analysis -/

/-- The disk stays in order. -/
theorem bench_sound (C : Coding O D B) (k : Nat) (top : List FName) (rs : List (BenchRun O D B)) (hb : BenchSound k rs) (w : IoWorld B) (hw : BenchReady top rs w.disk) : SoundDisk (evolverBench C k top rs w).disk := by
  induction rs generalizing w with
  | nil => exact hw.sound
  | cons r rs ih => exact ih hb.tail _ (ready_after C k hb hw).1

omit [Field K] in
/-- After the benchmark: what is in the folder of a setting, and what can be read there. -/
theorem bench_setting (C : Coding O D B) (asLog : O → LogTable K) (k : Nat) (top : List FName) (gs : List (List Char × List (BenchRun O D B)))
    (hg : ∀ g ∈ gs, g.2 ≠ [] ∧ ∀ r ∈ g.2, r.setting = g.1) (hs : (gs.map (·.1)).Nodup) (hb : BenchSound k (gs.flatMap (·.2))) (w : IoWorld B) (hw : BenchReady top (gs.flatMap (·.2)) w.disk)
    (hnew : ∀ g ∈ gs, ∀ n, w.disk (top ++ [g.1, n]) = none) (hdone : (groupBench C k top gs w).2 = true) {log : BenchRun O D B → LogTable K}
    (hlog : ∀ r ∈ gs.flatMap (·.2), ∃ b o, (evolverRun C k top r w).1.disk (r.folder top ++ ["log.pkl".toList]) = some (.file b) ∧ C.loadObj b = some o ∧ asLog o = log r)
    {g : List Char × List (BenchRun O D B)} (hmem : g ∈ gs) :
    (∀ n, (groupBench C k top gs w).1.disk (top ++ [g.1, n]) ≠ none ↔ ∃ r ∈ g.2, "iteration_".toList ++ decimal r.rep = n) ∧
    (g.2.map (fun r => "iteration_".toList ++ decimal r.rep)).Nodup ∧
    ∀ r ∈ g.2, readLog C asLog (groupBench C k top gs w).1.disk (top ++ [g.1, "iteration_".toList ++ decimal r.rep]) = .ok (log r) := by
  obtain ⟨made, rest, m1, m2, m3, -⟩ := C111_stops C k top gs hg hb w hw
  obtain ⟨rfl, -⟩ := m3 hdone
  rw [List.append_nil] at m1
  subst m1
  rw [m2]
  obtain ⟨f1, f2⟩ := C111_folders C k top _ hb w hw
  generalize hd : (evolverBench C k top (gs.flatMap (·.2)) w).disk = d at *
  have hin : ∀ r ∈ g.2, r ∈ gs.flatMap (·.2) := fun r hr => List.mem_flatMap.2 ⟨g, hmem, hr⟩
  have hset := (hg g hmem).2
  have hfold : ∀ r ∈ g.2, r.folder top = top ++ [g.1, "iteration_".toList ++ decimal r.rep] := fun r hr => by unfold BenchRun.folder; rw [hset r hr]
  -- the final disk below the folder of a run
  have hsame : ∀ r ∈ g.2, d (r.folder top) = some .dir ∧ ∀ q, r.folder top <+: q → d q = (evolverRun C k top r w).1.disk q := by
    intro r hr
    refine ⟨?_, f1 r (hin r hr)⟩
    obtain ⟨s, -, -⟩ := run_effect C k (hb.plain r (hin r hr)) (hb.calls r (hin r hr)) hw.sound hw.there (hw.setting r (hin r hr)) (hw.rep r (hin r hr))
    obtain ⟨b, o, h1, -, -⟩ := hlog r (hin r hr)
    rw [f1 r (hin r hr) _ (List.prefix_refl _)]
    exact s.up _ _ _ h1
  have hsound : SoundDisk d := by
    rw [← hd]
    exact bench_sound C k top _ hb w hw
  have hread : ∀ r ∈ g.2, readLog C asLog d (top ++ [g.1, "iteration_".toList ++ decimal r.rep]) = .ok (log r) := by
    intro r hr
    obtain ⟨b, o, h1, h2, h3⟩ := hlog r (hin r hr)
    rw [← hfold r hr]
    unfold readLog
    rw [(readFile_ok_iff hsound _ b).2 (by rw [(hsame r hr).2 _ (List.prefix_append _ _)]; exact h1)]
    simp only [decoded, h2, h3]
  -- the entries of the folder of the setting
  have hnames : ∀ n, d (top ++ [g.1, n]) ≠ none ↔ ∃ r ∈ g.2, "iteration_".toList ++ decimal r.rep = n := by
    intro n
    constructor
    · intro hne
      by_contra hno
      have hnone : ∀ r ∈ gs.flatMap (·.2), ¬ r.folder top <+: top ++ [g.1, n] := by
        intro r hr hp
        have he := hp.eq_of_length (by rw [folder_length]; simp)
        unfold BenchRun.folder at he
        have he' := List.append_cancel_left he
        simp only [List.cons.injEq, and_true] at he'
        obtain ⟨g', hg', hr'⟩ := List.mem_flatMap.1 hr
        have hgg : g' = g := List.inj_on_of_nodup_map hs hg' hmem (by rw [← (hg g' hg').2 r hr', he'.1])
        subst hgg
        exact hno ⟨r, hr', he'.2⟩
      rcases f2 _ hnone with h | ⟨-, -, r, -, hp⟩
      · exact hne (by rw [h]; exact hnew g hmem n)
      · have := hp.length_le
        simp at this
    · rintro ⟨r, hr, rfl⟩
      rw [← hfold r hr, (hsame r hr).1]
      simp
  have hnod : (g.2.map (fun r => "iteration_".toList ++ decimal r.rep)).Nodup := by
    have hap : g.2.Pairwise (fun r r' => ¬ (r.setting = r'.setting ∧ r.rep = r'.rep)) := hb.apart.sublist (by simpa using (List.singleton_sublist.2 hmem).flatMap (·.2))
    rw [List.nodup_iff_pairwise_ne, List.pairwise_map]
    refine hap.imp_of_mem (fun {a b} ha hb' h e => h ⟨by rw [hset a ha, hset b hb'], decimal_inj (List.append_cancel_left e)⟩)
  exact ⟨hnames, hnod, hread⟩

/-- **C113 (benchmark and analysis).**  If the benchmark of the elitism script goes through in a new folder and each run leaves a log, the average over a setting is over all its repetitions and over nothing else,
in whatever order the folder is listed: what a run leaves is what it would leave if it were the only one. -/
theorem C113_pipeline (C : Coding O D B) (asLog : O → LogTable K) (k : Nat) (top : List FName) (gs : List (List Char × List (BenchRun O D B)))
    (hg : ∀ g ∈ gs, g.2 ≠ [] ∧ ∀ r ∈ g.2, r.setting = g.1) (hs : (gs.map (·.1)).Nodup) (hb : BenchSound k (gs.flatMap (·.2))) (w : IoWorld B) (hw : BenchReady top (gs.flatMap (·.2)) w.disk)
    (hnew : ∀ g ∈ gs, ∀ n, w.disk (top ++ [g.1, n]) = none) (hdone : (groupBench C k top gs w).2 = true) {log : BenchRun O D B → LogTable K}
    (hlog : ∀ r ∈ gs.flatMap (·.2), ∃ b o, (evolverRun C k top r w).1.disk (r.folder top ++ ["log.pkl".toList]) = some (.file b) ∧ C.loadObj b = some o ∧ asLog o = log r)
    {ls : List FName → Except IoErr (List FName)} {g : List Char × List (BenchRun O D B)} (hmem : g ∈ gs) {pop : Nat} {ratio : ElitismRatio} {text : List Char} (ht : RatioText ratio text) (hname : g.1 = elitismFolder pop text)
    {names : List FName} (hls : Listing ls (groupBench C k top gs w).1.disk (top ++ [g.1]) names) :
    ∃ t, categoryMean C asLog ls (groupBench C k top gs w).1.disk top pop ratio = .ok (t, g.2.length) ∧ (∀ i, i < t.length ↔ ∃ r ∈ g.2, i < (log r).length) ∧
      ∀ i c, t.entry i c = ((reached log g.2 i).map (fun r => (log r).entry i c)).sum / (g.2.length : K) := by
  obtain ⟨e1, hnod, hread⟩ := bench_setting C asLog k top gs hg hs hb w hw hnew hdone hlog hmem
  generalize (groupBench C k top gs w).1.disk = d at *
  have hnames : ∀ n, n ∈ names ↔ ∃ r ∈ g.2, "iteration_".toList ++ decimal r.rep = n := by
    intro n
    rw [hls.all, List.append_assoc]
    exact e1 n
  have hperm : names.Perm (g.2.map (fun r => "iteration_".toList ++ decimal r.rep)) :=
    (List.perm_ext_iff_of_nodup hls.once hnod).2 (fun n => by rw [hnames, List.mem_map])
  have hlen : names.length = g.2.length := by rw [hperm.length_eq, List.length_map]
  -- what is read under a name
  let rd : FName → LogTable K := fun n => match readLog C asLog d (top ++ [g.1, n]) with | .ok t => t | .error _ => []
  have hrd : ∀ r ∈ g.2, rd ("iteration_".toList ++ decimal r.rep) = log r := by
    intro r hr
    show (match readLog C asLog d (top ++ [g.1, "iteration_".toList ++ decimal r.rep]) with | .ok t => t | .error _ => []) = log r
    rw [hread r hr]
  have hrd' : ∀ n ∈ names, readLog C asLog d (top ++ [g.1, n]) = .ok (rd n) := by
    intro n hn
    obtain ⟨r, hr, rfl⟩ := (hnames n).1 hn
    rw [hrd r hr, hread r hr]
  have hne : names ≠ [] := by
    intro e
    rw [e] at hlen
    exact (hg g hmem).1 (List.length_eq_zero_iff.1 hlen.symm)
  obtain ⟨t, t1, t2, t3⟩ := C113_average C asLog ls d top (sub := g.1) (by rw [hname]; exact (C113_folder ht pop).2) hls.answer hne hrd'
  refine ⟨t, by rw [← hlen]; exact t1, fun i => ?_, fun i c => ?_⟩
  · rw [t2]
    constructor
    · rintro ⟨n, hn, hlt⟩
      obtain ⟨r, hr, rfl⟩ := (hnames n).1 hn
      exact ⟨r, hr, by rwa [hrd r hr] at hlt⟩
    · rintro ⟨r, hr, hlt⟩
      exact ⟨_, (hnames _).2 ⟨r, hr, rfl⟩, by rwa [hrd r hr]⟩
  · rw [t3, hlen]
    congr 1
    have p1 : (reached rd names i).Perm (reached rd (g.2.map (fun r => "iteration_".toList ++ decimal r.rep)) i) := hperm.filter _
    rw [(p1.map _).sum_eq]
    unfold reached
    rw [List.filter_map, List.map_map]
    have e1 : g.2.filter ((fun n => decide (i < (rd n).length)) ∘ fun r => "iteration_".toList ++ decimal r.rep) = g.2.filter (fun r => decide (i < (log r).length)) := by
      refine List.filter_congr (fun r hr => ?_)
      show decide (i < (rd ("iteration_".toList ++ decimal r.rep)).length) = _
      rw [hrd r hr]
    rw [e1]
    congr 1
    refine List.map_congr_left (fun r hr => ?_)
    show (rd ("iteration_".toList ++ decimal r.rep)).entry i c = _
    rw [hrd r (List.mem_of_mem_filter hr)]

theorem below_none {d : Disk B} (h : SoundDisk d) {p : List FName} (hp : d p = none) (q : List FName) : d (p ++ q) = none := by
  induction q using List.reverseRecOn with
  | nil => rw [List.append_nil]; exact hp
  | append_singleton q n ih =>
    cases he : d (p ++ (q ++ [n])) with
    | none => rfl
    | some e =>
      rw [← List.append_assoc] at he
      rw [h.up _ _ _ he] at ih
      cases ih

theorem runs_through (C : Coding O D B) (k : Nat) (top : List FName) (gs : List (List Char × List (BenchRun O D B)))
    (hg : ∀ g ∈ gs, g.2 ≠ [] ∧ ∀ r ∈ g.2, r.setting = g.1) (hb : BenchSound k (gs.flatMap (·.2))) (w : IoWorld B) (hw : BenchReady top (gs.flatMap (·.2)) w.disk)
    (hnew : ∀ g ∈ gs, ∀ n, w.disk (top ++ [g.1, n]) = none) {data : BenchRun O D B → RunData O D B}
    (hrun : ∀ r ∈ gs.flatMap (·.2), r.cmds = runCmds k (data r) ∧ r.raises = false ∧ Serialisable C (data r)) :
    (∀ r ∈ gs.flatMap (·.2), (evolverRun C k top r w).2 = true ∧ (evolverRun C k top r w).1.disk (r.folder top ++ ["log.pkl".toList]) = some (.file (C.dumpObj (data r).log).1)) ∧ (groupBench C k top gs w).2 = true := by
  have one : ∀ r ∈ gs.flatMap (·.2), (evolverRun C k top r w).2 = true ∧ (evolverRun C k top r w).1.disk (r.folder top ++ ["log.pkl".toList]) = some (.file (C.dumpObj (data r).log).1) := by
    intro r hr
    obtain ⟨h1, h2, h3⟩ := hrun r hr
    obtain ⟨g', hg', hr'⟩ := List.mem_flatMap.1 hr
    have hfree : w.disk (r.folder top) = none := by
      unfold BenchRun.folder
      rw [(hg g' hg').2 r hr']
      exact hnew g' hg' _
    obtain ⟨w3, a1, a2, -, a3, a4, a5, a6⟩ := run_start C k (hb.plain r hr) hw.sound hw.there (hw.setting r hr) (hw.rep r hr)
    obtain ⟨w', e, h⟩ := C77_run_new_folder C w3 a3 k (data r) h3 _ a2 a4 (fun q hq => by
      rw [a1]
      unfold Disk.withDirs
      rw [if_neg, below_none hw.sound hfree]
      rintro ⟨hp, -⟩
      have := hp.length_le
      rw [List.length_append] at this
      exact hq (List.length_eq_zero_iff.1 (by omega)))
    rw [a6, a5, h1, e]
    exact ⟨⟨rfl, h2⟩, (h _ _).2 .log⟩
  have hdone : (groupBench C k top gs w).2 = true := by
    obtain ⟨made, rest, m1, -, -, m4⟩ := C111_stops C k top gs hg hb w hw
    cases hf : (groupBench C k top gs w).2 with
    | true => rfl
    | false =>
      obtain ⟨before, r, rfl, -, hr⟩ := m4 hf
      rw [(one r (by rw [m1]; simp)).1] at hr
      cases hr
  exact ⟨one, hdone⟩

/-- **C113 (from the runs to the curve).**  If runs save what a run of the topology optimisation saves, and none raises, then the benchmark of the elitism script in a new folder goes through,
and the average over a setting is that of the logs of its runs. -/
theorem C113_runs (C : Coding O D B) (hC : Faithful C) (asLog : O → LogTable K) (k : Nat) (top : List FName) (gs : List (List Char × List (BenchRun O D B)))
    (hg : ∀ g ∈ gs, g.2 ≠ [] ∧ ∀ r ∈ g.2, r.setting = g.1) (hs : (gs.map (·.1)).Nodup) (hb : BenchSound k (gs.flatMap (·.2))) (w : IoWorld B) (hw : BenchReady top (gs.flatMap (·.2)) w.disk)
    (hnew : ∀ g ∈ gs, ∀ n, w.disk (top ++ [g.1, n]) = none) {data : BenchRun O D B → RunData O D B}
    (hrun : ∀ r ∈ gs.flatMap (·.2), r.cmds = runCmds k (data r) ∧ r.raises = false ∧ Serialisable C (data r))
    {ls : List FName → Except IoErr (List FName)} {g : List Char × List (BenchRun O D B)} (hmem : g ∈ gs) {pop : Nat} {ratio : ElitismRatio} {text : List Char} (ht : RatioText ratio text) (hname : g.1 = elitismFolder pop text)
    {names : List FName} (hls : Listing ls (groupBench C k top gs w).1.disk (top ++ [g.1]) names) :
    (groupBench C k top gs w).2 = true ∧
    ∃ t, categoryMean C asLog ls (groupBench C k top gs w).1.disk top pop ratio = .ok (t, g.2.length) ∧ (∀ i, i < t.length ↔ ∃ r ∈ g.2, i < (asLog (data r).log).length) ∧
      ∀ i c, t.entry i c = ((reached (fun r => asLog (data r).log) g.2 i).map (fun r => LogTable.entry (asLog (data r).log) i c)).sum / (g.2.length : K) := by
  obtain ⟨one, hdone⟩ := runs_through C k top gs hg hb w hw hnew hrun
  refine ⟨hdone, ?_⟩
  exact C113_pipeline C asLog k top gs hg hs hb w hw hnew hdone (log := fun r => asLog (data r).log)
    (fun r hr => ⟨_, _, (one r hr).2, hC _ ((hrun r hr).2.2.objects _ (by simp)), rfl⟩) hmem ht hname hls

end

/-! ## Cases -/

/-- A log of as many rows as the number says. -/
def demoLog (n : Nat) : LogTable ℚ := (List.range n).map (fun (g : Nat) c => if c = .generation then (g : ℚ) else 6)

theorem demoLog_numbered (n : Nat) : NumberedLog (demoLog n) := by
  intro g hg
  unfold demoLog at hg ⊢
  rw [List.length_map, List.length_range] at hg
  simp [LogTable.entry, hg]

theorem demoLog_length (n : Nat) : (demoLog n).length = n := by simp [demoLog]

/-- A folder with two runs, of two and of four generations; other names are not there. -/
def demoLogDisk : Disk Nat := fun p =>
  if p = ["d".toList, elitismFolder 8 "0.1".toList, "a".toList, "log.pkl".toList] then some (.file 2)
  else if p = ["d".toList, elitismFolder 8 "0.1".toList, "b".toList, "log.pkl".toList] then some (.file 4)
  else if p <+: ["d".toList, elitismFolder 8 "0.1".toList, "a".toList] ∨ p <+: ["d".toList, elitismFolder 8 "0.1".toList, "b".toList] then some .dir
  else none

/-- The folder is listed in this order. -/
def demoLs : List FName → Except IoErr (List FName) := fun p => if p = ["d".toList, elitismFolder 8 "0.1".toList] then .ok ["b".toList, "a".toList] else .error .notFound

def demoLen : FName → Nat := fun n => if n = "a".toList then 2 else 4

theorem demo_ratio : RatioText (.float "0.1".toList 0) "0.1".toList := by
  have h := RatioText.float 0 ['1'] (by decide)
  rwa [show decimal 0 = ['0'] by rw [decimal]; rfl] at h

theorem demo_folder : analysisFolder 8 (.float "0.1".toList 0) = .ok (elitismFolder 8 "0.1".toList) := (C113_folder demo_ratio 8).2

theorem readLog_of {O D B : Type} {C : Coding O D B} {asLog : O → LogTable ℚ} {disk : Disk B} {p : List FName} {b : B} {o : O} (h : readFile disk (p ++ ["log.pkl".toList]) = .ok b) (ho : C.loadObj b = some o) :
    readLog C asLog disk p = .ok (asLog o) := by
  unfold readLog; rw [h]; simp only [decoded, ho]

theorem readLog_bad {O D B : Type} {C : Coding O D B} {asLog : O → LogTable ℚ} {disk : Disk B} {p : List FName} {e : IoErr} (h : readFile disk (p ++ ["log.pkl".toList]) = .error e) :
    readLog C asLog disk p = .error (.io e) := by
  unfold readLog; rw [h]; rfl

theorem demo_read : ∀ n ∈ ["b".toList, "a".toList], readLog benchCode demoLog demoLogDisk (["d".toList] ++ [elitismFolder 8 "0.1".toList, n]) = .ok (demoLog (demoLen n)) := by
  have a : readFile demoLogDisk ["d".toList, elitismFolder 8 "0.1".toList, "a".toList, "log.pkl".toList] = .ok 2 := by decide +kernel
  have b : readFile demoLogDisk ["d".toList, elitismFolder 8 "0.1".toList, "b".toList, "log.pkl".toList] = .ok 4 := by decide +kernel
  intro n hn
  simp only [List.mem_cons, List.not_mem_nil, or_false] at hn
  rcases hn with rfl | rfl
  · exact readLog_of b rfl
  · exact readLog_of a rfl

example := C113_average benchCode demoLog demoLs demoLogDisk ["d".toList] demo_folder (names := ["b".toList, "a".toList]) (if_pos rfl) (by simp) demo_read
/-- Generation 3 is in one log of two: its point is at 3/2, with half of the value. -/
example := C113_short benchCode demoLog demoLs demoLogDisk ["d".toList] demo_folder (names := ["b".toList, "a".toList]) (if_pos rfl) demo_read (fun n _ => demoLog_numbered _) 3
  ⟨"b".toList, by simp, by rw [demoLog_length]; decide⟩ ⟨"a".toList, by simp, by rw [demoLog_length]; decide⟩
example := C113_complete benchCode demoLog (fun _ => .ok ["b".toList]) demoLogDisk ["d".toList] demo_folder (names := ["b".toList]) rfl (by simp)
  (fun n hn => demo_read n (by simp only [List.mem_singleton] at hn; simp [hn])) (fun n _ => demoLog_numbered _) (L := 4)
  (fun n hn => by simp only [List.mem_singleton] at hn; rw [demoLog_length, hn]; rfl)

example := C113_folder demo_ratio 8
example := C113_folder (RatioText.int 0) 16
example := (C113_folder_exponent 8 "5e-05".toList 0).1 (by decide)
example := (C113_folder_exponent 8 "1.5e-05".toList 0).2 1 "5e-05".toList (by rw [show decimal 1 = ['1'] by rw [decimal]; rfl]; decide) (by decide)

/-- Two categories, the same one twice. -/
example : ∃ (tab : Nat × ElitismRatio → LogTable ℚ) (num : Nat), ∃ l, displayLog benchCode demoLog demoLs demoLogDisk ["d".toList] "time" ["mean", "maximum"] [(8, .float "0.1".toList 0), (8, .float "0.1".toList 0)] = .ok (l, num) ∧
    ∀ k : LogCurve ℚ, k ∈ l ↔ ∃ p, [(8, ElitismRatio.float "0.1".toList 0), (8, .float "0.1".toList 0)][k.category]? = some p ∧ k.points = (tab p).map (fun row => (row .time, row k.column)) ∧
      (k.column = .mean ∧ "mean" ∈ ["mean", "maximum"] ∨ k.column = .minimum ∧ "minimum" ∈ ["mean", "maximum"] ∨ k.column = .maximum ∧ "maximum" ∈ ["mean", "maximum"]) := by
  obtain ⟨t, ht, -⟩ := C113_average benchCode demoLog demoLs demoLogDisk ["d".toList] demo_folder (names := ["b".toList, "a".toList]) (if_pos rfl) (by simp) demo_read
  refine ⟨fun _ => t, 2, C113_shown benchCode demoLog demoLs demoLogDisk ["d".toList] ["mean", "maximum"] (last := (8, .float "0.1".toList 0)) rfl (tab := fun _ => t) (num := fun _ => 2) (fun p hp => ?_) (Or.inr ⟨rfl, rfl⟩)⟩
  simp only [List.mem_cons, List.not_mem_nil, or_false, or_self] at hp
  subst hp
  exact ht

/-- A run without a log, in a second category. -/
example : ∃ e, displayLog benchCode demoLog demoLs (fun p => if p = ["d".toList, elitismFolder 8 "0.1".toList, "a".toList, "log.pkl".toList] then none else demoLogDisk p) ["d".toList] "generation" ["mean"] [(8, .float "0.1".toList 0)] = .error e :=
  (C113_missing benchCode demoLog demoLs _ ["d".toList] "generation" ["mean"] _).1 8 _ _ (by simp) demo_folder
    (Or.inl ⟨["b".toList, "a".toList], "a".toList, .io .notFound, if_pos rfl, by simp, by
      have a : readFile (fun p => if p = ["d".toList, elitismFolder 8 "0.1".toList, "a".toList, "log.pkl".toList] then none else demoLogDisk p)
          ["d".toList, elitismFolder 8 "0.1".toList, "a".toList, "log.pkl".toList] = .error .notFound := by decide +kernel
      exact readLog_bad a⟩)

/-- Two settings, with two runs and with one. -/
def demoGroups : List (List Char × List (BenchRun Nat Nat Nat)) :=
  [(elitismFolder 8 "0.1".toList, [⟨elitismFolder 8 "0.1".toList, 0, runCmds 0 benchData, false⟩, ⟨elitismFolder 8 "0.1".toList, 1, runCmds 0 benchData, false⟩]),
   (elitismFolder 8 "0".toList, [⟨elitismFolder 8 "0".toList, 0, runCmds 0 benchData, false⟩])]

theorem demoGroups_sound : BenchSound 0 (demoGroups.flatMap (·.2)) := by
  have h1 : PlainName (elitismFolder 8 "0.1".toList) := by unfold PlainName; decide +kernel
  have h2 : PlainName (elitismFolder 8 "0".toList) := by unfold PlainName; decide +kernel
  have hne : elitismFolder 8 "0.1".toList ≠ elitismFolder 8 "0".toList := by decide +kernel
  refine ⟨?_, ?_, ?_⟩
  · intro r hr
    simp only [demoGroups, List.flatMap_cons, List.flatMap_nil, List.append_nil, List.cons_append, List.nil_append, List.mem_cons, List.not_mem_nil, or_false] at hr
    rcases hr with rfl | rfl | rfl
    · exact h1
    · exact h1
    · exact h2
  · intro r hr
    simp only [demoGroups, List.flatMap_cons, List.flatMap_nil, List.append_nil, List.cons_append, List.nil_append, List.mem_cons, List.not_mem_nil, or_false] at hr
    rcases hr with rfl | rfl | rfl <;> exact fun c hc => runCmds_local 0 benchData c hc
  · simp [demoGroups]
    exact hne

theorem demoGroups_ready : BenchReady ["top".toList] (demoGroups.flatMap (·.2)) benchDisk := by
  have nofile : ∀ p b, benchDisk p ≠ some (.file b) := by
    intro p b
    unfold benchDisk
    split_ifs <;> simp
  exact ⟨benchDemo_ready.sound, benchDemo_ready.there, fun r _ b => nofile _ b, fun r _ b => nofile _ b⟩

theorem demoGroups_new : ∀ g ∈ demoGroups, ∀ n, benchDisk (["top".toList] ++ [g.1, n]) = none := fun g _ n => by
  unfold benchDisk
  rw [if_neg]
  simp

theorem demoGroups_runs : ∀ r ∈ demoGroups.flatMap (·.2), r.cmds = runCmds 0 benchData ∧ r.raises = false ∧ Serialisable benchCode benchData := fun r hr => by
  simp only [demoGroups, List.flatMap_cons, List.flatMap_nil, List.append_nil, List.cons_append, List.nil_append, List.mem_cons, List.not_mem_nil, or_false] at hr
  refine ⟨?_, ?_, rfl, rfl, fun _ _ => rfl, fun _ _ _ _ _ => rfl, fun _ _ _ _ _ => rfl⟩
  · rcases hr with rfl | rfl | rfl <;> rfl
  · rcases hr with rfl | rfl | rfl <;> rfl

/-- The disk before the benchmark, and the folder of the first setting after it as it may be listed. -/
def demoStart : IoWorld Nat := ⟨benchDisk, fun _ => ⟨[], [], []⟩⟩

theorem demoGroups_list : Listing (fun _ => .ok ["iteration_".toList ++ decimal 0, "iteration_".toList ++ decimal 1]) (groupBench benchCode 0 ["top".toList] demoGroups demoStart).1.disk
    (["top".toList] ++ [elitismFolder 8 "0.1".toList]) ["iteration_".toList ++ decimal 0, "iteration_".toList ++ decimal 1] := by
  obtain ⟨one, hdone⟩ := runs_through benchCode 0 ["top".toList] demoGroups (by simp [demoGroups]) demoGroups_sound demoStart demoGroups_ready demoGroups_new (data := fun _ => benchData) demoGroups_runs
  obtain ⟨h1, h2, -⟩ := bench_setting benchCode demoLog 0 ["top".toList] demoGroups (by simp [demoGroups]) (by decide +kernel) demoGroups_sound demoStart demoGroups_ready demoGroups_new hdone
    (log := fun _ => demoLog benchData.log) (fun r hr => ⟨_, _, (one r hr).2, rfl, rfl⟩) (g := (elitismFolder 8 "0.1".toList, _)) List.mem_cons_self
  refine ⟨rfl, h2, fun n => ?_⟩
  rw [List.append_assoc]
  refine Iff.trans ?_ (h1 n).symm
  simp [eq_comm]

example :=
  C113_runs benchCode (fun _ _ => rfl) demoLog 0 ["top".toList] demoGroups (by simp [demoGroups]) (by decide +kernel) demoGroups_sound demoStart demoGroups_ready demoGroups_new
    (data := fun _ => benchData) demoGroups_runs (g := (elitismFolder 8 "0.1".toList, _)) List.mem_cons_self demo_ratio rfl demoGroups_list
example :=
  have h := runs_through benchCode 0 ["top".toList] demoGroups (by simp [demoGroups]) demoGroups_sound demoStart demoGroups_ready demoGroups_new (data := fun _ => benchData) demoGroups_runs
  C113_pipeline benchCode demoLog 0 ["top".toList] demoGroups (by simp [demoGroups]) (by decide +kernel) demoGroups_sound demoStart demoGroups_ready demoGroups_new h.2
    (log := fun _ => demoLog benchData.log) (fun r hr => ⟨_, _, (h.1 r hr).2, rfl, rfl⟩) (g := (elitismFolder 8 "0.1".toList, _)) List.mem_cons_self demo_ratio rfl demoGroups_list

end Verif
