import Verif.Props.Drawing
/-!
# C86: Plots, table and selection; the Hessian
-/

namespace Verif

section
variable {R : Type}

/-- What a user can do in a window: load, or change the selection to edges that are drawn or were selected already (Bokeh keeps the selected numbers when a
new design is loaded). -/
def Window.can (w : Window R) : Act R → Prop
  | .select new => ∀ i ∈ new, i < w.model.length ∨ i ∈ w.sel
  | .load _ => True

/-- A history of such acts. -/
def Window.canAll (w : Window R) : List (Act R) → Prop
  | [] => True
  | a :: as => w.can a ∧ (w.act a).canAll as

/-- All lines of a plot that belong to edge `i` are visible or none. -/
def linesAre (w : Window R) (i : Nat) (b : Bool) : Prop := ∀ p bs, w.lines p i = some bs → ∀ x ∈ bs, x = b

theorem setVisible_mem {b : Bool} {o : Option (List Bool)} {bs : List Bool} (h : o.map (fun bs => bs.map (fun _ => b)) = some bs) : ∀ x ∈ bs, x = b := by
  cases o with
  | none => simp at h
  | some cs =>
    simp only [Option.map_some, Option.some.injEq] at h
    subst h
    intro x hx
    obtain ⟨_, _, rfl⟩ := List.mem_map.1 hx
    rfl

/-- The lines after a selection that went well. -/
theorem select_lines {w : Window R} {new : List Nat} (h : ∀ i ∈ new, i < w.model.length) (p : PlotId) (i : Nat) :
    (w.select new).lines p i = if i ∈ new then (w.lines p i).map (fun bs => bs.map (fun _ => true))
      else if i ∈ w.sel then (w.lines p i).map (fun bs => bs.map (fun _ => false)) else w.lines p i := by
  obtain ⟨rs, hr, _⟩ := rowsOf_ok w.model new h
  simp only [Window.select, hr]
  rw [foldl_setVisible, foldl_setVisible]
  by_cases h1 : i ∈ new
  · simp [h1]
  · by_cases h2 : i ∈ w.sel <;> simp [h1, h2]

theorem select_fails {w : Window R} {new : List Nat} (h : ∃ i ∈ new, w.model.length ≤ i) : w.select new = { w with table := [], sel := new } := by
  simp only [Window.select, rowsOf_error w.model new h]

/-- Either nothing is visible, or exactly the lines of the selected edges are, which all exist. -/
def windowInv (w : Window R) : Prop :=
  (∀ i, linesAre w i false) ∨ ((∀ i ∈ w.sel, i < w.model.length) ∧ ∀ i, linesAre w i (decide (i ∈ w.sel)))

theorem select_visible {w : Window R} (hi : windowInv w) {new : List Nat} (h : ∀ i ∈ new, i < w.model.length) (i : Nat) :
    linesAre (w.select new) i (decide (i ∈ new)) := by
  intro p bs hb x hx
  rw [select_lines h] at hb
  by_cases h1 : i ∈ new
  · rw [if_pos h1] at hb
    simpa [h1] using setVisible_mem hb x hx
  · rw [if_neg h1] at hb
    by_cases h2 : i ∈ w.sel
    · rw [if_pos h2] at hb
      simpa [h1] using setVisible_mem hb x hx
    · rw [if_neg h2] at hb
      rcases hi with hi | ⟨_, hi⟩
      · simpa [h1] using hi i p bs hb x hx
      · simpa [h1, h2] using hi i p bs hb x hx

theorem windowInv_act {w : Window R} (hi : windowInv w) {a : Act R} (ha : w.can a) : windowInv (w.act a) := by
  cases a with
  | select new =>
    by_cases h : ∀ i ∈ new, i < w.model.length
    · refine Or.inr ⟨?_, ?_⟩
      · obtain ⟨rs, hr, _⟩ := rowsOf_ok w.model new h
        simpa only [Window.act, Window.select, hr] using h
      · have hs : (w.act (.select new)).sel = new := by
          obtain ⟨rs, hr, _⟩ := rowsOf_ok w.model new h
          simp only [Window.act, Window.select, hr]
        rw [hs]
        exact select_visible hi h
    · have h' : ∃ i ∈ new, w.model.length ≤ i := by
        by_contra hc
        exact h (fun i hn => by
          by_contra hl
          exact hc ⟨i, hn, Nat.not_lt.1 hl⟩)
      have e : w.act (.select new) = { w with table := [], sel := new } := select_fails h'
      rw [e]
      rcases hi with hi | ⟨hi, _⟩
      · exact Or.inl hi
      · obtain ⟨i, hn, hl⟩ := h'
        rcases ha i hn with h1 | h1
        · omega
        · exact absurd (hi i h1) (by omega)
  | load r =>
    refine Or.inl ?_
    intro i p bs hb x hx
    cases r with
    | error e => simp [Window.act, Window.load] at hb
    | ok d =>
      simp only [Window.act, Window.load, newLines] at hb
      split at hb
      · cases hb
      · injection hb with hb
        subst hb
        exact (List.mem_replicate.1 hx).2

theorem windowInv_acts {w : Window R} (hi : windowInv w) {as : List (Act R)} (ha : w.canAll as) : windowInv (w.acts as) := by
  induction as generalizing w with
  | nil => exact hi
  | cons a as ih => exact ih (windowInv_act hi ha.1) ha.2

/-- Whatever a user did before, by loading designs and selecting edges: after selecting edges of the design shown, the table holds the rows of just these, in order
of the selection, and in every plot exactly their lines are visible. -/
theorem C86_selection {as : List (Act R)} (ha : (Window.start R).canAll as) {new : List Nat}
    (hn : ∀ i ∈ new, i < ((Window.start R).acts as).model.length) :
    (((Window.start R).acts as).select new).table.map some = new.map (fun i => (((Window.start R).acts as).model[i]?).map (·.1)) ∧
    ∀ p i bs, (((Window.start R).acts as).select new).lines p i = some bs → ∀ x ∈ bs, (x = true ↔ i ∈ new) := by
  have hi : windowInv ((Window.start R).acts as) := windowInv_acts (Or.inl (fun i p bs hb => by simp [Window.start] at hb)) ha
  refine ⟨?_, fun p i bs hb x hx => ?_⟩
  · obtain ⟨rs, hr, hm⟩ := rowsOf_ok _ new hn
    simp only [Window.select, hr, hm]
  · have := select_visible hi hn i p bs hb x hx
    rw [this]; simp

/-- The lines there are: after a successful loading, and selections since, each edge of the design has one line in either plot of the light and one for each
recorded transform in the plot of its kind; nothing else has lines. -/
theorem C86_lines (w : Window R) (d : Shown R) (sels : List (List Nat)) (p : PlotId) (i : Nat) :
    (((w.load (.ok d)).acts (sels.map .select)).lines p i).map List.length = (d[i]?).map (fun r => match p, r.2 with
      | .propTime, _ => 1
      | .propFreq, _ => 1
      | .tranTime, some ds => ds.count ['t']
      | .tranFreq, some ds => ds.count ['f']
      | _, none => 0) := by
  have keep : ∀ (sels : List (List Nat)) (w : Window R), ((w.acts (sels.map .select)).lines p i).map List.length = (w.lines p i).map List.length := by
    intro sels
    induction sels with
    | nil => intro w; rfl
    | cons s ss ih =>
      intro w
      have e : w.acts ((s :: ss).map .select) = (w.select s).acts (ss.map .select) := rfl
      rw [e, ih]
      by_cases h : ∀ i ∈ s, i < w.model.length
      · rw [select_lines h]
        split
        · cases w.lines p i <;> simp
        · split
          · cases w.lines p i <;> simp
          · rfl
      · have h' : ∃ i ∈ s, w.model.length ≤ i := by
          by_contra hc
          exact h (fun i hn => by
            by_contra hl
            exact hc ⟨i, hn, Nat.not_lt.1 hl⟩)
        rw [select_fails h']
  rw [keep]
  simp only [Window.load, newLines]
  cases d[i]? with
  | none => rfl
  | some r =>
    obtain ⟨r, tr⟩ := r
    cases tr with
    | none => cases p <;> simp [plotCount]
    | some ds =>
      cases p
      · simp [plotCount]
      · simp [plotCount]
      · simp only [Option.map_some, List.length_replicate, plotCount, List.count_eq_length_filter]
        congr 3
        funext x
        by_cases h : x = ['t'] <;> simp [h]
      · simp only [Option.map_some, List.length_replicate, plotCount, List.count_eq_length_filter]
        congr 3
        funext x
        by_cases h : x = ['f'] <;> simp [h]

/-- Loading keeps the selected edges and the table: until the selection changes, the table shows parameters of the design before, and no line of a selected edge is
visible (finding). -/
theorem C86_load_keeps (w : Window R) (d : Shown R) :
    (w.load (.ok d)).table = w.table ∧ (w.load (.ok d)).sel = w.sel ∧ ∀ p i bs, (w.load (.ok d)).lines p i = some bs → ∀ x ∈ bs, x = false := by
  refine ⟨rfl, rfl, fun p i bs hb x hx => ?_⟩
  simp only [Window.load, newLines] at hb
  split at hb
  · cases hb
  · injection hb with hb
    subst hb
    exact (List.mem_replicate.1 hx).2

/-- After a loading that failed the window stays without any line, whichever edges are selected then, though the table still shows their parameters in the design
before; the button stays at `... Loading graph` (finding). -/
theorem C86_failed_load (w : Window R) (e : Err) (sels : List (List Nat)) :
    (∀ p i, ((w.load (.error e)).acts (sels.map .select)).lines p i = none) ∧
    ((w.load (.error e)).acts (sels.map .select)).loading = true ∧ ((w.load (.error e)).acts (sels.map .select)).model = w.model ∧
    (w.load (.error e)).table = w.table := by
  have keep : ∀ (sels : List (List Nat)) (w : Window R), (∀ p i, w.lines p i = none) →
      (∀ p i, (w.acts (sels.map .select)).lines p i = none) ∧ (w.acts (sels.map .select)).loading = w.loading ∧ (w.acts (sels.map .select)).model = w.model := by
    intro sels
    induction sels with
    | nil => intro w h; exact ⟨h, rfl, rfl⟩
    | cons s ss ih =>
      intro w hw
      have e : w.acts ((s :: ss).map .select) = (w.select s).acts (ss.map .select) := rfl
      rw [e]
      have hs : (∀ p i, (w.select s).lines p i = none) ∧ (w.select s).loading = w.loading ∧ (w.select s).model = w.model := by
        by_cases h : ∀ i ∈ s, i < w.model.length
        · refine ⟨fun p i => ?_, ?_⟩
          · rw [select_lines h, hw]; simp
          · obtain ⟨rs, hr, _⟩ := rowsOf_ok w.model s h
            simp only [Window.select, hr, and_self]
        · have h' : ∃ i ∈ s, w.model.length ≤ i := by
            by_contra hc
            exact h (fun i hn => by
              by_contra hl
              exact hc ⟨i, hn, Nat.not_lt.1 hl⟩)
          rw [select_fails h']
          exact ⟨hw, rfl, rfl⟩
      obtain ⟨a, b, c⟩ := ih (w.select s) hs.1
      exact ⟨a, b.trans hs.2.1, c.trans hs.2.2⟩
  obtain ⟨a, b, c⟩ := keep sels (w.load (.error e)) (fun _ _ => rfl)
  exact ⟨a, b, c, rfl⟩

/-- A selection kept from a larger design: adding an edge to it fails, and leaves the table empty and the plots as they were (finding). -/
theorem C86_stale_selection (w : Window R) {new : List Nat} (h : ∃ i ∈ new, w.model.length ≤ i) :
    (w.select new).table = [] ∧ (w.select new).lines = w.lines ∧ (w.select new).sel = new := by
  rw [select_fails h]
  exact ⟨rfl, rfl, rfl⟩

/-- Two designs loaded after each other: of the first, two edges are selected and the second of them left; of the other, with one edge, this one. -/
example : let w := (Window.start Nat).acts [.load (.ok [(10, none), (11, some [['t'], ['f'], ['t']])]), .select [0, 1], .select [1]]
    w.table = [11] ∧ w.lines .tranTime 1 = some [true, true] ∧ w.lines .propTime 0 = some [false] ∧
    (w.acts [.load (.ok [(20, none)])]).table = [11] ∧ (w.acts [.load (.ok [(20, none)]), .select [1, 0]]).table = [] ∧
    (w.acts [.load (.ok [(20, none)]), .select [0]]).lines .propFreq 0 = some [true] := by
  refine ⟨rfl, rfl, rfl, rfl, rfl, rfl⟩

example : (Window.start Nat).canAll [.load (.ok [(10, none), (11, none)]), .select [0, 1], .load (.ok [(20, none)]), .select [1, 0], .load (.error .keyError), .select [0]] := by
  simp [Window.canAll, Window.can, Window.act, Window.load, Window.select, Window.start, rowsOf]

end

/-- The rows are those of the table of C78. -/
theorem C86_rows {S V : Type} (L : ViewLib) (o : Opened S V) (tr : ModelId → Option (List Str)) (i : Nat) :
    ((o.shown L tr)[i]?).map (·.1) = o.row L i := by
  unfold Opened.shown Opened.row
  rw [List.getElem?_map, List.getElem?_zipIdx]
  cases o.graph.edges[i]? <;> simp

/-! ## The Hessian -/

/-- The heat map has a cell for each entry of the matrix, in the column of its column and counted from the top in the row of its row, with the entry as value
and the names of the two parameters; and nothing else. -/
theorem C86_heatmap (n : Nat) (hess : Nat → Nat → ℝ) (text : Nat → Str) (c : HeatCell) :
    c ∈ heatCells n hess text ↔ ∃ i j, i < n ∧ j < n ∧ c.x = j ∧ c.y + i + 1 = n ∧ c.value = hess i j ∧ c.logValue = 1 + |hess i j| ∧
      c.xName = text j ∧ c.yName = text i := by
  unfold heatCells
  simp only [List.mem_flatMap, List.mem_map, List.mem_range]
  constructor
  · rintro ⟨i, hi, j, hj, rfl⟩
    exact ⟨i, j, hi, hj, rfl, by simp only; omega, rfl, rfl, rfl, rfl⟩
  · rintro ⟨i, j, hi, hj, h1, h2, h3, h4, h5, h6⟩
    refine ⟨i, hi, j, hj, ?_⟩
    obtain ⟨x, y, v, lv, xn, yn⟩ := c
    simp only at h1 h2 h3 h4 h5 h6
    simp only [HeatCell.mk.injEq]
    exact ⟨h1.symm, by omega, h3.symm, h4.symm, h5.symm, h6.symm⟩

/-- A label begins with the name of the parameter and ends with the name of the component; if no component's name has a dash, two labels are equal only if both names are. -/
theorem C86_labels (p c p' c' : Str) :
    p <+: paramText p c ∧ c <:+ paramText p c ∧
    ('-' ∉ c → '-' ∉ c' → paramText p c = paramText p' c' → p = p' ∧ c = c') := by
  refine ⟨⟨['-'] ++ c, by simp [paramText]⟩, ⟨p ++ ['-'], rfl⟩, ?_⟩
  intro h1 h2 h
  have key : ∀ (a b x y : Str), '-' ∉ a → '-' ∉ x → a ++ '-' :: b = x ++ '-' :: y → a = x ∧ b = y := by
    intro a
    induction a with
    | nil =>
      intro b x y _ hx h
      cases x with
      | nil => simpa using h
      | cons d x => simp only [List.nil_append, List.cons_append, List.cons.injEq] at h; exact absurd (by rw [← h.1]; simp) hx
    | cons d a ih =>
      intro b x y ha hx h
      cases x with
      | nil => simp only [List.nil_append, List.cons_append, List.cons.injEq] at h; exact absurd (by rw [h.1]; simp) ha
      | cons d' x =>
        simp only [List.cons_append, List.cons.injEq] at h
        have := ih b x y (fun hm => ha (List.mem_cons_of_mem _ hm)) (fun hm => hx (List.mem_cons_of_mem _ hm)) h.2
        exact ⟨by rw [h.1, this.1], this.2⟩
  have hr := congrArg List.reverse h
  unfold paramText at hr
  simp only [List.reverse_append, List.reverse_cons, List.reverse_nil, List.nil_append] at hr
  obtain ⟨e1, e2⟩ := key c.reverse p.reverse c'.reverse p'.reverse (by simpa using h1) (by simpa using h2) (by simpa using hr)
  exact ⟨List.reverse_injective e2, List.reverse_injective e1⟩

example : paramText ['b', 'i', 'a', 's'] ['I', 'M', '0'] ≠ paramText ['b', 'i', 'a', 's'] ['I', 'M', '1'] := fun h =>
  absurd ((C86_labels _ _ _ _).2.2 (by decide) (by decide) h).2 (by decide)

theorem flatMap_zip {α β : Type} (n : Nat) (f : Nat → Nat → α) (g : Nat → Nat → β) (is : List Nat) :
    List.zip (is.flatMap (fun i => (List.range n).map (f i))) (is.flatMap (fun i => (List.range n).map (g i))) =
      is.flatMap (fun i => (List.range n).map (fun j => (f i j, g i j))) := by
  induction is with
  | nil => rfl
  | cons i is ih =>
    rw [List.flatMap_cons, List.flatMap_cons, List.flatMap_cons, List.zip_append (by simp), ih]
    congr 1
    simp [List.zip_map']

/-- Each bar of the eigenvector plot carries the name of the parameter whose component it shows, the value of the component and the eigenvalue; there is one
for each component of each vector. -/
theorem C86_eigen_bars (n : Nat) (vals : Nat → ℝ) (vecs : Nat → Nat → ℝ) (text : Nat → Str) (b : EigenBar) :
    b ∈ eigenBars n vals vecs text ↔ ∃ i j, i < n ∧ j < n ∧ b.x = j ∧ b.name = text j ∧ b.weight = vecs j i ∧ b.eigenValue = vals i ∧
      b.bottom = 2 * (i : ℝ) ∧ b.top = 2 * (i : ℝ) + vecs j i := by
  unfold eigenBars heatCells
  rw [← List.map_uncurry_zip_eq_zipWith, flatMap_zip]
  simp only [List.mem_map, List.mem_flatMap, List.mem_range]
  constructor
  · rintro ⟨_, ⟨i, hi, j, hj, rfl⟩, rfl⟩
    exact ⟨i, j, hi, hj, rfl, rfl, rfl, rfl, rfl, rfl⟩
  · rintro ⟨i, j, hi, hj, h1, h2, h3, h4, h5, h6⟩
    refine ⟨_, ⟨i, hi, j, hj, rfl⟩, ?_⟩
    obtain ⟨x, bo, tp, w, ev, nm⟩ := b
    simp only at h1 h2 h3 h4 h5 h6
    simp only [Function.uncurry, EigenBar.mk.injEq]
    exact ⟨h1.symm, h5.symm, h6.symm, h3.symm, h4.symm, h2.symm⟩

/-- The plot is cut at a height of `n + 2`: with more than five parameters the bars of the last eigenvector lie above it, when its components are at most one in size
(finding). -/
theorem C86_eigen_cut {n : Nat} (hn : 5 < n) (vals : Nat → ℝ) (vecs : Nat → Nat → ℝ) (text : Nat → Str) (hv : ∀ i j, |vecs j i| ≤ 1) :
    ∃ b ∈ eigenBars n vals vecs text, b.eigenValue = vals (n - 1) ∧ (eigenRangeEnd n : ℝ) < b.bottom ∧ (eigenRangeEnd n : ℝ) ≤ b.top := by
  refine ⟨⟨0, 2 * ((n - 1 : ℕ) : ℝ), 2 * ((n - 1 : ℕ) : ℝ) + vecs 0 (n - 1), vecs 0 (n - 1), vals (n - 1), text 0⟩, ?_, rfl, ?_, ?_⟩
  · exact (C86_eigen_bars _ _ _ _ _).2 ⟨n - 1, 0, by omega, by omega, rfl, rfl, rfl, rfl, rfl, rfl⟩
  · have : (6 : ℝ) ≤ n := by exact_mod_cast hn
    simp only [eigenRangeEnd]
    rw [Nat.cast_sub (by omega)]
    push_cast
    linarith
  · have : (6 : ℝ) ≤ n := by exact_mod_cast hn
    have := (abs_le.1 (hv (n - 1) 0)).1
    simp only [eigenRangeEnd]
    rw [Nat.cast_sub (by omega)]
    push_cast
    linarith

example : ∃ b ∈ eigenBars 6 (fun _ => 1) (fun j i => if i = j then 1 else 0) (fun j => [Char.ofNat (97 + j)]), (eigenRangeEnd 6 : ℝ) < b.bottom := by
  obtain ⟨b, h1, _, h2, _⟩ := C86_eigen_cut (n := 6) (by norm_num) (fun _ => 1) (fun j i => if i = j then 1 else 0) (fun j => [Char.ofNat (97 + j)])
    (fun i j => by split <;> simp)
  exact ⟨b, h1, h2⟩


example := C86_selection (R := Nat) (as := [.load (.ok [(10, none), (11, none)]), .select [0, 1]]) (by
  simp [Window.canAll, Window.can, Window.act, Window.load, Window.start]) (new := [1]) (by
  intro i hi; simp at hi; subst hi; decide)
example := C86_lines (Window.start Nat) [(10, none), (11, some [['t'], ['f'], ['t']])] [[0], [0, 1]] .tranTime 1
example := C86_stale_selection ((Window.start Nat).load (.ok [(10, none)])) (new := [0, 3]) ⟨3, by simp, by decide⟩
example := C86_failed_load ((Window.start Nat).load (.ok [(10, none)])) .keyError [[0]]

/-- The cell in the first column of the last row. -/
example : ∃ c ∈ heatCells 2 (fun i j => if i = 1 ∧ j = 0 then -5 else 0) (fun i => if i = 0 then ['a'] else ['b']), c.x = 0 ∧ c.y = 0 ∧ c.value = -5 ∧ c.logValue = 6 ∧
    c.xName = ['a'] ∧ c.yName = ['b'] := by
  refine ⟨⟨0, 0, -5, 6, ['a'], ['b']⟩, (C86_heatmap _ _ _ _).2 ⟨1, 0, by norm_num, by norm_num, rfl, rfl, by norm_num, by norm_num [abs_of_pos], rfl, rfl⟩, ?_⟩
  simp

end Verif
