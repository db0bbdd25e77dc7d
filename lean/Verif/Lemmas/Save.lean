import Verif.Spec.Save
import Verif.Lemmas.Topo
import Mathlib.Data.Nat.Digits.Lemmas
/-! # Lemmas about saving and loading -/

namespace Verif

/-! ### Nicknames -/

/-- Value of a digit character. -/
def charVal (c : Char) : Nat := c.toNat - 48

theorem charVal_digit {d : Nat} (h : d < 10) : charVal d.digitChar = d := by
  have : ∀ d : Fin 10, charVal (d : Nat).digitChar = d := by decide
  exact this ⟨d, h⟩

theorem pad3_val (i : Nat) : Nat.ofDigits 10 ((pad3 i).reverse.map charVal) = i := by
  unfold pad3
  dsimp only
  rw [List.reverse_append, List.map_append, ← List.map_reverse, List.reverse_reverse, List.map_map]
  have h1 : (Nat.digits 10 i).map (charVal ∘ Nat.digitChar) = Nat.digits 10 i := by
    conv_rhs => rw [← List.map_id (Nat.digits 10 i)]
    apply List.map_congr_left
    intro d hd
    exact charVal_digit (Nat.digits_lt_base (by norm_num) hd)
  rw [h1, Nat.ofDigits_append, Nat.ofDigits_digits]
  have h2 : ∀ n, Nat.ofDigits 10 ((List.replicate n '0').reverse.map charVal) = 0 := by
    intro n
    rw [List.reverse_replicate, List.map_replicate]
    have : charVal '0' = 0 := by decide
    rw [this]
    induction n with
    | zero => rfl
    | succ n ih => rw [List.replicate_succ, Nat.ofDigits_cons, ih]
  rw [h2]
  simp

theorem pad3_inj {i j : Nat} (h : pad3 i = pad3 j) : i = j := by
  rw [← pad3_val i, ← pad3_val j, h]

theorem nickBase_nickname {name : Str} (h : '.' ∉ name) (i : Nat) : nickBase (nickname name i) = name := by
  unfold nickBase nickname
  induction name with
  | nil => simp
  | cons c cs ih =>
    simp only [List.mem_cons, not_or] at h
    rw [List.cons_append, List.takeWhile_cons]
    rw [ih h.2]
    simp [Ne.symm h.1]

theorem nickname_inj {a b : Str} (ha : '.' ∉ a) (hb : '.' ∉ b) {i j : Nat} (h : nickname a i = nickname b j) : a = b ∧ i = j := by
  have hab : a = b := by rw [← nickBase_nickname ha i, ← nickBase_nickname hb j, h]
  subst hab
  refine ⟨rfl, ?_⟩
  unfold nickname at h
  have := List.append_cancel_left h
  injection this with _ h2
  exact pad3_inj h2

/-! ### Dictionaries -/
section
variable {K V : Type} [DecidableEq K]

theorem dictSet_new {d : List (K × V)} {k : K} (h : k ∉ d.map (·.1)) (v : V) : dictSet d k v = d ++ [(k, v)] := by
  unfold dictSet
  rw [if_neg h]

theorem dictGet_mem {d : List (K × V)} (hn : (d.map (·.1)).Nodup) {k : K} {v : V} (h : (k, v) ∈ d) : dictGet d k = .ok v := by
  unfold dictGet
  induction d with
  | nil => cases h
  | cons x d ih =>
    rw [List.find?_cons]
    rw [List.map_cons, List.nodup_cons] at hn
    rcases List.mem_cons.1 h with rfl | h
    · simp
    · have hne : x.1 ≠ k := by
        intro hx
        apply hn.1
        rw [hx]
        exact List.mem_map_of_mem (f := (·.1)) h
      simp only [hne, decide_false]
      exact ih hn.2 h

end

section
variable {L P : Type} [DecidableEq L]

/-- Nicknames of nodes. -/
def nickList (R : Registry P) : Nat → List ClassId → List Str
  | _, [] => []
  | i, c :: cs => nickname (R.name c) i :: nickList R (i + 1) cs

omit [DecidableEq L] in
theorem nickList_length (R : Registry P) (cs : List ClassId) : ∀ i, (nickList R i cs).length = cs.length := by
  induction cs with
  | nil => intro i; rfl
  | cons c cs ih => intro i; simp [nickList, ih]

theorem nickList_get (R : Registry P) (cs : List ClassId) : ∀ (i k : Nat), (nickList R i cs)[k]? = cs[k]?.map (fun c => nickname (R.name c) (i + k)) := by
  induction cs with
  | nil => intro i k; simp [nickList]
  | cons c cs ih =>
    intro i k
    cases k with
    | zero => simp [nickList]
    | succ k =>
      simp only [nickList, List.getElem?_cons_succ, ih]
      rw [show i + 1 + k = i + (k + 1) by omega]

theorem mem_nickList {R : Registry P} {cs : List ClassId} {i : Nat} {s : Str} (h : s ∈ nickList R i cs) :
    ∃ c ∈ cs, ∃ j, i ≤ j ∧ s = nickname (R.name c) j := by
  induction cs generalizing i with
  | nil => cases h
  | cons c cs ih =>
    rcases List.mem_cons.1 h with rfl | h
    · exact ⟨c, List.mem_cons_self, i, le_rfl, rfl⟩
    · obtain ⟨c', h1, j, h2, h3⟩ := ih h
      exact ⟨c', List.mem_cons_of_mem _ h1, j, by omega, h3⟩

theorem nickList_nodup {R : Registry P} {cs : List ClassId} (hd : ∀ c ∈ cs, '.' ∉ R.name c) (i : Nat) : (nickList R i cs).Nodup := by
  induction cs generalizing i with
  | nil => exact List.nodup_nil
  | cons c cs ih =>
    refine List.nodup_cons.2 ⟨?_, ih (fun c' h => hd c' (List.mem_cons_of_mem _ h)) _⟩
    intro h
    obtain ⟨c', h1, j, h2, h3⟩ := mem_nickList h
    have := (nickname_inj (hd c List.mem_cons_self) (hd c' (List.mem_cons_of_mem _ h1)) h3).2
    omega

/-! ### Saving -/

theorem saveNodes_eq (R : Registry P) (ns : List (SNode L P)) : ∀ (i : Nat) (m : List (L × Str)) (p : List (Str × P)),
    (m.map (·.1) ++ ns.map (·.label)).Nodup → (p.map (·.1) ++ nickList R i (ns.map (·.cls))).Nodup →
    saveNodes R i ns (m, p) =
      (m ++ (ns.map (·.label)).zip (nickList R i (ns.map (·.cls))), p ++ (nickList R i (ns.map (·.cls))).zip (ns.map (·.params))) := by
  induction ns with
  | nil => intro i m p _ _; simp [saveNodes, nickList]
  | cons n ns ih =>
    intro i m p hm hp
    simp only [List.map_cons, nickList] at hm hp
    have h1 : n.label ∉ m.map (·.1) := fun h =>
      (List.nodup_append.1 hm).2.2 _ h _ List.mem_cons_self rfl
    have h2 : nickname (R.name n.cls) i ∉ p.map (·.1) := fun h =>
      (List.nodup_append.1 hp).2.2 _ h _ List.mem_cons_self rfl
    simp only [saveNodes, dictSet_new h1, dictSet_new h2]
    rw [ih]
    · simp [nickList, List.append_assoc]
    · simpa [List.append_assoc] using hm
    · simpa [List.append_assoc] using hp

/-- Entry for an edge. -/
def adjList (σ : L → Str) (es : List (SEdge L P)) : List (Str × Str × Nat) := es.map (fun e => (σ e.src, σ e.dst, e.key))

theorem saveEdges_eq (R : Registry P) (models : List (L × Str)) (σ : L → Str) (es : List (SEdge L P))
    (hs : ∀ e ∈ es, dictGet models e.src = .ok (σ e.src)) (hd : ∀ e ∈ es, dictGet models e.dst = .ok (σ e.dst)) :
    ∀ (i : Nat) (a : List (Str × (Str × Str × Nat))) (p : List (Str × P)),
    (a.map (·.1) ++ nickList R i (es.map (·.cls))).Nodup → (p.map (·.1) ++ nickList R i (es.map (·.cls))).Nodup →
    saveEdges R models i es (a, p) =
      .ok (a ++ (nickList R i (es.map (·.cls))).zip (adjList σ es), p ++ (nickList R i (es.map (·.cls))).zip (es.map (·.params))) := by
  induction es with
  | nil => intro i a p _ _; simp [saveEdges, nickList]
  | cons e es ih =>
    intro i a p ha hp
    simp only [List.map_cons, nickList] at ha hp
    have h1 : nickname (R.name e.cls) i ∉ a.map (·.1) := fun h =>
      (List.nodup_append.1 ha).2.2 _ h _ List.mem_cons_self rfl
    have h2 : nickname (R.name e.cls) i ∉ p.map (·.1) := fun h =>
      (List.nodup_append.1 hp).2.2 _ h _ List.mem_cons_self rfl
    simp only [saveEdges, hs e List.mem_cons_self, hd e List.mem_cons_self, dictSet_new h1, dictSet_new h2]
    rw [ih (fun x hx => hs x (List.mem_cons_of_mem _ hx)) (fun x hx => hd x (List.mem_cons_of_mem _ hx))]
    · simp [nickList, adjList, List.append_assoc]
    · simpa [List.append_assoc] using ha
    · simpa [List.append_assoc] using hp

/-! ### Loading -/

theorem loadNodes_eq (R : Registry P) (cs : List ClassId) (hk : ∀ c ∈ cs, R.Known c) : ∀ (i : Nat) (ps : List P), ps.length = cs.length →
    loadNodes R ((nickList R i cs).zip ps) = .ok ((nickList R i cs).zip cs) := by
  induction cs with
  | nil => intro i ps _; simp [nickList, loadNodes]
  | cons c cs ih =>
    intro i ps hl
    cases ps with
    | nil => cases hl
    | cons p ps =>
      have hc := hk c List.mem_cons_self
      simp only [nickList, List.zip_cons_cons, loadNodes, nickBase_nickname hc.2, hc.1]
      rw [ih (fun c' h => hk c' (List.mem_cons_of_mem _ h)) _ ps (by simpa using hl)]

theorem loadEdges_eq (R : Registry P) (all : List (Str × P)) (hall : (all.map (·.1)).Nodup) (cs : List ClassId) (hk : ∀ c ∈ cs, R.Known c) :
    ∀ (i : Nat) (ts : List (Str × Str × Nat)) (ps : List P) (acc : List ((Str × Str × Nat) × (ClassId × P))),
    ts.length = cs.length → ps.length = cs.length → (∀ x ∈ (nickList R i cs).zip ps, x ∈ all) → (acc.map (·.1) ++ ts).Nodup →
    loadEdges R all ((nickList R i cs).zip ts) acc = .ok (acc ++ ts.zip (cs.zip ps)) := by
  induction cs with
  | nil =>
    intro i ts ps acc h1 h2 _ _
    cases ts with
    | nil => simp [nickList, loadEdges]
    | cons => cases h1
  | cons c cs ih =>
    intro i ts ps acc h1 h2 h3 h4
    cases ts with
    | nil => cases h1
    | cons t ts =>
      cases ps with
      | nil => cases h2
      | cons p ps =>
        have hc := hk c List.mem_cons_self
        have hg : dictGet all (nickname (R.name c) i) = .ok p := dictGet_mem hall (h3 _ (by simp [nickList]))
        have hnew : t ∉ acc.map (·.1) := fun h => (List.nodup_append.1 h4).2.2 _ h _ List.mem_cons_self rfl
        simp only [nickList, List.zip_cons_cons, loadEdges, hg, nickBase_nickname hc.2, hc.1, dictSet_new hnew]
        rw [ih (fun c' h => hk c' (List.mem_cons_of_mem _ h)) _ ts ps _ (by simpa using h1) (by simpa using h2)]
        · simp [List.append_assoc]
        · intro x hx
          exact h3 x (by simp [nickList, hx])
        · simpa [List.append_assoc] using h4

omit [DecidableEq L] in
theorem sInsert_last (p : SEdge L P → Bool) (e : SEdge L P) (l : List (SEdge L P)) (h : ∀ x, l.getLast? = some x → p x = true) :
    sInsertAfterLast p e l = l ++ [e] := by
  induction l with
  | nil => rfl
  | cons x xs ih =>
    cases xs with
    | nil =>
      have := h x (by simp)
      simp [sInsertAfterLast, this]
    | cons y ys =>
      have hl : (y :: ys).getLast? = (x :: y :: ys).getLast? := by simp [List.getLast?_cons_cons]
      have hany : (y :: ys).any p = true := by
        obtain ⟨z, hz⟩ : ∃ z, (y :: ys).getLast? = some z := ⟨_, List.getLast?_eq_some_getLast (List.cons_ne_nil y ys)⟩
        rw [List.any_eq_true]
        exact ⟨z, List.mem_of_getLast? hz, h z (hl ▸ hz)⟩
      rw [sInsertAfterLast, if_pos hany, ih (fun z hz => h z (hl ▸ hz))]
      rfl

/-- The edges as rebuilt: renamed end nodes, keys counting the earlier parallel edges. -/
def keyed (σ : L → Str) : List (SEdge L P) → List (SEdge L P) → List (SEdge Str P)
  | _, [] => []
  | A, x :: xs => ⟨σ x.src, σ x.dst, (A.filter (fun e => e.src = x.src ∧ e.dst = x.dst)).length, x.cls, x.params⟩ :: keyed σ (A ++ [x]) xs

theorem keyed_append (σ : L → Str) (B C : List (SEdge L P)) : ∀ A, keyed σ A (B ++ C) = keyed σ A B ++ keyed σ (A ++ B) C := by
  induction B with
  | nil => intro A; simp [keyed]
  | cons x B ih => intro A; simp [keyed, ih, List.append_assoc]

theorem keyed_bare (σ : L → Str) (es : List (SEdge L P)) : ∀ A, (keyed σ A es).map (fun e => (e.src, e.dst, e.cls, e.params)) =
    es.map (fun e => (σ e.src, σ e.dst, e.cls, e.params)) := by
  induction es with
  | nil => intro A; rfl
  | cons x es ih => intro A; simp [keyed, ih]

theorem keyed_keys (σ : L → Str) (S : L → Prop) (hσ : ∀ a b, S a → S b → σ a = σ b → a = b) (u v : L) (hu : S u) (hv : S v) (es : List (SEdge L P))
    (hs : ∀ e ∈ es, S e.src ∧ S e.dst) :
    ((keyed σ [] es).filter (fun e => e.src = σ u ∧ e.dst = σ v)).map (·.key) =
      List.range (es.filter (fun e => e.src = u ∧ e.dst = v)).length := by
  induction es using List.reverseRecOn with
  | nil => rfl
  | append_singleton es x ih =>
    have ih' := ih (fun e he => hs e (List.mem_append_left _ he))
    obtain ⟨h1, h2⟩ := hs x (by simp)
    rw [keyed_append, List.filter_append, List.map_append, ih', List.filter_append, List.length_append]
    simp only [keyed, List.nil_append]
    by_cases hx : x.src = u ∧ x.dst = v
    · obtain ⟨rfl, rfl⟩ := hx
      simp [List.range_succ]
    · have hx' : ¬ (σ x.src = σ u ∧ σ x.dst = σ v) := fun h => hx ⟨hσ _ _ h1 hu h.1, hσ _ _ h2 hv h.2⟩
      simp [hx, hx']

theorem firstFree_range (n : Nat) : Graph.firstFree (List.range n) n n = n := by
  cases n with
  | zero => rfl
  | succ n => simp [Graph.firstFree]

/-- Rebuilding adds every edge at the end. -/
theorem addEdge_append (g : SGraph L P) (hg : g.OK) (σ : L → Str)
    (hσ : ∀ a b, a ∈ g.nodes.map (·.label) → b ∈ g.nodes.map (·.label) → σ a = σ b → a = b) (h : SGraph Str P)
    (hidx : ∀ l ∈ g.nodes.map (·.label), h.idx (σ l) = g.idx l) (A : List (SEdge L P)) (x : SEdge L P) (C : List (SEdge L P))
    (he : g.edges = A ++ x :: C) (hA : h.edges = keyed σ [] A) :
    h.addEdge (σ x.src) (σ x.dst) x.cls x.params = { h with edges := keyed σ [] (A ++ [x]) } := by
  have hmem : ∀ e ∈ A, e ∈ g.edges := fun e h' => by rw [he]; exact List.mem_append_left _ h'
  have hx : x ∈ g.edges := by rw [he]; simp
  have hS : ∀ e ∈ A, e.src ∈ g.nodes.map (·.label) ∧ e.dst ∈ g.nodes.map (·.label) := fun e h' => ⟨hg.src_mem e (hmem e h'), hg.dst_mem e (hmem e h')⟩
  have hk := keyed_keys σ (· ∈ g.nodes.map (·.label)) hσ x.src x.dst (hg.src_mem x hx) (hg.dst_mem x hx) A hS
  unfold SGraph.addEdge
  rw [hA]
  simp only
  rw [hk, List.length_range, firstFree_range, keyed_append]
  have hlast : ∀ y, (keyed σ [] A).getLast? = some y → ∃ z, A.getLast? = some z ∧ y.src = σ z.src ∧ y.dst = σ z.dst := by
    intro y hy
    rcases List.eq_nil_or_concat A with rfl | ⟨A', z, rfl⟩
    · simp [keyed] at hy
    · rw [List.concat_eq_append, keyed_append] at hy
      simp only [keyed, List.getLast?_append, List.getLast?_singleton, Option.some_or, Option.some.injEq] at hy
      exact ⟨z, by simp, by rw [← hy], by rw [← hy]⟩
  congr 1
  rw [sInsert_last]
  · simp [keyed]
  · intro y hy
    obtain ⟨z, hz, hy1, hy2⟩ := hlast y hy
    obtain ⟨A', rfl⟩ : ∃ A', A = A' ++ [z] := List.getLast?_eq_some_iff.1 hz
    by_cases hany : ((keyed σ [] (A' ++ [z])).any fun e => e.src = σ x.src ∧ e.dst = σ x.dst) = true
    · rw [if_pos hany]
      -- some earlier parallel edge: the last one is parallel too
      have hpar : ∃ w ∈ A' ++ [z], w.src = x.src ∧ w.dst = x.dst := by
        by_contra hno
        have hnil : ((A' ++ [z]).filter (fun e => e.src = x.src ∧ e.dst = x.dst)).length = 0 := by
          rw [List.length_eq_zero_iff, List.filter_eq_nil_iff]
          intro w hw
          simp only [decide_eq_true_eq]
          exact fun h' => hno ⟨w, hw, h'⟩
        rw [hnil, List.range_zero, List.map_eq_nil_iff, List.filter_eq_nil_iff] at hk
        rw [List.any_eq_true] at hany
        obtain ⟨e, h1, h2⟩ := hany
        exact hk e h1 h2
      obtain ⟨w, hw, hw1, hw2⟩ := hpar
      have hz' : z.src = x.src ∧ z.dst = x.dst := by
        rcases List.mem_append.1 hw with hw | hw
        · obtain ⟨D, E, rfl⟩ := List.append_of_mem hw
          have := hg.grouped D (E ++ [z]) C w x (by rw [he]; simp) hw1 hw2 z (by simp)
          exact ⟨this.1.trans hw1, this.2.trans hw2⟩
        · rw [List.mem_singleton] at hw
          exact hw ▸ ⟨hw1, hw2⟩
      simp [hy1, hy2, hz'.1, hz'.2]
    · rw [if_neg hany]
      have hle : g.idx z.src ≤ g.idx x.src := by
        have := hg.sorted
        rw [he, List.append_assoc, List.pairwise_append] at this
        have h3 := this.2.1
        simp only [List.singleton_append, List.pairwise_cons] at h3
        exact h3.1 x List.mem_cons_self
      have hz1 := (hS z (by simp)).1
      simp [hy1, hidx _ hz1, hidx _ (hg.src_mem x hx), hle]

theorem fold_keyed (g : SGraph L P) (hg : g.OK) (σ : L → Str)
    (hσ : ∀ a b, a ∈ g.nodes.map (·.label) → b ∈ g.nodes.map (·.label) → σ a = σ b → a = b) (C : List (SEdge L P)) :
    ∀ (h : SGraph Str P) (A : List (SEdge L P)), (∀ l ∈ g.nodes.map (·.label), h.idx (σ l) = g.idx l) → g.edges = A ++ C →
      h.edges = keyed σ [] A →
      (((adjList σ C).zip ((C.map (·.cls)).zip (C.map (·.params)))).foldl (fun g e => g.addEdge e.1.1 e.1.2.1 e.2.1 e.2.2) h) =
        { h with edges := keyed σ [] g.edges } := by
  induction C with
  | nil =>
    intro h A _ he hA
    rw [List.append_nil] at he
    simp [adjList, he, ← hA]
  | cons x C ih =>
    intro h A hidx he hA
    simp only [adjList, List.map_cons, List.zip_cons_cons, List.foldl_cons]
    rw [addEdge_append g hg σ hσ h hidx A x C he hA]
    have := ih { h with edges := keyed σ [] (A ++ [x]) } (A ++ [x]) hidx (by rw [he]; simp) rfl
    simpa [adjList] using this

end

end Verif
