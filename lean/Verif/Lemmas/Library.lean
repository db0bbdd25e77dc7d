import Verif.Spec.Library
import Verif.Lemmas.Save
/-! # Lemmas about catalogues and scripts -/

namespace Verif

section
variable {K V : Type} [DecidableEq K]

theorem mem_dictSet {d : List (K × V)} {k k' : K} {v v' : V} :
    (k', v') ∈ dictSet d k v ↔ (k' = k ∧ v' = v) ∨ (k' ≠ k ∧ (k', v') ∈ d) := by
  unfold dictSet
  split_ifs with h
  · rw [List.mem_map]
    constructor
    · rintro ⟨x, hx, e⟩
      split_ifs at e with hk
      · injection e with e1 e2
        exact .inl ⟨e1.symm, e2.symm⟩
      · subst e
        exact .inr ⟨hk, hx⟩
    · rintro (⟨rfl, rfl⟩ | ⟨h1, h2⟩)
      · obtain ⟨x, hx, e⟩ := List.mem_map.1 h
        exact ⟨x, hx, by rw [if_pos e]⟩
      · exact ⟨_, h2, by rw [if_neg h1]⟩
  · rw [List.mem_append, List.mem_singleton]
    constructor
    · rintro (h1 | h1)
      · right
        refine ⟨?_, h1⟩
        rintro rfl
        exact h (List.mem_map_of_mem (f := (·.1)) h1)
      · injection h1 with e1 e2
        exact .inl ⟨e1, e2⟩
    · rintro (⟨rfl, rfl⟩ | ⟨-, h2⟩)
      · exact .inr rfl
      · exact .inl h2

theorem keys_dictSet {d : List (K × V)} {k k' : K} {v : V} : k' ∈ (dictSet d k v).map (·.1) ↔ k' = k ∨ k' ∈ d.map (·.1) := by
  constructor
  · intro h
    obtain ⟨⟨a, b⟩, hx, rfl⟩ := List.mem_map.1 h
    rcases mem_dictSet.1 hx with ⟨h1, -⟩ | ⟨-, h2⟩
    · exact .inl h1
    · exact .inr (List.mem_map_of_mem (f := (·.1)) h2)
  · intro h
    by_cases hk : k' = k
    · exact List.mem_map.2 ⟨(k', v), mem_dictSet.2 (.inl ⟨hk, rfl⟩), rfl⟩
    · obtain ⟨⟨a, b⟩, hx, rfl⟩ := List.mem_map.1 (h.resolve_left hk)
      exact List.mem_map.2 ⟨(a, b), mem_dictSet.2 (.inr ⟨hk, hx⟩), rfl⟩

theorem nodup_dictSet {d : List (K × V)} (hd : (d.map (·.1)).Nodup) (k : K) (v : V) : ((dictSet d k v).map (·.1)).Nodup := by
  unfold dictSet
  split_ifs with h
  · rw [List.map_map]
    have : ((fun x : K × V => x.1) ∘ fun x : K × V => if x.1 = k then (k, v) else x) = fun x => x.1 := by
      funext x
      dsimp only [Function.comp]
      split_ifs with hx
      · exact hx.symm
      · rfl
    rw [this]
    exact hd
  · rw [List.map_append, List.nodup_append]
    refine ⟨hd, by simp, ?_⟩
    intro a ha b hb e
    simp only [List.map_cons, List.map_nil, List.mem_singleton] at hb
    exact h (hb ▸ e ▸ ha)

theorem dictGet_cases (d : List (K × V)) (k : K) : (∃ v, (k, v) ∈ d ∧ dictGet d k = .ok v) ∨ (k ∉ d.map (·.1) ∧ dictGet d k = .error .keyError) := by
  unfold dictGet
  cases hf : d.find? (fun x => x.1 = k) with
  | none =>
    right
    refine ⟨?_, rfl⟩
    intro h
    obtain ⟨x, hx, e⟩ := List.mem_map.1 h
    have := List.find?_eq_none.1 hf x hx
    simp [e] at this
  | some x =>
    left
    have h1 := List.mem_of_find?_eq_some hf
    have h2 := List.find?_some hf
    simp only [decide_eq_true_eq] at h2
    exact ⟨x.2, h2 ▸ h1, rfl⟩

theorem dictGet_ok_iff {d : List (K × V)} (hd : (d.map (·.1)).Nodup) {k : K} {v : V} : dictGet d k = .ok v ↔ (k, v) ∈ d := by
  refine ⟨fun h => ?_, dictGet_mem hd⟩
  rcases dictGet_cases d k with ⟨w, hw, e⟩ | ⟨-, e⟩
  · rw [e] at h
    injection h with h
    exact h ▸ hw
  · rw [e] at h; cases h

/-- `dict(items)` of items without repeated keys. -/
theorem foldl_dictSet_nodup : ∀ (xs acc : List (K × V)), ((acc ++ xs).map (·.1)).Nodup →
    xs.foldl (fun acc y => dictSet acc y.1 y.2) acc = acc ++ xs
  | [], acc, _ => by simp
  | x :: xs, acc, h => by
    have hx : x.1 ∉ acc.map (·.1) := by
      rw [List.map_append, List.nodup_append] at h
      intro hx
      exact h.2.2 _ hx _ (by simp) rfl
    rw [List.foldl_cons, dictSet_new hx, foldl_dictSet_nodup xs _ (by simpa using h)]
    simp

end

/-! ### Catalogues -/

/-- Keys are not repeated, and everything is where its name and base say. -/
structure Catalogue.OK (d : Catalogue) : Prop where
  keys : (d.map (·.1)).Nodup
  inner : ∀ x ∈ d, (x.2.map (·.1)).Nodup
  names : ∀ x ∈ d, ∀ y ∈ x.2, y.1 = y.2.name ∧ y.2.base = x.1

theorem Catalogue.OK.base {d : Catalogue} (h : d.OK) {b : String} {c : PyClass} (hl : d.Lists b c) : b = c.base := by
  obtain ⟨inner, h1, h2⟩ := hl
  exact (h.names _ h1 _ h2).2.symm

/-- Overwriting one category with one more class. -/
theorem Catalogue.OK.put {d : Catalogue} (h : d.OK) {c : PyClass} {inner : List (String × PyClass)} (hi : (c.base, inner) ∈ d)
    (hc : ∀ c', d.Lists c.base c' → c'.name = c.name → c' = c) :
    Catalogue.OK (dictSet d c.base (dictSet inner c.name c)) ∧
    (∀ b x, Catalogue.Lists (dictSet d c.base (dictSet inner c.name c)) b x ↔ (b = c.base ∧ x = c) ∨ d.Lists b x) ∧
    ∀ b, b ∈ (dictSet d c.base (dictSet inner c.name c)).map (·.1) ↔ b ∈ d.map (·.1) := by
  refine ⟨⟨nodup_dictSet h.keys _ _, ?_, ?_⟩, ?_, ?_⟩
  · rintro ⟨b, i⟩ hx
    rcases mem_dictSet.1 hx with ⟨-, rfl⟩ | ⟨-, h2⟩
    · exact nodup_dictSet (h.inner _ hi) _ _
    · exact h.inner _ h2
  · rintro ⟨b, i⟩ hx ⟨n, y⟩ hy
    rcases mem_dictSet.1 hx with ⟨rfl, rfl⟩ | ⟨-, h2⟩
    · rcases mem_dictSet.1 hy with ⟨rfl, rfl⟩ | ⟨-, h3⟩
      · exact ⟨rfl, rfl⟩
      · exact h.names _ hi _ h3
    · exact h.names _ h2 _ hy
  · intro b x
    constructor
    · rintro ⟨i, h1, h2⟩
      rcases mem_dictSet.1 h1 with ⟨rfl, rfl⟩ | ⟨-, h3⟩
      · rcases mem_dictSet.1 h2 with ⟨-, rfl⟩ | ⟨-, h3⟩
        · exact .inl ⟨rfl, rfl⟩
        · exact .inr ⟨_, hi, h3⟩
      · exact .inr ⟨_, h3, h2⟩
    · rintro (⟨rfl, rfl⟩ | ⟨i, h1, h2⟩)
      · exact ⟨_, mem_dictSet.2 (.inl ⟨rfl, rfl⟩), mem_dictSet.2 (.inl ⟨rfl, rfl⟩)⟩
      · by_cases hb : b = c.base
        · subst hb
          have hii : i = inner := by
            have e1 := dictGet_mem h.keys h1
            have e2 := dictGet_mem h.keys hi
            rw [e1] at e2
            injection e2
          subst hii
          refine ⟨_, mem_dictSet.2 (.inl ⟨rfl, rfl⟩), mem_dictSet.2 ?_⟩
          by_cases hn : x.name = c.name
          · exact .inl ⟨hn, hc x ⟨_, h1, h2⟩ hn⟩
          · exact .inr ⟨hn, h2⟩
        · exact ⟨_, mem_dictSet.2 (.inr ⟨hb, h1⟩), h2⟩
  · intro b
    rw [keys_dictSet]
    constructor
    · rintro (rfl | h1)
      · exact List.mem_map_of_mem (f := (·.1)) hi
      · exact h1
    · exact .inr

theorem Catalogue.OK.register {d : Catalogue} (h : d.OK) {c : PyClass} (hc : ∀ c', d.Lists c.base c' → c'.name = c.name → c' = c) :
    ∃ d', d.register c = .ok d' ∧ d'.OK ∧ (∀ b x, d'.Lists b x ↔ (b = c.base ∧ x = c) ∨ d.Lists b x) ∧
      ∀ b, b ∈ d'.map (·.1) ↔ b = c.base ∨ b ∈ d.map (·.1) := by
  unfold Catalogue.register
  by_cases hb : c.base ∈ d.map (·.1)
  · obtain ⟨v, hv, e⟩ := (dictGet_cases d c.base).resolve_right (fun h => h.1 hb)
    obtain ⟨h1, h2, h3⟩ := h.put hv hc
    refine ⟨_, by rw [if_pos hb]; dsimp only; rw [e]; rfl, h1, h2, fun b => (h3 b).trans ?_⟩
    constructor
    · exact .inr
    · rintro (rfl | h)
      · exact hb
      · exact h
  · have hnew : dictSet d c.base ([] : List (String × PyClass)) = d ++ [(c.base, [])] := dictSet_new hb _
    have hok : Catalogue.OK (d ++ [(c.base, [])]) := by
      rw [← hnew]
      refine ⟨nodup_dictSet h.keys _ _, ?_, ?_⟩
      · rw [hnew]
        intro x hx
        rcases List.mem_append.1 hx with hx | hx
        · exact h.inner _ hx
        · rw [List.mem_singleton.1 hx]; exact List.nodup_nil
      · rw [hnew]
        intro x hx
        rcases List.mem_append.1 hx with hx | hx
        · exact h.names _ hx
        · rw [List.mem_singleton.1 hx]; simp
    have hl : ∀ b x, Catalogue.Lists (d ++ [(c.base, [])]) b x ↔ d.Lists b x := by
      intro b x
      constructor
      · rintro ⟨i, h1, h2⟩
        rcases List.mem_append.1 h1 with h1 | h1
        · exact ⟨i, h1, h2⟩
        · injection List.mem_singleton.1 h1 with e1 e2
          rw [e2] at h2; cases h2
      · rintro ⟨i, h1, h2⟩
        exact ⟨i, List.mem_append_left _ h1, h2⟩
    have hm : (c.base, []) ∈ d ++ [(c.base, ([] : List (String × PyClass)))] := by simp
    obtain ⟨h1, h2, h3⟩ := hok.put hm (fun c' hc' => hc c' ((hl _ _).1 hc'))
    refine ⟨_, by rw [if_neg hb, hnew]; dsimp only; rw [dictGet_mem hok.keys hm]; rfl, h1, ?_, ?_⟩
    · intro b x
      rw [h2, hl]
    · intro b
      rw [h3, List.map_append, List.mem_append]
      simp [or_comm]

/-! ### Scripts -/

theorem exec_append (s : LibSession) (cmds : List Cmd) (x : Cmd) : s.run (cmds ++ [x]) = (s.run cmds).bind (fun t => t.exec x) := by
  induction cmds generalizing s with
  | nil =>
    simp only [List.nil_append, LibSession.run, bind, Except.bind]
    cases s.exec x <;> rfl
  | cons c cs ih =>
    simp only [List.cons_append, LibSession.run, bind, Except.bind]
    cases s.exec c with
    | error e => rfl
    | ok t => exact ih t

theorem split_snoc {α : Type} {l pre post : List α} {x y : α} : l ++ [x] = pre ++ y :: post ↔
    (post = [] ∧ pre = l ∧ y = x) ∨ ∃ p, post = p ++ [x] ∧ l = pre ++ y :: p := by
  constructor
  · intro h
    rcases List.eq_nil_or_concat post with rfl | ⟨p, z, rfl⟩
    · left
      have := List.append_inj' h rfl
      exact ⟨rfl, this.1.symm, by simpa using this.2.symm⟩
    · right
      rw [List.concat_eq_append, ← List.cons_append, ← List.append_assoc] at h
      obtain ⟨h1, h2⟩ := List.append_inj' h rfl
      simp only [List.cons.injEq, and_true] at h2
      exact ⟨p, by rw [h2, List.concat_eq_append], h1⟩
  · rintro (⟨rfl, rfl, rfl⟩ | ⟨p, rfl, rfl⟩)
    · rfl
    · simp

theorem offered_load {cmds : List Cmd} {m : CompModule} {c : PyClass} :
    Offered (cmds ++ [.load m]) c ↔ Offered cmds c ∨ (Cmd.load m ∉ cmds ∧ (c, Deco.all) ∈ m.classes) := by
  constructor
  · rintro ⟨pre, x, post, h1, h2, h3⟩
    rcases split_snoc.1 h1 with ⟨rfl, rfl, rfl⟩ | ⟨p, rfl, rfl⟩
    · rcases h3 with ⟨cs, h, -⟩ | ⟨m', h, h4, h5⟩
      · cases h
      · cases h; exact .inr ⟨h4, h5⟩
    · exact .inl ⟨pre, x, p, rfl, fun cs h => h2 cs (List.mem_append_left _ h), h3⟩
  · rintro (⟨pre, x, post, rfl, h2, h3⟩ | ⟨h1, h2⟩)
    · refine ⟨pre, x, post ++ [.load m], by simp, fun cs h => ?_, h3⟩
      rcases List.mem_append.1 h with h | h
      · exact h2 cs h
      · simp at h
    · exact ⟨cmds, _, [], rfl, by simp, .inr ⟨m, rfl, h1, h2⟩⟩

theorem offered_evolver {cmds : List Cmd} {c : PyClass} : Offered (cmds ++ [.evolver]) c ↔ Offered cmds c := by
  constructor
  · rintro ⟨pre, x, post, h1, h2, h3⟩
    rcases split_snoc.1 h1 with ⟨rfl, rfl, rfl⟩ | ⟨p, rfl, rfl⟩
    · rcases h3 with ⟨cs, h, -⟩ | ⟨m', h, h4, h5⟩ <;> cases h
    · exact ⟨pre, x, p, rfl, fun cs h => h2 cs (List.mem_append_left _ h), h3⟩
  · rintro ⟨pre, x, post, rfl, h2, h3⟩
    refine ⟨pre, x, post ++ [.evolver], by simp, fun cs h => ?_, h3⟩
    rcases List.mem_append.1 h with h | h
    · exact h2 cs h
    · simp at h

theorem offered_custom {cmds : List Cmd} {cs : List PyClass} {c : PyClass} : Offered (cmds ++ [.custom cs]) c ↔ c ∈ cs := by
  constructor
  · rintro ⟨pre, x, post, h1, h2, h3⟩
    rcases split_snoc.1 h1 with ⟨rfl, rfl, rfl⟩ | ⟨p, rfl, rfl⟩
    · rcases h3 with ⟨cs, h, h4⟩ | ⟨m', h, h4, h5⟩
      · cases h; exact h4
      · cases h
    · exact absurd (List.mem_append_right _ (by simp)) (h2 cs)
  · intro h
    exact ⟨cmds, _, [], rfl, by simp, .inl ⟨cs, rfl, h⟩⟩

theorem offered_mentions {cmds : List Cmd} {c : PyClass} (h : Offered cmds c) : Mentions cmds c := by
  obtain ⟨pre, x, post, rfl, -, ⟨cs, rfl, hc⟩ | ⟨m, rfl, -, hc⟩⟩ := h
  · exact .inr ⟨cs, by simp, hc⟩
  · exact .inl ⟨m, _, by simp, hc⟩

theorem registered_mentions {cmds : List Cmd} {c : PyClass} (h : Registered cmds c) : Mentions cmds c := by
  obtain ⟨m, d, h1, h2, -⟩ := h
  exact .inl ⟨m, d, h1, h2⟩

theorem UniqueNames.init {cmds : List Cmd} {x : Cmd} (h : UniqueNames (cmds ++ [x])) : UniqueNames cmds := by
  have hm : ∀ c, Mentions cmds c → Mentions (cmds ++ [x]) c := by
    rintro c (⟨m, d, h1, h2⟩ | ⟨cs, h1, h2⟩)
    · exact .inl ⟨m, d, List.mem_append_left _ h1, h2⟩
    · exact .inr ⟨cs, List.mem_append_left _ h1, h2⟩
  exact ⟨fun c c' h1 h2 => h.ids c c' (hm _ h1) (hm _ h2), fun c c' h1 h2 => h.classes c c' (hm _ h1) (hm _ h2),
    fun m m' h1 h2 => h.modules m m' (List.mem_append_left _ h1) (List.mem_append_left _ h2)⟩

/-- The class statements of one module. -/
theorem execAll_ok {W : PyClass → Prop} (hW : ∀ c c', W c → W c' → c.name = c'.name → c = c') :
    ∀ (xs : List (PyClass × Deco)) (k : Config), k.all.OK → k.withTerminals.OK → (∀ b c, k.all.Lists b c → W c) → (∀ b c, k.withTerminals.Lists b c → W c) →
      (∀ x ∈ xs, W x.1) → ∃ k', k.execAll xs = .ok k' ∧ k'.all.OK ∧ k'.withTerminals.OK ∧
        (∀ b c, k'.all.Lists b c ↔ (b = c.base ∧ (c, Deco.all) ∈ xs) ∨ k.all.Lists b c) ∧
        (∀ b c, k'.withTerminals.Lists b c ↔ (b = c.base ∧ ∃ d, (c, d) ∈ xs ∧ d ≠ Deco.none) ∨ k.withTerminals.Lists b c) ∧
        ∀ b, b ∈ k'.all.map (·.1) ↔ (∃ c, (c, Deco.all) ∈ xs ∧ c.base = b) ∨ b ∈ k.all.map (·.1)
  | [], k, ha, ht, _, _, _ => ⟨k, rfl, ha, ht, by simp, by simp, by simp⟩
  | (c, d) :: xs, k, ha, ht, wa, wt, hx => by
    have hwc : W c := hx (c, d) (by simp)
    obtain ⟨a', ea, oa, la, ka⟩ := ha.register (c := c) (fun c' h e => hW _ _ (wa _ _ h) hwc e)
    obtain ⟨t', et, ot, lt, kt⟩ := ht.register (c := c) (fun c' h e => hW _ _ (wt _ _ h) hwc e)
    have hxs : ∀ x ∈ xs, W x.1 := fun x h => hx x (List.mem_cons_of_mem _ h)
    have wa' : ∀ b x, a'.Lists b x → W x := fun b x h => by
      rcases (la b x).1 h with ⟨-, rfl⟩ | h
      · exact hwc
      · exact wa b x h
    have wt' : ∀ b x, t'.Lists b x → W x := fun b x h => by
      rcases (lt b x).1 h with ⟨-, rfl⟩ | h
      · exact hwc
      · exact wt b x h
    cases d with
    | all =>
      obtain ⟨k', e, o1, o2, l1, l2, l3⟩ := execAll_ok hW xs ⟨a', t'⟩ oa ot wa' wt' hxs
      refine ⟨k', ?_, o1, o2, ?_, ?_, ?_⟩
      · simp only [Config.execAll, Config.declare, ea, et, bind, Except.bind, pure, Except.pure]
        exact e
      · intro b x
        rw [l1, la]
        simp only [List.mem_cons, Prod.mk.injEq, and_true]
        constructor
        · rintro (⟨h1, h2⟩ | ⟨h1, rfl⟩ | h)
          · exact .inl ⟨h1, .inr h2⟩
          · exact .inl ⟨h1, .inl rfl⟩
          · exact .inr h
        · rintro (⟨h1, rfl | h2⟩ | h)
          · exact .inr (.inl ⟨h1, rfl⟩)
          · exact .inl ⟨h1, h2⟩
          · exact .inr (.inr h)
      · intro b x
        rw [l2, lt]
        simp only [List.mem_cons, Prod.mk.injEq]
        constructor
        · rintro (⟨h1, d, h2, h3⟩ | ⟨h1, rfl⟩ | h)
          · exact .inl ⟨h1, d, .inr h2, h3⟩
          · exact .inl ⟨h1, _, .inl ⟨rfl, rfl⟩, by decide⟩
          · exact .inr h
        · rintro (⟨h1, d, ⟨rfl, rfl⟩ | h2, h3⟩ | h)
          · exact .inr (.inl ⟨h1, rfl⟩)
          · exact .inl ⟨h1, d, h2, h3⟩
          · exact .inr (.inr h)
      · intro b
        rw [l3]
        show _ ∨ b ∈ a'.map (·.1) ↔ _
        rw [ka]
        simp only [List.mem_cons, Prod.mk.injEq, and_true]
        constructor
        · rintro (⟨c, h, rfl⟩ | rfl | h)
          · exact .inl ⟨c, .inr h, rfl⟩
          · exact .inl ⟨c, .inl rfl, rfl⟩
          · exact .inr h
        · rintro (⟨c, rfl | h, rfl⟩ | h)
          · exact .inr (.inl rfl)
          · exact .inl ⟨c, h, rfl⟩
          · exact .inr (.inr h)
    | terminals =>
      obtain ⟨k', e, o1, o2, l1, l2, l3⟩ := execAll_ok hW xs ⟨k.all, t'⟩ ha ot wa wt' hxs
      refine ⟨k', ?_, o1, o2, ?_, ?_, ?_⟩
      · simp only [Config.execAll, Config.declare, et, bind, Except.bind, pure, Except.pure]
        exact e
      · intro b x
        rw [l1]
        simp
      · intro b x
        rw [l2, lt]
        simp only [List.mem_cons, Prod.mk.injEq]
        constructor
        · rintro (⟨h1, d, h2, h3⟩ | ⟨h1, rfl⟩ | h)
          · exact .inl ⟨h1, d, .inr h2, h3⟩
          · exact .inl ⟨h1, _, .inl ⟨rfl, rfl⟩, by decide⟩
          · exact .inr h
        · rintro (⟨h1, d, ⟨rfl, rfl⟩ | h2, h3⟩ | h)
          · exact .inr (.inl ⟨h1, rfl⟩)
          · exact .inl ⟨h1, d, h2, h3⟩
          · exact .inr (.inr h)
      · intro b
        rw [l3]
        simp
    | none =>
      obtain ⟨k', e, o1, o2, l1, l2, l3⟩ := execAll_ok hW xs k ha ht wa wt hxs
      refine ⟨k', ?_, o1, o2, ?_, ?_, ?_⟩
      · simp only [Config.execAll, Config.declare, bind, Except.bind]
        exact e
      · intro b x
        rw [l1]
        simp
      · intro b x
        rw [l2]
        simp only [List.mem_cons, Prod.mk.injEq]
        constructor
        · rintro (⟨h1, d, h2, h3⟩ | h)
          · exact .inl ⟨h1, d, .inr h2, h3⟩
          · exact .inr h
        · rintro (⟨h1, d, ⟨rfl, rfl⟩ | h2, h3⟩ | h)
          · exact absurd rfl h3
          · exact .inl ⟨h1, d, h2, h3⟩
          · exact .inr h
      · intro b
        rw [l3]
        simp

theorem customFill_ok {W : PyClass → Prop} (hW : ∀ c c', W c → W c' → c.name = c'.name → c = c') :
    ∀ (cs : List PyClass) (d : Catalogue), d.OK → (∀ b c, d.Lists b c → W c) → (∀ c ∈ cs, W c) →
      ((∀ c ∈ cs, c.base ∈ d.map (·.1)) → ∃ d', customFill d cs = .ok d' ∧ d'.OK ∧ (∀ b c, d'.Lists b c ↔ (b = c.base ∧ c ∈ cs) ∨ d.Lists b c) ∧
        ∀ b, b ∈ d'.map (·.1) ↔ b ∈ d.map (·.1)) ∧
      ((∃ c ∈ cs, c.base ∉ d.map (·.1)) → customFill d cs = .error .keyError)
  | [], d, hd, _, _ => ⟨fun _ => ⟨d, rfl, hd, by simp, by simp⟩, by simp⟩
  | c :: cs, d, hd, wd, hc => by
    have hwc : W c := hc c (by simp)
    rcases dictGet_cases d c.base with ⟨v, hv, e⟩ | ⟨hb, e⟩
    · obtain ⟨o1, l1, k1⟩ := hd.put hv (fun c' h e => hW _ _ (wd _ _ h) hwc e)
      obtain ⟨h1, h2⟩ := customFill_ok hW cs _ o1 (fun b x h => by
        rcases (l1 b x).1 h with ⟨-, rfl⟩ | h
        · exact hwc
        · exact wd b x h) (fun x h => hc x (List.mem_cons_of_mem _ h))
      have hbm : c.base ∈ d.map (·.1) := List.mem_map_of_mem (f := (·.1)) hv
      constructor
      · intro hk
        obtain ⟨d', e', o2, l2, k2⟩ := h1 (fun x h => (k1 _).2 (hk x (List.mem_cons_of_mem _ h)))
        refine ⟨d', ?_, o2, ?_, fun b => (k2 b).trans (k1 b)⟩
        · simp only [customFill, e, bind, Except.bind]
          exact e'
        · intro b x
          rw [l2, l1]
          simp only [List.mem_cons]
          constructor
          · rintro (⟨g1, g2⟩ | ⟨g1, g2⟩ | h)
            · exact .inl ⟨g1, .inr g2⟩
            · exact .inl ⟨g2 ▸ g1, .inl g2⟩
            · exact .inr h
          · rintro (⟨g1, g2 | g2⟩ | h)
            · exact .inr (.inl ⟨g2 ▸ g1, g2⟩)
            · exact .inl ⟨g1, g2⟩
            · exact .inr (.inr h)
      · rintro ⟨x, hx, hxb⟩
        simp only [customFill, e, bind, Except.bind]
        apply h2
        rcases List.mem_cons.1 hx with rfl | hx
        · exact absurd hbm hxb
        · exact ⟨x, hx, fun h => hxb ((k1 _).1 h)⟩
    · constructor
      · intro h
        exact absurd (h c (by simp)) hb
      · intro _
        simp only [customFill, e, bind, Except.bind]

/-- The state after a script. -/
structure Reflects (cmds : List Cmd) (s : LibSession) : Prop where
  allOK : s.config.all.OK
  termOK : s.config.withTerminals.OK
  all : ∀ b c, s.config.all.Lists b c ↔ b = c.base ∧ Offered cmds c
  term : ∀ b c, s.config.withTerminals.Lists b c ↔ b = c.base ∧ Registered cmds c
  keys : ∀ b, b ∈ s.config.all.map (·.1) ↔ HasCategory cmds b
  loaded : ∀ n, n ∈ s.loaded ↔ ∃ m, Cmd.load m ∈ cmds ∧ m.name = n

theorem reflects_start : Reflects [] LibSession.start where
  allOK := ⟨List.nodup_nil, by simp [LibSession.start], by simp [LibSession.start]⟩
  termOK := ⟨List.nodup_nil, by simp [LibSession.start], by simp [LibSession.start]⟩
  all := by
    intro b c
    simp [LibSession.start, Catalogue.Lists, Offered]
  term := by
    intro b c
    simp [LibSession.start, Catalogue.Lists, Registered]
  keys := by simp [LibSession.start, HasCategory]
  loaded := by simp [LibSession.start]

theorem hasCategory_snoc {cmds : List Cmd} {x : Cmd} {b : String} : HasCategory (cmds ++ [x]) b ↔
    (∃ m c, x = .load m ∧ (c, Deco.all) ∈ m.classes ∧ c.base = b) ∨ HasCategory cmds b := by
  constructor
  · rintro ⟨m, c, h1, h2, h3⟩
    rcases List.mem_append.1 h1 with h1 | h1
    · exact .inr ⟨m, c, h1, h2, h3⟩
    · exact .inl ⟨m, c, (List.mem_singleton.1 h1).symm, h2, h3⟩
  · rintro (⟨m, c, rfl, h2, h3⟩ | ⟨m, c, h1, h2, h3⟩)
    · exact ⟨m, c, by simp, h2, h3⟩
    · exact ⟨m, c, List.mem_append_left _ h1, h2, h3⟩

theorem registered_snoc {cmds : List Cmd} {x : Cmd} {c : PyClass} : Registered (cmds ++ [x]) c ↔
    (∃ m d, x = .load m ∧ (c, d) ∈ m.classes ∧ d ≠ Deco.none) ∨ Registered cmds c := by
  constructor
  · rintro ⟨m, d, h1, h2, h3⟩
    rcases List.mem_append.1 h1 with h1 | h1
    · exact .inr ⟨m, d, h1, h2, h3⟩
    · exact .inl ⟨m, d, (List.mem_singleton.1 h1).symm, h2, h3⟩
  · rintro (⟨m, d, rfl, h2, h3⟩ | ⟨m, d, h1, h2, h3⟩)
    · exact ⟨m, d, by simp, h2, h3⟩
    · exact ⟨m, d, List.mem_append_left _ h1, h2, h3⟩

theorem Catalogue.OK.lists {d : Catalogue} (h : d.OK) {b : String} {inner : List (String × PyClass)} (hb : (b, inner) ∈ d) {y : String × PyClass} (hy : y ∈ inner) :
    d.Lists b y.2 := by
  refine ⟨inner, hb, ?_⟩
  rw [← (h.names _ hb _ hy).1]
  exact hy

theorem cleared_ok {d : Catalogue} (h : d.OK) : Catalogue.OK (d.map (fun x => (x.1, []))) ∧ (∀ b c, ¬ Catalogue.Lists (d.map (fun x => (x.1, []))) b c) ∧
    (d.map (fun x => (x.1, ([] : List (String × PyClass))))).map (·.1) = d.map (·.1) := by
  have e : (d.map (fun x => (x.1, ([] : List (String × PyClass))))).map (·.1) = d.map (·.1) := by
    rw [List.map_map]; rfl
  refine ⟨⟨by rw [e]; exact h.keys, ?_, ?_⟩, ?_, e⟩
  · intro x hx
    obtain ⟨y, -, rfl⟩ := List.mem_map.1 hx
    exact List.nodup_nil
  · intro x hx y hy
    obtain ⟨z, -, rfl⟩ := List.mem_map.1 hx
    cases hy
  · rintro b c ⟨i, h1, h2⟩
    obtain ⟨z, -, e⟩ := List.mem_map.1 h1
    injection e with e1 e2
    rw [← e2] at h2; cases h2

theorem Reflects.draws {cmds : List Cmd} {s : LibSession} (h : Reflects cmds s) (hu : UniqueNames cmds) {b : String} {inner : List (String × PyClass)}
    (hb : (b, inner) ∈ s.config.all) :
    (∀ x, x ∈ inner.map (·.2.cid) ↔ ∃ c, Offered cmds c ∧ c.base = b ∧ c.cid = x) ∧ (inner.map (·.2.cid)).Nodup := by
  constructor
  · intro x
    rw [List.mem_map]
    constructor
    · rintro ⟨y, hy, rfl⟩
      obtain ⟨h1, h2⟩ := (h.all _ _).1 (h.allOK.lists hb hy)
      exact ⟨y.2, h2, h1.symm, rfl⟩
    · rintro ⟨c, h1, rfl, rfl⟩
      obtain ⟨i, h2, h3⟩ := (h.all c.base c).2 ⟨rfl, h1⟩
      have e1 := dictGet_mem h.allOK.keys h2
      have e2 := dictGet_mem h.allOK.keys hb
      rw [e1] at e2
      injection e2 with e2
      exact ⟨_, e2 ▸ h3, rfl⟩
  · rw [List.nodup_map_iff_inj_on (List.Nodup.of_map _ (h.allOK.inner _ hb))]
    intro y hy z hz e
    have hy' := (h.all _ _).1 (h.allOK.lists hb hy)
    have hz' := (h.all _ _).1 (h.allOK.lists hb hz)
    have e2 := hu.ids _ _ (offered_mentions hy'.2) (offered_mentions hz'.2) e
    have e1 : y.1 = z.1 := by rw [(h.allOK.names _ hb _ hy).1, (h.allOK.names _ hb _ hz).1, e2]
    exact Prod.ext e1 e2

theorem Reflects.operators {cmds : List Cmd} {s : LibSession} (h : Reflects cmds s) (hu : UniqueNames cmds) :
    ((∀ b ∈ fourCategories, HasCategory cmds b) → ∃ lib, s.config.operators = .ok lib ∧ Draws lib cmds) ∧
    (¬ (∀ b ∈ fourCategories, HasCategory cmds b) → s.config.operators = .error .keyError) := by
  unfold Config.operators
  have hk : ∀ b, HasCategory cmds b ↔ b ∈ s.config.all.map (·.1) := fun b => (h.keys b).symm
  simp only [fourCategories, List.forall_mem_cons, hk]
  rcases dictGet_cases s.config.all "SourceModel" with ⟨v1, m1, e1⟩ | ⟨m1, e1⟩
  · rcases dictGet_cases s.config.all "SinkModel" with ⟨v2, m2, e2⟩ | ⟨m2, e2⟩
    · rcases dictGet_cases s.config.all "SinglePath" with ⟨v3, m3, e3⟩ | ⟨m3, e3⟩
      · rcases dictGet_cases s.config.all "MultiPath" with ⟨v4, m4, e4⟩ | ⟨m4, e4⟩
        · simp only [e1, e2, e3, e4, bind, Except.bind, pure, Except.pure]
          refine ⟨fun _ => ⟨_, rfl, ⟨(h.draws hu m1).1, (h.draws hu m2).1, (h.draws hu m3).1, (h.draws hu m4).1,
            (h.draws hu m1).2, (h.draws hu m2).2, (h.draws hu m3).2, (h.draws hu m4).2⟩⟩, ?_⟩
          intro hn
          exact absurd ⟨List.mem_map_of_mem (f := (·.1)) m1, List.mem_map_of_mem (f := (·.1)) m2, List.mem_map_of_mem (f := (·.1)) m3,
            List.mem_map_of_mem (f := (·.1)) m4, by simp⟩ hn
        · simp only [e1, e2, e3, e4, bind, Except.bind]
          exact ⟨fun h => absurd h.2.2.2.1 m4, fun _ => trivial⟩
      · simp only [e1, e2, e3, bind, Except.bind]
        exact ⟨fun h => absurd h.2.2.1 m3, fun _ => trivial⟩
    · simp only [e1, e2, bind, Except.bind]
      exact ⟨fun h => absurd h.2.1 m2, fun _ => trivial⟩
  · simp only [e1, bind, Except.bind]
    exact ⟨fun h => absurd h.1 m1, fun _ => trivial⟩

theorem Reflects.step {cmds : List Cmd} {s : LibSession} (h : Reflects cmds s) {x : Cmd} (hu : UniqueNames (cmds ++ [x])) :
    (Feasible cmds x → ∃ s', s.exec x = .ok s' ∧ Reflects (cmds ++ [x]) s' ∧
      ∃ new, s'.evolvers = s.evolvers ++ new ∧ (x = .evolver → ∃ lib, new = [lib] ∧ Draws lib cmds) ∧ (x ≠ .evolver → new = [])) ∧
    (¬ Feasible cmds x → s.exec x = .error .keyError) := by
  have hw : ∀ c, Mentions cmds c → Mentions (cmds ++ [x]) c := by
    rintro c (⟨m, d, h1, h2⟩ | ⟨cs, h1, h2⟩)
    · exact .inl ⟨m, d, List.mem_append_left _ h1, h2⟩
    · exact .inr ⟨cs, List.mem_append_left _ h1, h2⟩
  have wa : ∀ b c, s.config.all.Lists b c → Mentions (cmds ++ [x]) c := fun b c hl => hw _ (offered_mentions ((h.all b c).1 hl).2)
  have wt : ∀ b c, s.config.withTerminals.Lists b c → Mentions (cmds ++ [x]) c := fun b c hl => hw _ (registered_mentions ((h.term b c).1 hl).2)
  cases x with
  | load m =>
    refine ⟨fun _ => ?_, fun hn => absurd trivial hn⟩
    by_cases hm : m.name ∈ s.loaded
    · have hmm : Cmd.load m ∈ cmds := by
        obtain ⟨m', h1, h2⟩ := (h.loaded _).1 hm
        rw [← hu.modules m' m (List.mem_append_left _ h1) (by simp) h2]
        exact h1
      refine ⟨s, by simp [LibSession.exec, hm], ⟨h.allOK, h.termOK, ?_, ?_, ?_, ?_⟩, [], by simp, by simp, by simp⟩
      · intro b c
        rw [h.all, offered_load]
        simp [hmm]
      · intro b c
        rw [h.term, registered_snoc]
        constructor
        · rintro ⟨h1, h2⟩; exact ⟨h1, .inr h2⟩
        · rintro ⟨h1, ⟨m', d, e, h2⟩ | h2⟩
          · cases e; exact ⟨h1, m, d, hmm, h2⟩
          · exact ⟨h1, h2⟩
      · intro b
        rw [h.keys, hasCategory_snoc]
        constructor
        · exact .inr
        · rintro (⟨m', c, e, h2⟩ | h2)
          · cases e; exact ⟨m, c, hmm, h2⟩
          · exact h2
      · intro n
        rw [h.loaded]
        constructor
        · rintro ⟨m', h1, h2⟩; exact ⟨m', List.mem_append_left _ h1, h2⟩
        · rintro ⟨m', h1, h2⟩
          rcases List.mem_append.1 h1 with h1 | h1
          · exact ⟨m', h1, h2⟩
          · cases List.mem_singleton.1 h1; exact ⟨m, hmm, h2⟩
    · have hmm : Cmd.load m ∉ cmds := fun h1 => hm ((h.loaded _).2 ⟨m, h1, rfl⟩)
      obtain ⟨k', e, o1, o2, l1, l2, l3⟩ := execAll_ok (W := Mentions (cmds ++ [.load m])) hu.classes m.classes s.config h.allOK h.termOK wa wt
        (fun y hy => .inl ⟨m, y.2, by simp, hy⟩)
      refine ⟨{ s with loaded := s.loaded ++ [m.name], config := k' }, by simp only [LibSession.exec, hm, if_false, e, bind, Except.bind, pure, Except.pure], ⟨o1, o2, ?_, ?_, ?_, ?_⟩, [], by simp, by simp, by simp⟩
      · intro b c
        rw [l1, h.all, offered_load]
        simp only [hmm, not_false_eq_true, true_and]
        tauto
      · intro b c
        rw [l2, h.term, registered_snoc]
        constructor
        · rintro (⟨h1, d, h2⟩ | ⟨h1, h2⟩)
          · exact ⟨h1, .inl ⟨m, d, rfl, h2⟩⟩
          · exact ⟨h1, .inr h2⟩
        · rintro ⟨h1, ⟨m', d, e, h2⟩ | h2⟩
          · cases e; exact .inl ⟨h1, d, h2⟩
          · exact .inr ⟨h1, h2⟩
      · intro b
        rw [l3, h.keys, hasCategory_snoc]
        constructor
        · rintro (⟨c, h2⟩ | h2)
          · exact .inl ⟨m, c, rfl, h2⟩
          · exact .inr h2
        · rintro (⟨m', c, e, h2⟩ | h2)
          · cases e; exact .inl ⟨c, h2⟩
          · exact .inr h2
      · intro n
        show n ∈ s.loaded ++ [m.name] ↔ _
        rw [List.mem_append, h.loaded, List.mem_singleton]
        constructor
        · rintro (⟨m', h1, h2⟩ | rfl)
          · exact ⟨m', List.mem_append_left _ h1, h2⟩
          · exact ⟨m, by simp, rfl⟩
        · rintro ⟨m', h1, h2⟩
          rcases List.mem_append.1 h1 with h1 | h1
          · exact .inl ⟨m', h1, h2⟩
          · cases List.mem_singleton.1 h1; exact .inr h2.symm
  | custom cs =>
    obtain ⟨o1, l1, k1⟩ := cleared_ok h.allOK
    obtain ⟨f1, f2⟩ := customFill_ok (W := Mentions (cmds ++ [.custom cs])) hu.classes cs _ o1 (fun b c hl => absurd hl (l1 b c))
      (fun c hc => .inr ⟨cs, by simp, hc⟩)
    constructor
    · intro hf
      obtain ⟨d', e, o2, l2, k2⟩ := f1 (fun c hc => by rw [k1]; exact (h.keys _).2 (hf c hc))
      refine ⟨{ s with config := { s.config with all := d' } }, by simp only [LibSession.exec, Config.custom, e, bind, Except.bind, pure, Except.pure], ⟨o2, h.termOK, ?_, ?_, ?_, ?_⟩, [], by simp, by simp, by simp⟩
      · intro b c
        rw [l2, offered_custom]
        simp only [l1, or_false]
      · intro b c
        rw [h.term, registered_snoc]
        simp
      · intro b
        rw [k2, k1, h.keys, hasCategory_snoc]
        simp
      · intro n
        rw [h.loaded]
        simp
    · intro hf
      have : ∃ c ∈ cs, c.base ∉ (s.config.all.map (fun x => (x.1, ([] : List (String × PyClass))))).map (·.1) := by
        by_contra hcon
        push Not at hcon
        apply hf
        intro c hc
        have := hcon c hc
        rw [k1] at this
        exact (h.keys _).1 this
      simp only [LibSession.exec, Config.custom, f2 this, bind, Except.bind]
  | evolver =>
    obtain ⟨f1, f2⟩ := h.operators hu.init
    constructor
    · intro hf
      obtain ⟨lib, e, hd⟩ := f1 hf
      refine ⟨{ s with evolvers := s.evolvers ++ [lib] }, by simp only [LibSession.exec, e, bind, Except.bind, pure, Except.pure], ⟨h.allOK, h.termOK, ?_, ?_, ?_, ?_⟩, [lib], rfl, fun _ => ⟨lib, rfl, hd⟩, by simp⟩
      · intro b c
        rw [h.all, offered_evolver]
      · intro b c
        rw [h.term, registered_snoc]
        simp
      · intro b
        rw [h.keys, hasCategory_snoc]
        simp
      · intro n
        rw [h.loaded]
        simp
    · intro hf
      simp only [LibSession.exec, f2 hf, bind, Except.bind]

/-- Scripts, from the end. -/
theorem run_reflects (cmds : List Cmd) (hu : UniqueNames cmds) :
    ((∀ pre x post, cmds = pre ++ x :: post → Feasible pre x) → ∃ s, LibSession.start.run cmds = .ok s) ∧
    (¬ (∀ pre x post, cmds = pre ++ x :: post → Feasible pre x) → LibSession.start.run cmds = .error .keyError) ∧
    ∀ s, LibSession.start.run cmds = .ok s → Reflects cmds s := by
  induction cmds using List.reverseRecOn with
  | nil =>
    refine ⟨fun _ => ⟨_, rfl⟩, fun h => absurd (by simp) h, ?_⟩
    intro s h
    injection h with h
    exact h ▸ reflects_start
  | append_singleton cmds x ih =>
    obtain ⟨i1, i2, i3⟩ := ih hu.init
    rw [exec_append]
    have hsplit : (∀ pre y post, cmds ++ [x] = pre ++ y :: post → Feasible pre y) ↔ (∀ pre y post, cmds = pre ++ y :: post → Feasible pre y) ∧ Feasible cmds x := by
      constructor
      · intro h
        refine ⟨fun pre y post e => h pre y (post ++ [x]) (by rw [e]; simp), h cmds x [] rfl⟩
      · rintro ⟨h1, h2⟩ pre y post e
        rcases split_snoc.1 e with ⟨-, rfl, rfl⟩ | ⟨p, -, e⟩
        · exact h2
        · exact h1 pre y p e
    rw [hsplit]
    by_cases hp : ∀ pre y post, cmds = pre ++ y :: post → Feasible pre y
    · obtain ⟨s, hs⟩ := i1 hp
      obtain ⟨f1, f2⟩ := (i3 s hs).step hu
      rw [hs]
      simp only [Except.bind]
      by_cases hx : Feasible cmds x
      · obtain ⟨s', e, hr, -⟩ := f1 hx
        rw [e]
        refine ⟨fun _ => ⟨_, rfl⟩, fun hn => absurd ⟨hp, hx⟩ hn, ?_⟩
        intro t ht
        injection ht with ht
        exact ht ▸ hr
      · rw [f2 hx]
        exact ⟨fun h => absurd h.2 hx, fun _ => rfl, fun s h => by cases h⟩
    · rw [i2 hp]
      exact ⟨fun h => absurd h.1 hp, fun _ => rfl, fun s h => by cases h⟩

/-! ### The flattened catalogue -/

theorem foldl_dictSet_mem {K V : Type} [DecidableEq K] : ∀ (xs acc : List (K × V)), (∀ k v v', (k, v) ∈ acc ++ xs → (k, v') ∈ acc ++ xs → v = v') →
    (acc.map (·.1)).Nodup →
    ((xs.foldl (fun acc y => dictSet acc y.1 y.2) acc).map (·.1)).Nodup ∧
    ∀ k v, (k, v) ∈ xs.foldl (fun acc y => dictSet acc y.1 y.2) acc ↔ (k, v) ∈ acc ++ xs
  | [], acc, _, hn => ⟨hn, by simp⟩
  | (a, b) :: xs, acc, h, hn => by
    have hm : ∀ k v, (k, v) ∈ dictSet acc a b ++ xs ↔ (k, v) ∈ acc ++ (a, b) :: xs := by
      intro k v
      simp only [List.mem_append, mem_dictSet, List.mem_cons, Prod.mk.injEq]
      constructor
      · rintro ((h1 | h1) | h1)
        · exact .inr (.inl h1)
        · exact .inl h1.2
        · exact .inr (.inr h1)
      · rintro (h1 | h1 | h1)
        · by_cases hk : k = a
          · subst hk
            exact .inl (.inl ⟨rfl, h k v b (by simp [h1]) (by simp)⟩)
          · exact .inl (.inr ⟨hk, h1⟩)
        · exact .inl (.inl h1)
        · exact .inr h1
    obtain ⟨h1, h2⟩ := foldl_dictSet_mem xs (dictSet acc a b) (fun k v v' g1 g2 => h k v v' ((hm _ _).1 g1) ((hm _ _).1 g2)) (nodup_dictSet hn _ _)
    exact ⟨h1, fun k v => (h2 k v).trans (hm k v)⟩

theorem Reflects.byName {cmds : List Cmd} {s : LibSession} (h : Reflects cmds s) (hu : UniqueNames cmds) (n : String) :
    (∃ c, s.config.byName n = .ok c ∧ Registered cmds c ∧ c.name = n) ∨ (s.config.byName n = .error .keyError ∧ ∀ c, Registered cmds c → c.name ≠ n) := by
  have hin : ∀ x ∈ s.config.withTerminals, x.2.foldl (fun acc y => dictSet acc y.1 y.2) [] = x.2 := by
    intro x hx
    simpa using foldl_dictSet_nodup x.2 [] (by simpa using h.termOK.inner x hx)
  have hmem : ∀ k c, (k, c) ∈ s.config.withTerminals.flatMap (fun x => x.2.foldl (fun acc y => dictSet acc y.1 y.2) []) ↔ k = c.name ∧ Registered cmds c := by
    intro k c
    rw [List.mem_flatMap]
    constructor
    · rintro ⟨x, hx, hk⟩
      rw [hin x hx] at hk
      have h1 := h.termOK.names x hx _ hk
      exact ⟨h1.1, ((h.term x.1 c).1 (h.termOK.lists hx hk)).2⟩
    · rintro ⟨rfl, hc⟩
      obtain ⟨i, h1, h2⟩ := (h.term c.base c).2 ⟨rfl, hc⟩
      exact ⟨_, h1, by rw [hin _ h1]; exact h2⟩
  obtain ⟨h1, h2⟩ := foldl_dictSet_mem (s.config.withTerminals.flatMap (fun x => x.2.foldl (fun acc y => dictSet acc y.1 y.2) [])) []
    (by
      intro k v v' g1 g2
      rw [List.nil_append] at g1 g2
      obtain ⟨e1, r1⟩ := (hmem _ _).1 g1
      obtain ⟨e2, r2⟩ := (hmem _ _).1 g2
      exact hu.classes _ _ (registered_mentions r1) (registered_mentions r2) (e1.symm.trans e2)) (by simp)
  simp only [List.nil_append] at h2
  unfold Config.byName Catalogue.flatten
  rcases dictGet_cases ((s.config.withTerminals.flatMap (fun x => x.2.foldl (fun acc y => dictSet acc y.1 y.2) [])).foldl (fun acc y => dictSet acc y.1 y.2) []) n with
    ⟨v, hv, e⟩ | ⟨hv, e⟩
  · obtain ⟨g1, g2⟩ := (hmem _ _).1 ((h2 _ _).1 hv)
    exact .inl ⟨v, e, g2, g1.symm⟩
  · refine .inr ⟨e, fun c hc hn => hv ?_⟩
    exact List.mem_map.2 ⟨(n, c), (h2 _ _).2 ((hmem _ _).2 ⟨hn.symm, hc⟩), rfl⟩

theorem Reflects.basis {cmds : List Cmd} {s : LibSession} (h : Reflects cmds s) (hu : UniqueNames cmds) :
    (∀ x, x ∈ s.config.vectorBasis ↔ ∃ c, Offered cmds c ∧ c.cid = x) ∧ s.config.vectorBasis.Nodup := by
  have hmem : ∀ y, y ∈ s.config.all.flatMap (·.2) → Offered cmds y.2 ∧ y.1 = y.2.name := by
    intro y hy
    obtain ⟨x, hx, hy⟩ := List.mem_flatMap.1 hy
    exact ⟨((h.all _ _).1 (h.allOK.lists hx hy)).2, (h.allOK.names x hx y hy).1⟩
  constructor
  · intro x
    unfold Config.vectorBasis
    rw [List.mem_map]
    constructor
    · rintro ⟨y, hy, rfl⟩
      exact ⟨y.2, (hmem y hy).1, rfl⟩
    · rintro ⟨c, h1, rfl⟩
      obtain ⟨i, h2, h3⟩ := (h.all c.base c).2 ⟨rfl, h1⟩
      exact ⟨_, List.mem_flatMap.2 ⟨_, h2, h3⟩, rfl⟩
  · unfold Config.vectorBasis
    have hn : (s.config.all.flatMap (·.2)).Nodup := by
      rw [List.nodup_flatMap]
      refine ⟨fun x hx => List.Nodup.of_map _ (h.allOK.inner x hx), ?_⟩
      have := List.pairwise_map.1 h.allOK.keys
      refine this.imp_of_mem ?_
      intro x y hx hy hne z hzx hzy
      exact hne ((h.allOK.names x hx z hzx).2.symm.trans (h.allOK.names y hy z hzy).2)
    rw [List.nodup_map_iff_inj_on hn]
    intro y hy z hz e
    obtain ⟨y1, y2⟩ := hmem y hy
    obtain ⟨z1, z2⟩ := hmem z hz
    have e2 := hu.ids _ _ (offered_mentions y1) (offered_mentions z1) e
    exact Prod.ext (by rw [y2, z2, e2]) e2

end Verif
