import Verif.Spec.Registry
import Verif.Lemmas.Library
/-! # Lemmas: dictionaries of operator classes, weights, sessions -/

namespace Verif

section Dict
variable {K V : Type} [DecidableEq K]

theorem dictGet_cons (x : K × V) (d : List (K × V)) (k : K) : dictGet (x :: d) k = if x.1 = k then .ok x.2 else dictGet d k := by
  unfold dictGet
  rw [List.find?_cons]
  by_cases h : x.1 = k <;> simp [h]

theorem dictGet_append (d e : List (K × V)) (k : K) : dictGet (d ++ e) k = if k ∈ d.map (·.1) then dictGet d k else dictGet e k := by
  induction d with
  | nil => simp
  | cons x d ih =>
    rw [List.cons_append, dictGet_cons, dictGet_cons, ih]
    by_cases h : x.1 = k
    · simp [h]
    · have : ¬ k = x.1 := fun e => h e.symm
      have e : (k ∈ (x :: d).map (·.1)) = (k ∈ d.map (·.1)) := by simp [this]
      rw [if_neg h, if_neg h]
      simp only [e]

theorem dictGet_set (d : List (K × V)) (k k' : K) (v : V) : dictGet (dictSet d k v) k' = if k' = k then .ok v else dictGet d k' := by
  unfold dictSet
  split
  · rename_i hk
    induction d with
    | nil => simp at hk
    | cons x d ih =>
      rw [List.map_cons, dictGet_cons, dictGet_cons]
      by_cases hx : x.1 = k
      · rw [if_pos hx]
        by_cases h : k' = k
        · rw [if_pos h.symm, if_pos h]
        · rw [if_neg (fun e => h e.symm), if_neg h, if_neg (fun e => h (e.symm.trans hx))]
          by_cases hk' : k ∈ d.map (·.1)
          · rw [ih hk', if_neg h]
          · congr 1
            refine (List.map_congr_left (g := id) fun y hy => ?_).trans (List.map_id _)
            rw [if_neg]; rfl
            intro e; exact hk' (e ▸ List.mem_map_of_mem hy)
      · rw [if_neg hx]
        have hk' : k ∈ d.map (·.1) := by
          rcases List.mem_map.1 hk with ⟨y, hy, e⟩
          rcases List.mem_cons.1 hy with rfl | hy
          · exact absurd e hx
          · exact List.mem_map.2 ⟨y, hy, e⟩
        rw [ih hk']
        by_cases h : k' = k
        · rw [if_pos h, if_pos h, if_neg (fun e => hx (e.trans h))]
        · rw [if_neg h, if_neg h]
  · rename_i hk
    rw [dictGet_append]
    by_cases h : k' = k
    · rw [if_pos h, if_neg (h ▸ hk), dictGet_cons, if_pos h.symm]
    · rw [if_neg h]
      split
      · rfl
      · rename_i hk'
        rw [dictGet_cons, if_neg (fun e => h e.symm)]
        rcases dictGet_cases d k' with ⟨w, hw, -⟩ | ⟨-, e⟩
        · exact absurd (List.mem_map_of_mem hw) hk'
        · rw [e]; rfl

theorem keysList_set (d : List (K × V)) (k : K) (v : V) : (dictSet d k v).map (·.1) = if k ∈ d.map (·.1) then d.map (·.1) else d.map (·.1) ++ [k] := by
  unfold dictSet
  split
  · rw [List.map_map]
    refine List.map_congr_left fun x _ => ?_
    dsimp only [Function.comp]
    split_ifs with hx
    · exact hx.symm
    · rfl
  · simp

theorem dictSet_twice (d : List (K × V)) (k : K) (v : V) : dictSet (dictSet d k v) k v = dictSet d k v := by
  have hk : k ∈ (dictSet d k v).map (·.1) := keys_dictSet.2 (.inl rfl)
  have h1 : dictSet (dictSet d k v) k v = (dictSet d k v).map (fun x => if x.1 = k then (k, v) else x) := by
    conv_lhs => unfold dictSet
    unfold dictSet at hk ⊢
    rw [if_pos hk]
  rw [h1]
  refine (List.map_congr_left (g := id) fun x hx => ?_).trans (List.map_id _)
  split
  · rename_i he
    unfold dictSet at hx
    split at hx
    · obtain ⟨y, -, rfl⟩ := List.mem_map.1 hx
      by_cases h1 : y.1 = k
      · rw [if_pos h1]; rfl
      · rw [if_neg h1] at he; exact absurd he h1
    · rename_i hn
      rcases List.mem_append.1 hx with hx | hx
      · exact absurd (he ▸ List.mem_map_of_mem hx) hn
      · rw [List.mem_singleton.1 hx]; rfl
  · rfl

end Dict

/-! ### The registry of evolution operators -/

theorem firsts_snoc (l : List String) (a : String) : firsts (l ++ [a]) = if a ∈ l then firsts l else firsts l ++ [a] := by
  induction l with
  | nil => simp [firsts]
  | cons b l ih =>
    rw [List.cons_append]
    unfold firsts
    rw [ih]
    by_cases hb : a = b
    · subst hb
      rw [if_pos List.mem_cons_self]
      split
      · rfl
      · simp [List.filter_append]
    · by_cases hl : a ∈ l
      · rw [if_pos hl, if_pos (List.mem_cons_of_mem _ hl)]
      · rw [if_neg hl, if_neg (by simp [hb, hl]), List.filter_append]
        simp [hb]

theorem mem_firsts (l : List String) (a : String) : a ∈ firsts l ↔ a ∈ l := by
  induction l with
  | nil => simp [firsts]
  | cons b l ih =>
    unfold firsts
    by_cases h : a = b <;> simp [ih, h]

theorem latest_snoc {cs : List OpClass} {c d : OpClass} : LatestOfName (cs ++ [d]) c ↔ c = d ∨ (d.name ≠ c.name ∧ LatestOfName cs c) := by
  constructor
  · rintro ⟨b, a, h1, h2⟩
    rcases List.eq_nil_or_concat a with rfl | ⟨a', x, rfl⟩
    · have := List.append_inj' h1 rfl
      exact .inl (by simpa using this.2.symm)
    · rw [List.concat_eq_append] at h1 h2
      rw [← List.cons_append, ← List.append_assoc] at h1
      obtain ⟨h3, h4⟩ := List.append_inj' h1 rfl
      simp only [List.cons.injEq, and_true] at h4
      subst h4
      exact .inr ⟨h2 _ (by simp), b, a', h3, fun d hd => h2 d (by simp [hd])⟩
  · rintro (rfl | ⟨h1, b, a, rfl, h2⟩)
    · exact ⟨cs, [], rfl, by simp⟩
    · refine ⟨b, a ++ [d], by simp, fun x hx => ?_⟩
      rcases List.mem_append.1 hx with hx | hx
      · exact h2 x hx
      · rw [List.mem_singleton.1 hx]; exact h1

/-- The dictionary after these classes have been registered. -/
def regOf (cs : List OpClass) : List (String × OpClass) := cs.foldl (fun d c => dictSet d c.name c) []

theorem regOf_snoc (cs : List OpClass) (c : OpClass) : regOf (cs ++ [c]) = dictSet (regOf cs) c.name c := by simp [regOf]

theorem regOf_keys (cs : List OpClass) : (regOf cs).map (·.1) = firsts (cs.map OpClass.name) := by
  induction cs using List.reverseRecOn with
  | nil => rfl
  | append_singleton cs c ih =>
    rw [regOf_snoc, keysList_set, ih, List.map_append, List.map_singleton, firsts_snoc]
    simp only [mem_firsts]

theorem regOf_nodup (cs : List OpClass) : ((regOf cs).map (·.1)).Nodup := by
  induction cs using List.reverseRecOn with
  | nil => simp [regOf]
  | append_singleton cs c ih => rw [regOf_snoc]; exact nodup_dictSet ih _ _

theorem mem_regOf (cs : List OpClass) (x : String × OpClass) : x ∈ regOf cs ↔ x.1 = x.2.name ∧ LatestOfName cs x.2 := by
  induction cs using List.reverseRecOn with
  | nil => simp [regOf, LatestOfName]
  | append_singleton cs c ih =>
    obtain ⟨n, d⟩ := x
    rw [regOf_snoc, ← dictGet_ok_iff (nodup_dictSet (regOf_nodup cs) _ _), dictGet_set, latest_snoc]
    dsimp only at ih ⊢
    by_cases h : n = c.name
    · rw [if_pos h]
      constructor
      · intro e; injection e with e; subst e; exact ⟨h, .inl rfl⟩
      · rintro ⟨h1, rfl | ⟨h2, -⟩⟩
        · rfl
        · exact absurd (h.symm.trans h1) h2
    · rw [if_neg h, dictGet_ok_iff (regOf_nodup cs), ih]
      constructor
      · rintro ⟨h1, h2⟩; exact ⟨h1, .inr ⟨fun e => h (h1.trans e.symm), h2⟩⟩
      · rintro ⟨h1, rfl | ⟨-, h2⟩⟩
        · exact absurd h1 h
        · exact ⟨h1, h2⟩

/-! ### Sessions -/

theorem declare_evolution (r : Registries) (ds : List RegDeco) (c : OpClass) :
    (r.declare ds c).evolution = if RegDeco.evolution ∈ ds then dictSet r.evolution c.name c else r.evolution := by
  unfold Registries.declare
  have key : ∀ (l : List RegDeco) (r : Registries), (l.foldl (fun r d => r.register c d) r).evolution =
      if RegDeco.evolution ∈ l then dictSet r.evolution c.name c else r.evolution := by
    intro l
    induction l with
    | nil => intro r; simp
    | cons d l ih =>
      intro r
      rw [List.foldl_cons, ih]
      cases d <;> simp [Registries.register, dictSet_twice]
  rw [key]
  simp

theorem declare_crossover (r : Registries) (ds : List RegDeco) (c : OpClass) (h : RegDeco.crossover ∉ ds) : (r.declare ds c).crossover = r.crossover := by
  unfold Registries.declare
  have key : ∀ (l : List RegDeco) (r : Registries), RegDeco.crossover ∉ l → (l.foldl (fun r d => r.register c d) r).crossover = r.crossover := by
    intro l
    induction l with
    | nil => intro r _; rfl
    | cons d l ih =>
      intro r hl
      rw [List.foldl_cons, ih _ (fun h => hl (List.mem_cons_of_mem _ h))]
      cases d <;> first | rfl | exact absurd List.mem_cons_self hl
  exact key _ _ (by simpa using h)

theorem exec_regs (s : EvSession) (a : EvAct) : (s.exec a).1.regs.evolution = (declaredOps [a]).foldl (fun d c => dictSet d c.name c) s.regs.evolution := by
  cases a with
  | declare ds c =>
    simp only [EvSession.exec, declare_evolution, declaredOps]
    split <;> simp
  | make call =>
    simp only [EvSession.exec, declaredOps]
    split <;> rfl
  | update i gen =>
    simp only [EvSession.exec, declaredOps]
    split <;> rfl

theorem declaredOps_append (as bs : List EvAct) : declaredOps (as ++ bs) = declaredOps as ++ declaredOps bs := by
  induction as with
  | nil => rfl
  | cons a as ih =>
    cases a <;> simp only [List.cons_append, declaredOps, ih]
    split <;> simp

theorem run_append (s : EvSession) (as bs : List EvAct) : s.run (as ++ bs) = (s.run as).run bs := by simp [EvSession.run]

theorem run_snoc (s : EvSession) (as : List EvAct) (a : EvAct) : s.run (as ++ [a]) = ((s.run as).exec a).1 := by simp [EvSession.run]

theorem run_regs (as : List EvAct) : (EvSession.start.run as).regs.evolution = regOf (declaredOps as) := by
  induction as using List.reverseRecOn with
  | nil => rfl
  | append_singleton as a ih =>
    rw [run_snoc, exec_regs, ih, declaredOps_append]
    simp [regOf]

/-- Evolvers stay, with their operators. -/
theorem exec_keep {s : EvSession} {i : Nat} {e : EvolverObj} (h : s.evolvers[i]? = some e) (a : EvAct) :
    ∃ e', (s.exec a).1.evolvers[i]? = some e' ∧ e'.sensitive = e.sensitive ∧ e'.ops = e.ops ∧
      (e' = e ∨ ∃ gen, a = .update i gen ∧ e' = (e.update s.regs gen).1) := by
  have hi := (List.getElem?_eq_some_iff.1 h).1
  cases a with
  | declare ds c => exact ⟨e, h, rfl, rfl, .inl rfl⟩
  | make call =>
    simp only [EvSession.exec]
    split
    · exact ⟨e, h, rfl, rfl, .inl rfl⟩
    · exact ⟨e, by rw [List.getElem?_append_left hi]; exact h, rfl, rfl, .inl rfl⟩
  | update j gen =>
    simp only [EvSession.exec]
    split
    · exact ⟨e, h, rfl, rfl, .inl rfl⟩
    · rename_i x hx
      by_cases hj : j = i
      · subst hj
        rw [h] at hx; injection hx with hx; subst hx
        refine ⟨(e.update s.regs gen).1, by simp [hi], ?_, ?_, .inr ⟨gen, rfl, rfl⟩⟩
        · unfold EvolverObj.update; split <;> rfl
        · unfold EvolverObj.update; split <;> rfl
      · exact ⟨e, by rw [← h]; simp [List.getElem?_set_ne hj], rfl, rfl, .inl rfl⟩

theorem run_keep {s : EvSession} {i : Nat} {e : EvolverObj} (h : s.evolvers[i]? = some e) (as : List EvAct) :
    ∃ e', (s.run as).evolvers[i]? = some e' ∧ e'.sensitive = e.sensitive ∧ e'.ops = e.ops := by
  induction as using List.reverseRecOn with
  | nil => exact ⟨e, h, rfl, rfl⟩
  | append_singleton as a ih =>
    obtain ⟨e1, h1, h2, h3⟩ := ih
    obtain ⟨e2, h4, h5, h6, -⟩ := exec_keep h1 a
    exact ⟨e2, by rw [run_snoc]; exact h4, h5.trans h2, h6.trans h3⟩

/-! ### Weights -/

theorem setWeights_ok {probs : List (String × ℚ)} (cs : List (String × OpClass)) (w : List (OpClass × ℚ)) (hn : ∀ x ∈ cs, x.1 = x.2.name)
    (hk : ∀ x ∈ cs, ∃ p, dictGet probs x.1 = .ok p) : (setWeights probs cs w).2 = .ok () ∧
    ∀ c, dictGet (setWeights probs cs w).1 c = if (c.name, c) ∈ cs then dictGet probs c.name else dictGet w c := by
  induction cs generalizing w with
  | nil => exact ⟨rfl, fun c => by simp [setWeights]⟩
  | cons x cs ih =>
    obtain ⟨n, d⟩ := x
    have hnd : n = d.name := hn (n, d) List.mem_cons_self
    subst hnd
    obtain ⟨p, hp⟩ := hk _ List.mem_cons_self
    dsimp only at hp
    unfold setWeights
    rw [hp]
    dsimp only
    obtain ⟨i1, i2⟩ := ih (dictSet w d p) (fun x hx => hn x (List.mem_cons_of_mem _ hx)) (fun x hx => hk x (List.mem_cons_of_mem _ hx))
    refine ⟨i1, fun c => ?_⟩
    rw [i2, dictGet_set]
    by_cases hc : (c.name, c) ∈ cs
    · rw [if_pos hc, if_pos (List.mem_cons_of_mem _ hc)]
    · rw [if_neg hc]
      by_cases hd : c = d
      · subst hd
        rw [if_pos rfl, if_pos List.mem_cons_self, hp]
      · rw [if_neg hd, if_neg]
        rw [List.mem_cons]
        rintro (h | h)
        · injection h with _ h; exact hd h
        · exact hc h

theorem setWeights_raise {probs : List (String × ℚ)} (cs : List (String × OpClass)) (w : List (OpClass × ℚ))
    (hk : ∃ x ∈ cs, dictGet probs x.1 = .error .keyError) : (setWeights probs cs w).2 = .error .keyError := by
  induction cs generalizing w with
  | nil => simp at hk
  | cons x cs ih =>
    obtain ⟨n, d⟩ := x
    unfold setWeights
    rcases dictGet_cases probs n with ⟨p, -, hp⟩ | ⟨-, hp⟩
    · rw [hp]
      dsimp only
      refine ih _ ?_
      obtain ⟨y, hy, h⟩ := hk
      rcases List.mem_cons.1 hy with rfl | hy
      · dsimp only at h; rw [hp] at h; cases h
      · exact ⟨y, hy, h⟩
    · rw [hp]

theorem setWeights_other {probs : List (String × ℚ)} (cs : List (String × OpClass)) (w : List (OpClass × ℚ)) {c : OpClass} (hc : ∀ x ∈ cs, x.2 ≠ c) :
    dictGet (setWeights probs cs w).1 c = dictGet w c := by
  induction cs generalizing w with
  | nil => rfl
  | cons x cs ih =>
    obtain ⟨n, d⟩ := x
    unfold setWeights
    split
    · rfl
    · rw [ih _ (fun x hx => hc x (List.mem_cons_of_mem _ hx)), dictGet_set, if_neg]
      exact fun e => hc _ List.mem_cons_self e.symm

/-- The two tables. -/
theorem initial_get (n : String) : dictGet initialProbs n = match scheduled none n with | some p => .ok p | none => .error .keyError := by
  unfold initialProbs scheduled
  simp only [dictGet_cons]
  by_cases h1 : n = "AddSeriesComponent"
  · subst h1; rfl
  by_cases h2 : n = "AddParallelComponent"
  · subst h2; rfl
  by_cases h3 : n = "RemoveComponent"
  · subst h3; rfl
  by_cases h4 : n = "SwapComponent"
  · subst h4; rfl
  rw [if_neg (Ne.symm h1), if_neg (Ne.symm h2), if_neg (Ne.symm h3), if_neg (Ne.symm h4)]
  simp [h1, h2, h3, h4, dictGet]

theorem schedule_get (t : ℚ) (n : String) : dictGet (scheduleProbs t) n = match scheduled (some t) n with | some p => .ok p | none => .error .keyError := by
  unfold scheduleProbs scheduled
  simp only [dictGet_cons]
  by_cases h1 : n = "AddSeriesComponent"
  · subst h1; rfl
  by_cases h2 : n = "AddParallelComponent"
  · subst h2; rfl
  by_cases h3 : n = "RemoveComponent"
  · subst h3; rfl
  by_cases h4 : n = "SwapComponent"
  · subst h4; rfl
  rw [if_neg (Ne.symm h1), if_neg (Ne.symm h2), if_neg (Ne.symm h3), if_neg (Ne.symm h4)]
  simp [h1, h2, h3, h4, dictGet]

theorem scheduled_known (g : Option ℚ) (n : String) : (KnownOperator n → ∃ p, scheduled g n = some p) ∧ (¬ KnownOperator n → scheduled g n = none) := by
  unfold KnownOperator
  constructor
  · intro h
    simp only [List.mem_cons, List.not_mem_nil, or_false] at h
    rcases h with rfl | rfl | rfl | rfl <;> cases g <;> exact ⟨_, rfl⟩
  · intro h
    simp only [List.mem_cons, List.not_mem_nil, or_false, not_or] at h
    obtain ⟨h1, h2, h3, h4⟩ := h
    cases g <;> simp [scheduled, h1, h2, h3, h4]

end Verif
