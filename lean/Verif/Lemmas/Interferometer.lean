import Verif.Spec.Interferometer
import Verif.Lemmas.Transfer
import Verif.Lemmas.Physics
import Verif.Props.Components
/-! # An interferometer inside a system that was propagated -/

namespace Verif
open Graph Complex

variable {n : Nat}

theorem turn_add (a b : ℝ) : turn (a + b) = turn a * turn b := by
  unfold turn; rw [← Complex.exp_add]; congr 1; push_cast; ring

theorem turn_norm (a : ℝ) : ‖turn a‖ = 1 := by unfold turn; exact Complex.norm_exp_ofReal_mul_I a

theorem turn_zero : turn 0 = 1 := by simp [turn]

theorem splitPhase_turn (nIn nOut i j : Nat) : splitPhase nIn nOut i j = turn (-(2 * Real.pi * (i / nIn)) + -(2 * Real.pi * (j / nOut))) := by
  unfold splitPhase turn; congr 1; push_cast; ring

theorem splitRow_ofFn (nIn nOut : Nat) (w : ℝ) (j : Nat) {m : Nat} (f : Fin m → ℂ) :
    splitRow nIn nOut w j (List.ofFn f) = ∑ i : Fin m, ((Real.sqrt w / Real.sqrt nOut : ℝ) : ℂ) * splitPhase nIn nOut i j * f i := by
  unfold splitRow
  have : (List.ofFn f).zipIdx = List.ofFn (fun i : Fin m => (f i, i.val)) := by
    apply List.ext_getElem
    · simp
    · intro i h1 h2; simp
  rw [this, List.map_ofFn, List.sum_ofFn]
  rfl

theorem node_unique {g : Graph} (hw : g.WF) {a b : Node} (ha : a ∈ g.nodes) (hb : b ∈ g.nodes) (h : a.id = b.id) : a = b :=
  List.inj_on_of_nodup_map hw.ids_nodup ha hb h

theorem physics_through {P : Prop_ n} {optic : Comp → Optic n} {conn : Comp → Connector} {hasNoise : Comp → Bool} {c : Comp} {s1 s2 : Signal n}
    (h : (physics P optic conn hasNoise).noise c = none ∧ s2 = s1 ∨ ∃ f, (physics P optic conn hasNoise).noise c = some f ∧ f s1 = .ok s2) : s2 = s1 := by
  rcases h with ⟨_, h⟩ | ⟨f, hf, h⟩
  · exact h
  · simp only [physics] at hf
    split at hf
    · injection hf with hf; subst hf; injection h with h; exact h.symm
    · cases hf

/-- Field equations of an interferometer. -/
theorem interferometer_field {P : Prop_ n} {g : Graph} (hw : g.WF) {optic : Comp → Optic n} {conn : Comp → Connector} {hasNoise : Comp → Bool}
    {a b : Node} {eIn eOut : Edge} {arms : List Edge} (hI : Interferometer g a b eIn eOut arms)
    {r : List ℝ} (ha : conn a.comp = .splitter r) (hb : conn b.comp = .splitter [])
    {inp : Signal n} {st : Store (Signal n)} (hF : IsFlow g (physics P optic conn hasNoise) inp st) :
    r.length + 1 = arms.length ∧ (∀ x ∈ splitWeights r, 0 ≤ x) ∧
    ∃ (x : Signal n) (y : Fin arms.length → Signal n) (z : Signal n),
      st (.edge eIn.ref) = some x ∧
      (∀ j : Fin arms.length, (optic arms[j].comp).apply P (fun t => armFactor r arms.length j * x t) = .ok (y j) ∧ st (.edge arms[j].ref) = some (y j)) ∧
      (optic eOut.comp).apply P (fun t => ∑ j : Fin arms.length, turn (-(2 * Real.pi * (j / arms.length))) * y j t) = .ok z ∧
      st (.edge eOut.ref) = some z := by
  have hin : eIn ∈ g.edges := (mem_inEdges.1 (by rw [hI.into]; simp : eIn ∈ g.inEdges a.id)).1
  obtain ⟨hout, hos⟩ := mem_outEdges.1 (by rw [hI.out]; simp : eOut ∈ g.outEdges b.id)
  obtain ⟨_, _, _, _, _, _, _, x, _, _, _, _, _, hx⟩ := hF.edges eIn hin
  -- the joining node
  obtain ⟨nb, hnb, hnbid, outs, i, s, s1, z, ⟨ins, hins, hoc⟩, hi, hs, he, hz, hsz⟩ := hF.edges eOut hout
  obtain rfl : nb = b := node_unique hw hnb hI.b_mem (hnbid.trans hos)
  obtain rfl := physics_through hz
  have harm : ∀ e ∈ arms, e ∈ g.edges ∧ e.src = a.id := fun e h => mem_outEdges.1 (by rw [hI.split]; exact h)
  rw [hI.join, hI.out] at hoc
  simp only [physics, hb, Connector.apply, splitSignals] at hoc
  split at hoc
  · cases hoc
  rename_i hlen
  push Not at hlen
  split at hoc
  · cases hoc
  rename_i hneg
  have hne : arms ≠ [] := by
    rintro rfl
    rcases hins with ⟨_, h2⟩ | ⟨h1, _⟩
    · rw [h2] at hlen; simp at hlen
    · exact h1 hI.join
  have hins' : arms.map (fun e => st (.edge e.ref)) = ins.map some := by
    rcases hins with ⟨h1, _⟩ | ⟨_, h2⟩
    · exact absurd (hI.join.symm.trans h1) hne
    · rw [hI.join] at h2; exact h2
  injection hoc with hoc
  have hi0 : i = 0 := by
    rw [hos, hI.out] at hi
    cases i with
    | zero => rfl
    | succ i => simp at hi
  subst hi0
  have hsv : s = fun t => splitRow arms.length 1 1 0 (ins.map (· t)) := by
    rw [← hoc] at hs
    simp [splitWeights] at hs
    exact hs.symm
  -- the arms
  have key : ∀ j : Fin arms.length, r.length + 1 = arms.length ∧ (∀ x ∈ splitWeights r, 0 ≤ x) ∧ ∃ y : Signal n,
      (optic arms[j].comp).apply P (fun t => armFactor r arms.length j * x t) = .ok y ∧ st (.edge arms[j].ref) = some y := by
    intro j
    obtain ⟨hm, hsrc⟩ := harm arms[j] (List.getElem_mem _)
    obtain ⟨na, hna, hnaid, outs', k, s', s1', y, ⟨ins', hins1, hoc1⟩, hk, hs', he', hy, hsy⟩ := hF.edges arms[j] hm
    obtain rfl : na = a := node_unique hw hna hI.a_mem (hnaid.trans hsrc)
    obtain rfl := physics_through hy
    have hxs : ins' = [x] := by
      rcases hins1 with ⟨h1, _⟩ | ⟨_, h2⟩
      · rw [hI.into] at h1; cases h1
      · rw [hI.into] at h2
        simp only [List.map_cons, List.map_nil, hx] at h2
        cases ins' with
        | nil => simp at h2
        | cons q l =>
          simp only [List.map_cons, List.cons.injEq, Option.some.injEq] at h2
          obtain ⟨rfl, h3⟩ := h2
          rw [List.map_eq_nil_iff.1 h3.symm]
    subst hxs
    rw [hI.into, hI.split] at hoc1
    simp only [physics, ha, Connector.apply, splitSignals] at hoc1
    split at hoc1
    · cases hoc1
    rename_i hl
    push Not at hl
    split at hoc1
    · cases hoc1
    rename_i hng
    push Not at hng
    injection hoc1 with hoc1
    rw [hsrc, hI.split] at hk
    have hkj : k = j.val := by
      have hnd : arms.Nodup := by
        have := outEdges_refs hw na.id
        rw [hI.split] at this
        exact List.Nodup.of_map _ this
      have hk' : k < arms.length := (List.getElem?_eq_some_iff.1 hk).1
      have := (List.getElem?_eq_some_iff.1 hk).2
      exact (List.Nodup.getElem_inj_iff hnd).1 this
    subst hkj
    refine ⟨by rw [← hl.2]; simp [splitWeights], hng, y, ?_, hsy⟩
    rw [← hoc1] at hs'
    have hjl : j.val < (splitWeights r).length := by rw [hl.2]; exact j.isLt
    have : s' = fun t => armFactor r arms.length j * x t := by
      simp [hjl] at hs'
      rw [← hs']
      funext t
      have := splitRow_ofFn 1 arms.length ((splitWeights r)[j.val]) j.val (fun _ : Fin 1 => x t)
      simp only [List.ofFn_succ, List.ofFn_zero, Finset.univ_unique, Finset.sum_singleton] at this
      rw [this, splitPhase_turn]
      unfold armFactor
      have hg : (splitWeights r).getD j.val 0 = (splitWeights r)[j.val] := by simp [List.getD, hjl]
      rw [hg]
      simp
    rw [← this]
    exact he'
  have h0 : 0 < arms.length := List.length_pos_of_ne_nil hne
  refine ⟨(key ⟨0, h0⟩).1, (key ⟨0, h0⟩).2.1, x, ?_⟩
  choose y hy1 hy2 using fun j => (key j).2.2
  refine ⟨y, z, hx, fun j => ⟨hy1 j, hy2 j⟩, ?_, hsz⟩
  have hofn : ins = List.ofFn y := by
    apply List.ext_getElem?
    intro i
    have := congrArg (fun l => l[i]?) hins'
    simp only [List.getElem?_map] at this
    by_cases hi : i < arms.length
    · rw [List.getElem?_eq_getElem hi] at this
      simp only [Option.map_some] at this
      have h2 := hy2 ⟨i, hi⟩
      simp only [Fin.getElem_fin] at h2
      rw [h2] at this
      cases hq : ins[i]? with
      | none => rw [hq] at this; cases this
      | some q =>
        rw [hq] at this
        simp only [Option.map_some, Option.some.injEq] at this
        simp [hi, this]
    · have hl := congrArg List.length hins'
      simp only [List.length_map] at hl
      rw [List.getElem?_eq_none (by omega), List.getElem?_eq_none (by simp; omega)]
  rw [← he]
  congr 1
  rw [hsv]
  funext t
  rw [hofn, List.map_ofFn, splitRow_ofFn]
  apply Finset.sum_congr rfl
  intro j _
  rw [splitPhase_turn]
  simp

end Verif
