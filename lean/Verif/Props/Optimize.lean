import Verif.Spec.Optimize
import Verif.Props.Params
import Verif.Props.Ga
import Verif.Props.Adam
/-! # Properties of parameter optimisation (C52) -/

namespace Verif
open Graph

variable {g : Graph} {h0 h : Heap} {eval : Heap → ℚ} {e : OptEnv}

/-- The locations of the unlocked parameters, as extracted. -/
def pslots (g : Graph) (h : Heap) : List (ModelId × Nat) := slots h (getModels g)

theorem ParamsPresent.mono {h1 : Heap} (hp : ParamsPresent g h) (hs : SameLocked g h h1) : ParamsPresent g h1 :=
  fun m hm => by rw [hs.locks, hs.length]; exact hp m hm

theorem distribute_same {h1 h2 : Heap} {x : List ℚ}
    (hd : distribute h1 x ((pslots g h).map (·.1)) ((pslots g h).map (·.2)) = .ok h2) (hs : SameLocked g h h1) : SameLocked g h h2 := by
  obtain ⟨a, b, _⟩ := distribute_ok hd
  exact hs.trans ⟨a.lower, a.upper, a.dtypes, a.steps, a.locks, a.nodeLock, a.length,
    fun m i hmi => b m i (fun hm => hmi (by
      obtain ⟨c, d⟩ := mem_slots.1 hm
      exact ⟨c, hs.unlocked.2 d⟩))⟩

theorem objective_eq (hs0 : SameLocked g h0 h) (ev : Heap → Except Err ℚ) (h1 : Heap) (x : List ℚ) : objective g h0 ev h1 x =
    match distribute h1 x ((pslots g h).map (·.1)) ((pslots g h).map (·.2)) with
    | .error e => (h1, .error e)
    | .ok h' => (h', ev h') := by
  unfold objective
  rw [extract_ok (by intro a ha; simp at ha)]
  dsimp only
  unfold pslots
  rw [hs0.same.slots]
  try (cases distribute h1 x ((slots h0 (getModels g)).map (·.1)) ((slots h0 (getModels g)).map (·.2)) <;> rfl)

theorem callF_same (hs0 : SameLocked g h0 h) {h1 h2 : Heap} (hs : SameLocked g h h1) {x : List ℚ} {v : ℚ}
    (hc : callF g h0 eval h1 x = .ok (h2, v)) : SameLocked g h h2 := by
  unfold callF at hc
  rw [objective_eq hs0] at hc
  cases hd : distribute h1 x ((pslots g h).map (·.1)) ((pslots g h).map (·.2)) with
  | error er => rw [hd] at hc; cases hc
  | ok h' =>
    rw [hd] at hc
    simp only [Except.ok.injEq, Prod.mk.injEq] at hc
    rw [← hc.1]
    exact distribute_same hd hs

theorem callF_full (hs0 : SameLocked g h0 h) (hp : ParamsPresent g h) {h1 : Heap} (hs : SameLocked g h h1) {x : List ℚ}
    (hx : x.length = (pslots g h).length) : ∃ h', distribute h x ((pslots g h).map (·.1)) ((pslots g h).map (·.2)) = .ok h' ∧
      distribute h1 x ((pslots g h).map (·.1)) ((pslots g h).map (·.2)) = .ok h' ∧ callF g h0 eval h1 x = .ok (h', eval h') := by
  obtain ⟨h', a, b⟩ := distribute_forget hs hp hx
  refine ⟨h', a, b, ?_⟩
  unfold callF
  rw [objective_eq hs0]
  unfold pslots
  rw [b]

theorem callMany_same (hs0 : SameLocked g h0 h) (xs : List (List ℚ)) {h1 h2 : Heap} (hs : SameLocked g h h1)
    (hc : callMany g h0 eval h1 xs = .ok h2) : SameLocked g h h2 := by
  induction xs generalizing h1 with
  | nil =>
    simp only [callMany, Except.ok.injEq] at hc
    rw [← hc]
    exact hs
  | cons x xs ih =>
    simp only [callMany] at hc
    split at hc
    · cases hc
    · next h3 v hf => exact ih (callF_same hs0 hs hf) hc

theorem runStrat_same (hs0 : SameLocked g h0 h) {gr : List ℚ → List ℚ} {P : List ℚ → Prop} (t : Strat) {h1 h2 : Heap}
    (hs : SameLocked g h h1) (he : t.Ends P) {x : List ℚ} {f : ℚ} (hr : runStrat g h0 eval gr t h1 = .ok (h2, x, f)) :
    SameLocked g h h2 ∧ P x := by
  induction t generalizing h1 with
  | done y w =>
    simp only [runStrat, Except.ok.injEq, Prod.mk.injEq] at hr
    obtain ⟨rfl, rfl, _⟩ := hr
    exact ⟨hs, he⟩
  | ask y k ih =>
    simp only [runStrat] at hr
    split at hr
    · cases hr
    · next h3 v hf => exact ih v (callF_same hs0 hs hf) (he v) hr
  | askGrad y k ih =>
    simp only [runStrat] at hr
    split at hr
    · cases hr
    · next h3 v hf => exact ih _ (callF_same hs0 hs hf) (he _) hr

theorem runStrat_honest (hs0 : SameLocked g h0 h) (hp : ParamsPresent g h) {gr : List ℚ → List ℚ} {v : List ℚ → ℚ}
    (hv : ∀ x h', x.length = (pslots g h).length → distribute h x ((pslots g h).map (·.1)) ((pslots g h).map (·.2)) = .ok h' → v x = eval h')
    (t : Strat) {h1 h2 : Heap} (hs : SameLocked g h h1) (he : t.Honest (pslots g h).length v) {x : List ℚ} {f : ℚ}
    (hr : runStrat g h0 eval gr t h1 = .ok (h2, x, f)) : f = v x := by
  induction t generalizing h1 with
  | done y w =>
    simp only [runStrat, Except.ok.injEq, Prod.mk.injEq] at hr
    obtain ⟨rfl, rfl, rfl⟩ := hr
    exact he
  | ask y k ih =>
    obtain ⟨h', a, b, c⟩ := callF_full (eval := eval) hs0 hp hs he.1
    simp only [runStrat, c] at hr
    refine ih _ (distribute_same b hs) ?_ hr
    rw [← hv y h' he.1 a]
    exact he.2
  | askGrad y k ih =>
    simp only [runStrat] at hr
    split at hr
    · cases hr
    · next h3 w hf => exact ih _ (callF_same hs0 hs hf) (he _) hr

theorem finishOpt_ok (hs0 : SameLocked g h0 h) (hp : ParamsPresent g h) {h1 h2 : Heap} (hs : SameLocked g h h1) {x y : List ℚ}
    (hx : x.length = (pslots g h).length) {s : ℚ}
    (hf : finishOpt g h0 eval h1 x ((pslots g h).map (·.1)) ((pslots g h).map (·.2)) = .ok (h2, y, s)) :
    y = x ∧ distribute h x ((pslots g h).map (·.1)) ((pslots g h).map (·.2)) = .ok h2 ∧ s = eval h2 := by
  obtain ⟨h', a, b⟩ := distribute_forget hs hp hx
  obtain ⟨h'', a', _, c⟩ := callF_full (eval := eval) hs0 hp (h1 := h') (distribute_same b hs) hx
  unfold finishOpt at hf
  have b' : distribute h1 x ((pslots g h).map (·.1)) ((pslots g h).map (·.2)) = .ok h' := b
  rw [b'] at hf
  simp only [c, Except.ok.injEq, Prod.mk.injEq] at hf
  obtain ⟨rfl, rfl, rfl⟩ := hf
  exact ⟨rfl, a', rfl⟩

theorem runGa_ok (hs0 : SameLocked g h0 h) (hp : ParamsPresent g h) {h1 h2 : Heap} (hs : SameLocked g h h1) {x0 x : List ℚ} {s : ℚ}
    {nGen n : Nat} {rm rc : ℚ} (hr : runGa e g h0 eval x0 nGen n rm rc h1 = .ok (h2, x, s)) :
    SameLocked g h h2 ∧ (∀ (P : Nat → ℚ → Prop) (L : Nat), Fits P L x0 → (∀ k, Fits P L (e.gen k)) → Fits P L x) ∧
    (x.length = (pslots g h).length → ∀ h', distribute h x ((pslots g h).map (·.1)) ((pslots g h).map (·.2)) = .ok h' → s = eval h') := by
  unfold runGa at hr
  dsimp only at hr
  split at hr
  · cases hr
  · next x' s' st hga =>
    split at hr
    · cases hr
    · next h3 hc =>
      simp only [Except.ok.injEq, Prod.mk.injEq] at hr
      obtain ⟨rfl, rfl, rfl⟩ := hr
      refine ⟨callMany_same hs0 _ hs hc, fun P L hx hg => (C36_constraints_inherited hx hg hga).1, ?_⟩
      intro hx h' hd
      obtain ⟨⟨i, _, hi⟩, _⟩ := C35_ga hga
      obtain ⟨h'', a, _, c⟩ := callF_full (eval := eval) hs0 hp hs hx
      dsimp only at hi
      rw [c] at hi
      dsimp only at hi
      rw [hd] at a
      injection a with a
      rw [a]
      exact hi.symm

theorem runAdam_ok (hs0 : SameLocked g h0 h) {h1 h2 : Heap} (hs : SameLocked g h h1) {lo up x0 x : List ℚ} {k : Nat}
    (hr : runAdam e g h0 eval lo up x0 k h1 = .ok (h2, x)) : SameLocked g h h2 ∧ x.length = x0.length ∧
    (0 < k → (∀ (i : Nat) (l u : ℚ), lo[i]? = some l → up[i]? = some u → l ≤ u) → Respects lo up x) := by
  unfold runAdam at hr
  split at hr
  · cases hr
  · next st j ha =>
    split at hr
    · cases hr
    · next h3 hc =>
      simp only [Except.ok.injEq, Prod.mk.injEq] at hr
      obtain ⟨rfl, rfl⟩ := hr
      refine ⟨callMany_same hs0 _ hs hc, ?_, ?_⟩
      · unfold adamBounded at ha
        split at ha
        · cases ha
        · exact (adamLoop_ok _ _ _ ha).2.2.1
      · intro hk hle
        obtain ⟨⟨a, b⟩, _⟩ := C37_adam hle hk ha
        refine ⟨a, fun i y hy l u hl hu => ?_⟩
        obtain ⟨c, d⟩ := b i l u y hl hu hy
        have : 0 ≤ (u - l) / 10 ^ 8 := div_nonneg (by linarith [hle i l u hl hu]) (by norm_num)
        constructor <;> linarith

theorem numCol_map (xs : List ℚ) : numCol (xs.map .num) = xs := by
  induction xs with
  | nil => rfl
  | cons x xs ih => simp [numCol, ih]

theorem vals_col {a : Attr} (f : PModel → List ℚ) (hf : ∀ m : PModel, m.attr a = (f m).map .num) (ss : List (ModelId × Nat)) :
    vals h a ss = (ss.filterMap (fun s => (f (h s.1))[s.2]?)).map .num := by
  induction ss with
  | nil => rfl
  | cons s ss ih =>
    unfold vals at *
    simp only [List.filterMap_cons]
    rw [hf, List.getElem?_map]
    cases (f (h s.1))[s.2]? with
    | none => simpa using ih
    | some x => simpa using ih

/-- What is extracted. -/
theorem extractToList_ok {ps lo up : List ℚ} {models : List ModelId} {index : List Nat}
    (hx : extractToList g h = .ok (ps, models, index, lo, up)) : models = (pslots g h).map (·.1) ∧ index = (pslots g h).map (·.2) ∧
    ps.length = (pslots g h).length ∧ lo.length = (pslots g h).length ∧ up.length = (pslots g h).length ∧
    lo = numCol (vals h .lowerBounds (pslots g h)) ∧ up = numCol (vals h .upperBounds (pslots g h)) ∧
    ps = numCol (vals h .parameters (pslots g h)) ∧
    ∀ (j : Nat) (s : ModelId × Nat), (pslots g h)[j]? = some s → lo[j]? = (h s.1).lower[s.2]? ∧ up[j]? = (h s.1).upper[s.2]? := by
  unfold extractToList at hx
  split at hx
  · cases hx
  · next ex hex =>
    obtain ⟨hp, rfl⟩ := extract_eq hex
    simp only [List.map_cons, List.map_nil, Except.ok.injEq, Prod.mk.injEq] at hx
    obtain ⟨rfl, rfl, rfl, rfl, rfl⟩ := hx
    have e1 := vals_col (h := h) (a := .lowerBounds) PModel.lower (fun _ => rfl) (slots h (getModels g))
    have e2 := vals_col (h := h) (a := .upperBounds) PModel.upper (fun _ => rfl) (slots h (getModels g))
    have e3 := vals_col (h := h) (a := .parameters) PModel.params (fun _ => rfl) (slots h (getModels g))
    have l1 := vals_length (hp .lowerBounds (by simp))
    have l2 := vals_length (hp .upperBounds (by simp))
    have l3 := vals_length (hp .parameters (by simp))
    refine ⟨rfl, rfl, ?_, ?_, ?_, rfl, rfl, rfl, ?_⟩
    · rw [e3] at l3 ⊢
      rw [numCol_map]
      rw [List.length_map] at l3
      exact l3
    · rw [e1] at l1 ⊢
      rw [numCol_map]
      rw [List.length_map] at l1
      exact l1
    · rw [e2] at l2 ⊢
      rw [numCol_map]
      rw [List.length_map] at l2
      exact l2
    · intro j s hj
      have v1 := vals_get (hp .lowerBounds (by simp)) hj
      have v2 := vals_get (hp .upperBounds (by simp)) hj
      rw [e1] at v1 ⊢
      rw [e2] at v2 ⊢
      rw [numCol_map, numCol_map]
      simp only [PModel.attr, List.getElem?_map] at v1 v2
      constructor
      · exact Option.map_injective (fun a b hab => by injection hab) v1
      · exact Option.map_injective (fun a b hab => by injection hab) v2

theorem extractToList_same {h1 : Heap} (hs : SameLocked g h h1) {ps lo up ps1 lo1 up1 : List ℚ} {models models1 : List ModelId}
    {index index1 : List Nat} (hx : extractToList g h = .ok (ps, models, index, lo, up))
    (hx1 : extractToList g h1 = .ok (ps1, models1, index1, lo1, up1)) :
    models1 = models ∧ index1 = index ∧ lo1 = lo ∧ up1 = up := by
  obtain ⟨a1, a2, _, _, _, a3, a4, _⟩ := extractToList_ok hx
  obtain ⟨b1, b2, _, _, _, b3, b4, _⟩ := extractToList_ok hx1
  have hl : pslots g h1 = pslots g h := hs.same.slots _
  have hv1 : vals h1 .lowerBounds (pslots g h) = vals h .lowerBounds (pslots g h) := by
    unfold vals; simp only [PModel.attr, hs.lower]
  have hv2 : vals h1 .upperBounds (pslots g h) = vals h .upperBounds (pslots g h) := by
    unfold vals; simp only [PModel.attr, hs.upper]
  rw [hl] at b1 b2 b3 b4
  rw [hv1] at b3
  rw [hv2] at b4
  exact ⟨b1.trans a1.symm, b2.trans a2.symm, b3.trans a3.symm, b4.trans a4.symm⟩

theorem sample_same {r : Nat → Rnd} {h1 : Heap} (hx : sampleParameters g .uniform r h = .ok h1) : SameLocked g h h1 := by
  unfold sampleParameters at hx
  split at hx
  · cases hx
  · next ex hex =>
    obtain ⟨_, rfl⟩ := extract_eq hex
    simp only [List.map_cons, List.map_nil] at hx
    split at hx
    · cases hx
    · exact distribute_same hx (SameLocked.refl g h)

/-- Everything about a run that does not depend on bounds. -/
theorem optimize_core (hs0 : SameLocked g h0 h) (hp : ParamsPresent g h) (hz : e.Sized (pslots g h).length) {x0 : Option (List ℚ)}
    (hx0 : ∀ x, x0 = some x → x.length = (pslots g h).length) {method : OptMethod} {h' : Heap} {x : List ℚ} {s : ℚ}
    (hr : parametersOptimize e g h0 eval x0 method h = .ok (h', x, s)) :
    x.length = (pslots g h).length ∧ distribute h x ((pslots g h).map (·.1)) ((pslots g h).map (·.2)) = .ok h' ∧
    ((method ≠ .pso ∨ pslots g h = [] ∨ ∀ k n lo up v, (∀ y h'', y.length = (pslots g h).length →
      distribute h y ((pslots g h).map (·.1)) ((pslots g h).map (·.2)) = .ok h'' → v y = eval h'') → (e.pso k n lo up).Honest (pslots g h).length v) →
      s = eval h') := by
  unfold parametersOptimize at hr
  split at hr
  · cases hr
  · next ps models index lo up hex =>
    obtain ⟨rfl, rfl, hps, hlo, hup, _⟩ := extractToList_ok hex
    dsimp only at hr
    have hx0' : (x0.getD ps).length = (pslots g h).length := by
      cases x0 with
      | none => exact hps
      | some y => exact hx0 y rfl
    have R := SameLocked.refl g h
    have direct : ∀ {h' x s}, (match callF g h0 eval h (x0.getD ps) with
        | .error err => (.error err : Except Err (Heap × List ℚ × ℚ))
        | .ok (h', v) => .ok (h', x0.getD ps, v)) = .ok (h', x, s) → x.length = (pslots g h).length ∧
          distribute h x ((pslots g h).map (·.1)) ((pslots g h).map (·.2)) = .ok h' ∧ s = eval h' := by
      intro h' x s hr
      obtain ⟨h1, a, _, c⟩ := callF_full (eval := eval) hs0 hp R hx0'
      rw [c] at hr
      simp only [Except.ok.injEq, Prod.mk.injEq] at hr
      obtain ⟨rfl, rfl, rfl⟩ := hr
      exact ⟨hx0', a, rfl⟩
    have gen : ∀ k, Fits (fun _ (_ : ℚ) => True) (pslots g h).length (e.gen k) := fun k => ⟨hz.gen k, fun _ _ _ => trivial⟩
    have start : Fits (fun _ (_ : ℚ) => True) (pslots g h).length (x0.getD ps) := ⟨hx0', fun _ _ _ => trivial⟩
    have fin : ∀ {h1 x1 h' x s}, SameLocked g h h1 → x1.length = (pslots g h).length →
        finishOpt g h0 eval h1 x1 ((pslots g h).map (·.1)) ((pslots g h).map (·.2)) = .ok (h', x, s) →
        x.length = (pslots g h).length ∧ distribute h x ((pslots g h).map (·.1)) ((pslots g h).map (·.2)) = .ok h' ∧ s = eval h' := by
      intro h1 x1 h' x s hs hl hf
      obtain ⟨rfl, b, c⟩ := finishOpt_ok hs0 hp hs hl hf
      exact ⟨hl, b, c⟩
    split at hr
    · obtain ⟨a, b, c⟩ := direct hr
      exact ⟨a, b, fun _ => c⟩
    · next hne =>
      rw [hx0'] at hne
      have three : (x.length = (pslots g h).length ∧ distribute h x ((pslots g h).map (·.1)) ((pslots g h).map (·.2)) = .ok h' ∧ s = eval h') →
          x.length = (pslots g h).length ∧ distribute h x ((pslots g h).map (·.1)) ((pslots g h).map (·.2)) = .ok h' ∧
          ((method ≠ .pso ∨ pslots g h = [] ∨ ∀ k n lo up v, (∀ y h'', y.length = (pslots g h).length →
            distribute h y ((pslots g h).map (·.1)) ((pslots g h).map (·.2)) = .ok h'' → v y = eval h'') →
              (e.pso k n lo up).Honest (pslots g h).length v) → s = eval h') := fun ⟨a, b, c⟩ => ⟨a, b, fun _ => c⟩
      split at hr
      · split at hr
        · cases hr
        · next h1 x1 f1 hs1 =>
          obtain ⟨a, b⟩ := runStrat_same hs0 _ R (hz.lbfgs _ _ _ _) hs1
          exact three (fin a b hr)
      · exact three (direct hr)
      · split at hr
        · cases hr
        · next h1 x1 f1 hs1 =>
          obtain ⟨a, b⟩ := runStrat_same hs0 _ R (hz.pso _ _ _ _) hs1
          split at hr
          · cases hr
          · next h2 x2 f2 hs2 =>
            obtain ⟨c, d⟩ := runStrat_same hs0 _ a (hz.lbfgs _ _ _ _) hs2
            exact three (fin c d hr)
      · split at hr
        · cases hr
        · next h1 x1 f1 hs1 =>
          obtain ⟨a, b, _⟩ := runGa_ok hs0 hp R hs1
          split at hr
          · cases hr
          · next h2 x2 f2 hs2 =>
            obtain ⟨c, d⟩ := runStrat_same hs0 _ a (hz.lbfgs _ _ _ _) hs2
            exact three (fin c d hr)
      · split at hr
        · cases hr
        · next h1 hs1 =>
          have S1 := sample_same hs1
          split at hr
          · cases hr
          · next ps1 m1 i1 lo1 up1 hex1 =>
            obtain ⟨rfl, rfl, rfl, rfl⟩ := extractToList_same S1 hex hex1
            split at hr
            · cases hr
            · next h2 x2 f2 hs2 =>
              obtain ⟨c, d⟩ := runStrat_same hs0 _ S1 (hz.lbfgs _ _ _ _) hs2
              exact three (fin c d hr)
      · split at hr
        · cases hr
        · next h1 x1 f1 hs1 =>
          obtain ⟨a, b⟩ := runStrat_same hs0 _ R (hz.pso _ _ _ _) hs1
          obtain ⟨h2, d1, d2⟩ := distribute_forget a hp b
          have d2' : distribute h1 x1 ((pslots g h).map (·.1)) ((pslots g h).map (·.2)) = .ok h2 := d2
          rw [d2'] at hr
          simp only [Except.ok.injEq, Prod.mk.injEq] at hr
          obtain ⟨rfl, rfl, rfl⟩ := hr
          refine ⟨b, d1, fun ho => ?_⟩
          rcases ho with ho | ho | ho
          · exact absurd rfl ho
          · rw [ho] at hne
            exact absurd rfl hne
          · have hv : ∀ (y : List ℚ) (h'' : Heap), y.length = (pslots g h).length →
                distribute h y ((pslots g h).map (·.1)) ((pslots g h).map (·.2)) = .ok h'' →
                (fun y => match distribute h y ((pslots g h).map (·.1)) ((pslots g h).map (·.2)) with | .ok h'' => eval h'' | .error _ => 0) y = eval h'' := by
              intro y h'' _ hy
              simp only [hy]
            have := runStrat_honest hs0 hp hv _ R (ho 40 40 lo up _ hv) hs1
            rw [this]
            exact hv _ _ b d1
      · split at hr
        · cases hr
        · next h1 x1 f1 hs1 =>
          obtain ⟨a, b⟩ := runStrat_same hs0 _ R (hz.cma _ _ _) hs1
          exact three (fin a b hr)
      · split at hr
        · cases hr
        · next h1 x1 hs1 =>
          obtain ⟨a, b, _⟩ := runAdam_ok hs0 R hs1
          exact three (fin a (b.trans hx0') hr)
      · split at hr
        · cases hr
        · next h1 x1 f1 hs1 =>
          obtain ⟨a, b, _⟩ := runGa_ok hs0 hp R hs1
          split at hr
          · cases hr
          · next h2 x2 hs2 =>
            obtain ⟨c, d, _⟩ := runAdam_ok hs0 a hs2
            exact three (fin c (d.trans (b _ _ start gen).1) hr)
      · split at hr
        · cases hr
        · next h1 x1 s1 hs1 =>
          obtain ⟨a, b, c⟩ := runGa_ok hs0 hp R hs1
          have hl := (b _ _ start gen).1
          obtain ⟨h2, d1, d2⟩ := distribute_forget a hp hl
          have d2' : distribute h1 x1 ((pslots g h).map (·.1)) ((pslots g h).map (·.2)) = .ok h2 := d2
          rw [d2'] at hr
          simp only [Except.ok.injEq, Prod.mk.injEq] at hr
          obtain ⟨rfl, rfl, rfl⟩ := hr
          exact ⟨hl, d1, fun _ => c hl _ d1⟩
      · cases hr

/-- The bounds. -/
theorem optimize_bounds (hs0 : SameLocked g h0 h) (hp : ParamsPresent g h) {x0 : Option (List ℚ)}
    {ps lo up : List ℚ} {models : List ModelId} {index : List Nat} (hex : extractToList g h = .ok (ps, models, index, lo, up))
    (hle : ∀ (i : Nat) (l u : ℚ), lo[i]? = some l → up[i]? = some u → l ≤ u) (hb : e.Bounded lo up) (hx : Respects lo up (x0.getD ps))
    {method : OptMethod} {h' : Heap} {x : List ℚ} {s : ℚ} (hr : parametersOptimize e g h0 eval x0 method h = .ok (h', x, s)) :
    Respects lo up x := by
  unfold parametersOptimize at hr
  rw [hex] at hr
  dsimp only at hr
  obtain ⟨rfl, rfl, hps, hlo, hup, _⟩ := extractToList_ok hex
  have R := SameLocked.refl g h
  have direct : ∀ {h' x s}, (match callF g h0 eval h (x0.getD ps) with
      | .error err => (.error err : Except Err (Heap × List ℚ × ℚ))
      | .ok (h', v) => .ok (h', x0.getD ps, v)) = .ok (h', x, s) → Respects lo up x := by
    intro h' x s hr
    split at hr
    · cases hr
    · simp only [Except.ok.injEq, Prod.mk.injEq] at hr
      rw [← hr.2.1]
      exact hx
  have fin : ∀ {h1 x1 ms is h' x s}, Respects lo up x1 → finishOpt g h0 eval h1 x1 ms is = .ok (h', x, s) → Respects lo up x := by
    intro h1 x1 ms is h' x s hl hf
    unfold finishOpt at hf
    split at hf
    · cases hf
    · split at hf
      · cases hf
      · simp only [Except.ok.injEq, Prod.mk.injEq] at hf
        rw [← hf.2.1]
        exact hl
  have last : ∀ {h1 x1 ms is} {s1 : ℚ} {h' x} {s : ℚ}, Respects lo up x1 → (match distribute h1 x1 ms is with
      | .error err => (.error err : Except Err (Heap × List ℚ × ℚ))
      | .ok h2 => .ok (h2, x1, s1)) = .ok (h', x, s) → Respects lo up x := by
    intro h1 x1 ms is s1 h' x s hl hf
    split at hf
    · cases hf
    · simp only [Except.ok.injEq, Prod.mk.injEq] at hf
      rw [← hf.2.1]
      exact hl
  split at hr
  · exact direct hr
  · split at hr
    · split at hr
      · cases hr
      · next hs1 => exact fin (runStrat_same hs0 _ R (hb.lbfgs _ _) hs1).2 hr
    · exact direct hr
    · split at hr
      · cases hr
      · next hs1 =>
        obtain ⟨a, b⟩ := runStrat_same hs0 _ R (hb.pso _ _) hs1
        split at hr
        · cases hr
        · next hs2 => exact fin (runStrat_same hs0 _ a (hb.lbfgs _ _) hs2).2 hr
    · split at hr
      · cases hr
      · next hs1 =>
        obtain ⟨a, b, _⟩ := runGa_ok hs0 hp R hs1
        split at hr
        · cases hr
        · next hs2 => exact fin (runStrat_same hs0 _ a (hb.lbfgs _ _) hs2).2 hr
    · split at hr
      · cases hr
      · next h1 hs1 =>
        have S1 := sample_same hs1
        split at hr
        · cases hr
        · next hex1 =>
          obtain ⟨rfl, rfl, rfl, rfl⟩ := extractToList_same S1 hex hex1
          split at hr
          · cases hr
          · next hs2 => exact fin (runStrat_same hs0 _ S1 (hb.lbfgs _ _) hs2).2 hr
    · split at hr
      · cases hr
      · next hs1 => exact last (runStrat_same hs0 _ R (hb.pso _ _) hs1).2 hr
    · split at hr
      · cases hr
      · next hs1 => exact fin (runStrat_same hs0 _ R (hb.cma _) hs1).2 hr
    · split at hr
      · cases hr
      · next hs1 => exact fin ((runAdam_ok hs0 R hs1).2.2 (by norm_num) hle) hr
    · split at hr
      · cases hr
      · next hs1 =>
        obtain ⟨a, b, _⟩ := runGa_ok hs0 hp R hs1
        split at hr
        · cases hr
        · next hs2 => exact fin ((runAdam_ok hs0 a hs2).2.2 (by norm_num) hle) hr
    · split at hr
      · cases hr
      · next hs1 =>
        obtain ⟨a, b, _⟩ := runGa_ok hs0 hp R hs1
        exact last (b _ _ hx hb.gen) hr
    · cases hr

/-- **C52.** Whatever the method and the optimisers do: afterwards the graph carries exactly the vector returned (every component that
is not shared, in the order of extraction), its locked parameters and all else are as before, and the score returned is the value of
the graph in that state (for PSO, provided the swarm reports the value of its vector). -/
theorem C52_result (hs0 : SameLocked g h0 h) (hp : ParamsPresent g h) (hn : (getModels g).Nodup) {ex : Extracted} (hex : extract [] g h = .ok ex)
    (hz : e.Sized ex.models.length) {x0 : Option (List ℚ)} (hx0 : ∀ x, x0 = some x → x.length = ex.models.length) {method : OptMethod}
    {h' : Heap} {x : List ℚ} {s : ℚ} (hr : parametersOptimize e g h0 eval x0 method h = .ok (h', x, s)) :
    SameLocked g h h' ∧ (∃ ex', extract [.parameters] g h' = .ok ex' ∧ ex'.cols = [x.map .num]) ∧
    (method ≠ .pso → s = eval h') ∧
    ((∀ k n lo up v, (∀ y h'', y.length = ex.models.length → distribute h y ex.models ex.index = .ok h'' → v y = eval h'') →
      (e.pso k n lo up).Honest ex.models.length v) → s = eval h') := by
  obtain ⟨_, rfl⟩ := extract_eq hex
  have hlen : ((slots h (getModels g)).map (·.1)).length = (pslots g h).length := List.length_map _
  dsimp only at hz hx0 ⊢
  rw [hlen] at hz hx0 ⊢
  obtain ⟨a, b, c⟩ := optimize_core hs0 hp hz hx0 hr
  refine ⟨distribute_same b (SameLocked.refl g h), ?_, fun hm => c (.inl hm), fun hho => c (.inr (.inr hho))⟩
  have hpp : AttrsPresent [.parameters] g h := by
    intro at' hat s hs
    rw [List.mem_singleton.1 hat, attr_params_length]
    exact params_slots hp s hs
  obtain ⟨h'', d1, d2⟩ := C23_extract_distributed hn (extract_ok hpp) (xs := x) (by rw [a]; exact hlen.symm)
  have : h'' = h' := by
    have d1' : distribute h x ((pslots g h).map (·.1)) ((pslots g h).map (·.2)) = .ok h'' := d1
    rw [b] at d1'
    injection d1' with d1'
    exact d1'.symm
  rw [this] at d2
  exact ⟨_, d2, rfl⟩

/-- **C52.** If the outside optimisers and the random samples respect the bounds they are given, and so does the start, then the graph
ends with every unlocked parameter within its own bounds. -/
theorem C52_bounds (hs0 : SameLocked g h0 h) (hp : ParamsPresent g h) {x0 : Option (List ℚ)} {ps lo up : List ℚ} {models : List ModelId}
    {index : List Nat} (hex : extractToList g h = .ok (ps, models, index, lo, up))
    (hle : ∀ m ∈ getModels g, ∀ i : Nat, Unlocked h m i → ∀ l u : ℚ, (h m).lower[i]? = some l → (h m).upper[i]? = some u → l ≤ u)
    (hz : e.Sized models.length) (hb : e.Bounded lo up) (hx : Respects lo up (x0.getD ps)) {method : OptMethod} {h' : Heap} {x : List ℚ} {s : ℚ}
    (hr : parametersOptimize e g h0 eval x0 method h = .ok (h', x, s)) : Respects lo up x ∧ WithinOwnBounds g h' := by
  obtain ⟨rfl, rfl, e1, e2, e3, _, _, _, e4⟩ := extractToList_ok hex
  rw [List.length_map] at hz
  have hle' : ∀ (i : Nat) (l u : ℚ), lo[i]? = some l → up[i]? = some u → l ≤ u := by
    intro i l u hl hu
    have hi : i < (pslots g h).length := by
      rw [← e2]
      exact (List.getElem?_eq_some_iff.1 hl).1
    have hsl := List.getElem?_eq_getElem hi
    obtain ⟨f1, f2⟩ := e4 i _ hsl
    rw [hl] at f1
    rw [hu] at f2
    exact hle _ (mem_slots.1 (List.getElem_mem hi)).1 _ (mem_slots.1 (List.getElem_mem hi)).2 l u f1.symm f2.symm
  have hxl : ∀ y, x0 = some y → y.length = (pslots g h).length := by
    intro y hy
    rw [hy] at hx
    exact hx.1.trans e2
  have hres := optimize_bounds hs0 hp hex hle' hb hx hr
  obtain ⟨a, b, _⟩ := optimize_core hs0 hp hz hxl hr
  refine ⟨hres, ?_⟩
  have hsame := distribute_same b (SameLocked.refl g h)
  intro m hm i hu l u hl hu'
  obtain ⟨j, hj, y, hy, hy'⟩ := (distribute_ok b).2.2 a (m, i) (mem_slots.2 ⟨hm, hsame.unlocked.1 hu⟩)
  rw [hsame.lower] at hl
  rw [hsame.upper] at hu'
  obtain ⟨f1, f2⟩ := e4 j _ hj
  exact ⟨y, hy', hres.2 j y hy l u (f1.trans hl) (f2.trans hu')⟩

/-- **C52.** An unknown method raises `ModuleNotFoundError`, but only if there is something to optimise: a graph without unlocked
parameters is evaluated and returned for any method. -/
theorem C52_unknown (hs0 : SameLocked g h0 h) (hp : ParamsPresent g h) {ps lo up : List ℚ} {models : List ModelId} {index : List Nat}
    (hex : extractToList g h = .ok (ps, models, index, lo, up)) :
    (models ≠ [] → parametersOptimize e g h0 eval none .unknown h = .error .moduleNotFound) ∧
    (models = [] → ∀ method, parametersOptimize e g h0 eval none method h = .ok (h, [], eval h)) := by
  obtain ⟨rfl, rfl, e1, _⟩ := extractToList_ok hex
  constructor
  · intro hne
    unfold parametersOptimize
    simp only [hex, Option.getD_none]
    rw [if_neg]
    rw [e1]
    intro hc
    exact hne (by rw [List.eq_nil_of_length_eq_zero hc]; rfl)
  · intro hnil method
    have hl : pslots g h = [] := List.map_eq_nil_iff.1 hnil
    have hps : ps = [] := List.eq_nil_of_length_eq_zero (by rw [e1, hl]; rfl)
    obtain ⟨h', a, _, c⟩ := callF_full (eval := eval) hs0 hp (SameLocked.refl g h) (x := []) (by rw [hl]; rfl)
    have : h' = h := by
      rw [hl] at a
      simp only [distribute, Except.ok.injEq] at a
      exact a.symm
    rw [this] at c
    unfold parametersOptimize
    simp only [hex, Option.getD_none, hps, List.length_nil, if_true, c]

/-! ### An example -/

/-- Only the fibre (5) of `Fixture.line` has parameters, the second of three locked. -/
def heapOpt : Heap := fun m =>
  if m = 5 then ⟨[1, 2, 3], [0, 0, 0], [4, 4, 4], [.float, .float, .float], [none, none, none], [false, true, false], false⟩
  else ⟨[], [], [], [], [], [], false⟩

def evalOpt (h : Heap) : ℚ := ((h 5).params.map (fun p => (p - 2) ^ 2)).sum

/-- Optimisers that look at the start and at one further point and return the better. -/
def envOpt : OptEnv where
  grad := fun _ x => x.map (fun p => 2 * (p - 2))
  lbfgs := fun _ x lo up => if x.length = 2 then
      .askGrad x (fun _ => .ask x (fun v => .ask [2, 3] (fun w => if w < v then .done [2, 3] w else .done x v)))
    else .done (if lo.length = 2 ∧ up.length = 2 then lo else [0, 0]) 0
  pso := fun _ _ _ _ => .ask [1, 2] (fun v => .done [1, 2] v)
  cma := fun _ _ _ => .done [3, 3] 0
  gen := fun k => [(k % 5 : Nat), (k % 3 : Nat)]
  raw := fun k => 7 * k + 3
  subset := fun k n => [k % n]
  rnd := fun _ => ⟨1 / 2, 0⟩
  sqrt := fun y => y
  swarmSize := 4
  iterSwarm := 2
  popSize := 4
  nGen := 2
  maxIter := 5

example : (parametersOptimize envOpt Fixture.line heapOpt evalOpt none .lbfgs heapOpt).map (fun r => ((r.1 5).params, r.2)) =
    .ok ([2, 2, 3], [2, 3], 1) := by decide +kernel
example : (parametersOptimize envOpt Fixture.line heapOpt evalOpt none .pso heapOpt).map (fun r => ((r.1 5).params, r.2)) =
    .ok ([1, 2, 2], [1, 2], 1) := by decide +kernel
example : (parametersOptimize envOpt Fixture.line heapOpt evalOpt (some [4, 4]) .null heapOpt).map (fun r => ((r.1 5).params, r.2)) =
    .ok ([4, 2, 4], [4, 4], 8) := by decide +kernel
example : (parametersOptimize envOpt Fixture.line heapOpt evalOpt none .lbfgsGa heapOpt).map (fun r => ((r.1 5).params, r.2)) =
    .ok ([1, 2, 2], [1, 2], 1) := by decide +kernel
example : (parametersOptimize envOpt Fixture.line heapOpt evalOpt none .cheap heapOpt).map (fun r => ((r.1 5).params, r.2)) =
    .ok ([2, 2, 2], [2, 2], 0) := by decide +kernel
example : ParamsPresent Fixture.line heapOpt ∧ (getModels Fixture.line).Nodup := by
  constructor
  · unfold ParamsPresent heapOpt; decide
  · decide

/-- The premises of `C52_result` about the outside optimisers are met. -/
example : envOpt.Sized 2 where
  lbfgs := by
    intro k x lo up
    unfold envOpt
    dsimp only
    split
    · next hx =>
      intro _ v w
      dsimp only
      split
      · rfl
      · exact hx
    · simp only [Strat.Ends]
      split
      · next hx => exact hx.1
      · rfl
  pso := fun _ _ _ _ _ => rfl
  cma := fun _ _ _ => rfl
  gen := fun _ => rfl

end Verif
