import Verif.Spec.PropObject
import Mathlib.Tactic.FieldSimp
import Mathlib.Tactic.Ring
import Mathlib.Tactic.Linarith
import Mathlib.Tactic.NormNum
/-!
# C112: a propagator after any series of assignments
-/

namespace Verif

theorem npLinspace_length (lo hi : ℝ) (n : Nat) : (npLinspace lo hi n).1.length = n := by
  unfold npLinspace; split <;> simp

theorem npLinspace_step (lo hi : ℝ) (n : Nat) : (npLinspace lo hi n).2 = if 2 ≤ n then some ((hi - lo) / ((n : ℝ) - 1)) else none := by
  unfold npLinspace
  by_cases h : n ≤ 1
  · rw [if_pos h, if_neg (by omega)]
  · rw [if_neg h, if_pos (by omega)]

theorem npLinspace_get (lo hi : ℝ) (n : Nat) (j : Nat) (hj : j < n) :
    (npLinspace lo hi n).1[j]? = some (lo + j * ((hi - lo) / ((n : ℝ) - 1))) := by
  unfold npLinspace
  by_cases h : n ≤ 1
  · obtain rfl : j = 0 := by omega
    rw [if_pos h]
    simp [List.getElem?_range hj]
  rw [if_neg h]
  simp only [List.getElem?_map, List.getElem?_range hj, Option.map_some, Option.some.injEq]
  split
  · rename_i e
    have h1 : ((n : ℝ) - 1) ≠ 0 := by
      have : (2 : ℝ) ≤ n := by exact_mod_cast (by omega : 2 ≤ n)
      intro h0; linarith
    have h2 : (j : ℝ) = (n : ℝ) - 1 := by
      rw [e, Nat.cast_sub (by omega)]; norm_num
    rw [h2]; field_simp; ring
  · rfl

theorem makeAxes_int (z : ℤ) (hz : 0 ≤ z) (w : ℝ) (hw : w ≠ 0) : ∃ a, makeAxes (.int z) w = .ok a ∧ AxesOf z.toNat w a := by
  have hc : SetArg.count (.int z) = .ok z.toNat := by unfold SetArg.count; dsimp only; rw [if_neg (by omega)]
  refine ⟨_, by unfold makeAxes; rw [hc]; dsimp only; rw [if_neg hw], ?_⟩
  refine ⟨npLinspace_length _ _ _, npLinspace_length _ _ _, fun j hj => ?_, fun j hj => ?_, ?_, ?_⟩
  · rw [npLinspace_get _ _ _ j hj]; congr 2; ring
  · rw [npLinspace_get _ _ _ j hj]; congr 2 <;> ring
  · show (npLinspace _ _ _).2 = _
    rw [npLinspace_step]; congr 2; ring
  · show (npLinspace _ _ _).2 = _
    rw [npLinspace_step]; congr 2; ring

theorem makeAxes_bad (v : SetArg) (w : ℝ) :
    (∃ z, 0 ≤ z ∧ v = .int z) ∨ (∃ e, makeAxes v w = .error e ∧ answerTo (.samples v) = some e) := by
  cases v with
  | int z =>
    by_cases h : 0 ≤ z
    · exact .inl ⟨z, h, rfl⟩
    · refine .inr ⟨.valueError, ?_, by simp [answerTo, h]⟩
      unfold makeAxes SetArg.count; dsimp only; rw [if_pos (by omega)]
  | _ => exact .inr ⟨_, rfl, rfl⟩

/-- One assignment to an object whose window is not zero. -/
theorem propAssign_cases (p : PropObj) (hw : p.window ≠ 0) (s : PropSet) :
    (p.assign s).2 = answerTo s ∧ (p.assign s).1.window = p.window ∧ (p.assign s).1.centralWl = p.centralWl ∧
    (p.assign s).1.centralFrequency = p.centralFrequency ∧ (p.assign s).1.wl = p.wl ∧
    (p.assign s).1.nSamples = lastAssigned p.nSamples [s] ∧ (p.assign s).1.state = lastState p.state [s] ∧
    (∀ n, AxesOf n p.window p.axes → AxesOf (lastAccepted n [s]) p.window (p.assign s).1.axes) := by
  cases s with
  | samples v =>
    rcases makeAxes_bad v p.window with ⟨z, hz, rfl⟩ | ⟨e, h, h'⟩
    · obtain ⟨a, ha, hA⟩ := makeAxes_int z hz p.window hw
      have he : p.assign (.samples (.int z)) = ({ p with nSamples := .int z, axes := a }, none) := by
        unfold PropObj.assign; dsimp only; rw [ha]
      rw [he]
      refine ⟨by simp [answerTo, hz], rfl, rfl, rfl, rfl, rfl, rfl, fun n _ => ?_⟩
      simp only [lastAccepted, if_pos hz]
      exact hA
    · have he : p.assign (.samples v) = ({ p with nSamples := v }, some e) := by
        unfold PropObj.assign; dsimp only; rw [h]
      rw [he, h']
      refine ⟨rfl, rfl, rfl, rfl, rfl, rfl, rfl, fun n hn => ?_⟩
      cases v with
      | int z =>
        have hz : ¬ 0 ≤ z := by
          intro hz
          rw [answerTo, if_pos hz] at h'
          cases h'
        simp only [lastAccepted, if_neg hz]; exact hn
      | _ => exact hn
  | window v =>
    have he : p.assign (.window v) = (p, some .valueError) := by
      unfold PropObj.assign; dsimp only; rw [if_pos (by simp)]
    rw [he]
    exact ⟨rfl, rfl, rfl, rfl, rfl, rfl, rfl, fun n hn => hn⟩
  | state v =>
    cases v with
    | _ => exact ⟨rfl, rfl, rfl, rfl, rfl, rfl, rfl, fun n hn => hn⟩
  | fixed a v => exact ⟨rfl, rfl, rfl, rfl, rfl, rfl, rfl, fun n hn => hn⟩

theorem lastAccepted_cons (n : Nat) (s : PropSet) (ss : List PropSet) : lastAccepted n (s :: ss) = lastAccepted (lastAccepted n [s]) ss := by
  rcases s with v | v | v | v <;> first | rfl | (cases v <;> rfl)

theorem lastAssigned_cons (n : SetArg) (s : PropSet) (ss : List PropSet) : lastAssigned n (s :: ss) = lastAssigned (lastAssigned n [s]) ss := by
  cases s <;> rfl

theorem lastState_cons (n : NdArr) (s : PropSet) (ss : List PropSet) : lastState n (s :: ss) = lastState (lastState n [s]) ss := by
  rcases s with v | v | v | v <;> first | rfl | (cases v <;> rfl)

theorem assignAll_cases (ss : List PropSet) : ∀ p : PropObj, p.window ≠ 0 →
    (p.assignAll ss).2 = ss.map answerTo ∧ (p.assignAll ss).1.window = p.window ∧ (p.assignAll ss).1.centralWl = p.centralWl ∧
    (p.assignAll ss).1.centralFrequency = p.centralFrequency ∧ (p.assignAll ss).1.wl = p.wl ∧
    (p.assignAll ss).1.nSamples = lastAssigned p.nSamples ss ∧ (p.assignAll ss).1.state = lastState p.state ss ∧
    (∀ n, AxesOf n p.window p.axes → AxesOf (lastAccepted n ss) p.window (p.assignAll ss).1.axes) := by
  induction ss with
  | nil => intro p _; exact ⟨rfl, rfl, rfl, rfl, rfl, rfl, rfl, fun n h => h⟩
  | cons s ss ih =>
    intro p hw
    obtain ⟨a1, a2, a3, a4, a5, a6, a7, a8⟩ := propAssign_cases p hw s
    obtain ⟨b1, b2, b3, b4, b5, b6, b7, b8⟩ := ih (p.assign s).1 (by rw [a2]; exact hw)
    have e1 : (p.assignAll (s :: ss)).1 = ((p.assign s).1.assignAll ss).1 := rfl
    have e2 : (p.assignAll (s :: ss)).2 = (p.assign s).2 :: ((p.assign s).1.assignAll ss).2 := rfl
    refine ⟨by rw [e2, a1, b1]; rfl, by rw [e1, b2, a2], by rw [e1, b3, a3], by rw [e1, b4, a4], by rw [e1, b5, a5],
      by rw [e1, b6, a6, ← lastAssigned_cons], by rw [e1, b7, a7, ← lastState_cons], fun n hn => ?_⟩
    rw [e1, lastAccepted_cons, ← a2]
    refine b8 _ ?_
    rw [a2]
    exact a8 n hn

/-- **C112 (which propagators there are).**  A propagator can be made just of a number of samples that is not negative, a window and a wavelength that are
numbers other than zero.  Its axes are those of the number of samples and the window, the wavelengths belong to the frequencies around the carrier, and
the state is a column of zeros. -/
theorem C112_made (n window wl : SetArg) :
    (∀ p, newPropagator n window wl = .ok p → ∃ (k : Nat) (w l : ℝ), GoodCount n k ∧ window.number = .ok w ∧ wl.number = .ok l ∧ w ≠ 0 ∧ l ≠ 0 ∧
      p.nSamples = n ∧ p.window = w ∧ p.centralWl = l ∧ p.centralFrequency = 299792458 / l ∧ AxesOf k w p.axes ∧
      p.state = ⟨[k, 1], List.replicate k 0⟩ ∧ p.wl.length = k ∧
      (∀ (j : Nat) (x : ℝ), p.axes.f[j]? = some x → 299792458 / l + x ≠ 0 → p.wl[j]? = some (some (299792458 / (299792458 / l + x))))) ∧
    (∀ (k : Nat) (w l : ℝ), GoodCount n k → window.number = .ok w → wl.number = .ok l → w ≠ 0 → l ≠ 0 → ∃ p, newPropagator n window wl = .ok p) := by
  constructor
  · intro p hp
    unfold newPropagator at hp
    cases hl : wl.number with
    | error e => rw [hl] at hp; cases hp
    | ok l =>
      rw [hl] at hp; dsimp only at hp
      by_cases h0 : l = 0
      · rw [if_pos h0] at hp; cases hp
      rw [if_neg h0] at hp
      cases hw : window.number with
      | error e => rw [hw] at hp; cases hp
      | ok w =>
        rw [hw] at hp; dsimp only at hp
        by_cases hw0 : w = 0
        · have : ∃ e, makeAxes n w = .error e := by
            unfold makeAxes
            cases n.count with
            | error e => exact ⟨e, rfl⟩
            | ok k => exact ⟨_, by dsimp only; rw [if_pos hw0]⟩
          obtain ⟨e, he⟩ := this
          rw [he] at hp; cases hp
        rcases makeAxes_bad n w with ⟨z, hz, rfl⟩ | ⟨e, hb, _⟩
        · obtain ⟨a, ha, hA⟩ := makeAxes_int z hz w hw0
          rw [ha] at hp
          simp only [Except.ok.injEq] at hp
          subst hp
          refine ⟨z.toNat, w, l, ?_, rfl, rfl, hw0, h0, rfl, rfl, rfl, rfl, hA, ?_, ?_, ?_⟩
          · unfold GoodCount; rw [Int.toNat_of_nonneg hz]
          · dsimp only; rw [hA.times]
          · dsimp only; rw [List.length_map, hA.freqs]
          · intro j x hx h
            dsimp only at hx ⊢
            rw [List.getElem?_map, hx, Option.map_some]
            unfold lightSpeed
            rw [if_neg h]
        · rw [hb] at hp; cases hp
  · intro k w l hk hw hl hw0 hl0
    unfold GoodCount at hk; subst hk
    obtain ⟨a, ha, _⟩ := makeAxes_int (k : ℤ) (by omega) w hw0
    refine ⟨_, by unfold newPropagator; rw [hl]; dsimp only; rw [if_neg hl0, hw]; dsimp only; rw [ha]⟩

example : ∃ p, newPropagator (.int 16384) (.float 1e-9) (.float 1.55e-6) = .ok p :=
  (C112_made _ _ _).2 16384 1e-9 1.55e-6 rfl rfl rfl (by norm_num) (by norm_num)

/-- **C112 (after any series of assignments).**  Whatever is assigned, in whatever order, and whichever of it fails: the window and the carrier stay those of the
constructor; times, frequencies and both steps belong together and to the number of samples that was accepted last; `n_samples` reads what was assigned
last, accepted or not; the wavelengths stay those of the constructor; the state is the array that was assigned last, or zeros in the first number of samples.
The answers are those of `answerTo`: no assignment to the window is accepted. -/
theorem C112_history (k : Nat) (window wl : SetArg) (p : PropObj) (hp : newPropagator (.int (k : ℤ)) window wl = .ok p) (ss : List PropSet) :
    let q := (p.assignAll ss).1
    q.window = p.window ∧ q.centralWl = p.centralWl ∧ q.centralFrequency = p.centralFrequency ∧
    AxesOf (lastAccepted k ss) p.window q.axes ∧ q.nSamples = lastAssigned (.int k) ss ∧ q.wl = p.wl ∧
    q.state = lastState ⟨[k, 1], List.replicate k 0⟩ ss ∧ (p.assignAll ss).2 = ss.map answerTo := by
  obtain ⟨k', w, l, hk, _, _, hw0, _, h1, h2, _, _, hA, hs, _, _⟩ := (C112_made _ _ _).1 p hp
  have hkk : k' = k := by unfold GoodCount at hk; injection hk with hk; omega
  subst hkk
  subst h2
  obtain ⟨a1, a2, a3, a4, a5, a6, a7, a8⟩ := assignAll_cases ss p hw0
  exact ⟨a2, a3, a4, a8 _ hA, by rw [a6, h1], a5, by rw [a7, hs], a1⟩

example (p : PropObj) (hp : newPropagator (.int 1024) (.float 1e-9) (.float 1.55e-6) = .ok p) :
    let q := (p.assignAll [.samples (.int 2048), .window (.float 2e-9), .samples (.float 512)]).1
    AxesOf 2048 p.window q.axes ∧ q.nSamples = .float 512 ∧ q.wl = p.wl :=
  let h := C112_history 1024 _ _ p hp [.samples (.int 2048), .window (.float 2e-9), .samples (.float 512)]
  ⟨h.2.2.2.1, h.2.2.2.2.1, h.2.2.2.2.2.1⟩

theorem lastAccepted_of_ok (ss : List PropSet) : ∀ n : Nat, (∀ v, PropSet.samples v ∈ ss → answerTo (.samples v) = none) →
    lastAssigned (.int n) ss = .int (lastAccepted n ss : ℤ) := by
  induction ss with
  | nil => intro n _; rfl
  | cons s ss ih =>
    intro n h
    have ht : ∀ v, PropSet.samples v ∈ ss → answerTo (.samples v) = none := fun v hv => h v (List.mem_cons_of_mem _ hv)
    cases s with
    | samples v =>
      have hv := h v List.mem_cons_self
      cases v with
      | int z =>
        have hz : 0 ≤ z := by
          by_contra hz
          rw [answerTo, if_neg hz] at hv; cases hv
        have := ih z.toNat ht
        rw [Int.toNat_of_nonneg hz] at this
        simp only [lastAssigned, lastAccepted, if_pos hz]
        exact this
      | _ => cases hv
    | _ => exact ih n ht

/-- **C112 (as long as no number of samples is refused).**  Then `n_samples` is the length of the times and of the frequencies, and the steps are those of
that number; once the number differs from the first one, the wavelengths have another length. -/
theorem C112_consistent (k : Nat) (window wl : SetArg) (p : PropObj) (hp : newPropagator (.int (k : ℤ)) window wl = .ok p) (ss : List PropSet)
    (hok : ∀ v, PropSet.samples v ∈ ss → answerTo (.samples v) = none) :
    let q := (p.assignAll ss).1
    q.nSamples = .int (q.axes.t.length : ℤ) ∧ q.axes.f.length = q.axes.t.length ∧ AxesOf q.axes.t.length p.window q.axes ∧
    q.wl.length = k ∧ (lastAccepted k ss ≠ k → q.wl.length ≠ q.axes.f.length) := by
  obtain ⟨_, _, _, hA, hn, hwl, _, _⟩ := C112_history k window wl p hp ss
  obtain ⟨k', w, l, hk, _, _, _, _, _, _, _, _, _, _, hl, _⟩ := (C112_made _ _ _).1 p hp
  have hkk : k' = k := by unfold GoodCount at hk; injection hk with hk; omega
  subst hkk
  refine ⟨by rw [hn, hA.times, lastAccepted_of_ok ss _ hok], by rw [hA.times, hA.freqs], by rw [hA.times]; exact hA, by rw [hwl, hl], fun h => ?_⟩
  rw [hwl, hl, hA.freqs]
  exact fun h' => h h'.symm

example : ∀ v, PropSet.samples v ∈ [PropSet.samples (.int 2048), .window (.float 2e-9)] → answerTo (.samples v) = none := by
  intro v hv
  simp only [List.mem_cons, PropSet.samples.injEq, List.not_mem_nil, or_false, reduceCtorEq] at hv
  subst hv; rfl

/-- **C112 (the propagator of the other theorems).**  `Prop_`, on which the theorems about components and evaluators rest, has the axes of the object after any
series of assignments, with the number of samples that was accepted last and the window and the wavelength of the constructor; the steps as well from two samples on. -/
theorem C112_same_axes (k : Nat) (window wl : SetArg) (p : PropObj) (hp : newPropagator (.int (k : ℤ)) window wl = .ok p) (ss : List PropSet) :
    let q := (p.assignAll ss).1
    let P : Prop_ (lastAccepted k ss) := ⟨p.window, p.centralWl⟩
    (∀ j : Fin (lastAccepted k ss), q.axes.t[j.val]? = some (P.t j) ∧ q.axes.f[j.val]? = some (P.f j)) ∧
    (2 ≤ lastAccepted k ss → q.axes.dt = some P.dt ∧ q.axes.df = some P.df) ∧ q.centralFrequency = P.central := by
  obtain ⟨_, _, hcf, hA, _, _, _, _⟩ := C112_history k window wl p hp ss
  obtain ⟨_, w, l, _, _, _, _, _, _, hw, hl, hc, _⟩ := (C112_made _ _ _).1 p hp
  intro q P
  refine ⟨fun j => ⟨?_, ?_⟩, fun h => ⟨?_, ?_⟩, ?_⟩
  · rw [hA.time j.val j.isLt]; show _ = some (Prop_.linspace _ _ _ _)
    unfold Prop_.linspace; congr 2; ring
  · rw [hA.freq j.val j.isLt]; show _ = some (Prop_.linspace _ _ _ _)
    unfold Prop_.linspace; congr 2 <;> ring
  · rw [hA.dt, if_pos h]; show _ = some (Prop_.linstep _ _ _)
    unfold Prop_.linstep; congr 1; ring
  · rw [hA.df, if_pos h]; show _ = some (Prop_.linstep _ _ _)
    unfold Prop_.linstep; congr 1; ring
  · show (p.assignAll ss).1.centralFrequency = lightSpeed / p.centralWl
    rw [hcf, hc, hl]; rfl

example : lastAccepted 1024 [.samples (.int 2048), .samples .other] = 2048 := rfl

/-- **C112 (a number of samples that is refused).**  It raises, but stays in `n_samples`, while the axes are those from before: the number of samples read from the
propagator and the lengths of its axes are different. -/
theorem C112_refused (k : Nat) (window wl : SetArg) (p : PropObj) (hp : newPropagator (.int (k : ℤ)) window wl = .ok p) (v : SetArg)
    (hv : answerTo (.samples v) ≠ none) :
    (p.assign (.samples v)).2 = answerTo (.samples v) ∧ (p.assign (.samples v)).1.nSamples = v ∧ (p.assign (.samples v)).1.axes = p.axes ∧
    v ≠ .int ((p.assign (.samples v)).1.axes.t.length : ℤ) := by
  obtain ⟨k', w, l, _, _, _, hw0, _, _, h2, _⟩ := (C112_made _ _ _).1 p hp
  obtain ⟨a1, _, _, _, _, a6, _, _⟩ := propAssign_cases p (by rw [h2]; exact hw0) (.samples v)
  refine ⟨a1, a6, ?_, ?_⟩
  · rcases makeAxes_bad v p.window with ⟨z, hz, rfl⟩ | ⟨e, h, _⟩
    · rw [answerTo, if_pos hz] at hv; exact absurd rfl hv
    · unfold PropObj.assign; dsimp only; rw [h]
  · intro h
    rw [h, answerTo, if_pos (by omega)] at hv
    exact hv rfl

example : answerTo (.samples (.float 2048)) ≠ none ∧ answerTo (.samples (.int (-1))) ≠ none ∧ answerTo (.samples .other) ≠ none := by
  refine ⟨?_, ?_, ?_⟩ <;> simp [answerTo]

theorem broadcast_column (a b : Nat) : (broadcastRev [1, a] [1, b]).map List.reverse =
    if a = b ∨ b = 1 then .ok [a, 1] else if a = 1 then .ok [b, 1] else .error .valueError := by
  unfold broadcastRev
  rw [if_pos (.inl rfl)]
  unfold broadcastRev
  by_cases h : a = b ∨ b = 1
  · simp only [if_pos h]; rfl
  · simp only [if_neg h]
    by_cases h1 : a = 1
    · simp only [if_pos h1]; rfl
    · simp only [if_neg h1]; rfl

/-- **C112 (what the sources send after the number of samples has changed).**  The pulsed laser and the noisy signal follow the new number of samples `m`.  The continuous-wave
laser and the impulse keep sending the number `k` of the constructor as long as no state is assigned; then a modulator behind them raises `ValueError`, unless
one of the numbers is 1.  A column of `m` entries assigned as state puts it right. -/
theorem C112_sources (k : Nat) (hk : 0 < k) (window wl : SetArg) (p : PropObj) (hp : newPropagator (.int (k : ℤ)) window wl = .ok p) (ss : List PropSet) :
    let q := (p.assignAll ss).1
    let m := lastAccepted k ss
    sentShape q .pulsed = .ok [m, 1] ∧ sentShape q .noisy = .ok [m, 1] ∧
    ((∀ a, PropSet.state (.array a) ∉ ss) → sourceShape q .cw = .ok [k, 1] ∧ sourceShape q .impulse = .ok [k, 1] ∧
      (k = m → sentShape q .cw = .ok [m, 1] ∧ sentShape q .impulse = .ok [m, 1]) ∧
      (k ≠ m → k ≠ 1 → m ≠ 1 → sentShape q .cw = .error .valueError ∧ sentShape q .impulse = .error .valueError)) ∧
    (∀ data, 0 < m → sentShape ((p.assignAll (ss ++ [.state (.array ⟨[m, 1], data⟩)])).1) .cw = .ok [m, 1] ∧
      sentShape ((p.assignAll (ss ++ [.state (.array ⟨[m, 1], data⟩)])).1) .impulse = .ok [m, 1]) := by
  intro q m
  obtain ⟨_, _, _, hA, _, _, hs, _⟩ := C112_history k window wl p hp ss
  have ht : q.axes.t.length = m := hA.times
  have hmod : ∀ a, modulatedShape q [a, 1] = if a = m ∨ m = 1 then .ok [a, 1] else if a = 1 then .ok [m, 1] else .error .valueError := by
    intro a
    unfold modulatedShape
    rw [ht]
    exact broadcast_column a m
  have hself : modulatedShape q [m, 1] = .ok [m, 1] := by rw [hmod, if_pos (.inl rfl)]
  refine ⟨?_, ?_, ?_, ?_⟩
  · show modulatedShape q [q.axes.t.length, 1] = _; rw [ht, hself]
  · show modulatedShape q [q.axes.t.length, 1] = _; rw [ht, hself]
  · intro hno
    have hst : ∀ (ss : List PropSet) (a : NdArr), (∀ a, PropSet.state (.array a) ∉ ss) → lastState a ss = a := by
      intro ss
      induction ss with
      | nil => intro a _; rfl
      | cons s ss ih =>
        intro a h
        have ht : ∀ a, PropSet.state (.array a) ∉ ss := fun a ha => h a (List.mem_cons_of_mem _ ha)
        cases s with
        | state v =>
          cases v with
          | array b => exact absurd List.mem_cons_self (h b)
          | _ => exact ih a ht
        | _ => exact ih a ht
    have hq : q.state.shape = [k, 1] := by
      show ((p.assignAll ss).1).state.shape = _
      rw [hs, hst ss _ hno]
    have hcw : sourceShape q .cw = .ok [k, 1] := by unfold sourceShape; rw [hq]
    have him : sourceShape q .impulse = .ok [k, 1] := by
      obtain ⟨k', rfl⟩ : ∃ k', k = k' + 1 := ⟨k - 1, by omega⟩
      unfold sourceShape; rw [hq]; rfl
    refine ⟨hcw, him, fun h => ?_, fun h h1 h2 => ?_⟩
    · unfold sentShape; rw [hcw, him]; dsimp only; rw [h, hself]; exact ⟨rfl, rfl⟩
    · have : modulatedShape q [k, 1] = .error .valueError := by
        rw [hmod, if_neg (by simp [h, h2]), if_neg h1]
      unfold sentShape; rw [hcw, him]; dsimp only; rw [this]; exact ⟨rfl, rfl⟩
  · intro data hm
    have hap : ∀ (ss : List PropSet) (p : PropObj) (b : NdArr), (p.assignAll (ss ++ [.state (.array b)])).1 = { (p.assignAll ss).1 with state := b } := by
      intro ss
      induction ss with
      | nil => intro p b; rfl
      | cons s ss ih => intro p b; exact ih (p.assign s).1 b
    rw [hap]
    have h1 : sourceShape { (p.assignAll ss).1 with state := ⟨[m, 1], data⟩ } .cw = .ok [m, 1] := rfl
    have h2 : sourceShape { (p.assignAll ss).1 with state := ⟨[m, 1], data⟩ } .impulse = .ok [m, 1] := by
      obtain ⟨m', hm'⟩ : ∃ m', m = m' + 1 := ⟨m - 1, by omega⟩
      rw [hm']; rfl
    have h3 : modulatedShape { (p.assignAll ss).1 with state := ⟨[m, 1], data⟩ } [m, 1] = .ok [m, 1] := hself
    unfold sentShape; rw [h1, h2]; dsimp only; rw [h3]; exact ⟨rfl, rfl⟩

example (p : PropObj) (hp : newPropagator (.int 1024) (.float 1e-9) (.float 1.55e-6) = .ok p) :
    sentShape (p.assignAll [.samples (.int 2048)]).1 .cw = .error .valueError ∧ sentShape (p.assignAll [.samples (.int 2048)]).1 .pulsed = .ok [2048, 1] :=
  let h := C112_sources 1024 (by norm_num) _ _ p hp [.samples (.int 2048)]
  ⟨((h.2.2.1 (by intro a ha; simp at ha)).2.2.2 (by decide) (by decide) (by decide)).1, h.1⟩

/-- **C112 (the shape of a state is not looked at).**  An array of any shape is accepted as state.  With a flat array of as many entries as there are samples, a modulator
behind the continuous-wave laser makes a square matrix of it, without an exception. -/
theorem C112_any_shape (k : Nat) (window wl : SetArg) (p : PropObj) (hp : newPropagator (.int (k : ℤ)) window wl = .ok p) (a : NdArr) :
    (p.assign (.state (.array a))).2 = none ∧ (p.assign (.state (.array a))).1.state = a ∧
    (a.shape = [k] → sentShape (p.assign (.state (.array a))).1 .cw = .ok [k, k]) := by
  refine ⟨rfl, rfl, fun h => ?_⟩
  have hA := (C112_history k window wl p hp []).2.2.2.1
  have ht : p.axes.t.length = k := hA.times
  show modulatedShape (p.assign (.state (.array a))).1 a.shape = _
  unfold modulatedShape
  rw [h]
  show (broadcastRev [k] [1, p.axes.t.length]).map List.reverse = _
  rw [ht]
  unfold broadcastRev
  rw [if_pos (.inr rfl)]
  rfl

example : ({ shape := [1024], data := List.replicate 1024 1 } : NdArr).shape = [1024] := rfl

end Verif
