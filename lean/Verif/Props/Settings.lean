import Verif.Lemmas.Settings
/-!
# C81: which parameter values a component works with
-/

namespace Verif
variable {V : Type}

/-- The values `propagate` reads when it reads the list, or attributes that agree with a list. -/
theorem propagate_reads {w : Bench V} {p : Nat} {q : BenchPart V} (hq : w.parts[p]? = some q) (l : List V)
    (hlist : q.kind.mode = .list → w.deref q.list = l ∧ q.kind.names.length ≤ l.length)
    (hattr : q.kind.mode ≠ .list → ∀ i ∈ q.kind.reads, i < l.length ∧
      (if q.kind.mode = .refreshed then setAttrs q.attrs (w.deref q.list) else q.attrs)[i]? = some (l[i]?)) :
    ∃ u, (w.propagate p).2 = .ok u ∧ ValuesAt u.signal l q.kind.reads ∧ u.filter = q.filt
      ∧ (w.propagate p).1.parts[p]? = some { q with attrs := if q.kind.mode = .refreshed then setAttrs q.attrs (w.deref q.list) else q.attrs, last := some u.signal } := by
  have hp : p < w.parts.length := (List.getElem?_eq_some_iff.mp hq).1
  unfold Bench.propagate
  rw [hq]
  dsimp only
  by_cases hm : q.kind.mode = .list
  · obtain ⟨h1, h2⟩ := hlist hm
    obtain ⟨vs, e, hv⟩ := readList_values l q.kind.reads (fun i hi => Nat.lt_of_lt_of_le (reads_lt q.kind i hi) h2)
    rw [if_pos hm, h1, e]
    have hne : q.kind.mode ≠ .refreshed := by rw [hm]; decide
    simp only [if_neg hne]
    exact ⟨⟨vs, q.filt⟩, rfl, hv, rfl, List.getElem?_set_self hp⟩
  · have h2 := hattr hm
    rw [if_neg hm]
    by_cases hr : q.kind.mode = .refreshed
    · simp only [if_pos hr] at h2 ⊢
      obtain ⟨vs, e, hv⟩ := readAttrs_values _ l q.kind.reads h2
      rw [e]
      exact ⟨⟨vs, q.filt⟩, rfl, hv, rfl, List.getElem?_set_self hp⟩
    · simp only [if_neg hr] at h2 ⊢
      obtain ⟨vs, e, hv⟩ := readAttrs_values _ l q.kind.reads h2
      rw [e]
      exact ⟨⟨vs, q.filt⟩, rfl, hv, rfl, List.getElem?_set_self hp⟩

/-- Every component but a photodiode works with the values its list has at that moment, whatever happened before: assignments, writes to
elements, writes to a list shared with others. -/
theorem C81_signal_current (D : Defaults V) (w : Bench V) (hw : w.Reachable D) (p : Nat) (q : BenchPart V) (hq : w.parts[p]? = some q)
    (hk : q.kind ≠ .photodiode) (hl : q.kind.names.length ≤ (w.deref q.list).length) :
    ∃ u, (w.propagate p).2 = .ok u ∧ ValuesAt u.signal (w.deref q.list) q.kind.reads := by
  have hs := hw.sound p q hq
  obtain ⟨u, h1, h2, _⟩ := propagate_reads hq (w.deref q.list) (fun _ => ⟨rfl, hl⟩) (by
    intro hm i hi
    have hr : q.kind.mode = .refreshed := by
      cases hk' : q.kind <;> simp_all [PartKind.mode]
    have hi' := reads_lt q.kind i hi
    rw [if_pos hr]
    exact ⟨by omega, setAttrs_get _ _ i (by rw [hs.attrs]; exact hi') (by omega)⟩)
  exact ⟨u, h1, h2⟩

/-- A photodiode computes its voltage from the values of the last assignment of its parameters: later writes to elements of its list, by the
tuner, by name or through another holder of the list, have no effect on it. -/
theorem C81_photodiode_assigned (D : Defaults V) (w : Bench V) (hw : w.Reachable D) (p : Nat) (q : BenchPart V) (hq : w.parts[p]? = some q)
    (hk : q.kind = .photodiode) (r : Nat) (hr : r < w.lists.length) (hl : 7 ≤ (w.deref r).length) (ops : List (BenchOp V))
    (hno : NoAssign p ops) :
    ∃ u, (((w.assign p r).1.run D ops).propagate p).2 = .ok u ∧ ValuesAt u.signal (w.deref r) [0, 3, 4] ∧ u.filter = q.filt := by
  have hs := hw.sound p q hq
  have hp : p < w.parts.length := (List.getElem?_eq_some_iff.mp hq).1
  have ha : q.attrs.length = 7 := by rw [hs.attrs, hk]; rfl
  rcases assign_cases w p r with ⟨hc | hc, _⟩ | ⟨q', hq', _, hc⟩
  · rw [hq] at hc; simp at hc
  · omega
  · rw [hq] at hq'
    simp only [Option.some.injEq] at hq'
    subst hq'
    have key : ∃ q1, (w.assign p r).1.parts[p]? = some q1 ∧ q1.kind = .photodiode ∧ q1.attrs = setAttrs q.attrs (w.deref r) ∧ q1.filt = q.filt := by
      rcases hc with ⟨_, e⟩ | ⟨_, ⟨_, _, e⟩ | ⟨vs, _, e⟩⟩
      all_goals rw [e]; exact ⟨_, List.getElem?_set_self hp, hk, rfl, rfl⟩
    obtain ⟨q1, k1, k2, k3, k4⟩ := key
    obtain ⟨q2, e1, e2⟩ := run_held D _ ops p q1 k1 hno
    have k2' : q2.kind = .photodiode := e2.kind.trans k2
    obtain ⟨u, h1, h2, h3, _⟩ := propagate_reads e1 (w.deref r) (by rw [k2']; intro h; simp [PartKind.mode] at h) (by
      intro _ i hi
      have hi' := reads_lt q2.kind i hi
      rw [k2'] at hi'
      simp [PartKind.names] at hi'
      rw [if_neg (by rw [k2']; decide), e2.attrs (by rw [k2]; decide), k3]
      exact ⟨by omega, setAttrs_get _ _ i (by omega) (by omega)⟩)
    refine ⟨u, h1, ?_, by rw [h3, e2.filt, k4]⟩
    rw [k2'] at h2
    exact h2

/-- The component a constructor returns. -/
theorem make_ok (D : Defaults V) (w : Bench V) (k : PartKind) (g : Given V) (p : Nat) (hok : (w.make D k g).2 = .ok p) :
    p = w.parts.length ∧ ∃ q, (w.make D k g).1.parts[p]? = some q ∧ Built D w (w.make D k g).1 k g q := by
  obtain ⟨_, _, _, ⟨_, e, he⟩ | ⟨q, h1, h2, h3⟩⟩ := make_frame D w k g
  · rw [he] at hok; simp at hok
  · rw [h2] at hok
    simp only [Except.ok.injEq] at hok
    subst hok
    exact ⟨rfl, q, by rw [h1]; simp, h3⟩

theorem builtAttrs_values (D : Defaults V) (k : PartKind) (l : List V) (hl : k.names.length ≤ l.length) (h1 : k ≠ .phaseMod)
    (h2 : ∀ ns, k ≠ .plain ns) (is : List Nat) (his : ∀ i ∈ is, i < k.names.length) :
    ∃ vs, readAttrs (builtAttrs D k l) is = .ok vs ∧ ValuesAt vs l is :=
  readAttrs_values _ l is (fun i hi => ⟨Nat.lt_of_lt_of_le (his i hi) hl,
    builtAttrs_get D k l h1 h2 i (his i hi) (Nat.lt_of_lt_of_le (his i hi) hl)⟩)

/-- Right after its constructor returns, a component of any class works with the values in its list; so do its filter and its noise. -/
theorem C81_built (D : Defaults V) (w : Bench V) (k : PartKind) (g : Given V) (p : Nat) (hok : (w.make D k g).2 = .ok p)
    (hl : ∀ r, g = .list r → k.names.length ≤ (w.deref r).length) :
    ∃ q, (w.make D k g).1.parts[p]? = some q ∧ q.kind = k ∧ k.names.length ≤ ((w.make D k g).1.deref q.list).length
      ∧ (∃ u, ((w.make D k g).1.propagate p).2 = .ok u ∧ ValuesAt u.signal ((w.make D k g).1.deref q.list) k.reads
          ∧ ValuesAt u.filter ((w.make D k g).1.deref q.list) k.filterReads)
      ∧ (k.noisy = true → ∃ s vs, q.noise = some (s, vs) ∧ ValuesAt vs ((w.make D k g).1.deref q.list) k.noiseReads) := by
  obtain ⟨hp, q, hq, hb⟩ := make_ok D w k g p hok
  have hlen := make_length D w k g q p hok hq hp hl
  refine ⟨q, hq, hb.kind, hlen, ?_, ?_⟩
  · obtain ⟨u, h1, h2, h3, _⟩ := propagate_reads hq ((w.make D k g).1.deref q.list) (fun _ => ⟨rfl, by rw [hb.kind]; exact hlen⟩) (by
      intro hm i hi
      rw [hb.kind] at hm hi ⊢
      have hi' := reads_lt k i hi
      refine ⟨by omega, ?_⟩
      have n1 : k ≠ .phaseMod := by rintro rfl; exact hm rfl
      have n2 : ∀ ns, k ≠ .plain ns := by rintro ns rfl; exact hm rfl
      split
      · exact setAttrs_get _ _ i (by rw [hb.attrs, builtAttrs_length]; exact hi') (by omega)
      · rw [hb.attrs]; exact builtAttrs_get D k _ n1 n2 i hi' (by omega))
    refine ⟨u, h1, by rw [hb.kind] at h2; exact h2, ?_⟩
    rw [h3]
    cases hk : k with
    | photodiode =>
      obtain ⟨vs, e1, e2⟩ := builtAttrs_values D k _ hlen (by rw [hk]; simp) (by rw [hk]; simp) k.filterReads (filterReads_lt k)
      have := hb.filt
      rw [hb.attrs, e1] at this
      simp only [Except.ok.injEq] at this
      rw [← this, ← hk]; exact e2
    | _ =>
      have := hb.filt
      rw [hk] at this
      simp only [PartKind.filterReads, readAttrs, Except.ok.injEq] at this
      rw [← this]; rfl
  · intro hn
    rcases hb.noise with ⟨h, _⟩ | ⟨_, vs, h1, _, h3⟩
    · rw [h] at hn; simp at hn
    · refine ⟨_, vs, h1, ?_⟩
      cases hk : k with
      | phaseMod =>
        rw [hk] at h3 hlen
        simp only [noiseValues] at h3
        obtain ⟨vs', e1, e2⟩ := readList_values ((w.make D .phaseMod g).1.deref q.list) PartKind.phaseMod.noiseReads
          (fun i hi => Nat.lt_of_lt_of_le (noiseReads_lt .phaseMod i hi) hlen)
        rw [e1] at h3
        simp only [Except.ok.injEq] at h3
        rw [← h3]; exact e2
      | plain ns => rw [hk] at hn; simp [PartKind.noisy] at hn
      | _ =>
        obtain ⟨vs', e1, e2⟩ := builtAttrs_values D k _ hlen (by rw [hk]; simp) (by rw [hk]; simp) k.noiseReads (noiseReads_lt k)
        rw [hb.attrs] at h3
        rw [hk] at h3 e1 e2
        simp only [noiseValues] at h3
        rw [e1] at h3
        simp only [Except.ok.injEq] at h3
        rw [← h3]; exact e2

theorem readAttrs_missing (as : List (Option V)) (is : List Nat) (h : ∃ i ∈ is, as[i]? = none ∨ as[i]? = some none) :
    readAttrs as is = .error .attributeError := by
  induction is with
  | nil => simp at h
  | cons i is ih =>
    unfold readAttrs
    split
    · rename_i v hv
      have : ∃ j ∈ is, as[j]? = none ∨ as[j]? = some none := by
        obtain ⟨j, hj, h'⟩ := h
        rcases List.mem_cons.1 hj with rfl | hj
        · rw [hv] at h'; simp at h'
        · exact ⟨j, hj, h'⟩
      rw [ih this]
    · rfl

theorem setAttrs_beyond (as : List (Option V)) (vs : List V) (i : Nat) (h : vs.length ≤ i) : (setAttrs as vs)[i]? = as[i]? := by
  induction as generalizing vs i with
  | nil => cases vs <;> rfl
  | cons a as ih => cases vs with
    | nil => rfl
    | cons v vs => cases i with
      | zero => simp at h
      | succ i => simpa [setAttrs] using ih vs i (by simpa using h)

theorem deref_append_left (w : Bench V) (x : List V) (r : Nat) (hr : r < w.lists.length) :
    ({ w with lists := w.lists ++ [x] } : Bench V).deref r = w.deref r := by
  simp [Bench.deref, List.getElem?_append_left hr]

/-- A list with too few values: the sources that assign their defaults first make their noise from the default values where the list ends; a
phase modulator raises an IndexError, a photodiode an AttributeError, and no component is made.  Amplifiers and components without noise are made. -/
theorem C81_short_list (D : Defaults V) (w : Bench V) (r : Nat) (hr : r < w.lists.length) :
    (∀ k, k = .pulsed ∨ k = .cw ∨ k = .noisySignal → ∃ p vs, (w.make D k (.list r)).2 = .ok p ∧ (w.make D k (.list r)).1.noiseUses p = .ok vs
      ∧ ValuesAt vs (w.deref r ++ (D.vals k).drop (w.deref r).length) k.noiseReads)
    ∧ ((w.deref r).length ≤ 3 → (w.make D .phaseMod (.list r)).2 = .error .indexError ∧ (w.make D .phaseMod (.list r)).1.parts = w.parts)
    ∧ ((w.deref r).length ≤ 6 → (w.make D .photodiode (.list r)).2 = .error .attributeError ∧ (w.make D .photodiode (.list r)).1.parts = w.parts)
    ∧ (∃ p, (w.make D .amplifier (.list r)).2 = .ok p)
    ∧ ∀ ns, ∃ p, (w.make D (.plain ns) (.list r)).2 = .ok p := by
  have hd := fun k => deref_append_left w (D.vals k) r hr
  have hi : ∀ k, w.initParams D k (.list r) = ({ w with lists := w.lists ++ [D.vals k] }, .ok r) := by
    intro k
    unfold Bench.initParams
    dsimp only
    rw [if_neg (by omega)]
  refine ⟨?_, ?_, ?_, ?_, ?_⟩
  · intro k hk
    have ha : ∀ i < k.names.length, (builtAttrs D k (w.deref r))[i]? = some ((w.deref r ++ (D.vals k).drop (w.deref r).length)[i]?) ∧
        i < (w.deref r ++ (D.vals k).drop (w.deref r).length).length := by
      intro i hin
      have hf : k.assignsFirst = true := by rcases hk with rfl | rfl | rfl <;> rfl
      have hb : builtAttrs D k (w.deref r) = setAttrs (setAttrs (k.names.map (fun _ => none)) (D.vals k)) (w.deref r) := by
        unfold builtAttrs
        rw [if_pos hf]
        rcases hk with rfl | rfl | rfl <;> rfl
      have hv := D.full k
      rw [hb]
      by_cases hlt : i < (w.deref r).length
      · refine ⟨?_, by simp; omega⟩
        rw [setAttrs_get _ _ _ (by rw [setAttrs_length]; simpa using hin) hlt, List.getElem?_append_left hlt]
      · refine ⟨?_, by simp only [List.length_append, List.length_drop]; omega⟩
        rw [setAttrs_beyond _ _ _ (by omega), setAttrs_get _ _ _ (by simpa using hin) (by omega), List.getElem?_append_right (by omega),
          List.getElem?_drop]
        congr 2; omega
    obtain ⟨vs, h1, h2⟩ := readAttrs_values _ _ k.noiseReads (fun i hi => ⟨(ha i (noiseReads_lt k i hi)).2, (ha i (noiseReads_lt k i hi)).1⟩)
    have hn : noiseValues k (builtAttrs D k (w.deref r)) (w.deref r) = .ok vs := by
      rw [← h1]; rcases hk with rfl | rfl | rfl <;> rfl
    have hno : k.noisy = true := by rcases hk with rfl | rfl | rfl <;> rfl
    have hfr : readAttrs (builtAttrs D k (w.deref r)) k.filterReads = .ok [] := by rcases hk with rfl | rfl | rfl <;> rfl
    have hm : w.make D k (.list r) = (⟨w.lists ++ [D.vals k], w.parts ++ [⟨k, r, w.lists.length, builtAttrs D k (w.deref r), some (w.serial, vs), [], none⟩],
        w.serial + 1⟩, .ok w.parts.length) := by
      unfold Bench.make
      rw [hi]
      dsimp only
      rw [hd, hfr]
      dsimp only
      rw [if_pos hno]
      unfold Bench.renew
      dsimp only
      rw [hd, hn]
    refine ⟨w.parts.length, vs, by rw [hm], ?_, h2⟩
    rw [hm]
    unfold Bench.noiseUses
    rcases hk with rfl | rfl | rfl <;> simp
  · intro hl
    have : w.make D .phaseMod (.list r) = ({ w with lists := w.lists ++ [D.vals .phaseMod] }, .error .indexError) := by
      unfold Bench.make
      rw [hi]
      simp only [PartKind.filterReads, readAttrs, PartKind.noisy, if_true]
      unfold Bench.renew
      dsimp only [noiseValues]
      rw [hd]
      simp [PartKind.noiseReads, readList, List.getElem?_eq_none hl]
    rw [this]; exact ⟨rfl, rfl⟩
  · intro hl
    have hnone : ∀ i, (w.deref r).length ≤ i → (builtAttrs D .photodiode (w.deref r))[i]? = none ∨ (builtAttrs D .photodiode (w.deref r))[i]? = some none := by
      intro i hlt
      have hb : builtAttrs D .photodiode (w.deref r) = setAttrs (PartKind.photodiode.names.map (fun _ => none)) (w.deref r) := rfl
      rw [hb, setAttrs_beyond _ _ _ hlt, List.getElem?_map]
      cases PartKind.photodiode.names[i]? <;> simp
    have : w.make D .photodiode (.list r) = ({ w with lists := w.lists ++ [D.vals .photodiode] }, .error .attributeError) := by
      unfold Bench.make
      rw [hi]
      dsimp only
      rw [hd]
      split
      · rename_i e he
        by_cases h3 : (w.deref r).length ≤ 2
        · rw [readAttrs_missing _ _ ⟨2, by simp [PartKind.filterReads], hnone 2 h3⟩] at he
          injection he with he; rw [he]
        · obtain ⟨vs, h1, _⟩ := readAttrs_values (builtAttrs D .photodiode (w.deref r)) (w.deref r) PartKind.photodiode.filterReads (by
            intro i hi
            have : i < 3 := by simp [PartKind.filterReads] at hi; omega
            refine ⟨by omega, setAttrs_get _ _ _ (by simp [PartKind.names, PartKind.assignsFirst]; omega) (by omega)⟩)
          rw [h1] at he; cases he
      · rename_i fs hfs
        simp only [PartKind.noisy, if_true]
        unfold Bench.renew
        dsimp only [noiseValues]
        rw [readAttrs_missing _ _ ⟨6, by simp [PartKind.noiseReads], hnone 6 hl⟩]
    rw [this]; exact ⟨rfl, rfl⟩
  · refine ⟨w.parts.length, ?_⟩
    unfold Bench.make
    rw [hi]
    rfl
  · intro ns
    refine ⟨w.parts.length, ?_⟩
    unfold Bench.make
    rw [hi]
    rfl

/-- The filter of a photodiode is made in its constructor and never again: not by writes, not by assigning all parameters. -/
theorem C81_filter_fixed (D : Defaults V) (w : Bench V) (g : Given V) (p : Nat) (hok : (w.make D .photodiode g).2 = .ok p)
    (hl : ∀ r, g = .list r → 7 ≤ (w.deref r).length) (ops : List (BenchOp V)) (u : Uses V)
    (hu : (((w.make D .photodiode g).1.run D ops).propagate p).2 = .ok u) :
    ∃ q, (w.make D .photodiode g).1.parts[p]? = some q ∧ ValuesAt u.filter ((w.make D .photodiode g).1.deref q.list) [1, 2] := by
  obtain ⟨q, h1, h2, h3, ⟨u0, h4, _, h5⟩, _⟩ := C81_built D w .photodiode g p hok (by simpa [PartKind.names] using hl)
  refine ⟨q, h1, ?_⟩
  obtain ⟨q', e1, e2⟩ := run_kept D _ ops p q h1
  have hf : ∀ (w' : Bench V) (x : BenchPart V) (y : Uses V), w'.parts[p]? = some x → (w'.propagate p).2 = .ok y → y.filter = x.filt := by
    intro w' x y hx hy
    unfold Bench.propagate at hy
    rw [hx] at hy
    dsimp only at hy
    split at hy
    · simp at hy
    · simp only [Except.ok.injEq] at hy
      rw [← hy]
  rw [hf _ _ _ e1 hu, e2.filt, ← hf _ _ _ h1 h4]
  exact h5

/-- Before any assignment a photodiode computes its voltage from the values its list had when it was built. -/
theorem C81_photodiode_built (D : Defaults V) (w : Bench V) (g : Given V) (p : Nat) (hok : (w.make D .photodiode g).2 = .ok p)
    (hl : ∀ r, g = .list r → 7 ≤ (w.deref r).length) (ops : List (BenchOp V)) (hno : NoAssign p ops) :
    ∃ q, (w.make D .photodiode g).1.parts[p]? = some q ∧ ∃ u, (((w.make D .photodiode g).1.run D ops).propagate p).2 = .ok u
      ∧ ValuesAt u.signal ((w.make D .photodiode g).1.deref q.list) [0, 3, 4] := by
  obtain ⟨hp, q, hq, hb⟩ := make_ok D w .photodiode g p hok
  have hlen := make_length D w .photodiode g q p hok hq hp (by simpa [PartKind.names] using hl)
  simp only [PartKind.names, List.length_cons, List.length_nil] at hlen
  refine ⟨q, hq, ?_⟩
  obtain ⟨q2, e1, e2⟩ := run_held D _ ops p q hq hno
  have k2 : q2.kind = .photodiode := e2.kind.trans hb.kind
  obtain ⟨u, h1, h2, _⟩ := propagate_reads e1 ((w.make D .photodiode g).1.deref q.list) (by rw [k2]; intro h; simp [PartKind.mode] at h) (by
    intro _ i hi
    have hi' := reads_lt q2.kind i hi
    rw [k2] at hi'
    have hi7 : i < 7 := hi'
    rw [if_neg (by rw [k2]; decide), e2.attrs (by rw [hb.kind]; decide), hb.attrs]
    exact ⟨by omega, builtAttrs_get D _ _ (by simp) (by simp) i hi' (by omega)⟩)
  exact ⟨u, h1, by rw [k2] at h2; exact h2⟩

/-! ### Noise -/

theorem noiseUses_of {w : Bench V} {p : Nat} {q : BenchPart V} {s : Nat} {vs : List V} (hq : w.parts[p]? = some q) (hn : q.noise = some (s, vs))
    (hk : q.kind ≠ .amplifier) : w.noiseUses p = .ok vs := by
  unfold Bench.noiseUses
  rw [hq]
  dsimp only
  rw [hn]
  dsimp only
  split
  · rename_i h; exact absurd h hk
  · rfl

/-- What the noise of a component was built with stays: for the classes that do not renew their noise, through anything; for the others until
their parameters are assigned.  Writes to elements of the list never reach the noise. -/
theorem C81_noise_built (D : Defaults V) (w : Bench V) (k : PartKind) (g : Given V) (p : Nat) (hok : (w.make D k g).2 = .ok p)
    (hl : ∀ r, g = .list r → k.names.length ≤ (w.deref r).length) (hk : k.noisy = true) (hka : k ≠ .amplifier)
    (ops : List (BenchOp V)) (hno : k.renewsNoise = false ∨ NoAssign p ops) :
    ∃ q vs, (w.make D k g).1.parts[p]? = some q ∧ ((w.make D k g).1.run D ops).noiseUses p = .ok vs
      ∧ ValuesAt vs ((w.make D k g).1.deref q.list) k.noiseReads := by
  obtain ⟨q, h1, h2, h3, _, h5⟩ := C81_built D w k g p hok hl
  obtain ⟨s, vs, h6, h7⟩ := h5 hk
  rcases hno with hno | hno
  · obtain ⟨q', e1, e2⟩ := run_kept D _ ops p q h1
    exact ⟨q, vs, h1, noiseUses_of e1 ((e2.noise (by rw [h2]; exact hno)).trans h6) (by rw [e2.kind, h2]; exact hka), h7⟩
  · obtain ⟨q', e1, e2⟩ := run_held D _ ops p q h1 hno
    exact ⟨q, vs, h1, noiseUses_of e1 (e2.same.trans h6) (by rw [e2.kind, h2]; exact hka), h7⟩

/-- Laser, phase modulator and photodiode take the noise of the parameters that were last assigned, through a new noise object: the noise
drawn for the old one is gone. -/
theorem C81_noise_assigned (D : Defaults V) (w : Bench V) (hw : w.Reachable D) (p : Nat) (q : BenchPart V) (hq : w.parts[p]? = some q)
    (hk : q.kind.renewsNoise = true) (r : Nat) (hr : r < w.lists.length) (hl : q.kind.names.length ≤ (w.deref r).length)
    (ops : List (BenchOp V)) (hno : NoAssign p ops) :
    ∃ vs, (w.assign p r).2 = .ok () ∧ ((w.assign p r).1.run D ops).noiseUses p = .ok vs ∧ ValuesAt vs (w.deref r) q.kind.noiseReads
      ∧ ∃ q' s s' us, ((w.assign p r).1.run D ops).parts[p]? = some q' ∧ q'.noise = some (s', vs) ∧ q.noise = some (s, us) ∧ s < s' := by
  have hs := hw.sound p q hq
  have hp : p < w.parts.length := (List.getElem?_eq_some_iff.mp hq).1
  have hv : ∃ vs, noiseValues q.kind (setAttrs q.attrs (w.deref r)) (w.deref r) = .ok vs ∧ ValuesAt vs (w.deref r) q.kind.noiseReads := by
    have hA := readAttrs_values (setAttrs q.attrs (w.deref r)) (w.deref r) q.kind.noiseReads (fun i hi =>
      have hi' := noiseReads_lt q.kind i hi
      ⟨by omega, setAttrs_get _ _ i (by rw [hs.attrs]; exact hi') (by omega)⟩)
    have hB := readList_values (w.deref r) q.kind.noiseReads (fun i hi => Nat.lt_of_lt_of_le (noiseReads_lt q.kind i hi) hl)
    unfold noiseValues
    split
    · exact hB
    · exact hA
  obtain ⟨vs, v1, v2⟩ := hv
  have hna : q.kind ≠ .amplifier := by intro h; rw [h] at hk; simp [PartKind.renewsNoise] at hk
  have hassign : w.assign p r = (⟨w.lists, w.parts.set p ({ q with list := r, attrs := setAttrs q.attrs (w.deref r), noise := some (w.serial, vs) } : BenchPart V),
      w.serial + 1⟩, .ok ()) := by
    unfold Bench.assign
    rw [hq]
    dsimp only
    rw [if_neg (by omega)]
    simp only [hk, if_true, Bench.renew, v1]
  have hq1 : (w.assign p r).1.parts[p]? = some { q with list := r, attrs := setAttrs q.attrs (w.deref r), noise := some (w.serial, vs) } := by
    rw [hassign]; exact List.getElem?_set_self hp
  obtain ⟨q2, e1, e2⟩ := run_held D _ ops p _ hq1 hno
  obtain ⟨⟨s, us⟩, hsome⟩ := Option.isSome_iff_exists.mp (hs.noisy.trans (noisy_of_renews hk))
  exact ⟨vs, by rw [hassign], noiseUses_of e1 e2.same (by rw [e2.kind]; exact hna), v2, q2, s, w.serial, us, e1, e2.same, hsome, hs.serial s us hsome⟩

/-- The noise of an amplifier goes with the values of its last `propagate`; before the first there are none. -/
theorem C81_noise_amplifier (D : Defaults V) (w : Bench V) (hw : w.Reachable D) (p : Nat) (q : BenchPart V) (hq : w.parts[p]? = some q)
    (hk : q.kind = .amplifier) (hl : 9 ≤ (w.deref q.list).length) :
    ∃ u, (w.propagate p).2 = .ok u ∧ (w.propagate p).1.noiseUses p = .ok u.signal
      ∧ ValuesAt u.signal (w.deref q.list) [0, 6, 1, 3, 2, 5, 7, 8] := by
  have hs := hw.sound p q hq
  have hm : q.kind.mode = .refreshed := by rw [hk]; rfl
  obtain ⟨u, h1, h2, _, h4⟩ := propagate_reads hq (w.deref q.list) (by rw [hm]; intro h; simp at h) (by
    intro _ i hi
    have hi' := reads_lt q.kind i hi
    have h9 : i < 9 := by rw [hk] at hi'; exact hi'
    rw [if_pos hm]
    exact ⟨by omega, setAttrs_get _ _ i (by rw [hs.attrs]; exact hi') (by omega)⟩)
  rw [hk] at h2
  refine ⟨u, h1, ?_, h2⟩
  obtain ⟨⟨s, us⟩, hsome⟩ := Option.isSome_iff_exists.mp (hs.noisy.trans (show q.kind.noisy = true by rw [hk]; rfl))
  unfold Bench.noiseUses
  rw [h4]
  dsimp only
  rw [hsome]
  dsimp only
  rw [hk]

/-! ### By name -/

theorem nameIndex_nodup {ns : List String} (h : ns.Nodup) {n : String} {i : Nat} (hi : ns[i]? = some n) : nameIndex ns n = .ok i := by
  obtain ⟨j, hj⟩ := nameIndex_mem (List.mem_of_getElem? hi)
  obtain ⟨h1, h2⟩ := nameIndex_ok hj
  have hlt := (List.getElem?_eq_some_iff.mp hi).1
  rw [hj, (List.getElem?_inj (Nat.lt_of_le_of_lt (h2 i hi) hlt) h).mp (h1.trans hi.symm)]

theorem named_values {w : Bench V} {p : Nat} {q : BenchPart V} (hq : w.parts[p]? = some q) (hnd : q.kind.names.Nodup) (is : List Nat) (ns : List String)
    (vs : List V) (hns : ns.map some = is.map (fun i => q.kind.names[i]?)) (hv : ValuesAt vs (w.deref q.list) is) :
    vs.map Except.ok = ns.map (w.shownByName p) := by
  unfold ValuesAt at hv
  induction is generalizing ns vs with
  | nil => simp at hns hv; simp [hns, hv]
  | cons i is ih =>
    match ns, vs with
    | [], _ => simp at hns
    | _ :: _, [] => simp at hv
    | n :: ns, v :: vs =>
      simp only [List.map_cons, List.cons.injEq] at hns hv ⊢
      refine ⟨?_, ih ns vs hns.2 hv.2⟩
      unfold Bench.shownByName
      rw [hq]
      dsimp only
      rw [nameIndex_nodup hnd hns.1.symm]
      dsimp only
      rw [← hv.1]

theorem signalNames_reads (k : PartKind) : (signalNames k).map some = k.reads.map (fun i => k.names[i]?) := by
  cases k with
  | plain ns =>
    apply List.ext_getElem?
    intro i
    simp only [signalNames, PartKind.reads, PartKind.names, List.getElem?_map]
    by_cases h : i < ns.length
    · simp [h]
    · simp [h]
  | _ => rfl

theorem noiseNames_reads (k : PartKind) : (noiseNames k).map some = k.noiseReads.map (fun i => k.names[i]?) := by
  cases k <;> rfl

/-- Light passing a component meets the values that `get_parameter_from_name` shows for the parameters the class is documented to use. -/
theorem C81_signal_named (D : Defaults V) (w : Bench V) (hw : w.Reachable D) (p : Nat) (q : BenchPart V) (hq : w.parts[p]? = some q)
    (hk : q.kind ≠ .photodiode) (hnd : q.kind.names.Nodup) (hl : q.kind.names.length ≤ (w.deref q.list).length) :
    ∃ u, (w.propagate p).2 = .ok u ∧ u.signal.map Except.ok = (signalNames q.kind).map (w.shownByName p) := by
  obtain ⟨u, h1, h2⟩ := C81_signal_current D w hw p q hq hk hl
  exact ⟨u, h1, named_values hq hnd _ _ _ (signalNames_reads q.kind) h2⟩

/-- Right after an assignment the noise of a laser, of a phase modulator and of a photodiode has the strength of the values shown; so it keeps it
through any writes, which change what is shown. -/
theorem C81_noise_named (D : Defaults V) (w : Bench V) (hw : w.Reachable D) (p : Nat) (q : BenchPart V) (hq : w.parts[p]? = some q)
    (hk : q.kind = .cw ∨ q.kind = .phaseMod ∨ q.kind = .photodiode) (r : Nat) (hr : r < w.lists.length)
    (hl : q.kind.names.length ≤ (w.deref r).length) (ops : List (BenchOp V)) (hno : NoAssign p ops) :
    ∃ vs, (w.assign p r).2 = .ok () ∧ vs.map Except.ok = (noiseNames q.kind).map ((w.assign p r).1.shownByName p)
      ∧ (w.assign p r).1.noiseUses p = .ok vs ∧ ((w.assign p r).1.run D ops).noiseUses p = .ok vs := by
  have hren : q.kind.renewsNoise = true := by rcases hk with h | h | h <;> rw [h] <;> rfl
  have hnd : q.kind.names.Nodup := by rcases hk with h | h | h <;> rw [h] <;> decide
  have hp : p < w.parts.length := (List.getElem?_eq_some_iff.mp hq).1
  obtain ⟨vs, h1, h2, h3, _⟩ := C81_noise_assigned D w hw p q hq hren r hr hl ops hno
  obtain ⟨vs', _, h2', h3', _⟩ := C81_noise_assigned D w hw p q hq hren r hr hl [] (by intro _ h; simp at h)
  have e : vs = vs' := by
    have : vs.map some = vs'.map some := h3.trans h3'.symm
    have h' := congrArg (List.filterMap id) this
    simpa [List.filterMap_map] using h'
  subst e
  have key : ∃ q1, (w.assign p r).1.parts[p]? = some q1 ∧ q1.list = r ∧ q1.kind = q.kind ∧ (w.assign p r).1.lists = w.lists := by
    rcases assign_cases w p r with ⟨hc | hc, _⟩ | ⟨q', hq', _, hc⟩
    · rw [hq] at hc; simp at hc
    · omega
    · rw [hq] at hq'
      simp only [Option.some.injEq] at hq'
      subst hq'
      rcases hc with ⟨_, e⟩ | ⟨_, ⟨_, _, e⟩ | ⟨vs, _, e⟩⟩
      all_goals rw [e]; exact ⟨_, List.getElem?_set_self hp, rfl, rfl, rfl⟩
  obtain ⟨q1, k1, k2, k3, k4⟩ := key
  refine ⟨vs, h1, ?_, h2', h2⟩
  rw [← k3]
  refine named_values k1 (by rw [k3]; exact hnd) q1.kind.noiseReads _ _ (noiseNames_reads _) ?_
  rw [k3, k2]
  unfold Bench.deref
  rw [k4]
  exact h3

/-- The noise of a component just built has the strength of the values shown. -/
theorem C81_noise_named_built (D : Defaults V) (w : Bench V) (k : PartKind) (g : Given V) (p : Nat) (hok : (w.make D k g).2 = .ok p)
    (hk : k = .pulsed ∨ k = .cw ∨ k = .phaseMod ∨ k = .photodiode) (hl : ∀ r, g = .list r → k.names.length ≤ (w.deref r).length) :
    ∃ vs, (w.make D k g).1.noiseUses p = .ok vs ∧ vs.map Except.ok = (noiseNames k).map ((w.make D k g).1.shownByName p) := by
  obtain ⟨q, h1, h2, _, _, h5⟩ := C81_built D w k g p hok hl
  obtain ⟨s, vs, h6, h7⟩ := h5 (by rcases hk with h | h | h | h <;> rw [h] <;> rfl)
  refine ⟨vs, noiseUses_of h1 h6 (by rw [h2]; rcases hk with h | h | h | h <;> rw [h] <;> decide), ?_⟩
  have hn := noiseNames_reads q.kind
  rw [h2] at hn
  refine named_values h1 (by rw [h2]; rcases hk with h | h | h | h <;> rw [h] <;> decide) k.noiseReads _ _ (by rw [h2]; exact hn) h7

/-- A write outside the list raises `IndexError` and changes nothing. -/
theorem C81_write_outside (w : Bench V) (p i : Nat) (v : V) (q : BenchPart V) (hq : w.parts[p]? = some q) (hi : (w.deref q.list).length ≤ i) :
    w.write p i v = (w, .error .indexError) := by
  unfold Bench.write
  rw [hq]
  dsimp only
  unfold Bench.poke
  rw [if_neg (by omega)]

/-! ### Lists that are shared -/

/-- Writing an element shows in every component that holds this list object, and in no other. -/
theorem C81_write (w : Bench V) (p i : Nat) (v : V) (q : BenchPart V) (hq : w.parts[p]? = some q) (hi : i < (w.deref q.list).length) :
    (w.write p i v).2 = .ok () ∧ (w.write p i v).1.shows p i = some v
    ∧ ∀ p' q', w.parts[p']? = some q' → ∀ j, (w.write p i v).1.shows p' j
        = if q'.list = q.list ∧ j = i then some v else w.shows p' j := by
  have he : w.write p i v = w.poke q.list i v := by unfold Bench.write; rw [hq]
  have hok : (w.poke q.list i v).2 = .ok () := by unfold Bench.poke; rw [if_pos hi]
  have main : ∀ p' q', w.parts[p']? = some q' → ∀ j, (w.write p i v).1.shows p' j
      = if q'.list = q.list ∧ j = i then some v else w.shows p' j := by
    intro p' q' hq' j
    rw [he]
    simp only [Bench.shows, poke_parts, hq', Option.bind_some]
    by_cases hl : q'.list = q.list
    · rw [hl, poke_deref_eq]
      by_cases hj : j = i
      · subst hj; rw [if_pos ⟨rfl, rfl⟩, List.getElem?_set_self hi]
      · rw [if_neg (by simp [hj]), List.getElem?_set_ne (fun h => hj h.symm)]
    · rw [if_neg (by simp [hl]), poke_deref_ne _ _ _ _ _ hl]
  exact ⟨by rw [he]; exact hok, by rw [main p q hq i]; simp, main⟩

/-- A write by name is a write to that element of the list and nothing else; an unknown name changes nothing. -/
theorem C81_by_name (w : Bench V) (p : Nat) (q : BenchPart V) (hq : w.parts[p]? = some q) (n : String) (v : V)
    (hl : q.kind.names.length ≤ (w.deref q.list).length) :
    (n ∈ q.kind.names → (w.byName p n v).2 = .ok () ∧ (w.byName p n v).1.shownByName p n = .ok v
        ∧ (w.byName p n v).1.parts = w.parts
        ∧ ∀ m, m ≠ n → (w.byName p n v).1.shownByName p m = w.shownByName p m)
    ∧ (n ∉ q.kind.names → w.byName p n v = (w, .error .valueError)) := by
  constructor
  · intro hn
    obtain ⟨i, hi⟩ := nameIndex_mem hn
    have hget := (nameIndex_ok hi).1
    have hlt : i < q.kind.names.length := (List.getElem?_eq_some_iff.mp hget).1
    have he : w.byName p n v = w.poke q.list i v := by
      unfold Bench.byName; rw [hq]; dsimp only; rw [hi]
    have hok : (w.poke q.list i v).2 = .ok () := by unfold Bench.poke; rw [if_pos (by omega)]
    refine ⟨by rw [he]; exact hok, ?_, by rw [he, poke_parts], ?_⟩
    · unfold Bench.shownByName
      rw [he, poke_parts, hq]
      dsimp only
      rw [hi]
      dsimp only
      rw [poke_deref_eq, List.getElem?_set_self (by omega)]
    · intro m hm
      unfold Bench.shownByName
      rw [he, poke_parts, hq]
      dsimp only
      cases hj : nameIndex q.kind.names m with
      | error e => rfl
      | ok j =>
        have hgj := (nameIndex_ok hj).1
        have hij : i ≠ j := by
          rintro rfl
          rw [hget] at hgj
          simp only [Option.some.injEq] at hgj
          exact hm hgj.symm
        dsimp only
        rw [poke_deref_eq, List.getElem?_set_ne hij]
  · intro hn
    unfold Bench.byName
    rw [hq]
    dsimp only
    rw [nameIndex_error hn]

/-- The setter keeps the list it is given, so that later writes to it, from anywhere, are writes to the component. -/
theorem C81_setter_keeps_reference (w : Bench V) (p r : Nat) (q : BenchPart V) (hq : w.parts[p]? = some q) (hr : r < w.lists.length) (i : Nat) (v : V)
    (hi : i < (w.deref r).length) : ((w.assign p r).1.poke r i v).1.shows p i = some v
      ∧ ∀ j, j ≠ i → ((w.assign p r).1.poke r i v).1.shows p j = (w.deref r)[j]? := by
  have hp : p < w.parts.length := (List.getElem?_eq_some_iff.mp hq).1
  have key : ∃ q1, (w.assign p r).1.parts[p]? = some q1 ∧ q1.list = r ∧ (w.assign p r).1.lists = w.lists := by
    rcases assign_cases w p r with ⟨hc | hc, _⟩ | ⟨q', hq', _, hc⟩
    · rw [hq] at hc; simp at hc
    · omega
    · rcases hc with ⟨_, e⟩ | ⟨_, ⟨_, _, e⟩ | ⟨vs, _, e⟩⟩
      all_goals rw [e]; exact ⟨_, List.getElem?_set_self hp, rfl, rfl⟩
  obtain ⟨q1, h1, h2, h3⟩ := key
  have hd : (w.assign p r).1.deref r = w.deref r := by unfold Bench.deref; rw [h3]
  simp only [Bench.shows, poke_parts, h1, Option.bind_some, h2, poke_deref_eq, hd]
  exact ⟨List.getElem?_set_self hi, fun j hj => List.getElem?_set_ne (fun h => hj h.symm)⟩

/-- Two components built from one list are one: a write to either shows in both, and in the list of the caller. -/
theorem C81_shared (D : Defaults V) (w : Bench V) (r : Nat) (k k' : PartKind) (p p' : Nat)
    (h1 : (w.make D k (.list r)).2 = .ok p) (h2 : ((w.make D k (.list r)).1.make D k' (.list r)).2 = .ok p') (i : Nat) (v : V)
    (hi : i < (w.deref r).length) :
    p ≠ p' ∧ ∀ x ∈ [p, p'], (((w.make D k (.list r)).1.make D k' (.list r)).1.write x i v).1.shows p i = some v
      ∧ (((w.make D k (.list r)).1.make D k' (.list r)).1.write x i v).1.shows p' i = some v
      ∧ (((w.make D k (.list r)).1.make D k' (.list r)).1.write x i v).1.deref r = (w.deref r).set i v := by
  obtain ⟨e1, q, hq, hb⟩ := make_ok D w k _ p h1
  obtain ⟨e2, q', hq', hb'⟩ := make_ok D (w.make D k (.list r)).1 k' _ p' h2
  obtain ⟨f1, _, f3, _⟩ := make_frame D w k (.list r)
  obtain ⟨_, _, f3', _⟩ := make_frame D (w.make D k (.list r)).1 k' (.list r)
  have hp : p < (w.make D k (.list r)).1.parts.length := (List.getElem?_eq_some_iff.mp hq).1
  have hr : r < w.lists.length := deref_lt hi
  have hl : q.list = r := by
    rcases hb.given with ⟨h, _⟩ | ⟨h, _⟩
    · simp only [Given.list.injEq] at h; exact h.symm
    · exact absurd rfl (h r)
  have hl' : q'.list = r := by
    rcases hb'.given with ⟨h, _⟩ | ⟨h, _⟩
    · simp only [Given.list.injEq] at h; exact h.symm
    · exact absurd rfl (h r)
  have hq2 := make_held D (w.make D k (.list r)).1 k' (.list r) p q hq
  have hd : ((w.make D k (.list r)).1.make D k' (.list r)).1.deref r = w.deref r := by
    rw [f3' r (by omega), f3 r hr]
  generalize ((w.make D k (.list r)).1.make D k' (.list r)).1 = W at *
  refine ⟨by omega, ?_⟩
  have main : ∀ x y, W.parts[x]? = some y → y.list = r → (W.write x i v).1.shows p i = some v ∧ (W.write x i v).1.shows p' i = some v
      ∧ (W.write x i v).1.deref r = (w.deref r).set i v := by
    intro x y hx hy
    obtain ⟨_, _, c⟩ := C81_write W x i v y hx (by rw [hy, hd]; exact hi)
    refine ⟨by rw [c p q hq2 i, if_pos ⟨by rw [hl, hy], rfl⟩], by rw [c p' q' hq' i, if_pos ⟨by rw [hl', hy], rfl⟩], ?_⟩
    unfold Bench.write
    rw [hx]
    dsimp only
    rw [hy, poke_deref_eq, hd]
  intro x hx
  simp only [List.mem_cons, List.not_mem_nil, or_false] at hx
  rcases hx with rfl | rfl
  · exact main _ q hq2 hl
  · exact main _ q' hq' hl'

/-- A list that one component holds and that is handed to no other stays its own: no write to another component shows in this one, and none
to this one in another. -/
theorem C81_private (D : Defaults V) (w : Bench V) (hw : w.Reachable D) (p : Nat) (q : BenchPart V) (hq : w.parts[p]? = some q)
    (hown : ∀ (p' : Nat) (q' : BenchPart V), w.parts[p']? = some q' → q'.list = q.list → p' = p) (ops : List (BenchOp V)) (hno : NoAssign p ops)
    (hh : NotHanded q.list ops) (p' : Nat) (hp' : p' ≠ p) (i j : Nat) (v : V) :
    ((w.run D ops).write p' i v).1.shows p j = (w.run D ops).shows p j
    ∧ ((w.run D ops).write p i v).1.shows p' j = (w.run D ops).shows p' j := by
  obtain ⟨q2, e1, e2⟩ := run_held D w ops p q hq hno
  have hr := (hw.sound p q hq).list
  have hne : ∀ q', (w.run D ops).parts[p']? = some q' → q'.list ≠ q2.list := by
    intro q' hq' he
    obtain ⟨q0, a, b⟩ := run_lists D w ops q.list hr hh p' q' hq' (by rw [he, e2.list])
    exact hp' (hown p' q0 a b)
  generalize w.run D ops = W at *
  have hw1 : ∀ x y q1, W.parts[x]? = some q1 → (∀ q3, W.parts[y]? = some q3 → q3.list ≠ q1.list) →
      (W.write x i v).1.shows y j = W.shows y j := by
    intro x y q1 hx hy
    have he : W.write x i v = W.poke q1.list i v := by unfold Bench.write; rw [hx]
    rw [he]
    unfold Bench.shows
    rw [poke_parts]
    cases hyy : W.parts[y]? with
    | none => rfl
    | some q3 => simp only [Option.bind_some]; rw [poke_deref_ne _ _ _ _ _ (hy q3 hyy)]
  constructor
  · cases hx : W.parts[p']? with
    | none => unfold Bench.write; rw [hx]
    | some q' =>
      refine hw1 p' p q' hx ?_
      intro q3 h3
      rw [e1] at h3
      simp only [Option.some.injEq] at h3
      subst h3
      exact (hne q' hx).symm
  · exact hw1 p p' q2 e1 hne

/-- A component built from defaults or by name, and a copy of a component, hold a list of their own. -/
theorem C81_own_list (D : Defaults V) (w : Bench V) (hw : w.Reachable D) (w' : Bench V) (p : Nat)
    (h : (∃ k g, (∀ r, g ≠ .list r) ∧ w.make D k g = (w', .ok p)) ∨ ∃ p0, w.clone p0 = (w', .ok p)) :
    ∃ q, w'.parts[p]? = some q ∧ ∀ (p' : Nat) (q' : BenchPart V), w'.parts[p']? = some q' → q'.list = q.list → p' = p := by
  rcases h with ⟨k, g, hg, h⟩ | ⟨p0, h⟩
  · obtain ⟨e1, q, hq, hb⟩ := make_ok D w k g p (by rw [h])
    rw [h] at hq hb
    refine ⟨q, hq, ?_⟩
    have hl : q.list = w.lists.length := by
      rcases hb.given with ⟨h, _⟩ | ⟨_, h⟩
      · exact absurd h (hg _)
      · exact h
    intro p' q' hq' hql
    obtain ⟨_, _, _, ⟨_, e, he⟩ | ⟨x, m4, _, _⟩⟩ := make_frame D w k g
    · rw [h] at he; simp at he
    · rw [h] at m4
      dsimp only at m4
      rw [m4] at hq'
      rcases parts_append_get hq' with h1 | ⟨h1, _⟩
      · have := (hw.sound p' q' h1).list; omega
      · omega
  · rcases clone_cases w p0 with ⟨_, e⟩ | ⟨q0, hq0, d, ls, e, e2, _⟩
    · rw [h] at e; simp at e
    · rw [h] at e e2
      dsimp only at e e2
      simp only [Except.ok.injEq] at e2
      subst e
      refine ⟨_, by rw [e2]; exact List.getElem?_concat_length, ?_⟩
      intro p' q' hq' hql
      rcases parts_append_get hq' with h1 | ⟨h1, _⟩
      · have := (hw.sound p' q' h1).list
        dsimp only at hql
        omega
      · omega

/-- A copy works with the same values as the original: parameters, filter and noise. -/
theorem C81_copy (D : Defaults V) (w : Bench V) (hw : w.Reachable D) (p p' : Nat) (w' : Bench V) (h : w.clone p = (w', .ok p')) :
    (w'.propagate p').2 = (w.propagate p).2 ∧ w'.noiseUses p' = w.noiseUses p ∧ (∀ i, w'.shows p' i = w.shows p i)
    ∧ (∀ (x : Nat) (y : BenchPart V), w.parts[x]? = some y → w'.parts[x]? = some y ∧ ∀ i, w'.shows x i = w.shows x i) := by
  rcases clone_cases w p with ⟨_, e⟩ | ⟨q, hq, d, ls, e, e2, h0, _⟩
  · rw [h] at e; simp at e
  · rw [h] at e e2
    dsimp only at e e2
    simp only [Except.ok.injEq] at e2
    subst e2
    have hnew : w'.parts[w.parts.length]? = some { q with list := w.lists.length, dflt := d, noise := q.noise.map (fun nv => (w.serial, nv.2)) } := by
      rw [e]; exact List.getElem?_concat_length
    have hd : w'.deref w.lists.length = w.deref q.list := by
      rw [e]
      unfold Bench.deref
      dsimp only
      rw [List.getElem?_append_right (Nat.le_refl _), Nat.sub_self, h0]
      rfl
    have hold : ∀ (x : Nat) (y : BenchPart V), w.parts[x]? = some y → w'.parts[x]? = some y ∧ ∀ i, w'.shows x i = w.shows x i := by
      intro x y hx
      have hxl : x < w.parts.length := (List.getElem?_eq_some_iff.mp hx).1
      have hx' : w'.parts[x]? = some y := by rw [e]; dsimp only; rw [List.getElem?_append_left hxl]; exact hx
      refine ⟨hx', fun i => ?_⟩
      have hyl := (hw.sound x y hx).list
      simp only [Bench.shows, hx, hx', Option.bind_some]
      rw [e]
      unfold Bench.deref
      dsimp only
      rw [List.getElem?_append_left hyl]
    refine ⟨?_, ?_, ?_, hold⟩
    · unfold Bench.propagate
      rw [hnew, hq]
      dsimp only
      rw [hd]
      by_cases hm : q.kind.mode = .refreshed
      · simp only [hm, if_true]
        split <;> rfl
      · simp only [hm, if_false]
        split <;> rfl
    · unfold Bench.noiseUses
      rw [hnew, hq]
      dsimp only
      cases q.noise with
      | none => rfl
      | some nv => rfl
    · intro i
      simp only [Bench.shows, hnew, hq, Option.bind_some, hd]

/-! ### Constructors -/

/-- Built by name: the named parameters have the given values, all others their defaults.  An unknown name is a `ValueError` and no component
is made. -/
theorem C81_by_name_built (D : Defaults V) (w : Bench V) (k : PartKind) (l : List (String × V)) (hd : (l.map Prod.fst).Nodup) :
    ((∀ e ∈ l, e.1 ∈ k.names) → ∃ p, (w.make D k (.names l)).2 = .ok p
      ∧ (∀ e ∈ l, (w.make D k (.names l)).1.shownByName p e.1 = .ok e.2)
      ∧ ∀ i n, k.names[i]? = some n → n ∉ l.map Prod.fst → (w.make D k (.names l)).1.shows p i = (D.vals k)[i]?)
    ∧ ((∃ e ∈ l, e.1 ∉ k.names) → (w.make D k (.names l)).2 = .error .valueError ∧ (w.make D k (.names l)).1.parts = w.parts) := by
  have hnew : k.names.length ≤ ((⟨w.lists ++ [D.vals k], w.parts, w.serial⟩ : Bench V).deref w.lists.length).length := by
    rw [deref_new, D.full]; exact Nat.le_refl _
  constructor
  · intro hk
    obtain ⟨a1, a2, a3⟩ := pokeNames_ok k.names w.lists.length l (⟨w.lists ++ [D.vals k], w.parts, w.serial⟩ : Bench V) hnew hk hd
    have hinit : w.initParams D k (.names l) = (((⟨w.lists ++ [D.vals k], w.parts, w.serial⟩ : Bench V).pokeNames k.names w.lists.length l).1, .ok w.lists.length) := by
      unfold Bench.initParams
      dsimp only
      rcases hp : (⟨w.lists ++ [D.vals k], w.parts, w.serial⟩ : Bench V).pokeNames k.names w.lists.length l with ⟨w1, res⟩
      rw [hp] at a1
      dsimp only at a1
      subst a1
      rfl
    obtain ⟨p, hp⟩ := make_ok_of_init D w k (.names l) w.lists.length (by rw [hinit]) (by simp)
    obtain ⟨_, q, hq, hb⟩ := make_ok D w k _ p hp
    have hql : q.list = w.lists.length := by
      rcases hb.given with ⟨h, _⟩ | ⟨_, h⟩
      · simp at h
      · exact h
    have hde : (w.make D k (.names l)).1.deref w.lists.length
        = ((⟨w.lists ++ [D.vals k], w.parts, w.serial⟩ : Bench V).pokeNames k.names w.lists.length l).1.deref w.lists.length := by
      unfold Bench.deref; rw [make_lists, hinit]
    refine ⟨p, hp, ?_, ?_⟩
    · intro e he
      obtain ⟨i, hi, hv⟩ := a2 e he
      unfold Bench.shownByName
      rw [hq]
      dsimp only
      rw [hb.kind, hi]
      dsimp only
      rw [hql, hde, hv]
    · intro i n hn hnl
      simp only [Bench.shows, hq, Option.bind_some]
      rw [hql, hde, a3 i ?_, deref_new]
      intro e he hc
      have := (nameIndex_ok hc).1
      rw [hn] at this
      simp only [Option.some.injEq] at this
      exact hnl (by rw [this]; exact List.mem_map_of_mem he)
  · intro hk
    have hu := pokeNames_unknown k.names w.lists.length l (⟨w.lists ++ [D.vals k], w.parts, w.serial⟩ : Bench V) hnew hk
    have hres : (w.make D k (.names l)).2 = .error .valueError := by
      unfold Bench.make Bench.initParams
      dsimp only
      rcases hp : (⟨w.lists ++ [D.vals k], w.parts, w.serial⟩ : Bench V).pokeNames k.names w.lists.length l with ⟨w1, res⟩
      rw [hp] at hu
      dsimp only at hu
      subst hu
      rfl
    refine ⟨hres, ?_⟩
    obtain ⟨_, _, _, ⟨h, _⟩ | ⟨x, _, h, _⟩⟩ := make_frame D w k (.names l)
    · exact h
    · rw [hres] at h; simp at h

/-- In a component built from its defaults, `parameters` and `default_parameters` are one list: what is written to the one is written to the
other.  In a component built from a list of the caller the defaults stay. -/
theorem C81_defaults (D : Defaults V) (w : Bench V) (k : PartKind) (p i : Nat) (v : V) :
    ((w.make D k .nothing).2 = .ok p → ∃ q, (w.make D k .nothing).1.parts[p]? = some q
        ∧ (w.make D k .nothing).1.deref q.dflt = D.vals k
        ∧ ((w.make D k .nothing).1.write p i v).1.deref q.dflt = (D.vals k).set i v)
    ∧ ∀ r, (w.make D k (.list r)).2 = .ok p → ∃ q, (w.make D k (.list r)).1.parts[p]? = some q
        ∧ ((w.make D k (.list r)).1.write p i v).1.deref q.dflt = D.vals k := by
  constructor
  · intro hok
    obtain ⟨_, q, hq, hb⟩ := make_ok D w k _ p hok
    have hql : q.list = w.lists.length := by
      rcases hb.given with ⟨h, _⟩ | ⟨_, h⟩
      · simp at h
      · exact h
    have hde : (w.make D k .nothing).1.deref w.lists.length = D.vals k := by
      have : (w.make D k .nothing).1.lists = w.lists ++ [D.vals k] := by rw [make_lists]; rfl
      unfold Bench.deref; rw [this]; simp
    refine ⟨q, hq, by rw [hb.dflt, hde], ?_⟩
    unfold Bench.write
    rw [hq]
    dsimp only
    rw [hql, hb.dflt, poke_deref_eq, hde]
  · intro r hok
    obtain ⟨_, q, hq, hb⟩ := make_ok D w k _ p hok
    have hql : q.list < w.lists.length := by
      rcases hb.given with ⟨_, h⟩ | ⟨h, _⟩
      · exact h
      · exact absurd rfl (h r)
    have hr : q.list = r := by
      rcases hb.given with ⟨h, _⟩ | ⟨h, _⟩
      · simp only [Given.list.injEq] at h; exact h.symm
      · exact absurd rfl (h r)
    have hde : (w.make D k (.list r)).1.deref w.lists.length = D.vals k := by
      have : (w.make D k (.list r)).1.lists = w.lists ++ [D.vals k] := by
        rw [make_lists]
        unfold Bench.initParams
        dsimp only
        rw [if_neg (by omega)]
      unfold Bench.deref; rw [this]; simp
    refine ⟨q, hq, ?_⟩
    unfold Bench.write
    rw [hq]
    dsimp only
    rw [hb.dflt, poke_deref_ne _ _ _ _ _ (by omega), hde]

/-- Phase noise points given to a phase modulator: without parameters they are dropped and the default linewidth stays; with a list they are
written into the list of the caller; with names they override the linewidth. -/
theorem C81_points (D : Defaults V) (w : Bench V) (x : V) :
    w.makePoints D .nothing x = w.make D .phaseMod .nothing
    ∧ (∀ r, 4 ≤ (w.deref r).length → ∃ p, (w.makePoints D (.list r) x).2 = .ok p
        ∧ (w.makePoints D (.list r) x).1.deref r = (w.deref r).set 3 x ∧ (w.makePoints D (.list r) x).1.noiseUses p = .ok [x])
    ∧ (∀ l, (l.map Prod.fst).Nodup → (∀ e ∈ l, e.1 ∈ PartKind.phaseMod.names) → ∃ p, (w.makePoints D (.names l) x).2 = .ok p
        ∧ (w.makePoints D (.names l) x).1.noiseUses p = .ok [x]) := by
  refine ⟨rfl, ?_, ?_⟩
  · intro r hr
    have hrl : r < w.lists.length := deref_lt (i := 3) (by omega)
    have he : w.makePoints D (.list r) x = (w.poke r 3 x).1.make D .phaseMod (.list r) := by
      have hpk : w.poke r 3 x = ((w.poke r 3 x).1, .ok ()) := by unfold Bench.poke; rw [if_pos (by omega)]
      unfold Bench.makePoints
      dsimp only
      rw [hpk]
    have hlen : 4 ≤ ((w.poke r 3 x).1.deref r).length := by rw [poke_deref_eq]; simpa using hr
    have hl : ∀ r', Given.list r = (Given.list r' : Given V) → PartKind.phaseMod.names.length ≤ ((w.poke r 3 x).1.deref r').length := by
      intro r' e
      simp only [Given.list.injEq] at e
      subst e
      exact hlen
    obtain ⟨p, hp⟩ := make_ok_of_init D (w.poke r 3 x).1 .phaseMod (.list r) r (by
      unfold Bench.initParams
      dsimp only
      rw [if_neg (by rw [poke_lists_length]; omega)]) hl
    obtain ⟨q, vs, h1, h2, h3⟩ := C81_noise_built D (w.poke r 3 x).1 .phaseMod (.list r) p hp hl rfl (by simp) [] (Or.inr (by intro r; simp))
    obtain ⟨_, q', hq', hb⟩ := make_ok D _ .phaseMod _ p hp
    have hql : q'.list = r := by
      rcases hb.given with ⟨h, _⟩ | ⟨h, _⟩
      · simp only [Given.list.injEq] at h; exact h.symm
      · exact absurd rfl (h r)
    rw [h1] at hq'
    simp only [Option.some.injEq] at hq'
    subst hq'
    obtain ⟨_, _, f3, _⟩ := make_frame D (w.poke r 3 x).1 .phaseMod (.list r)
    have hd : ((w.poke r 3 x).1.make D .phaseMod (.list r)).1.deref r = (w.deref r).set 3 x := by
      rw [f3 r (by rw [poke_lists_length]; exact hrl), poke_deref_eq]
    refine ⟨p, by rw [he]; exact hp, by rw [he]; exact hd, ?_⟩
    rw [he]
    have h2' : ((w.poke r 3 x).1.make D .phaseMod (.list r)).1.noiseUses p = .ok vs := h2
    rw [h2']
    rw [hql, hd] at h3
    unfold ValuesAt at h3
    simp only [PartKind.noiseReads, List.map_cons, List.map_nil] at h3
    rw [List.getElem?_set_self (by omega)] at h3
    rw [List.map_eq_cons_iff] at h3
    obtain ⟨a, b, rfl, hab, hb'⟩ := h3
    simp only [Option.some.injEq] at hab
    simp only [List.map_eq_nil_iff] at hb'
    rw [hab, hb']
  · intro l hd hk
    have he : w.makePoints D (.names l) x = w.make D .phaseMod (.names (dictPut l "FWHM_linewidth" x)) := rfl
    have hkeys : ∀ e ∈ dictPut l "FWHM_linewidth" x, e.1 ∈ PartKind.phaseMod.names := by
      intro e he
      unfold dictPut at he
      split at he
      · rw [List.mem_map] at he
        obtain ⟨e0, h0, rfl⟩ := he
        split
        · simp [PartKind.names]
        · exact hk e0 h0
      · rw [List.mem_append] at he
        rcases he with he | he
        · exact hk e he
        · simp only [List.mem_singleton] at he; subst he; simp [PartKind.names]
    have hnd : ((dictPut l "FWHM_linewidth" x).map Prod.fst).Nodup := by
      unfold dictPut
      split
      · have : (l.map (fun e => if e.1 = "FWHM_linewidth" then ("FWHM_linewidth", x) else e)).map Prod.fst = l.map Prod.fst := by
          rw [List.map_map]
          apply List.map_congr_left
          intro e _
          simp only [Function.comp]
          split
          · rename_i h; exact h.symm
          · rfl
        rw [this]; exact hd
      · rename_i h
        rw [List.map_append, List.nodup_append]
        refine ⟨hd, by simp, ?_⟩
        intro a ha b hb
        simp only [List.map_cons, List.map_nil, List.mem_singleton] at hb
        subst hb
        rintro rfl
        apply h
        rw [List.mem_map] at ha
        obtain ⟨e, he, hea⟩ := ha
        rw [List.any_eq_true]
        exact ⟨e, he, by simpa using hea⟩
    have hmem : ("FWHM_linewidth", x) ∈ dictPut l "FWHM_linewidth" x := by
      unfold dictPut
      split
      · rename_i h
        rw [List.any_eq_true] at h
        obtain ⟨e, he, hea⟩ := h
        rw [List.mem_map]
        exact ⟨e, he, by rw [if_pos (by simpa using hea)]⟩
      · simp
    obtain ⟨p, hp, hv, _⟩ := (C81_by_name_built D w .phaseMod _ hnd).1 hkeys
    have hx := hv _ hmem
    obtain ⟨q, vs, h1, h2, h3⟩ := C81_noise_built D w .phaseMod _ p hp (by simp) rfl (by simp) [] (Or.inr (by intro r; simp))
    refine ⟨p, by rw [he]; exact hp, ?_⟩
    have h2' : (w.make D .phaseMod (.names (dictPut l "FWHM_linewidth" x))).1.noiseUses p = .ok vs := h2
    rw [he, h2']
    obtain ⟨_, q', hq', hb⟩ := make_ok D w .phaseMod _ p hp
    rw [h1] at hq'
    simp only [Option.some.injEq] at hq'
    subst hq'
    unfold Bench.shownByName at hx
    rw [h1] at hx
    dsimp only at hx
    rw [hb.kind] at hx
    have hidx : nameIndex PartKind.phaseMod.names "FWHM_linewidth" = .ok 3 := by decide +kernel
    rw [hidx] at hx
    dsimp only at hx
    unfold ValuesAt at h3
    simp only [PartKind.noiseReads, List.map_cons, List.map_nil] at h3
    rw [List.map_eq_cons_iff] at h3
    obtain ⟨a, b, rfl, hab, hb'⟩ := h3
    simp only [List.map_eq_nil_iff] at hb'
    rw [← hab] at hx
    simp only [Except.ok.injEq] at hx
    rw [hx, hb']

/-! ### Tuning -/

/-- The values a component works with, its filter and its noise are those its list shows. -/
def Agrees (w : Bench V) (p : Nat) : Prop := ∃ q, w.parts[p]? = some q
  ∧ (∃ u, (w.propagate p).2 = .ok u ∧ ValuesAt u.signal (w.deref q.list) q.kind.reads ∧ ValuesAt u.filter (w.deref q.list) q.kind.filterReads)
  ∧ (q.kind.noisy = true → q.kind ≠ .amplifier → ∃ vs, w.noiseUses p = .ok vs ∧ ValuesAt vs (w.deref q.list) q.kind.noiseReads)

theorem free_spec (k : PartKind) (i : Nat) (h : k.free i = true) : k ≠ .photodiode ∧ i ∉ k.filterReads ∧ i ∉ k.noiseReads := by
  cases k <;> simp_all [PartKind.free, PartKind.filterReads, PartKind.noiseReads] <;> omega

/-- What the tuner does, any number of writes to parameters that are not locked, keeps every component in agreement: no step of a tuning run is
evaluated with values other than the ones it has just set. -/
theorem C81_tuning (D : Defaults V) (w : Bench V) (hw : w.Reachable D) (p : Nat) (q : BenchPart V) (hq : w.parts[p]? = some q)
    (hl : q.kind.names.length ≤ (w.deref q.list).length) (hag : Agrees w p) (ops : List (BenchOp V))
    (hops : ∀ op ∈ ops, ∃ p' i v q', op = .write p' i v ∧ w.parts[p']? = some q' ∧ (q'.list = q.list → q.kind.free i = true)) :
    Agrees (w.run D ops) p := by
  have frame : ∀ (ops : List (BenchOp V)) (W : Bench V), W.parts = w.parts →
      (∀ op ∈ ops, ∃ p' i v q', op = .write p' i v ∧ w.parts[p']? = some q' ∧ (q'.list = q.list → q.kind.free i = true)) →
      (W.run D ops).parts = w.parts ∧ ((W.run D ops).deref q.list).length = (W.deref q.list).length
        ∧ ∀ j, q.kind.free j = false → ((W.run D ops).deref q.list)[j]? = (W.deref q.list)[j]? := by
    intro ops
    induction ops with
    | nil => intro W h _; exact ⟨h, rfl, fun _ _ => rfl⟩
    | cons op ops ih =>
      intro W hW h
      obtain ⟨p', i, v, q', rfl, hq', hfree⟩ := h op List.mem_cons_self
      have he : W.step D (.write p' i v) = (W.poke q'.list i v).1 := by
        show (W.write p' i v).1 = _
        unfold Bench.write
        rw [hW, hq']
      obtain ⟨a1, a2, a3⟩ := ih (W.step D (.write p' i v)) (by rw [he, poke_parts]; exact hW) (fun op ho => h op (List.mem_cons_of_mem _ ho))
      rw [run_cons]
      refine ⟨a1, ?_, ?_⟩
      · rw [a2, he]
        by_cases hc : q'.list = q.list
        · rw [hc, poke_deref_eq]; simp
        · rw [poke_deref_ne _ _ _ _ _ (fun h => hc h.symm)]
      · intro j hj
        rw [a3 j hj, he]
        by_cases hc : q'.list = q.list
        · rw [hc, poke_deref_eq, List.getElem?_set_ne]
          rintro rfl
          rw [hfree hc] at hj
          simp at hj
        · rw [poke_deref_ne _ _ _ _ _ (fun h => hc h.symm)]
  obtain ⟨f1, f2, f3⟩ := frame ops w rfl hops
  obtain ⟨q0, hq0, ⟨u, u1, u2, u3⟩, hn⟩ := hag
  rw [hq] at hq0
  simp only [Option.some.injEq] at hq0
  subst hq0
  have hq1 : (w.run D ops).parts[p]? = some q := by rw [f1]; exact hq
  have carry : ∀ (is : List Nat) (vs : List V), (∀ i ∈ is, q.kind.free i = false) → ValuesAt vs (w.deref q.list) is →
      ValuesAt vs ((w.run D ops).deref q.list) is := by
    intro is vs his h
    unfold ValuesAt at h ⊢
    rw [h]
    apply List.map_congr_left
    intro i hi
    exact (f3 i (his i hi)).symm
  have notfree : ∀ i, (i ∈ q.kind.filterReads ∨ i ∈ q.kind.noiseReads) → q.kind.free i = false := by
    intro i hi
    cases hf : q.kind.free i with
    | false => rfl
    | true =>
      obtain ⟨_, b, c⟩ := free_spec q.kind i hf
      rcases hi with hi | hi
      · exact absurd hi b
      · exact absurd hi c
  have hfilt : ∀ (W : Bench V) (y : Uses V), W.parts[p]? = some q → (W.propagate p).2 = .ok y → y.filter = q.filt := by
    intro W y hx hy
    unfold Bench.propagate at hy
    rw [hx] at hy
    dsimp only at hy
    split at hy
    · simp at hy
    · simp only [Except.ok.injEq] at hy
      rw [← hy]
  refine ⟨q, hq1, ?_, ?_⟩
  · by_cases hk : q.kind = .photodiode
    · have hsame : (w.run D ops).deref q.list = w.deref q.list := by
        apply List.ext_getElem?
        intro j
        exact f3 j (by rw [hk]; rfl)
      refine ⟨u, ?_, by rw [hsame]; exact u2, by rw [hsame]; exact u3⟩
      rw [← u1]
      unfold Bench.propagate
      rw [hq1, hq]
      dsimp only
      rw [hsame]
      split <;> rfl
    · obtain ⟨u', v1, v2⟩ := C81_signal_current D (w.run D ops) (hw.run ops) p q hq1 hk (by rw [f2]; exact hl)
      refine ⟨u', v1, v2, ?_⟩
      rw [hfilt _ _ hq1 v1, ← hfilt _ _ hq u1]
      exact carry _ _ (fun i hi => notfree i (Or.inl hi)) u3
  · intro h1 h2
    obtain ⟨vs, n1, n2⟩ := hn h1 h2
    refine ⟨vs, ?_, carry _ _ (fun i hi => notfree i (Or.inr hi)) n2⟩
    rw [← n1]
    unfold Bench.noiseUses
    rw [hq1, hq]

/-! ### Cases -/

namespace BenchDemo

/-- Default values 100, 101, … -/
def dflt : Defaults Nat := ⟨fun k => (List.range k.names.length).map (100 + ·), fun k => by simp⟩

/-- A photodiode and a laser, both from a list of the caller, and a phase modulator from its defaults. -/
def w : Bench Nat := Bench.run dflt ⟨[], [], 0⟩ [.alloc [1, 2, 3, 4, 5, 6, 7], .make .photodiode (.list 0), .make .cw (.list 0), .make .phaseMod .nothing]

theorem reach : w.Reachable dflt := ⟨_, rfl⟩

/-- Writing the load resistance and the bandwidth of the photodiode in its list: it shows the new values and works with the old. -/
example : ((w.write 0 4 50).1.shows 0 4, ((w.write 0 4 50).1.propagate 0).2) = (some 50, .ok ⟨[1, 4, 5], [2, 3]⟩) := by decide +kernel

/-- The laser shares that list, and its power is written through the photodiode. -/
example : (((w.write 0 0 9).1.propagate 1).2, ((w.write 0 0 9).1.propagate 0).2) = (.ok ⟨[9], []⟩, .ok ⟨[1, 4, 5], [2, 3]⟩) := by decide +kernel

/-- Assigning a new list: voltage and noise follow, the filter does not. -/
example : (((w.run dflt [.alloc [11, 12, 13, 14, 15, 16, 17], .assign 0 4, .write 0 0 99]).propagate 0).2,
    (w.run dflt [.alloc [11, 12, 13, 14, 15, 16, 17], .assign 0 4, .write 0 0 99]).noiseUses 0)
    = (.ok ⟨[11, 14, 15], [2, 3]⟩, .ok [16, 12, 15, 17]) := by decide +kernel

/-- A linewidth written to a phase modulator does not reach its noise; an assigned one does. -/
example : ((w.byName 2 "FWHM_linewidth" 7).1.shownByName 2 "FWHM_linewidth", (w.byName 2 "FWHM_linewidth" 7).1.noiseUses 2,
    ((w.byName 2 "FWHM_linewidth" 7).1.assign 2 3).1.noiseUses 2) = (.ok 7, .ok [103], .ok [7]) := by decide +kernel

example : ∃ u, (w.propagate 1).2 = .ok u ∧ ValuesAt u.signal [1, 2, 3, 4, 5, 6, 7] [0] :=
  C81_signal_current dflt w reach 1 _ rfl (by simp) (by decide +kernel)

example := C81_photodiode_assigned dflt w reach 0 _ rfl rfl 0 (by decide +kernel) (by decide +kernel) [.write 0 0 5, .propagate 0] (by intro r; simp)

example := C81_noise_assigned dflt w reach 2 _ rfl rfl 0 (by decide +kernel) (by decide +kernel) [.write 2 3 5] (by intro r; simp)

/-- A copy of the laser has a list of its own. -/
example : ∃ w', w.clone 1 = (w', .ok 3) ∧ ∀ (i j : Nat) (v : Nat), (w'.write 1 i v).1.shows 3 j = w'.shows 3 j := by
  refine ⟨(w.clone 1).1, by decide +kernel, ?_⟩
  intro i j v
  have hc : w.clone 1 = ((w.clone 1).1, .ok 3) := by decide +kernel
  obtain ⟨q, h1, h2⟩ := C81_own_list dflt w reach _ 3 (Or.inr ⟨1, hc⟩)
  exact (C81_private dflt (w.clone 1).1 (reach.step (.clone 1)) 3 q h1 h2 [] (by intro r; simp)
    (by refine ⟨?_, ?_, ?_⟩ <;> intro p <;> simp) 1 (by decide) i j v).1

/-- A modulator built by name; a misspelt name. -/
example : ((w.make dflt .phaseMod (.names [("depth", 5), ("FWHM_linewidth", 6)])).1.lists.getLast?,
    (w.make dflt .phaseMod (.names [("depht", 5)])).2) = (some [5, 101, 102, 6], .error .valueError) := by decide +kernel

example := (C81_by_name_built dflt w .phaseMod [("depth", 5), ("FWHM_linewidth", 6)] (by decide +kernel)).1 (by decide +kernel)

/-- Two fibres from one list. -/
example := C81_shared dflt w 0 (.plain ["length"]) (.plain ["length"]) 3 4 (by decide +kernel) (by decide +kernel) 0 8 (by decide +kernel)

/-- A modulator whose depth is tuned: it agreed before, and does after. -/
example : Agrees (w.run dflt [.write 2 0 5, .write 2 2 6]) 2 :=
  C81_tuning dflt w reach 2 _ rfl (by decide +kernel)
    ⟨_, rfl, ⟨⟨[100, 101, 102], []⟩, by decide +kernel, rfl, rfl⟩, fun _ _ => ⟨[103], by decide +kernel, rfl⟩⟩
    _ (by
      intro op h
      simp only [List.mem_cons, List.not_mem_nil, or_false] at h
      rcases h with rfl | rfl
      · exact ⟨2, 0, 5, _, rfl, rfl, fun _ => by decide +kernel⟩
      · exact ⟨2, 2, 6, _, rfl, rfl, fun _ => by decide +kernel⟩)

example := C81_filter_fixed dflt w (.list 0) 3 (by decide +kernel) (by intro r h; simp only [Given.list.injEq] at h; subst h; decide +kernel)
  [.alloc [11, 12, 13, 14, 15, 16, 17], .assign 3 5] ⟨[11, 14, 15], [2, 3]⟩ (by decide +kernel)

example := C81_noise_built dflt w .pulsed .nothing 3 (by decide +kernel) (by simp) rfl (by simp) [.write 3 6 1, .assign 3 0] (Or.inl rfl)

example := C81_noise_amplifier dflt (w.step dflt (.make .amplifier .nothing)) (reach.step _) 3 _ rfl rfl (by decide +kernel)

/-- The laser and the photodiode, by name. -/
example := C81_signal_named dflt w reach 1 _ rfl (by simp) (by decide +kernel) (by decide +kernel)
example := C81_noise_named dflt w reach 0 _ rfl (Or.inr (Or.inr rfl)) 0 (by decide +kernel) (by decide +kernel) [.write 0 1 5] (by intro r; simp)
/-- A laser with a list of two values has the default linewidth and signal to noise ratio in its noise. -/
example : ((w.run dflt [.alloc [7, 8], .make .cw (.list 4)]).noiseUses 3, ((w.run dflt [.alloc [7, 8]]).make dflt .phaseMod (.list 4)).2,
    ((w.run dflt [.alloc [7, 8]]).make dflt .photodiode (.list 4)).2) = (.ok [103, 102], .error .indexError, .error .attributeError) := by decide +kernel
example := (C81_short_list dflt (w.run dflt [.alloc [7, 8]]) 4 (by decide +kernel)).2.1 (by decide +kernel)
example := C81_noise_named_built dflt w .cw .nothing 3 (by decide +kernel) (by simp) (by simp)
example : w.write 2 9 1 = (w, .error .indexError) := C81_write_outside w 2 9 1 _ rfl (by decide +kernel)

example := C81_built dflt w .photodiode (.list 0) 3 (by decide +kernel) (by intro r h; simp only [Given.list.injEq] at h; subst h; decide +kernel)
example := C81_photodiode_built dflt w (.list 0) 3 (by decide +kernel) (by intro r h; simp only [Given.list.injEq] at h; subst h; decide +kernel)
  [.write 3 0 99, .propagate 3] (by intro r; simp)
example := C81_write w 0 4 50 _ rfl (by decide +kernel)
example := (C81_by_name w 2 _ rfl "FWHM_linewidth" 7 (by decide +kernel)).1 (by decide +kernel)
example := C81_setter_keeps_reference w 2 0 _ rfl (by decide +kernel) 3 8 (by decide +kernel)
example := C81_copy dflt w reach 1 3 (w.clone 1).1 (by decide +kernel)
example := C81_defaults dflt w .phaseMod 3 0 8
example := (C81_points dflt w 8).2.1 0 (by decide +kernel)

end BenchDemo

/-- A photodiode can show one load resistance and compute its voltage with another, and show one bandwidth and filter with another even right after
all its parameters were assigned; a phase modulator can show one linewidth and have the noise of another. -/
theorem C81_stale : ∃ (D : Defaults Nat) (w : Bench Nat), w.Reachable D
    ∧ (∃ u, (w.propagate 0).2 = .ok u ∧ w.shows 0 4 = some 50 ∧ u.signal = [11, 14, 15])
    ∧ (∃ u, (w.propagate 0).2 = .ok u ∧ w.shows 0 1 = some 12 ∧ u.filter = [2, 3])
    ∧ (w.shows 2 3 = some 7 ∧ w.noiseUses 2 = .ok [103]) :=
  ⟨BenchDemo.dflt, BenchDemo.w.run BenchDemo.dflt [.alloc [11, 12, 13, 14, 15, 16, 17], .assign 0 4, .write 0 4 50, .byName 2 "FWHM_linewidth" 7],
    BenchDemo.reach.run _, ⟨⟨[11, 14, 15], [2, 3]⟩, by decide +kernel, by decide +kernel, rfl⟩,
    ⟨⟨[11, 14, 15], [2, 3]⟩, by decide +kernel, by decide +kernel, rfl⟩, by decide +kernel, by decide +kernel⟩

end Verif
