import Verif.Spec.Settings
import Mathlib.Order.Basic
import Mathlib.Tactic.ByContra
/-!
# Lemmas about parameter list objects
-/

namespace Verif
variable {V : Type}

theorem setAttrs_length (as : List (Option V)) (vs : List V) : (setAttrs as vs).length = as.length := by
  induction as generalizing vs with
  | nil => cases vs <;> rfl
  | cons a as ih => cases vs with
    | nil => rfl
    | cons v vs => simp [setAttrs, ih]

theorem setAttrs_get (as : List (Option V)) (vs : List V) (i : Nat) (h1 : i < as.length) (h2 : i < vs.length) :
    (setAttrs as vs)[i]? = some (vs[i]?) := by
  induction as generalizing vs i with
  | nil => simp at h1
  | cons a as ih => cases vs with
    | nil => simp at h2
    | cons v vs => cases i with
      | zero => simp [setAttrs]
      | succ i => simpa [setAttrs] using ih vs i (by simpa using h1) (by simpa using h2)

theorem readAttrs_values (as : List (Option V)) (l : List V) (is : List Nat)
    (h : ∀ i ∈ is, i < l.length ∧ as[i]? = some (l[i]?)) : ∃ vs, readAttrs as is = .ok vs ∧ ValuesAt vs l is := by
  induction is with
  | nil => exact ⟨[], rfl, rfl⟩
  | cons i is ih =>
    obtain ⟨vs, h1, h2⟩ := ih (fun j hj => h j (List.mem_cons_of_mem _ hj))
    obtain ⟨hl, ha⟩ := h i List.mem_cons_self
    rw [List.getElem?_eq_getElem hl] at ha
    refine ⟨l[i] :: vs, ?_, ?_⟩
    · simp [readAttrs, ha, h1]
    · unfold ValuesAt at h2 ⊢
      simp only [List.map_cons, h2, List.getElem?_eq_getElem hl]

theorem readList_values (l : List V) (is : List Nat) (h : ∀ i ∈ is, i < l.length) :
    ∃ vs, readList l is = .ok vs ∧ ValuesAt vs l is := by
  induction is with
  | nil => exact ⟨[], rfl, rfl⟩
  | cons i is ih =>
    obtain ⟨vs, h1, h2⟩ := ih (fun j hj => h j (List.mem_cons_of_mem _ hj))
    have hl := h i List.mem_cons_self
    refine ⟨l[i] :: vs, ?_, ?_⟩
    · simp [readList, h1, List.getElem?_eq_getElem hl]
    · unfold ValuesAt at h2 ⊢
      simp only [List.map_cons, h2, List.getElem?_eq_getElem hl]

theorem reads_lt (k : PartKind) : ∀ i ∈ k.reads, i < k.names.length := by
  cases k <;> simp [PartKind.reads, PartKind.names]

theorem noiseReads_lt (k : PartKind) : ∀ i ∈ k.noiseReads, i < k.names.length := by
  cases k <;> simp [PartKind.noiseReads, PartKind.names]

theorem filterReads_lt (k : PartKind) : ∀ i ∈ k.filterReads, i < k.names.length := by
  cases k <;> simp [PartKind.filterReads, PartKind.names]

/-! ### Invariant -/

/-- What holds of each component. -/
structure BenchPart.Sound (w : Bench V) (q : BenchPart V) : Prop where
  attrs : q.attrs.length = q.kind.names.length
  list : q.list < w.lists.length
  dflt : q.dflt < w.lists.length
  serial : ∀ s vs, q.noise = some (s, vs) → s < w.serial
  noisy : q.noise.isSome = q.kind.noisy

/-- What holds of every reachable state. -/
def Bench.Sound (w : Bench V) : Prop := ∀ (p : Nat) (q : BenchPart V), w.parts[p]? = some q → BenchPart.Sound w q

theorem BenchPart.Sound.mono {w w' : Bench V} {q : BenchPart V} (h : BenchPart.Sound w q) (hl : w.lists.length ≤ w'.lists.length)
    (hs : w.serial ≤ w'.serial) : BenchPart.Sound w' q :=
  ⟨h.attrs, Nat.lt_of_lt_of_le h.list hl, Nat.lt_of_lt_of_le h.dflt hl, fun s vs e => Nat.lt_of_lt_of_le (h.serial s vs e) hs, h.noisy⟩

theorem poke_lists_length (w : Bench V) (r i : Nat) (v : V) : (w.poke r i v).1.lists.length = w.lists.length := by
  unfold Bench.poke; split <;> simp

theorem poke_parts (w : Bench V) (r i : Nat) (v : V) : (w.poke r i v).1.parts = w.parts := by
  unfold Bench.poke; split <;> rfl

theorem poke_serial (w : Bench V) (r i : Nat) (v : V) : (w.poke r i v).1.serial = w.serial := by
  unfold Bench.poke; split <;> rfl

theorem deref_lt {w : Bench V} {r i : Nat} (h : i < (w.deref r).length) : r < w.lists.length := by
  by_contra hc
  have : w.lists[r]? = none := List.getElem?_eq_none (by omega)
  simp [Bench.deref, this] at h

theorem poke_deref_ne (w : Bench V) (r i : Nat) (v : V) (r' : Nat) (h : r' ≠ r) : (w.poke r i v).1.deref r' = w.deref r' := by
  unfold Bench.poke; split
  · simp [Bench.deref, List.getElem?_set_ne (Ne.symm h)]
  · rfl

theorem poke_deref_eq (w : Bench V) (r i : Nat) (v : V) : (w.poke r i v).1.deref r = (w.deref r).set i v := by
  unfold Bench.poke; split
  · rename_i h
    simp [Bench.deref, List.getElem?_set_self (deref_lt h)]
  · rename_i h
    rw [List.set_eq_of_length_le (by omega)]

theorem pokeNames_frame (ns : List String) (r : Nat) (l : List (String × V)) (w : Bench V) :
    (w.pokeNames ns r l).1.parts = w.parts ∧ (w.pokeNames ns r l).1.serial = w.serial
      ∧ (w.pokeNames ns r l).1.lists.length = w.lists.length ∧ ∀ r', r' ≠ r → (w.pokeNames ns r l).1.deref r' = w.deref r' := by
  induction l generalizing w with
  | nil => exact ⟨rfl, rfl, rfl, fun _ _ => rfl⟩
  | cons e rest ih =>
    obtain ⟨name, v⟩ := e
    simp only [Bench.pokeNames]
    cases hn : nameIndex ns name with
    | error e => exact ⟨rfl, rfl, rfl, fun _ _ => rfl⟩
    | ok i =>
      dsimp only
      have h1 := poke_parts w r i v
      have h2 := poke_serial w r i v
      have h3 := poke_lists_length w r i v
      have h4 := poke_deref_ne w r i v
      rcases hp : w.poke r i v with ⟨w1, res⟩
      rw [hp] at h1 h2 h3 h4
      cases res with
      | error e => exact ⟨h1, h2, h3, fun r' hr => h4 r' hr⟩
      | ok _ =>
        obtain ⟨i1, i2, i3, i4⟩ := ih w1
        exact ⟨i1.trans h1, i2.trans h2, i3.trans h3, fun r' hr => (i4 r' hr).trans (h4 r' hr)⟩

theorem renew_ok {w : Bench V} {q : BenchPart V} {w1 : Bench V} {q1 : BenchPart V} (h : w.renew q = .ok (w1, q1)) :
    ∃ vs, noiseValues q.kind q.attrs (w.deref q.list) = .ok vs ∧ w1 = { w with serial := w.serial + 1 }
      ∧ q1 = { q with noise := some (w.serial, vs) } := by
  unfold Bench.renew at h
  cases hv : noiseValues q.kind q.attrs (w.deref q.list) with
  | error e => rw [hv] at h; simp at h
  | ok vs => rw [hv] at h; simp at h; exact ⟨vs, rfl, h.1.symm, h.2.symm⟩

theorem initParams_frame (D : Defaults V) (w : Bench V) (k : PartKind) (g : Given V) :
    w.lists.length ≤ (w.initParams D k g).1.lists.length ∧ (w.initParams D k g).1.serial = w.serial
    ∧ (w.initParams D k g).1.parts = w.parts
    ∧ (∀ r, r < w.lists.length → (w.initParams D k g).1.deref r = w.deref r)
    ∧ (∀ r, (w.initParams D k g).2 = .ok r → w.lists.length < (w.initParams D k g).1.lists.length
        ∧ ((g = .list r ∧ r < w.lists.length) ∨ ((∀ r', g ≠ .list r') ∧ r = w.lists.length))) := by
  have old : ∀ r, r < w.lists.length → (⟨w.lists ++ [D.vals k], w.parts, w.serial⟩ : Bench V).deref r = w.deref r := by
    intro r hr
    simp [Bench.deref, List.getElem?_append_left hr]
  cases g with
  | nothing =>
    refine ⟨by simp [Bench.initParams], rfl, rfl, old, ?_⟩
    intro r h
    simp only [Bench.initParams, Except.ok.injEq] at h
    exact ⟨by simp [Bench.initParams], Or.inr ⟨by simp, h.symm⟩⟩
  | list r0 =>
    unfold Bench.initParams
    dsimp only
    split
    · exact ⟨Nat.le_refl _, rfl, rfl, fun _ _ => rfl, fun r h => by simp at h⟩
    · rename_i hr
      refine ⟨by simp, rfl, rfl, old, ?_⟩
      intro r h
      simp only [Except.ok.injEq] at h
      exact ⟨by simp, Or.inl ⟨by rw [h], by omega⟩⟩
  | names l =>
    obtain ⟨h1, h2, h3, h4⟩ := pokeNames_frame k.names w.lists.length l (⟨w.lists ++ [D.vals k], w.parts, w.serial⟩ : Bench V)
    unfold Bench.initParams
    dsimp only
    rcases hp : (⟨w.lists ++ [D.vals k], w.parts, w.serial⟩ : Bench V).pokeNames k.names w.lists.length l with ⟨w1, res⟩
    rw [hp] at h1 h2 h3 h4
    have hd : ∀ r, r < w.lists.length → w1.deref r = w.deref r := fun r hr => (h4 r (by omega)).trans (old r hr)
    have hl : w1.lists.length = w.lists.length + 1 := by simpa using h3
    cases res with
    | error e => exact ⟨by dsimp only; omega, h2, h1, hd, fun r h => by simp at h⟩
    | ok u =>
      refine ⟨by dsimp only; omega, h2, h1, hd, ?_⟩
      intro r h
      simp only [Except.ok.injEq] at h
      exact ⟨by dsimp only; omega, Or.inr ⟨by simp, h.symm⟩⟩

theorem builtAttrs_length (D : Defaults V) (k : PartKind) (l : List V) : (builtAttrs D k l).length = k.names.length := by
  unfold builtAttrs
  cases k <;> simp [PartKind.assignsFirst, setAttrs_length]

/-- Attributes of a class that sets them in the constructor. -/
theorem builtAttrs_get (D : Defaults V) (k : PartKind) (l : List V) (h1 : k ≠ .phaseMod) (h2 : ∀ ns, k ≠ .plain ns) (i : Nat)
    (hi : i < k.names.length) (hl : i < l.length) : (builtAttrs D k l)[i]? = some (l[i]?) := by
  unfold builtAttrs
  cases k with
  | phaseMod => exact absurd rfl h1
  | plain ns => exact absurd rfl (h2 ns)
  | _ =>
    dsimp only
    refine setAttrs_get _ _ _ ?_ hl
    simpa [PartKind.assignsFirst, setAttrs_length] using hi

/-- What a successful constructor has made. -/
structure Built (D : Defaults V) (w w' : Bench V) (k : PartKind) (g : Given V) (q : BenchPart V) : Prop where
  kind : q.kind = k
  given : (g = .list q.list ∧ q.list < w.lists.length) ∨ ((∀ r', g ≠ .list r') ∧ q.list = w.lists.length)
  dflt : q.dflt = w.lists.length
  attrs : q.attrs = builtAttrs D k (w'.deref q.list)
  filt : readAttrs q.attrs k.filterReads = .ok q.filt
  noise : (k.noisy = false ∧ q.noise = none) ∨ (k.noisy = true ∧ ∃ vs, q.noise = some (w.serial, vs) ∧ w'.serial = w.serial + 1
    ∧ noiseValues k q.attrs (w'.deref q.list) = .ok vs)
  more : w.lists.length < w'.lists.length
  last : q.last = none

/-- A constructor only adds. -/
theorem make_frame (D : Defaults V) (w : Bench V) (k : PartKind) (g : Given V) :
    w.lists.length ≤ (w.make D k g).1.lists.length ∧ w.serial ≤ (w.make D k g).1.serial
    ∧ (∀ r, r < w.lists.length → (w.make D k g).1.deref r = w.deref r)
    ∧ (((w.make D k g).1.parts = w.parts ∧ ∃ e, (w.make D k g).2 = .error e)
      ∨ ∃ q, (w.make D k g).1.parts = w.parts ++ [q] ∧ (w.make D k g).2 = .ok w.parts.length
          ∧ Built D w (w.make D k g).1 k g q) := by
  obtain ⟨h1, h2, h3, h4, h5⟩ := initParams_frame D w k g
  unfold Bench.make
  rcases hp : w.initParams D k g with ⟨w1, res⟩
  rw [hp] at h1 h2 h3 h4 h5
  cases res with
  | error e => exact ⟨h1, by dsimp only at *; omega, h4, Or.inl ⟨h3, e, rfl⟩⟩
  | ok r =>
    obtain ⟨h6, h7⟩ := h5 r rfl
    dsimp only at *
    cases hf : readAttrs (builtAttrs D k (w1.deref r)) k.filterReads with
    | error e => exact ⟨h1, by dsimp only; omega, h4, Or.inl ⟨h3, e, rfl⟩⟩
    | ok fs =>
      dsimp only
      cases hn : k.noisy with
      | false =>
        simp only [Bool.false_eq_true, if_false]
        exact ⟨h1, by omega, h4, Or.inr ⟨_, by rw [h3], by rw [h3], rfl, h7, rfl, rfl, hf, Or.inl ⟨hn, rfl⟩, h6, rfl⟩⟩
      | true =>
        simp only [if_true]
        rcases hr : w1.renew ⟨k, r, w.lists.length, builtAttrs D k (w1.deref r), none, fs, none⟩ with e | ⟨w2, q2⟩
        · exact ⟨h1, by dsimp only; omega, h4, Or.inl ⟨h3, e, rfl⟩⟩
        · obtain ⟨vs, e1, e2, e3⟩ := renew_ok hr
          dsimp only at e1
          subst e2 e3
          dsimp only
          refine ⟨h1, by omega, h4, Or.inr ⟨_, by rw [h3], by rw [h3], rfl, h7, rfl, rfl, hf, Or.inr ⟨hn, vs, by rw [h2], by rw [h2], e1⟩, h6, rfl⟩⟩

theorem parts_append_get {ps : List (BenchPart V)} {x q : BenchPart V} {p : Nat} (h : (ps ++ [x])[p]? = some q) : ps[p]? = some q ∨ (p = ps.length ∧ q = x) := by
  rcases Nat.lt_trichotomy p ps.length with hp | hp | hp
  · rw [List.getElem?_append_left hp] at h; exact Or.inl h
  · subst hp; rw [List.getElem?_append_right (Nat.le_refl _)] at h; simp at h; exact Or.inr ⟨rfl, h.symm⟩
  · rw [List.getElem?_eq_none (by simp; omega)] at h; simp at h

theorem Built.sound {D : Defaults V} {w w' : Bench V} {k : PartKind} {g : Given V} {q : BenchPart V} (h : Built D w w' k g q) : BenchPart.Sound w' q := by
  have hm := h.more
  refine ⟨?_, ?_, ?_, ?_, ?_⟩
  · rw [h.attrs, builtAttrs_length, h.kind]
  · rcases h.given with hg | hg <;> omega
  · rw [h.dflt]; exact hm
  · intro s vs e
    rcases h.noise with hn | ⟨_, vs', hn, hs, _⟩
    · rw [hn.2] at e; simp at e
    · rw [hn] at e; simp at e; omega
  · rcases h.noise with hn | ⟨hn, vs', hn', _⟩
    · rw [hn.2, h.kind, hn.1]; rfl
    · rw [hn', h.kind, hn]; rfl

theorem make_sound (D : Defaults V) (w : Bench V) (k : PartKind) (g : Given V) (h : w.Sound) : (w.make D k g).1.Sound := by
  obtain ⟨h1, h2, h3, h4⟩ := make_frame D w k g
  intro p q hq
  rcases h4 with ⟨h4, _⟩ | ⟨x, h4, _, hx⟩
  · rw [h4] at hq; exact (h p q hq).mono h1 h2
  · rw [h4] at hq
    rcases parts_append_get hq with hq | ⟨_, rfl⟩
    · exact (h p q hq).mono h1 h2
    · exact hx.sound

theorem poke_sound (w : Bench V) (r i : Nat) (v : V) (h : w.Sound) : (w.poke r i v).1.Sound := by
  intro p q hq
  rw [poke_parts] at hq
  exact (h p q hq).mono (Nat.le_of_eq (poke_lists_length w r i v).symm) (Nat.le_of_eq (poke_serial w r i v).symm)

theorem parts_set_get {ps : List (BenchPart V)} {x q : BenchPart V} {p p' : Nat} (h : (ps.set p' x)[p]? = some q) :
    (p ≠ p' ∧ ps[p]? = some q) ∨ (p = p' ∧ q = x) := by
  by_cases e : p' = p
  · subst e
    by_cases hl : p' < ps.length
    · rw [List.getElem?_set_self hl] at h; simp at h; exact Or.inr ⟨rfl, h.symm⟩
    · rw [List.getElem?_eq_none (by simp; omega)] at h; simp at h
  · rw [List.getElem?_set_ne e] at h; exact Or.inl ⟨fun h => e h.symm, h⟩

/-- The three outcomes of the setter. -/
theorem assign_cases (w : Bench V) (p : Nat) (r : Nat) :
    ((w.parts[p]? = none ∨ w.lists.length ≤ r) ∧ w.assign p r = (w, .error .nameError))
    ∨ ∃ q, w.parts[p]? = some q ∧ r < w.lists.length
      ∧ ((q.kind.renewsNoise = false ∧ w.assign p r = ({ w with parts := w.parts.set p { q with list := r, attrs := setAttrs q.attrs (w.deref r) } }, .ok ()))
        ∨ (q.kind.renewsNoise = true ∧ ((∃ e, noiseValues q.kind (setAttrs q.attrs (w.deref r)) (w.deref r) = .error e
            ∧ w.assign p r = ({ w with parts := w.parts.set p { q with list := r, attrs := setAttrs q.attrs (w.deref r) } }, .error e))
          ∨ ∃ vs, noiseValues q.kind (setAttrs q.attrs (w.deref r)) (w.deref r) = .ok vs
            ∧ w.assign p r = (⟨w.lists, w.parts.set p ({ q with list := r, attrs := setAttrs q.attrs (w.deref r), noise := some (w.serial, vs) } : BenchPart V),
                w.serial + 1⟩, .ok ())))) := by
  unfold Bench.assign
  cases hq : w.parts[p]? with
  | none => exact Or.inl ⟨Or.inl rfl, rfl⟩
  | some q =>
    dsimp only
    by_cases hr : w.lists.length ≤ r
    · rw [if_pos hr]; exact Or.inl ⟨Or.inr hr, rfl⟩
    · rw [if_neg hr]
      refine Or.inr ⟨q, rfl, by omega, ?_⟩
      cases hk : q.kind.renewsNoise with
      | false => exact Or.inl ⟨rfl, by simp⟩
      | true =>
        refine Or.inr ⟨rfl, ?_⟩
        simp only [if_true, Bench.renew]
        cases hv : noiseValues q.kind (setAttrs q.attrs (w.deref r)) (w.deref r) with
        | error e => exact Or.inl ⟨e, rfl, rfl⟩
        | ok vs => exact Or.inr ⟨vs, rfl, rfl⟩

theorem noisy_of_renews {k : PartKind} (h : k.renewsNoise = true) : k.noisy = true := by cases k <;> simp_all [PartKind.renewsNoise, PartKind.noisy]

theorem assign_sound (w : Bench V) (p : Nat) (r : Nat) (h : w.Sound) : (w.assign p r).1.Sound := by
  rcases assign_cases w p r with ⟨_, e⟩ | ⟨q, hq, hr, hc⟩
  · rw [e]; exact h
  · have hs := h p q hq
    have base : BenchPart.Sound w { q with list := r, attrs := setAttrs q.attrs (w.deref r) } :=
      ⟨by rw [setAttrs_length]; exact hs.attrs, hr, hs.dflt, hs.serial, hs.noisy⟩
    rcases hc with ⟨_, e⟩ | ⟨hk, ⟨_, _, e⟩ | ⟨vs, _, e⟩⟩
    · rw [e]; intro p' q' h'
      rcases parts_set_get h' with ⟨_, h'⟩ | ⟨_, rfl⟩
      · exact (h p' q' h').mono (Nat.le_refl _) (Nat.le_refl _)
      · exact base.mono (Nat.le_refl _) (Nat.le_refl _)
    · rw [e]; intro p' q' h'
      rcases parts_set_get h' with ⟨_, h'⟩ | ⟨_, rfl⟩
      · exact (h p' q' h').mono (Nat.le_refl _) (Nat.le_refl _)
      · exact base.mono (Nat.le_refl _) (Nat.le_refl _)
    · rw [e]; intro p' q' h'
      rcases parts_set_get h' with ⟨_, h'⟩ | ⟨_, rfl⟩
      · exact (h p' q' h').mono (Nat.le_refl _) (by simp)
      · refine ⟨base.attrs, base.list, base.dflt, ?_, ?_⟩
        · intro s us e'
          simp only [Option.some.injEq, Prod.mk.injEq] at e'
          have := e'.1
          dsimp only; omega
        · dsimp only; rw [noisy_of_renews hk]; rfl

/-- The outcomes of `propagate`. -/
theorem propagate_cases (w : Bench V) (p : Nat) :
    (w.parts[p]? = none ∧ w.propagate p = (w, .error .nameError))
    ∨ ∃ q, w.parts[p]? = some q ∧ ∃ a la, (a = q.attrs ∨ (q.kind.mode = .refreshed ∧ a = setAttrs q.attrs (w.deref q.list)))
      ∧ (w.propagate p).1 = { w with parts := w.parts.set p { q with attrs := a, last := la } } := by
  unfold Bench.propagate
  cases hq : w.parts[p]? with
  | none => exact Or.inl ⟨rfl, rfl⟩
  | some q =>
    refine Or.inr ⟨q, rfl, ?_⟩
    dsimp only
    by_cases hm : q.kind.mode = .refreshed
    · rw [if_pos hm]
      split
      · exact ⟨_, q.last, Or.inr ⟨hm, rfl⟩, rfl⟩
      · exact ⟨_, _, Or.inr ⟨hm, rfl⟩, rfl⟩
    · rw [if_neg hm]
      split
      · exact ⟨_, q.last, Or.inl rfl, rfl⟩
      · exact ⟨_, _, Or.inl rfl, rfl⟩

theorem propagate_sound (w : Bench V) (p : Nat) (h : w.Sound) : (w.propagate p).1.Sound := by
  rcases propagate_cases w p with ⟨_, e⟩ | ⟨q, hq, a, la, ha, e⟩
  · rw [e]; exact h
  · rw [e]; intro p' q' h'
    have hs := h p q hq
    rcases parts_set_get h' with ⟨_, h'⟩ | ⟨_, rfl⟩
    · exact (h p' q' h').mono (Nat.le_refl _) (Nat.le_refl _)
    · refine ⟨?_, hs.list, hs.dflt, hs.serial, hs.noisy⟩
      rcases ha with rfl | ⟨_, rfl⟩
      · exact hs.attrs
      · dsimp only; rw [setAttrs_length]; exact hs.attrs

/-- The copy of a component. -/
theorem clone_cases (w : Bench V) (p : Nat) :
    (w.parts[p]? = none ∧ w.clone p = (w, .error .nameError))
    ∨ ∃ q, w.parts[p]? = some q ∧ ∃ d ls, (w.clone p).1 = ⟨w.lists ++ ls, w.parts ++
        [{ q with list := w.lists.length, dflt := d, noise := q.noise.map (fun nv => (w.serial, nv.2)) }], w.serial + 1⟩
      ∧ (w.clone p).2 = .ok w.parts.length ∧ ls[0]? = some (w.deref q.list) ∧ d < w.lists.length + ls.length := by
  unfold Bench.clone
  cases hq : w.parts[p]? with
  | none => exact Or.inl ⟨rfl, rfl⟩
  | some q =>
    refine Or.inr ⟨q, rfl, ?_⟩
    dsimp only
    split
    · exact ⟨_, [w.deref q.list], rfl, rfl, rfl, by simp⟩
    · exact ⟨w.lists.length + 1, [w.deref q.list, w.deref q.dflt], by simp, rfl, rfl, by simp⟩

theorem clone_sound (w : Bench V) (p : Nat) (h : w.Sound) : (w.clone p).1.Sound := by
  rcases clone_cases w p with ⟨_, e⟩ | ⟨q, hq, d, ls, e, _, h0, hd⟩
  · rw [e]; exact h
  · rw [e]; intro p' q' h'
    have hs := h p q hq
    have hl : 0 < ls.length := by
      rcases Nat.eq_zero_or_pos ls.length with hz | hz
      · rw [List.getElem?_eq_none (by omega)] at h0; simp at h0
      · exact hz
    rcases parts_append_get h' with h' | ⟨_, rfl⟩
    · exact (h p' q' h').mono (by simp) (by simp)
    · refine ⟨hs.attrs, by simp; omega, by simpa using hd, ?_, ?_⟩
      · intro s vs e'
        dsimp only at e' ⊢
        cases hn : q.noise with
        | none => rw [hn] at e'; simp at e'
        | some nv => rw [hn] at e'; simp at e'; omega
      · dsimp only; rw [Option.isSome_map]; exact hs.noisy

/-- The three ways of writing to a list object. -/
theorem write_poke (w : Bench V) (p i : Nat) (v : V) : (w.write p i v).1 = w ∨ ∃ r, (w.write p i v).1 = (w.poke r i v).1 := by
  unfold Bench.write
  split
  · exact Or.inl rfl
  · exact Or.inr ⟨_, rfl⟩

theorem byName_poke (w : Bench V) (p : Nat) (n : String) (v : V) : (w.byName p n v).1 = w ∨ ∃ r i, (w.byName p n v).1 = (w.poke r i v).1 := by
  unfold Bench.byName
  split
  · exact Or.inl rfl
  · split
    · exact Or.inl rfl
    · exact Or.inr ⟨_, _, rfl⟩

/-- `makePoints` is a constructor call, perhaps after a write to the list that was passed. -/
theorem makePoints_cases (D : Defaults V) (w : Bench V) (g : Given V) (x : V) :
    (∃ r e, g = .list r ∧ w.makePoints D g x = ((w.poke r 3 x).1, .error e))
    ∨ (∃ r, g = .list r ∧ (w.poke r 3 x).2 = .ok () ∧ w.makePoints D g x = (w.poke r 3 x).1.make D .phaseMod (.list r))
    ∨ (g = .nothing ∧ w.makePoints D g x = w.make D .phaseMod .nothing)
    ∨ ∃ l, g = .names l ∧ w.makePoints D g x = w.make D .phaseMod (.names (dictPut l "FWHM_linewidth" x)) := by
  cases g with
  | nothing => exact Or.inr (Or.inr (Or.inl ⟨rfl, rfl⟩))
  | names l => exact Or.inr (Or.inr (Or.inr ⟨l, rfl, rfl⟩))
  | list r =>
    unfold Bench.makePoints
    rcases hp : w.poke r 3 x with ⟨w1, res⟩
    cases res with
    | error e => exact Or.inl ⟨r, e, rfl, by simp [hp]⟩
    | ok u => exact Or.inr (Or.inl ⟨r, rfl, by simp [hp], by simp [hp]⟩)

theorem step_sound (D : Defaults V) (w : Bench V) (op : BenchOp V) (h : w.Sound) : (w.step D op).Sound := by
  cases op with
  | alloc vs => intro p q hq; exact (h p q hq).mono (by simp [Bench.step]) (Nat.le_refl _)
  | make k g => exact make_sound D w k g h
  | makePoints g x =>
    show (w.makePoints D g x).1.Sound
    rcases makePoints_cases D w g x with ⟨r, e, _, e'⟩ | ⟨r, _, _, e'⟩ | ⟨_, e'⟩ | ⟨l, _, e'⟩
    · rw [e']; exact poke_sound w r 3 x h
    · rw [e']; exact make_sound D _ _ _ (poke_sound w r 3 x h)
    · rw [e']; exact make_sound D _ _ _ h
    · rw [e']; exact make_sound D _ _ _ h
  | assign p r => exact assign_sound w p r h
  | write p i v =>
    show (w.write p i v).1.Sound
    rcases write_poke w p i v with e | ⟨r, e⟩
    · rw [e]; exact h
    · rw [e]; exact poke_sound w r i v h
  | byName p n v =>
    show (w.byName p n v).1.Sound
    rcases byName_poke w p n v with e | ⟨r, i, e⟩
    · rw [e]; exact h
    · rw [e]; exact poke_sound w r i v h
  | poke r i v => exact poke_sound w r i v h
  | propagate p => exact propagate_sound w p h
  | clone p => exact clone_sound w p h

theorem run_sound (D : Defaults V) (w : Bench V) (ops : List (BenchOp V)) (h : w.Sound) : (w.run D ops).Sound := by
  induction ops generalizing w with
  | nil => exact h
  | cons op ops ih => exact ih (w.step D op) (step_sound D w op h)

theorem Bench.Reachable.sound {D : Defaults V} {w : Bench V} (h : w.Reachable D) : w.Sound := by
  obtain ⟨ops, rfl⟩ := h
  exact run_sound D _ ops (by intro p q hq; simp at hq)

theorem run_cons (D : Defaults V) (w : Bench V) (op : BenchOp V) (ops : List (BenchOp V)) : w.run D (op :: ops) = (w.step D op).run D ops := rfl

theorem Bench.Reachable.step {D : Defaults V} {w : Bench V} (h : w.Reachable D) (op : BenchOp V) : (w.step D op).Reachable D := by
  obtain ⟨ops, rfl⟩ := h
  exact ⟨ops ++ [op], by simp [Bench.run, List.foldl_append]⟩

theorem Bench.Reachable.run {D : Defaults V} {w : Bench V} (h : w.Reachable D) (ops : List (BenchOp V)) : (w.run D ops).Reachable D := by
  obtain ⟨ops', rfl⟩ := h
  exact ⟨ops' ++ ops, by simp [Bench.run, List.foldl_append]⟩

/-! ### What a history leaves of a component -/

/-- KeptPart by every event. -/
structure KeptPart (q q' : BenchPart V) : Prop where
  kind : q'.kind = q.kind
  dflt : q'.dflt = q.dflt
  filt : q'.filt = q.filt
  noise : q.kind.renewsNoise = false → q'.noise = q.noise

/-- KeptPart by every event that does not assign. -/
structure HeldPart (q q' : BenchPart V) : Prop extends KeptPart q q' where
  list : q'.list = q.list
  same : q'.noise = q.noise
  attrs : q.kind.mode ≠ .refreshed → q'.attrs = q.attrs

theorem KeptPart.refl (q : BenchPart V) : KeptPart q q := ⟨rfl, rfl, rfl, fun _ => rfl⟩
theorem HeldPart.refl (q : BenchPart V) : HeldPart q q := ⟨KeptPart.refl q, rfl, rfl, fun _ => rfl⟩
theorem KeptPart.trans {a b c : BenchPart V} (h1 : KeptPart a b) (h2 : KeptPart b c) : KeptPart a c :=
  ⟨h2.kind.trans h1.kind, h2.dflt.trans h1.dflt, h2.filt.trans h1.filt, fun h => (h2.noise (by rw [h1.kind]; exact h)).trans (h1.noise h)⟩
theorem HeldPart.trans {a b c : BenchPart V} (h1 : HeldPart a b) (h2 : HeldPart b c) : HeldPart a c :=
  ⟨h1.toKeptPart.trans h2.toKeptPart, h2.list.trans h1.list, h2.same.trans h1.same, fun h => (h2.attrs (by rw [h1.kind]; exact h)).trans (h1.attrs h)⟩

theorem make_held (D : Defaults V) (w : Bench V) (k : PartKind) (g : Given V) (p : Nat) (q : BenchPart V) (hq : w.parts[p]? = some q) :
    (w.make D k g).1.parts[p]? = some q := by
  have hp : p < w.parts.length := (List.getElem?_eq_some_iff.mp hq).1
  obtain ⟨_, _, _, ⟨h4, _⟩ | ⟨x, h4, _, _⟩⟩ := make_frame D w k g
  · rw [h4]; exact hq
  · rw [h4, List.getElem?_append_left hp]; exact hq

theorem step_held (D : Defaults V) (w : Bench V) (op : BenchOp V) (p : Nat) (q : BenchPart V) (hq : w.parts[p]? = some q)
    (hop : ∀ r, op ≠ .assign p r) : ∃ q', (w.step D op).parts[p]? = some q' ∧ HeldPart q q' := by
  have hp : p < w.parts.length := (List.getElem?_eq_some_iff.mp hq).1
  cases op with
  | alloc vs => exact ⟨q, hq, HeldPart.refl q⟩
  | make k g => exact ⟨q, make_held D w k g p q hq, HeldPart.refl q⟩
  | makePoints g x =>
    refine ⟨q, ?_, HeldPart.refl q⟩
    show (w.makePoints D g x).1.parts[p]? = some q
    rcases makePoints_cases D w g x with ⟨r, e, _, e'⟩ | ⟨r, _, _, e'⟩ | ⟨_, e'⟩ | ⟨l, _, e'⟩
    · rw [e']; dsimp only; rw [poke_parts]; exact hq
    · rw [e']; exact make_held D _ _ _ p q (by rw [poke_parts]; exact hq)
    · rw [e']; exact make_held D _ _ _ p q hq
    · rw [e']; exact make_held D _ _ _ p q hq
  | assign p' r =>
    have hne : p' ≠ p := fun e => hop r (by rw [e])
    refine ⟨q, ?_, HeldPart.refl q⟩
    show (w.assign p' r).1.parts[p]? = some q
    rcases assign_cases w p' r with ⟨_, e⟩ | ⟨q', hq', hr, ⟨_, e⟩ | ⟨_, ⟨_, _, e⟩ | ⟨vs, _, e⟩⟩⟩
    · rw [e]; exact hq
    all_goals rw [e]; dsimp only; rw [List.getElem?_set_ne hne]; exact hq
  | write p' i v =>
    refine ⟨q, ?_, HeldPart.refl q⟩
    show (w.write p' i v).1.parts[p]? = some q
    rcases write_poke w p' i v with e | ⟨r, e⟩
    · rw [e]; exact hq
    · rw [e, poke_parts]; exact hq
  | byName p' n v =>
    refine ⟨q, ?_, HeldPart.refl q⟩
    show (w.byName p' n v).1.parts[p]? = some q
    rcases byName_poke w p' n v with e | ⟨r, i, e⟩
    · rw [e]; exact hq
    · rw [e, poke_parts]; exact hq
  | poke r i v => exact ⟨q, by show (w.poke r i v).1.parts[p]? = some q; rw [poke_parts]; exact hq, HeldPart.refl q⟩
  | propagate p' =>
    show ∃ q', (w.propagate p').1.parts[p]? = some q' ∧ HeldPart q q'
    rcases propagate_cases w p' with ⟨_, e⟩ | ⟨q', hq', a, la, ha, e⟩
    · rw [e]; exact ⟨q, hq, HeldPart.refl q⟩
    · rw [e]; dsimp only
      by_cases hpp : p' = p
      · subst hpp
        rw [hq] at hq'
        simp only [Option.some.injEq] at hq'
        subst hq'
        refine ⟨_, List.getElem?_set_self hp, ⟨⟨rfl, rfl, rfl, fun _ => rfl⟩, rfl, rfl, ?_⟩⟩
        intro hm
        rcases ha with ha | ⟨hm', _⟩
        · exact ha
        · exact absurd hm' hm
      · exact ⟨q, by rw [List.getElem?_set_ne hpp]; exact hq, HeldPart.refl q⟩
  | clone p' =>
    show ∃ q', (w.clone p').1.parts[p]? = some q' ∧ HeldPart q q'
    rcases clone_cases w p' with ⟨_, e⟩ | ⟨q', hq', d, ls, e, _⟩
    · rw [e]; exact ⟨q, hq, HeldPart.refl q⟩
    · rw [e]; exact ⟨q, by dsimp only; rw [List.getElem?_append_left hp]; exact hq, HeldPart.refl q⟩

theorem step_kept (D : Defaults V) (w : Bench V) (op : BenchOp V) (p : Nat) (q : BenchPart V) (hq : w.parts[p]? = some q) :
    ∃ q', (w.step D op).parts[p]? = some q' ∧ KeptPart q q' := by
  by_cases hop : ∀ r, op ≠ .assign p r
  · obtain ⟨q', h1, h2⟩ := step_held D w op p q hq hop
    exact ⟨q', h1, h2.toKeptPart⟩
  · have : ∃ r, op = .assign p r := by
      by_contra hc
      exact hop (fun r e => hc ⟨r, e⟩)
    obtain ⟨r, rfl⟩ := this
    have hp : p < w.parts.length := (List.getElem?_eq_some_iff.mp hq).1
    show ∃ q', (w.assign p r).1.parts[p]? = some q' ∧ KeptPart q q'
    rcases assign_cases w p r with ⟨_, e⟩ | ⟨q', hq', hr, hc⟩
    · rw [e]; exact ⟨q, hq, KeptPart.refl q⟩
    · rw [hq] at hq'
      simp only [Option.some.injEq] at hq'
      subst hq'
      rcases hc with ⟨_, e⟩ | ⟨hk, ⟨_, _, e⟩ | ⟨vs, _, e⟩⟩
      · rw [e]; exact ⟨_, List.getElem?_set_self hp, ⟨rfl, rfl, rfl, fun _ => rfl⟩⟩
      · rw [e]; exact ⟨_, List.getElem?_set_self hp, ⟨rfl, rfl, rfl, fun _ => rfl⟩⟩
      · rw [e]; exact ⟨_, List.getElem?_set_self hp, ⟨rfl, rfl, rfl, fun h => by rw [hk] at h; simp at h⟩⟩

theorem run_kept (D : Defaults V) (w : Bench V) (ops : List (BenchOp V)) (p : Nat) (q : BenchPart V) (hq : w.parts[p]? = some q) :
    ∃ q', (w.run D ops).parts[p]? = some q' ∧ KeptPart q q' := by
  induction ops generalizing w q with
  | nil => exact ⟨q, hq, KeptPart.refl q⟩
  | cons op ops ih =>
    obtain ⟨q1, h1, h2⟩ := step_kept D w op p q hq
    obtain ⟨q2, h3, h4⟩ := ih (w.step D op) q1 h1
    exact ⟨q2, h3, h2.trans h4⟩

theorem run_held (D : Defaults V) (w : Bench V) (ops : List (BenchOp V)) (p : Nat) (q : BenchPart V) (hq : w.parts[p]? = some q)
    (hno : NoAssign p ops) : ∃ q', (w.run D ops).parts[p]? = some q' ∧ HeldPart q q' := by
  induction ops generalizing w q with
  | nil => exact ⟨q, hq, HeldPart.refl q⟩
  | cons op ops ih =>
    obtain ⟨q1, h1, h2⟩ := step_held D w op p q hq (fun r e => hno r (by rw [e]; exact List.mem_cons_self))
    obtain ⟨q2, h3, h4⟩ := ih (w.step D op) q1 h1 (fun r h => hno r (List.mem_cons_of_mem _ h))
    exact ⟨q2, h3, h2.trans h4⟩

theorem nameIndex_ok {ns : List String} {n : String} {i : Nat} (h : nameIndex ns n = .ok i) : ns[i]? = some n ∧ ∀ j, ns[j]? = some n → i ≤ j := by
  unfold nameIndex at h
  cases hf : ns.findIdx? (· = n) with
  | none => rw [hf] at h; simp at h
  | some j =>
    rw [hf] at h
    simp only [Except.ok.injEq] at h
    subst h
    rw [List.findIdx?_eq_some_iff_getElem] at hf
    obtain ⟨h1, h2, h3⟩ := hf
    refine ⟨by rw [List.getElem?_eq_getElem h1]; simpa using h2, ?_⟩
    intro i hi
    by_contra hc
    have hlt : i < j := by omega
    have := h3 i hlt
    rw [List.getElem?_eq_getElem (by omega)] at hi
    simp at hi this
    exact this hi

theorem nameIndex_error {ns : List String} {n : String} (h : n ∉ ns) : nameIndex ns n = .error .valueError := by
  unfold nameIndex
  have : ns.findIdx? (· = n) = none := by
    rw [List.findIdx?_eq_none_iff]
    intro x hx
    have : x ≠ n := fun e => h (e ▸ hx)
    simpa using this
  rw [this]

theorem nameIndex_mem {ns : List String} {n : String} (h : n ∈ ns) : ∃ i, nameIndex ns n = .ok i := by
  unfold nameIndex
  cases hf : ns.findIdx? (· = n) with
  | none =>
    rw [List.findIdx?_eq_none_iff] at hf
    have := hf n h
    simp at this
  | some i => exact ⟨i, rfl⟩

theorem pokeNames_length (ns : List String) (r : Nat) (l : List (String × V)) (w : Bench V) :
    ((w.pokeNames ns r l).1.deref r).length = (w.deref r).length := by
  induction l generalizing w with
  | nil => rfl
  | cons e rest ih =>
    obtain ⟨name, v⟩ := e
    simp only [Bench.pokeNames]
    cases hn : nameIndex ns name with
    | error e => rfl
    | ok i =>
      dsimp only
      have h1 : ((w.poke r i v).1.deref r).length = (w.deref r).length := by rw [poke_deref_eq]; simp
      rcases hp : w.poke r i v with ⟨w1, res⟩
      rw [hp] at h1
      cases res with
      | error e => exact h1
      | ok _ => exact (ih w1).trans h1

theorem deref_new (w : Bench V) (x : List V) : (⟨w.lists ++ [x], w.parts, w.serial⟩ : Bench V).deref w.lists.length = x := by
  simp [Bench.deref]

theorem initParams_length (D : Defaults V) (w : Bench V) (k : PartKind) (g : Given V) (r : Nat) (h : (w.initParams D k g).2 = .ok r)
    (hl : ∀ r, g = .list r → k.names.length ≤ (w.deref r).length) : k.names.length ≤ ((w.initParams D k g).1.deref r).length := by
  obtain ⟨_, _, _, h4, h5⟩ := initParams_frame D w k g
  obtain ⟨_, hc⟩ := h5 r h
  rcases hc with ⟨hg, hr⟩ | ⟨hg, hr⟩
  · rw [h4 r hr]; exact hl r hg
  · subst hr
    cases g with
    | list r => exact absurd rfl (hg r)
    | nothing => simp [Bench.initParams, deref_new, D.full]
    | names l =>
      have hn := pokeNames_length k.names w.lists.length l (⟨w.lists ++ [D.vals k], w.parts, w.serial⟩ : Bench V)
      rw [deref_new, D.full] at hn
      unfold Bench.initParams
      dsimp only
      rcases hp : (⟨w.lists ++ [D.vals k], w.parts, w.serial⟩ : Bench V).pokeNames k.names w.lists.length l with ⟨w1, res⟩
      rw [hp] at hn
      cases res <;> exact Nat.le_of_eq hn.symm

theorem make_length (D : Defaults V) (w : Bench V) (k : PartKind) (g : Given V) (q : BenchPart V) (p : Nat) (hok : (w.make D k g).2 = .ok p)
    (hq : (w.make D k g).1.parts[p]? = some q) (hp : p = w.parts.length)
    (hl : ∀ r, g = .list r → k.names.length ≤ (w.deref r).length) : k.names.length ≤ ((w.make D k g).1.deref q.list).length := by
  obtain ⟨_, _, h3, _⟩ := initParams_frame D w k g
  have hlen := fun r h => initParams_length D w k g r h hl
  unfold Bench.make at hok hq ⊢
  rcases hi : w.initParams D k g with ⟨w1, res⟩
  rw [hi] at hlen hok hq h3 
  cases res with
  | error e => simp at hok
  | ok r =>
    have hr := hlen r rfl
    dsimp only at hok hq hr h3 ⊢
    cases hf : readAttrs (builtAttrs D k (w1.deref r)) k.filterReads with
    | error e => rw [hf] at hok; simp at hok
    | ok fs =>
      rw [hf] at hok hq
      dsimp only at hok hq ⊢
      cases hn : k.noisy with
      | false =>
        simp only [hn, Bool.false_eq_true, if_false] at hq ⊢
        subst hp
        rw [h3] at hq
        simp only [List.getElem?_concat_length, Option.some.injEq] at hq
        subst hq
        exact hr
      | true =>
        simp only [hn, if_true] at hq hok ⊢
        rcases hr' : w1.renew ⟨k, r, w.lists.length, builtAttrs D k (w1.deref r), none, fs, none⟩ with e | ⟨w2, q2⟩
        · rw [hr'] at hok; simp at hok
        · obtain ⟨vs, e1, e2, e3⟩ := renew_ok hr'
          rw [hr'] at hq
          subst e2 e3
          dsimp only at hq ⊢
          subst hp
          rw [h3] at hq
          simp only [List.getElem?_concat_length, Option.some.injEq] at hq
          subst hq
          exact hr

/-- Which list a component gets to hold. -/
theorem step_lists (D : Defaults V) (w : Bench V) (op : BenchOp V) (r : Nat) (hr : r < w.lists.length)
    (h1 : ∀ p, op ≠ .assign p r) (h2 : ∀ k, op ≠ .make k (.list r)) (h3 : ∀ x, op ≠ .makePoints (.list r) x) :
    r < (w.step D op).lists.length
    ∧ ∀ (p : Nat) (q : BenchPart V), (w.step D op).parts[p]? = some q → q.list = r → ∃ q0, w.parts[p]? = some q0 ∧ q0.list = r := by
  have hmake : ∀ (w0 : Bench V) (k : PartKind) (g : Given V), r < w0.lists.length → g ≠ .list r →
      r < (w0.make D k g).1.lists.length
      ∧ ∀ (p : Nat) (q : BenchPart V), (w0.make D k g).1.parts[p]? = some q → q.list = r → ∃ q0, w0.parts[p]? = some q0 ∧ q0.list = r := by
    intro w0 k g hr0 hg
    obtain ⟨m1, _, _, m4⟩ := make_frame D w0 k g
    refine ⟨by omega, ?_⟩
    intro p q hq hql
    rcases m4 with ⟨m4, _⟩ | ⟨x, m4, _, m5⟩
    · rw [m4] at hq; exact ⟨q, hq, hql⟩
    · rw [m4] at hq
      rcases parts_append_get hq with hq | ⟨_, rfl⟩
      · exact ⟨q, hq, hql⟩
      · rcases m5.given with ⟨hg', _⟩ | ⟨_, hg'⟩
        · rw [hql] at hg'; exact absurd hg' hg
        · omega
  have hpoke : ∀ (r' i : Nat) (v : V), r < (w.poke r' i v).1.lists.length
      ∧ ∀ (p : Nat) (q : BenchPart V), (w.poke r' i v).1.parts[p]? = some q → q.list = r → ∃ q0, w.parts[p]? = some q0 ∧ q0.list = r := by
    intro r' i v
    refine ⟨by rw [poke_lists_length]; exact hr, ?_⟩
    intro p q hq hql
    rw [poke_parts] at hq
    exact ⟨q, hq, hql⟩
  cases op with
  | alloc vs => exact ⟨by simp [Bench.step]; omega, fun p q hq hql => ⟨q, hq, hql⟩⟩
  | make k g => exact hmake w k g hr (fun e => h2 k (by rw [e]))
  | makePoints g x =>
    show r < (w.makePoints D g x).1.lists.length ∧ ∀ (p : Nat) (q : BenchPart V), (w.makePoints D g x).1.parts[p]? = some q → _
    rcases makePoints_cases D w g x with ⟨r', e, _, e'⟩ | ⟨r', hg, _, e'⟩ | ⟨_, e'⟩ | ⟨l, _, e'⟩
    · rw [e']; exact hpoke r' 3 x
    · rw [e']
      obtain ⟨m1, m2⟩ := hmake (w.poke r' 3 x).1 .phaseMod (.list r') (by rw [poke_lists_length]; exact hr)
        (fun e => h3 x (by rw [hg, e]))
      refine ⟨m1, fun p q hq hql => ?_⟩
      obtain ⟨q0, a, b⟩ := m2 p q hq hql
      rw [poke_parts] at a
      exact ⟨q0, a, b⟩
    · rw [e']; exact hmake w _ _ hr (by simp)
    · rw [e']; exact hmake w _ _ hr (by simp)
  | assign p' r' =>
    have hne : r' ≠ r := fun e => h1 p' (by rw [e])
    show r < (w.assign p' r').1.lists.length ∧ ∀ (p : Nat) (q : BenchPart V), (w.assign p' r').1.parts[p]? = some q → _
    rcases assign_cases w p' r' with ⟨_, e⟩ | ⟨q', hq', _, ⟨_, e⟩ | ⟨_, ⟨_, _, e⟩ | ⟨vs, _, e⟩⟩⟩
    · rw [e]; exact ⟨hr, fun p q hq hql => ⟨q, hq, hql⟩⟩
    all_goals
      rw [e]
      refine ⟨hr, fun p q hq hql => ?_⟩
      rcases parts_set_get hq with ⟨_, hq⟩ | ⟨_, rfl⟩
      · exact ⟨q, hq, hql⟩
      · exact absurd hql hne
  | write p' i v =>
    show r < (w.write p' i v).1.lists.length ∧ ∀ (p : Nat) (q : BenchPart V), (w.write p' i v).1.parts[p]? = some q → _
    rcases write_poke w p' i v with e | ⟨r', e⟩
    · rw [e]; exact ⟨hr, fun p q hq hql => ⟨q, hq, hql⟩⟩
    · rw [e]; exact hpoke r' i v
  | byName p' n v =>
    show r < (w.byName p' n v).1.lists.length ∧ ∀ (p : Nat) (q : BenchPart V), (w.byName p' n v).1.parts[p]? = some q → _
    rcases byName_poke w p' n v with e | ⟨r', i, e⟩
    · rw [e]; exact ⟨hr, fun p q hq hql => ⟨q, hq, hql⟩⟩
    · rw [e]; exact hpoke r' i v
  | poke r' i v => exact hpoke r' i v
  | propagate p' =>
    show r < (w.propagate p').1.lists.length ∧ ∀ (p : Nat) (q : BenchPart V), (w.propagate p').1.parts[p]? = some q → _
    rcases propagate_cases w p' with ⟨_, e⟩ | ⟨q', hq', a, la, ha, e⟩
    · rw [e]; exact ⟨hr, fun p q hq hql => ⟨q, hq, hql⟩⟩
    · rw [e]
      refine ⟨hr, fun p q hq hql => ?_⟩
      rcases parts_set_get hq with ⟨_, hq⟩ | ⟨rfl, rfl⟩
      · exact ⟨q, hq, hql⟩
      · exact ⟨q', hq', hql⟩
  | clone p' =>
    show r < (w.clone p').1.lists.length ∧ ∀ (p : Nat) (q : BenchPart V), (w.clone p').1.parts[p]? = some q → _
    rcases clone_cases w p' with ⟨_, e⟩ | ⟨q', hq', d, ls, e, _⟩
    · rw [e]; exact ⟨hr, fun p q hq hql => ⟨q, hq, hql⟩⟩
    · rw [e]
      refine ⟨by simp; omega, fun p q hq hql => ?_⟩
      rcases parts_append_get hq with hq | ⟨_, rfl⟩
      · exact ⟨q, hq, hql⟩
      · dsimp only at hql; omega

theorem run_lists (D : Defaults V) (w : Bench V) (ops : List (BenchOp V)) (r : Nat) (hr : r < w.lists.length) (h : NotHanded r ops) :
    ∀ (p : Nat) (q : BenchPart V), (w.run D ops).parts[p]? = some q → q.list = r → ∃ q0, w.parts[p]? = some q0 ∧ q0.list = r := by
  induction ops generalizing w with
  | nil => exact fun p q hq hql => ⟨q, hq, hql⟩
  | cons op ops ih =>
    obtain ⟨h1, h2, h3⟩ := h
    obtain ⟨s1, s2⟩ := step_lists D w op r hr (fun p e => h1 p (by rw [e]; exact List.mem_cons_self))
      (fun k e => h2 k (by rw [e]; exact List.mem_cons_self)) (fun x e => h3 x (by rw [e]; exact List.mem_cons_self))
    intro p q hq hql
    obtain ⟨q1, a1, a2⟩ := ih (w.step D op) s1
      ⟨fun p h => h1 p (List.mem_cons_of_mem _ h), fun k h => h2 k (List.mem_cons_of_mem _ h), fun x h => h3 x (List.mem_cons_of_mem _ h)⟩ p q hq hql
    exact s2 p q1 a1 a2

/-- The loop over `parameters_from_name`, when all names are known. -/
theorem pokeNames_ok (ns : List String) (r : Nat) (l : List (String × V)) (w : Bench V) (hl : ns.length ≤ (w.deref r).length)
    (hk : ∀ e ∈ l, e.1 ∈ ns) (hd : (l.map Prod.fst).Nodup) :
    (w.pokeNames ns r l).2 = .ok ()
    ∧ (∀ e ∈ l, ∃ i, nameIndex ns e.1 = .ok i ∧ ((w.pokeNames ns r l).1.deref r)[i]? = some e.2)
    ∧ (∀ i, (∀ e ∈ l, nameIndex ns e.1 ≠ .ok i) → ((w.pokeNames ns r l).1.deref r)[i]? = (w.deref r)[i]?) := by
  induction l generalizing w with
  | nil => exact ⟨rfl, by simp, fun _ _ => rfl⟩
  | cons e rest ih =>
    obtain ⟨name, v⟩ := e
    obtain ⟨i, hi⟩ := nameIndex_mem (hk (name, v) List.mem_cons_self)
    have hlt : i < ns.length := (List.getElem?_eq_some_iff.mp (nameIndex_ok hi).1).1
    have hpk : w.poke r i v = ((w.poke r i v).1, .ok ()) := by unfold Bench.poke; rw [if_pos (by omega)]
    have hstep : w.pokeNames ns r ((name, v) :: rest) = (w.poke r i v).1.pokeNames ns r rest := by
      simp only [Bench.pokeNames]
      rw [hi]
      dsimp only
      rw [hpk]
    have hlen : ns.length ≤ ((w.poke r i v).1.deref r).length := by rw [poke_deref_eq]; simpa using hl
    simp only [List.map_cons, List.nodup_cons] at hd
    obtain ⟨a1, a2, a3⟩ := ih (w.poke r i v).1 hlen (fun e he => hk e (List.mem_cons_of_mem _ he)) hd.2
    rw [hstep]
    refine ⟨a1, ?_, ?_⟩
    · intro e he
      rcases List.mem_cons.mp he with rfl | he
      · refine ⟨i, hi, ?_⟩
        rw [a3 i ?_, poke_deref_eq, List.getElem?_set_self (by omega)]
        intro e' he' hc
        have h1 := (nameIndex_ok hi).1
        have h2 := (nameIndex_ok hc).1
        rw [h1] at h2
        simp only [Option.some.injEq] at h2
        exact hd.1 (by rw [h2]; exact List.mem_map_of_mem he')
      · exact a2 e he
    · intro j hj
      rw [a3 j (fun e he => hj e (List.mem_cons_of_mem _ he)), poke_deref_eq,
        List.getElem?_set_ne (fun h => hj (name, v) List.mem_cons_self (by rw [← h]; exact hi))]

theorem pokeNames_unknown (ns : List String) (r : Nat) (l : List (String × V)) (w : Bench V) (hl : ns.length ≤ (w.deref r).length)
    (hk : ∃ e ∈ l, e.1 ∉ ns) : (w.pokeNames ns r l).2 = .error .valueError := by
  induction l generalizing w with
  | nil => simp at hk
  | cons e rest ih =>
    obtain ⟨name, v⟩ := e
    by_cases hn : name ∈ ns
    · obtain ⟨i, hi⟩ := nameIndex_mem hn
      have hlt : i < ns.length := (List.getElem?_eq_some_iff.mp (nameIndex_ok hi).1).1
      have hpk : w.poke r i v = ((w.poke r i v).1, .ok ()) := by unfold Bench.poke; rw [if_pos (by omega)]
      have hstep : w.pokeNames ns r ((name, v) :: rest) = (w.poke r i v).1.pokeNames ns r rest := by
        simp only [Bench.pokeNames]
        rw [hi]
        dsimp only
        rw [hpk]
      rw [hstep]
      refine ih _ (by rw [poke_deref_eq]; simpa using hl) ?_
      obtain ⟨e, he, hne⟩ := hk
      rcases List.mem_cons.mp he with rfl | he
      · exact absurd hn hne
      · exact ⟨e, he, hne⟩
    · simp only [Bench.pokeNames]
      rw [nameIndex_error hn]

/-- The lists after a constructor are those after `NodeType.__init__`. -/
theorem make_lists (D : Defaults V) (w : Bench V) (k : PartKind) (g : Given V) : (w.make D k g).1.lists = (w.initParams D k g).1.lists := by
  unfold Bench.make
  rcases hp : w.initParams D k g with ⟨w1, res⟩
  cases res with
  | error e => rfl
  | ok r =>
    dsimp only
    split
    · rfl
    · split
      · split
        · rfl
        · rename_i h
          obtain ⟨_, _, e, _⟩ := renew_ok h
          rw [e]
      · rfl

theorem make_ok_of_init (D : Defaults V) (w : Bench V) (k : PartKind) (g : Given V) (r : Nat) (h : (w.initParams D k g).2 = .ok r)
    (hl : ∀ r, g = .list r → k.names.length ≤ (w.deref r).length) : ∃ p, (w.make D k g).2 = .ok p := by
  have hlen := initParams_length D w k g r h hl
  unfold Bench.make
  rcases hp : w.initParams D k g with ⟨w1, res⟩
  rw [hp] at h hlen
  dsimp only at h hlen
  subst h
  dsimp only
  have hA : ∀ is : List Nat, (∀ i ∈ is, i < k.names.length) → k ≠ .phaseMod → (∀ ns, k ≠ .plain ns) →
      ∃ vs, readAttrs (builtAttrs D k (w1.deref r)) is = .ok vs := by
    intro is his h1 h2
    obtain ⟨vs, e, _⟩ := readAttrs_values (builtAttrs D k (w1.deref r)) (w1.deref r) is (fun i hi => ⟨Nat.lt_of_lt_of_le (his i hi) hlen,
      builtAttrs_get D k _ h1 h2 i (his i hi) (Nat.lt_of_lt_of_le (his i hi) hlen)⟩)
    exact ⟨vs, e⟩
  have hf : ∃ fs, readAttrs (builtAttrs D k (w1.deref r)) k.filterReads = .ok fs := by
    cases hk : k with
    | photodiode => rw [← hk]; exact hA _ (filterReads_lt k) (by rw [hk]; simp) (by rw [hk]; simp)
    | _ => exact ⟨[], rfl⟩
  obtain ⟨fs, hf⟩ := hf
  rw [hf]
  dsimp only
  cases hn : k.noisy with
  | false => exact ⟨_, rfl⟩
  | true =>
    simp only [if_true]
    have hv : ∃ vs, noiseValues k (builtAttrs D k (w1.deref r)) (w1.deref r) = .ok vs := by
      cases hk : k with
      | phaseMod =>
        obtain ⟨vs, e, _⟩ := readList_values (w1.deref r) PartKind.phaseMod.noiseReads
          (fun i hi => Nat.lt_of_lt_of_le (noiseReads_lt .phaseMod i hi) (by rw [hk] at hlen; exact hlen))
        exact ⟨vs, e⟩
      | plain ns => rw [hk] at hn; simp [PartKind.noisy] at hn
      | _ =>
        simp only [noiseValues]
        rw [← hk]
        exact hA _ (noiseReads_lt k) (by rw [hk]; simp) (by rw [hk]; simp)
    obtain ⟨vs, hv⟩ := hv
    simp only [Bench.renew, hv]
    exact ⟨_, rfl⟩

end Verif
