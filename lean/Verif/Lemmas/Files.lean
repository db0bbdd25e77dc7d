import Verif.Spec.Files
import Mathlib.Data.List.Basic
/-! # Lemmas about saving and loading -/

namespace Verif

section
variable {O D B : Type}

theorem sane_prefix {d : Disk B} (h : SoundDisk d) {p q : List FName} {e : DiskEntry B} (hp : d p = some e) (hq : q <+: p) (hne : q ≠ p) :
    d q = some .dir := by
  obtain ⟨t, rfl⟩ := hq
  induction t using List.reverseRecOn generalizing e with
  | nil => simp at hne
  | append_singleton t n ih =>
    have h1 := h.up (q ++ t) n e (by rw [List.append_assoc]; exact hp)
    by_cases ht : t = []
    · subst ht
      simpa using h1
    · exact ih h1 (by simpa using ht)

theorem reach_cases (d : Disk B) (pre rest : List FName) :
    (reach d pre rest = .ok () ∧ ∀ q, pre <+: q → q <+: pre ++ rest → q ≠ pre ++ rest → d q = some .dir) ∨
    (reach d pre rest = .error .notDir ∧ ∃ q b, q <+: pre ++ rest ∧ q ≠ pre ++ rest ∧ d q = some (.file b)) ∨
    (reach d pre rest = .error .notFound ∧ ∃ q, q <+: pre ++ rest ∧ q ≠ pre ++ rest ∧ d q = none) := by
  induction rest generalizing pre with
  | nil =>
    refine Or.inl ⟨rfl, fun q h1 h2 h3 => ?_⟩
    rw [List.append_nil] at h2 h3
    exact absurd (h2.eq_of_length_le (h1.length_le)) h3
  | cons n rest ih =>
    have hpre : pre <+: pre ++ n :: rest := List.prefix_append _ _
    have hpne : pre ≠ pre ++ n :: rest := by simp
    cases hd : d pre with
    | none => exact Or.inr (Or.inr ⟨by simp [reach, hd], pre, hpre, hpne, hd⟩)
    | some e =>
      cases e with
      | file b => exact Or.inr (Or.inl ⟨by simp [reach, hd], pre, b, hpre, hpne, hd⟩)
      | dir =>
        have e1 : pre ++ [n] ++ rest = pre ++ n :: rest := by simp
        have e2 : reach d pre (n :: rest) = reach d (pre ++ [n]) rest := by simp [reach, hd]
        rcases ih (pre ++ [n]) with ⟨h1, h2⟩ | ⟨h1, h2⟩ | ⟨h1, h2⟩
        · refine Or.inl ⟨by rw [e2, h1], fun q hq1 hq2 hq3 => ?_⟩
          by_cases hq : q = pre
          · rw [hq, hd]
          · refine h2 q ?_ (by rwa [e1]) (by rwa [e1])
            refine List.prefix_of_prefix_length_le (by rw [← e1]; exact List.prefix_append _ _) hq2 ?_
            have := hq1.length_le
            have h5 : q.length ≠ pre.length := fun h => hq (hq1.eq_of_length h.symm).symm
            simp only [List.length_append, List.length_singleton]
            omega
        · rw [e1] at h2
          exact Or.inr (Or.inl ⟨by rw [e2, h1], h2⟩)
        · rw [e1] at h2
          exact Or.inr (Or.inr ⟨by rw [e2, h1], h2⟩)

theorem reach_ok_iff {d : Disk B} (h : SoundDisk d) (p : List FName) : reach d [] p = .ok () ↔ d p.dropLast = some .dir := by
  have key : ∀ q, q <+: p → q ≠ p → q <+: p.dropLast := by
    intro q hq hne
    refine List.prefix_of_prefix_length_le hq (List.dropLast_prefix p) ?_
    have := hq.length_le
    have h5 : q.length ≠ p.length := fun h => hne (hq.eq_of_length h)
    rw [List.length_dropLast]
    omega
  rcases reach_cases d [] p with ⟨h1, h2⟩ | ⟨h1, q, b, hq1, hq2, hq3⟩ | ⟨h1, q, hq1, hq2, hq3⟩
  · refine ⟨fun _ => ?_, fun _ => h1⟩
    by_cases hp : p = []
    · subst hp
      exact h.root
    · refine h2 _ List.nil_prefix (List.dropLast_prefix p) (fun e => ?_)
      have := congrArg List.length e
      rw [List.length_dropLast, List.nil_append] at this
      have : 0 < p.length := List.length_pos_of_ne_nil hp
      omega
  · rw [List.nil_append] at hq1 hq2
    refine ⟨fun h' => (by rw [h1] at h'; cases h'), fun h' => ?_⟩
    by_cases hqd : q = p.dropLast
    · rw [hqd, h'] at hq3
      cases hq3
    · rw [sane_prefix h h' (key q hq1 hq2) hqd] at hq3
      cases hq3
  · rw [List.nil_append] at hq1 hq2
    refine ⟨fun h' => (by rw [h1] at h'; cases h'), fun h' => ?_⟩
    by_cases hqd : q = p.dropLast
    · rw [hqd, h'] at hq3
      cases hq3
    · rw [sane_prefix h h' (key q hq1 hq2) hqd] at hq3
      cases hq3

/-- The disk with the missing directories of `p` made. -/
def Disk.withDirs (d : Disk B) (p : List FName) : Disk B := fun q => if q <+: p ∧ d q = none then some .dir else d q

theorem withDirs_self {d : Disk B} (p : List FName) (h : ∀ q, q <+: p → d q ≠ none) : d.withDirs p = d := by
  funext q
  unfold Disk.withDirs
  split_ifs with hq
  · exact absurd hq.2 (h q hq.1)
  · rfl

theorem sane_withDirs {d : Disk B} (h : SoundDisk d) {p : List FName} (hb : ∀ q b, q <+: p → d q ≠ some (.file b)) : SoundDisk (d.withDirs p) := by
  constructor
  · simp [Disk.withDirs, h.root]
  · intro q n e hq
    unfold Disk.withDirs at hq ⊢
    by_cases hc : q ++ [n] <+: p ∧ d (q ++ [n]) = none
    · have hqp : q <+: p := (List.prefix_append q [n]).trans hc.1
      cases hd : d q with
      | none => simp [hqp]
      | some e' =>
        cases e' with
        | dir => simp
        | file b => exact absurd hd (hb q b hqp)
    · rw [if_neg hc] at hq
      have h1 := h.up q n e hq
      simp [h1]

theorem mkdirsRev_spec {d : Disk B} (h : SoundDisk d) (rev : List FName) :
    ((∀ q b, q <+: rev.reverse → d q ≠ some (.file b)) ∧ mkdirsRev d rev = .ok (d.withDirs rev.reverse)) ∨
    ((∃ q b, q <+: rev.reverse ∧ d q = some (.file b)) ∧ ∃ e, mkdirsRev d rev = .error e) := by
  induction rev with
  | nil =>
    refine Or.inl ⟨fun q b hq hd => ?_, ?_⟩
    · have hq0 : q = [] := by simpa using hq
      rw [hq0, h.root] at hd
      cases hd
    · rw [mkdirsRev, withDirs_self]
      intro q hq
      have : q = [] := by simpa using hq
      rw [this, h.root]
      simp
  | cons n up ih =>
    set p := (n :: up).reverse with hp
    have hpu : p = up.reverse ++ [n] := by simp [hp]
    have hdl : p.dropLast = up.reverse := by rw [hpu]; simp
    have hup : up.reverse <+: p := by rw [hpu]; exact List.prefix_append _ _
    have hcases : ∀ q, q <+: p → q = p ∨ q <+: up.reverse := by
      intro q hq
      by_cases hqp : q = p
      · exact Or.inl hqp
      · refine Or.inr (List.prefix_of_prefix_length_le hq hup ?_)
        have h1 := hq.length_le
        have h5 : q.length ≠ p.length := fun h => hqp (hq.eq_of_length h)
        have : p.length = up.reverse.length + 1 := by rw [hpu]; simp
        omega
    rcases reach_cases d [] p with ⟨h1, h2⟩ | ⟨h1, q, b, hq1, hq2, hq3⟩ | ⟨h1, q, hq1, hq2, hq3⟩
    · have hdir : ∀ q, q <+: p → q ≠ p → d q = some .dir := fun q hq hne => h2 q List.nil_prefix hq hne
      cases hd : d p with
      | none =>
        refine Or.inl ⟨fun q b hq hf => ?_, ?_⟩
        · by_cases hqp : q = p
          · rw [hqp, hd] at hf
            cases hf
          · rw [hdir q hq hqp] at hf
            cases hf
        · rw [mkdirsRev, ← hp, osMkdir, h1]
          simp only [hd]
          congr 1
          funext q
          unfold Disk.put Disk.withDirs
          by_cases hqp : q = p
          · subst hqp
            simp [hd]
          · rw [if_neg hqp]
            by_cases hq : q <+: p
            · simp [hdir q hq hqp]
            · simp [hq]
      | some e =>
        cases e with
        | dir =>
          refine Or.inl ⟨fun q b hq hf => ?_, ?_⟩
          · by_cases hqp : q = p
            · rw [hqp, hd] at hf
              cases hf
            · rw [hdir q hq hqp] at hf
              cases hf
          · rw [mkdirsRev, ← hp, osMkdir, h1]
            simp only [hd]
            rw [withDirs_self]
            intro q hq
            by_cases hqp : q = p
            · rw [hqp, hd]
              simp
            · rw [hdir q hq hqp]
              simp
        | file b =>
          refine Or.inr ⟨⟨p, b, List.prefix_refl _, hd⟩, .exists_, ?_⟩
          rw [mkdirsRev, ← hp, osMkdir, h1]
          simp [hd]
    · refine Or.inr ⟨⟨q, b, hq1, hq3⟩, .notDir, ?_⟩
      rw [mkdirsRev, ← hp, osMkdir, h1]
    · rw [List.nil_append] at hq1 hq2
      have hpn : d p = none := by
        cases hd : d p with
        | none => rfl
        | some e => rw [sane_prefix h hd hq1 hq2] at hq3; cases hq3
      have e0 : osMkdir d p = .error .notFound := by rw [osMkdir, h1]
      rcases ih with ⟨hb, he⟩ | ⟨⟨q', b, hq', hf⟩, e, he⟩
      · refine Or.inl ⟨fun q'' b hq'' hf => ?_, ?_⟩
        · rcases hcases q'' hq'' with rfl | hc
          · rw [hpn] at hf
            cases hf
          · exact hb q'' b hc hf
        · rw [mkdirsRev, ← hp, e0]
          simp only [he]
          have hs := sane_withDirs h hb
          have hr : reach (d.withDirs up.reverse) [] p = .ok () := by
            rw [reach_ok_iff hs, hdl]
            unfold Disk.withDirs
            cases hd : d up.reverse with
            | none => simp
            | some e' =>
              cases e' with
              | dir => simp
              | file b => exact absurd hd (hb _ b (List.prefix_refl _))
          have hnp : ¬ p <+: up.reverse := by
            intro hc
            have := hc.length_le
            rw [hpu, List.length_append, List.length_singleton] at this
            omega
          rw [osMkdir, hr]
          have : d.withDirs up.reverse p = none := by simp [Disk.withDirs, hnp, hpn]
          simp only [this]
          congr 1
          funext q''
          unfold Disk.put Disk.withDirs
          by_cases hqp : q'' = p
          · subst hqp
            simp [hpn]
          · rw [if_neg hqp]
            by_cases hq'' : q'' <+: p
            · rcases hcases q'' hq'' with h' | h'
              · exact absurd h' hqp
              · simp [h', hq'']
            · have : ¬ q'' <+: up.reverse := fun hc => hq'' (hc.trans hup)
              simp [this, hq'']
      · refine Or.inr ⟨⟨q', b, hq'.trans hup, hf⟩, e, ?_⟩
        rw [mkdirsRev, ← hp, e0]
        simp only [he]

theorem mkdirs_spec {d : Disk B} (h : SoundDisk d) (p : List FName) :
    ((∀ q b, q <+: p → d q ≠ some (.file b)) ∧ mkdirs d p = .ok (d.withDirs p)) ∨
    ((∃ q b, q <+: p ∧ d q = some (.file b)) ∧ ∃ e, mkdirs d p = .error e) := by
  simpa [mkdirs] using mkdirsRev_spec h p.reverse

theorem sane_put_file {d : Disk B} (h : SoundDisk d) {p : List FName} {b : B} (hp : d p.dropLast = some .dir) (hd : d p ≠ some .dir) :
    SoundDisk (d.put p (.file b)) := by
  have hp0 : p ≠ [] := by
    rintro rfl
    exact hd h.root
  constructor
  · simp [Disk.put, h.root, hp0.symm]
  · intro q n e hq
    unfold Disk.put at hq ⊢
    by_cases hc : q ++ [n] = p
    · subst hc
      rw [List.dropLast_concat] at hp
      have hne : q ≠ q ++ [n] := by simp
      rw [if_neg hne, hp]
    · rw [if_neg hc] at hq
      have h1 := h.up q n e hq
      have hqp : q ≠ p := by
        rintro rfl
        exact hd h1
      rw [if_neg hqp, h1]

theorem writeFile_spec {d : Disk B} (h : SoundDisk d) (p : List FName) (b : B) :
    ((d p.dropLast = some .dir ∧ d p ≠ some .dir) ∧ writeFile d p b = .ok (d.put p (.file b))) ∨
    (¬ (d p.dropLast = some .dir ∧ d p ≠ some .dir) ∧ ∃ e, writeFile d p b = .error e) := by
  unfold writeFile
  by_cases hp : d p.dropLast = some .dir
  · rw [(reach_ok_iff h p).2 hp]
    by_cases hd : d p = some .dir
    · exact Or.inr ⟨fun hc => hc.2 hd, .isDir, by simp [hd]⟩
    · refine Or.inl ⟨⟨hp, hd⟩, ?_⟩
      cases hc : d p with
      | none => rfl
      | some e =>
        cases e with
        | dir => exact absurd hc hd
        | file _ => rfl
  · refine Or.inr ⟨fun hc => hp hc.1, ?_⟩
    cases hr : reach d [] p with
    | ok u => exact absurd ((reach_ok_iff h p).1 hr) hp
    | error e => exact ⟨e, rfl⟩

theorem dumpTo_spec {d : Disk B} (h : SoundDisk d) (p : List FName) (r : B × Bool) :
    ((d p.dropLast = some .dir ∧ d p ≠ some .dir) ∧ dumpTo d p r = (d.put p (.file r.1), if r.2 then .ok () else .error .coding)) ∨
    (¬ (d p.dropLast = some .dir ∧ d p ≠ some .dir) ∧ ∃ e, dumpTo d p r = (d, .error e)) := by
  unfold dumpTo
  rcases writeFile_spec h p r.1 with ⟨h1, h2⟩ | ⟨h1, e, h2⟩
  · exact Or.inl ⟨h1, by rw [h2]⟩
  · exact Or.inr ⟨h1, e, by rw [h2]⟩

theorem readFile_ok_iff {d : Disk B} (h : SoundDisk d) (p : List FName) (b : B) : readFile d p = .ok b ↔ d p = some (.file b) := by
  unfold readFile
  constructor
  · intro hr
    cases hc : reach d [] p with
    | error e => rw [hc] at hr; cases hr
    | ok u =>
      rw [hc] at hr
      cases hd : d p with
      | none => simp [hd] at hr
      | some e =>
        cases e with
        | dir => simp [hd] at hr
        | file b' => simp [hd] at hr; rw [hr]
  · intro hd
    have : d p.dropLast = some .dir := by
      rcases List.eq_nil_or_concat p with rfl | ⟨q, n, rfl⟩
      · exact h.root
      · rw [List.concat_eq_append] at hd ⊢
        rw [List.dropLast_concat]
        exact h.up q n _ hd
    rw [(reach_ok_iff h p).2 this]
    simp [hd]

/-! ### One call -/

/-- What every call respects: directories stay directories, files stay files, and those outside `P` keep their bytes. -/
structure Grows (d d' : Disk B) (P : List FName → Prop) : Prop where
  sane : SoundDisk d'
  dir : ∀ p, d p = some .dir → d' p = some .dir
  file : ∀ p b, d p = some (.file b) → ∃ b', d' p = some (.file b')
  kept : ∀ p b, ¬ P p → d p = some (.file b) → d' p = some (.file b)

theorem Grows.refl {d : Disk B} (h : SoundDisk d) (P : List FName → Prop) : Grows d d P :=
  ⟨h, fun _ hp => hp, fun _ b hp => ⟨b, hp⟩, fun _ _ _ hp => hp⟩

theorem Grows.trans {d d' d'' : Disk B} {P : List FName → Prop} (h : Grows d d' P) (h' : Grows d' d'' P) : Grows d d'' P :=
  ⟨h'.sane, fun p hp => h'.dir p (h.dir p hp), fun p b hp => let ⟨b', hb⟩ := h.file p b hp; h'.file p b' hb,
    fun p b hP hp => h'.kept p b hP (h.kept p b hP hp)⟩

theorem grows_withDirs {d : Disk B} (h : SoundDisk d) {p : List FName} (hb : ∀ q b, q <+: p → d q ≠ some (.file b)) (P : List FName → Prop) :
    Grows d (d.withDirs p) P := by
  refine ⟨sane_withDirs h hb, fun q hq => ?_, fun q b hq => ⟨b, ?_⟩, fun q b _ hq => ?_⟩ <;> simp [Disk.withDirs, hq]

theorem grows_put {d : Disk B} (h : SoundDisk d) {p : List FName} {b : B} (hp : d p.dropLast = some .dir) (hd : d p ≠ some .dir)
    {P : List FName → Prop} (hP : P p) : Grows d (d.put p (.file b)) P := by
  refine ⟨sane_put_file h hp hd, fun q hq => ?_, fun q b' hq => ?_, fun q b' hnP hq => ?_⟩
  · have : q ≠ p := by rintro rfl; exact hd hq
    simp [Disk.put, this, hq]
  · by_cases hqp : q = p
    · exact ⟨b, by simp [Disk.put, hqp]⟩
    · exact ⟨b', by simp [Disk.put, hqp, hq]⟩
  · have : q ≠ p := by rintro rfl; exact hnP hP
    simp [Disk.put, this, hq]

theorem grows_dumpTo {d : Disk B} (h : SoundDisk d) (p : List FName) (r : B × Bool) {P : List FName → Prop} (hP : P p) :
    Grows d (dumpTo d p r).1 P := by
  rcases dumpTo_spec h p r with ⟨⟨h1, h2⟩, h3⟩ | ⟨-, e, h3⟩
  · rw [h3]
    exact grows_put h h1 h2 hP
  · rw [h3]
    exact Grows.refl h P

theorem exec_grows (C : Coding O D B) {w : IoWorld B} (h : SoundDisk w.disk) (c : IoCmd O D B) : Grows w.disk (w.exec C c).1.disk (Opens w c) := by
  cases c with
  | initSave k sub uid =>
    unfold IoWorld.exec
    rcases mkdirs_spec h ((w.ios k).saveDirOf sub uid) with ⟨h1, h2⟩ | ⟨-, e, h2⟩
    · simp only [h2]
      exact grows_withDirs h h1 _
    · simp only [h2]
      exact Grows.refl h _
  | initLoad k sub => exact Grows.refl h _
  | mkdir k name =>
    unfold IoWorld.exec
    rcases mkdirs_spec h (joinTo (w.ios k).savePath name.toPath) with ⟨h1, h2⟩ | ⟨-, e, h2⟩
    · simp only [h2]
      exact grows_withDirs h h1 _
    · simp only [h2]
      exact Grows.refl h _
  | saveJson k x name => exact grows_dumpTo h _ _ rfl
  | raw k b name => exact grows_dumpTo h _ _ rfl
  | saveObj k o name =>
    unfold IoWorld.exec
    rcases mkdirs_spec h (joinTo (w.ios k).savePath name.toPath).dropLast with ⟨h1, h2⟩ | ⟨-, e, h2⟩
    · simp only [h2]
      exact (grows_withDirs h h1 _).trans (grows_dumpTo (sane_withDirs h h1) _ _ rfl)
    · simp only [h2]
      exact Grows.refl h _
  | metadata k sub data =>
    unfold IoWorld.exec
    cases data with
    | none => exact Grows.refl h _
    | some x =>
      cases hm : (w.ios k).metadataDir sub with
      | error e =>
        simp only [hm]
        exact Grows.refl h _
      | ok p =>
        rcases mkdirs_spec h p with ⟨h1, h2⟩ | ⟨-, e, h2⟩
        · simp only [hm, h2]
          exact (grows_withDirs h h1 _).trans (grows_dumpTo (sane_withDirs h h1) _ _ ⟨p, hm, rfl⟩)
        · simp only [hm, h2]
          exact Grows.refl h _

theorem session_grows (C : Coding O D B) {w : IoWorld B} (h : SoundDisk w.disk) (cs : List (IoCmd O D B)) :
    Grows w.disk (w.session C cs).disk (fun p => ¬ LeavesAlone C p w cs) := by
  induction cs generalizing w with
  | nil => exact Grows.refl h _
  | cons c cs ih =>
    have h1 := exec_grows C h c
    have h2 := ih h1.sane
    refine ⟨h2.sane, fun p hp => h2.dir p (h1.dir p hp), fun p b hp => let ⟨b', hb⟩ := h1.file p b hp; h2.file p b' hb,
      fun p b hP hp => ?_⟩
    have hP' : LeavesAlone C p w (c :: cs) := by_contra hP
    exact h2.kept p b (fun hc => hc hP'.2) (h1.kept p b hP'.1 hp)

/-! ### Names -/

theorem splitSlash_plain {s : List Char} (h : '/' ∉ s) : splitSlash s = [s] := by
  induction s with
  | nil => rfl
  | cons c s ih =>
    have hc : c ≠ '/' := fun e => h (by simp [e])
    have hs : '/' ∉ s := fun e => h (by simp [e])
    rw [splitSlash, if_neg hc, ih hs]

theorem pathParts_plain {s : List Char} (h : PlainName s) : pathParts s = [s] := by
  rw [pathParts, splitSlash_plain h.2.2]
  simp [h.1, h.2.1]

theorem isAbs_plain {s : List Char} (h : PlainName s) : isAbs s = false := by
  unfold isAbs
  cases s with
  | nil => rfl
  | cons c s =>
    have hc : c ≠ '/' := fun e => h.2.2 (by simp [e])
    simp [hc]

theorem joinTo_plain (p : List FName) {s : List Char} (h : PlainName s) : joinTo p (.ofStr s) = p ++ [s] := by
  simp [joinTo, PyPath.ofStr, isAbs_plain h, pathParts_plain h]

theorem decimal_digits (n : Nat) : ∀ c ∈ decimal n, c.isDigit = true := by
  have key : ∀ m < 10, (Nat.digitChar m).isDigit = true := by decide
  induction n using Nat.strong_induction_on with
  | _ n ih =>
    rw [decimal]
    split_ifs with h
    · intro c hc
      rw [List.mem_singleton.1 hc]
      exact key n h
    · intro c hc
      rcases List.mem_append.1 hc with hc | hc
      · exact ih (n / 10) (by omega) c hc
      · rw [List.mem_singleton.1 hc]
        exact key _ (by omega)

theorem decimal_value (n : Nat) : (decimal n).foldl (fun a c => 10 * a + (c.toNat - 48)) 0 = n := by
  have key : ∀ m < 10, (Nat.digitChar m).toNat - 48 = m := by decide
  induction n using Nat.strong_induction_on with
  | _ n ih =>
    rw [decimal]
    split_ifs with h
    · simp [key n h]
    · rw [List.foldl_append, ih (n / 10) (by omega), List.foldl_cons, List.foldl_nil, key _ (by omega)]
      omega

theorem decimal_inj {m n : Nat} (h : decimal m = decimal n) : m = n := by
  rw [← decimal_value m, ← decimal_value n, h]

theorem cut_at {c : Char} {a b x y : List Char} (ha : c ∉ a) (hb : c ∉ b) (h : a ++ c :: x = b ++ c :: y) : a = b ∧ x = y := by
  induction a generalizing b with
  | nil =>
    cases b with
    | nil => simpa using h
    | cons e b => simp at h; exact absurd (by simp [h.1]) hb
  | cons e a ih =>
    cases b with
    | nil => simp at h; exact absurd (by simp [h.1]) ha
    | cons e' b =>
      simp only [List.cons_append, List.cons.injEq] at h
      obtain ⟨h1, h2⟩ := ih (fun hc => ha (by simp [hc])) (fun hc => hb (by simp [hc])) h.2
      exact ⟨by rw [h.1, h1], h2⟩

theorem graphFile_inj {pre : List Char} {g i g' i' : Nat} (h : graphFile pre g i = graphFile pre g' i') : g = g' ∧ i = i' := by
  unfold graphFile at h
  simp only [List.append_assoc, List.append_cancel_left_eq] at h
  have hd : ∀ n, '_' ∉ decimal n := fun n hc => absurd (decimal_digits n _ hc) (by decide)
  obtain ⟨h1, h2⟩ := cut_at (c := '_') (x := "ind".toList ++ (decimal i ++ ".json".toList)) (y := "ind".toList ++ (decimal i' ++ ".json".toList))
    (hd g) (hd g') h
  simp only [List.append_cancel_left_eq, List.append_cancel_right_eq] at h2
  exact ⟨decimal_inj h1, decimal_inj h2⟩

theorem graphFile_plain {pre : List Char} (h : '/' ∉ pre) (g i : Nat) : PlainName (graphFile pre g i) := by
  have hl : 5 ≤ (graphFile pre g i).length := by
    unfold graphFile
    have : (".json".toList).length = 5 := rfl
    rw [List.length_append, this]
    omega
  refine ⟨fun hc => ?_, fun hc => ?_, fun hc => ?_⟩
  · rw [hc] at hl; simp at hl
  · rw [hc] at hl; simp at hl
  · have hd : ∀ n, '/' ∉ decimal n := fun n hc => absurd (decimal_digits n _ hc) (by decide)
    unfold graphFile at hc
    simp only [List.mem_append] at hc
    rcases hc with ((((hc | hc) | hc) | hc) | hc) | hc
    · exact h hc
    · exact absurd hc (by decide)
    · exact hd g hc
    · exact absurd hc (by decide)
    · exact hd i hc
    · exact absurd hc (by decide)

end

end Verif
