import Verif.Spec.Harness
import Verif.Lemmas.Files
import Verif.Props.Files
import Verif.Props.Logging
import Mathlib.Data.List.Nodup
import Mathlib.Data.List.ProdSigma
/-! # C111: what the benchmark scripts do with their runs -/

namespace Verif

section
variable {O D B : Type}

/-! ## A run stays in its folder -/

/-- Two disks that agree from `F` on. -/
structure AgreeDisk (F : List FName) (d d' : Disk B) : Prop where
  sound : SoundDisk d
  sound' : SoundDisk d'
  here : d F = some .dir
  same : ∀ q, F <+: q → d q = d' q

theorem AgreeDisk.here' {F : List FName} {d d' : Disk B} (h : AgreeDisk F d d') : d' F = some .dir := by rw [← h.same F (List.prefix_refl F), h.here]

/-- A change from `F` on only. -/
def Within (F : List FName) (d d1 : Disk B) : Prop := ∀ q, ¬ F <+: q → d1 q = d q

theorem no_file_above {F p : List FName} {d : Disk B} (h : SoundDisk d) (hF : d F = some .dir) (hp : F <+: p) :
    (∀ q b, q <+: p → d q ≠ some (.file b)) ↔ ∀ q b, F <+: q → q <+: p → d q ≠ some (.file b) := by
  refine ⟨fun H q b _ hq => H q b hq, fun H q b hq => ?_⟩
  by_cases hl : F.length ≤ q.length
  · exact H q b (List.prefix_of_prefix_length_le hp hq hl) hq
  · have : q <+: F := List.prefix_of_prefix_length_le hq hp (by omega)
    rw [sane_prefix h hF this (fun e => hl (by rw [e]))]
    simp

theorem within_withDirs {F p : List FName} {d : Disk B} (h : SoundDisk d) (hF : d F = some .dir) (hp : F <+: p) : Within F d (d.withDirs p) := by
  intro q hq
  unfold Disk.withDirs
  split_ifs with hc
  · exfalso
    by_cases hl : F.length ≤ q.length
    · exact hq (List.prefix_of_prefix_length_le hp hc.1 hl)
    · have : q <+: F := List.prefix_of_prefix_length_le hc.1 hp (by omega)
      rw [sane_prefix h hF this (fun e => hl (by rw [e]))] at hc
      simp at hc
  · rfl

theorem mkdirs_agree {F p : List FName} {d d' : Disk B} (h : AgreeDisk F d d') (hp : F <+: p) :
    (∃ e e', mkdirs d p = .error e ∧ mkdirs d' p = .error e') ∨
    ∃ d1 d1', mkdirs d p = .ok d1 ∧ mkdirs d' p = .ok d1' ∧ AgreeDisk F d1 d1' ∧ Within F d d1 := by
  have hsame : (∀ q b, q <+: p → d q ≠ some (.file b)) ↔ (∀ q b, q <+: p → d' q ≠ some (.file b)) := by
    rw [no_file_above h.sound h.here hp, no_file_above h.sound' h.here' hp]
    exact forall_congr' fun q => forall_congr' fun b => ⟨fun H hq => by rw [← h.same q hq]; exact H hq, fun H hq => by rw [h.same q hq]; exact H hq⟩
  rcases mkdirs_spec h.sound p with ⟨h1, h2⟩ | ⟨⟨q, b, h1, h1'⟩, e, h2⟩
  · rcases mkdirs_spec h.sound' p with ⟨h3, h4⟩ | ⟨⟨q, b, h3, h3'⟩, e, h4⟩
    · refine Or.inr ⟨_, _, h2, h4, ⟨sane_withDirs h.sound h1, sane_withDirs h.sound' h3, ?_, fun q hq => ?_⟩, within_withDirs h.sound h.here hp⟩
      · unfold Disk.withDirs
        simp [h.here]
      · unfold Disk.withDirs
        rw [h.same q hq]
    · exact absurd h3' (hsame.1 h1 q b h3)
  · rcases mkdirs_spec h.sound' p with ⟨h3, h4⟩ | ⟨-, e', h4⟩
    · exact absurd h1' (hsame.2 h3 q b h1)
    · exact Or.inl ⟨e, e', h2, h4⟩

theorem dumpTo_agree {F t : List FName} {d d' : Disk B} (h : AgreeDisk F d d') (ht : t ≠ []) (r : B × Bool) :
    ((dumpTo d (F ++ t) r).2 = .ok () ↔ (dumpTo d' (F ++ t) r).2 = .ok ()) ∧ AgreeDisk F (dumpTo d (F ++ t) r).1 (dumpTo d' (F ++ t) r).1 ∧ Within F d (dumpTo d (F ++ t) r).1 := by
  have hp : F <+: (F ++ t).dropLast := by
    rw [List.dropLast_append_of_ne_nil ht]
    exact List.prefix_append _ _
  have hc : (d (F ++ t).dropLast = some .dir ∧ d (F ++ t) ≠ some .dir) ↔ (d' (F ++ t).dropLast = some .dir ∧ d' (F ++ t) ≠ some .dir) := by
    rw [h.same _ hp, h.same _ (List.prefix_append _ _)]
  have hne : F ≠ F ++ t := by
    intro e
    have := congrArg List.length e
    rw [List.length_append] at this
    exact ht (List.length_eq_zero_iff.1 (by omega))
  rcases dumpTo_spec h.sound (F ++ t) r with ⟨h1, h2⟩ | ⟨h1, e, h2⟩
  · rcases dumpTo_spec h.sound' (F ++ t) r with ⟨h3, h4⟩ | ⟨h3, e, h4⟩
    · rw [h2, h4]
      refine ⟨Iff.rfl, ⟨sane_put_file h.sound h1.1 h1.2, sane_put_file h.sound' h3.1 h3.2, ?_, fun q hq => ?_⟩, fun q hq => ?_⟩
      · simp [Disk.put, h.here]
        exact ht
      · unfold Disk.put
        dsimp only
        rw [h.same q hq]
      · have : q ≠ F ++ t := fun e => hq (by rw [e]; exact List.prefix_append _ _)
        simp [Disk.put, this]
    · exact absurd (hc.1 h1) h3
  · rcases dumpTo_spec h.sound' (F ++ t) r with ⟨h3, h4⟩ | ⟨h3, e', h4⟩
    · exact absurd (hc.2 h3) h1
    · rw [h2, h4]
      exact ⟨by simp, h, fun q _ => rfl⟩

/-- Two worlds that agree on what a run in `F` can see. -/
structure AgreeRun (F : List FName) (k : Nat) (w w' : IoWorld B) : Prop where
  disk : AgreeDisk F w.disk w'.disk
  save : (w.ios k).savePath = F
  save' : (w'.ios k).savePath = F

theorem local_path {F : List FName} {n : PyArg} (h : n.toPath.abs = false) : joinTo F n.toPath = F ++ n.toPath.parts := by
  unfold joinTo
  rw [h]
  rfl

theorem exec_agree (C : Coding O D B) {F : List FName} {k : Nat} {w w' : IoWorld B} (h : AgreeRun F k w w') {c : IoCmd O D B} (hc : LocalCmd k c) :
    ((w.exec C c).2 = .ok () ↔ (w'.exec C c).2 = .ok ()) ∧ AgreeRun F k (w.exec C c).1 (w'.exec C c).1 ∧ Within F w.disk (w.exec C c).1.disk := by
  cases c with
  | initSave j sub uid => exact hc.elim
  | initLoad j sub => exact hc.elim
  | metadata j sub data => exact hc.elim
  | saveJson j x n =>
    obtain ⟨rfl, ha, ht⟩ := hc
    have := dumpTo_agree h.disk ht (C.dumpJson x)
    simp only [IoWorld.exec, h.save, h.save', local_path ha]
    exact ⟨this.1, ⟨this.2.1, h.save, h.save'⟩, this.2.2⟩
  | raw j b n =>
    obtain ⟨rfl, ha, ht⟩ := hc
    have := dumpTo_agree h.disk ht (b, true)
    simp only [IoWorld.exec, h.save, h.save', local_path ha]
    exact ⟨this.1, ⟨this.2.1, h.save, h.save'⟩, this.2.2⟩
  | mkdir j n =>
    obtain ⟨rfl, ha, ht⟩ := hc
    simp only [IoWorld.exec, h.save, h.save', local_path ha]
    rcases mkdirs_agree h.disk (p := F ++ n.toPath.parts) (List.prefix_append _ _) with ⟨e, e', h1, h2⟩ | ⟨d1, d1', h1, h2, h3, h4⟩
    · rw [h1, h2]
      exact ⟨by simp, h, fun q _ => rfl⟩
    · rw [h1, h2]
      exact ⟨Iff.rfl, ⟨h3, h.save, h.save'⟩, h4⟩
  | saveObj j o n =>
    obtain ⟨rfl, ha, ht⟩ := hc
    simp only [IoWorld.exec, h.save, h.save', local_path ha]
    have hp : F <+: (F ++ n.toPath.parts).dropLast := by
      rw [List.dropLast_append_of_ne_nil ht]
      exact List.prefix_append _ _
    rcases mkdirs_agree h.disk hp with ⟨e, e', h1, h2⟩ | ⟨d1, d1', h1, h2, h3, h4⟩
    · rw [h1, h2]
      exact ⟨by simp, h, fun q _ => rfl⟩
    · rw [h1, h2]
      have := dumpTo_agree h3 ht (C.dumpObj o)
      exact ⟨this.1, ⟨this.2.1, h.save, h.save'⟩, fun q hq => by rw [← h4 q hq]; exact this.2.2 q hq⟩

theorem script_agree (C : Coding O D B) {F : List FName} {k : Nat} (cs : List (IoCmd O D B)) (hc : ∀ c ∈ cs, LocalCmd k c) {w w' : IoWorld B} (h : AgreeRun F k w w') :
    ((w.script C cs).2 = .ok () ↔ (w'.script C cs).2 = .ok ()) ∧ AgreeRun F k (w.script C cs).1 (w'.script C cs).1 ∧ Within F w.disk (w.script C cs).1.disk := by
  induction cs generalizing w w' with
  | nil => exact ⟨Iff.rfl, h, fun q _ => rfl⟩
  | cons c cs ih =>
    obtain ⟨h1, h2, h3⟩ := exec_agree C h (hc c List.mem_cons_self)
    unfold IoWorld.script
    cases e : w.exec C c with
    | mk w1 r =>
      cases e' : w'.exec C c with
      | mk w1' r' =>
        rw [e, e'] at h1 h2
        rw [e] at h3
        cases r with
        | error x =>
          cases r' with
          | error x' => exact ⟨by simp, h2, h3⟩
          | ok u => exact absurd (h1.2 rfl) (by simp)
        | ok u =>
          cases r' with
          | error x' => exact absurd (h1.1 rfl) (by simp)
          | ok u' =>
            obtain ⟨i1, i2, i3⟩ := ih (fun c hc' => hc c (List.mem_cons_of_mem _ hc')) h2
            exact ⟨i1, i2, fun q hq => by rw [← h3 q hq]; exact i3 q hq⟩

theorem repFolder_plain (i : Nat) : PlainName (repFolder i) := by
  have hl : 10 ≤ (repFolder i).length := by
    unfold repFolder
    rw [List.length_append, show ("iteration_".toList).length = 10 from rfl]
    omega
  refine ⟨fun h => ?_, fun h => ?_, fun h => ?_⟩
  · rw [h] at hl; exact absurd hl (by decide)
  · rw [h] at hl; exact absurd hl (by decide)
  · unfold repFolder at h
    rcases List.mem_append.1 h with h | h
    · revert h; decide
    · exact absurd (decimal_digits i _ h) (by decide)

theorem folder_eq (top : List FName) (r : BenchRun O D B) : r.folder top = top ++ [r.setting] ++ [repFolder r.rep] := by
  unfold BenchRun.folder repFolder
  rw [List.append_assoc]
  rfl

theorem withDirs_withDirs {d : Disk B} {a b : List FName} (h : a <+: b) : (d.withDirs a).withDirs b = d.withDirs b := by
  funext q
  unfold Disk.withDirs
  by_cases h1 : q <+: a
  · have h2 := h1.trans h
    cases hq : d q <;> simp [h1, h2]
  · simp [h1]

/-- How a run begins. -/
theorem run_start (C : Coding O D B) (k : Nat) {top : List FName} {r : BenchRun O D B} (hr : PlainName r.setting) {w : IoWorld B} (hs : SoundDisk w.disk) (ht : w.disk top = some .dir)
    (h1 : ∀ b, w.disk (top ++ [r.setting]) ≠ some (.file b)) (h2 : ∀ b, w.disk (r.folder top) ≠ some (.file b)) :
    ∃ w3 : IoWorld B, w3.disk = w.disk.withDirs (r.folder top) ∧ (w3.ios k).savePath = r.folder top ∧ (w3.ios k).path = top ++ [r.setting] ∧ SoundDisk w3.disk ∧ w3.disk (r.folder top) = some .dir ∧
      (evolverRun C k top r w).1 = (w3.script C r.cmds).1 ∧ ((evolverRun C k top r w).2 = true ↔ (w3.script C r.cmds).2 = .ok () ∧ r.raises = false) := by
  have hF := folder_eq top r
  have pre1 : ∀ q, q <+: top ++ [r.setting] → q = top ++ [r.setting] ∨ q <+: top := by
    intro q hq
    rw [List.prefix_concat_iff] at hq
    exact hq
  have noFile1 : ∀ q b, q <+: top ++ [r.setting] → w.disk q ≠ some (.file b) := by
    intro q b hq
    rcases pre1 q hq with rfl | hq
    · exact h1 b
    · by_cases e : q = top
      · rw [e, ht]; simp
      · rw [sane_prefix hs ht hq e]; simp
  have m1 : mkdirs w.disk (top ++ [r.setting]) = .ok (w.disk.withDirs (top ++ [r.setting])) := by
    rcases mkdirs_spec hs (top ++ [r.setting]) with ⟨-, h⟩ | ⟨⟨q, b, hq, hb⟩, -⟩
    · exact h
    · exact absurd hb (noFile1 q b hq)
  have s1 := sane_withDirs hs noFile1
  have noFile2 : ∀ q b, q <+: r.folder top → w.disk.withDirs (top ++ [r.setting]) q ≠ some (.file b) := by
    intro q b hq
    rw [hF, List.prefix_concat_iff, ← hF] at hq
    unfold Disk.withDirs
    split_ifs with hc
    · simp
    · rcases hq with rfl | hq
      · exact h2 b
      · exact noFile1 q b hq
  have m2 : mkdirs (w.disk.withDirs (top ++ [r.setting])) (r.folder top) = .ok (w.disk.withDirs (r.folder top)) := by
    rcases mkdirs_spec s1 (r.folder top) with ⟨-, h⟩ | ⟨⟨q, b, hq, hb⟩, -⟩
    · rw [h, withDirs_withDirs (by rw [hF]; exact List.prefix_append _ _)]
    · exact absurd hb (noFile2 q b hq)
  have s2 : SoundDisk (w.disk.withDirs (r.folder top)) := by
    rw [← withDirs_withDirs (d := w.disk) (a := top ++ [r.setting]) (b := r.folder top) (by rw [hF]; exact List.prefix_append _ _)]
    exact sane_withDirs s1 noFile2
  have e1 : benchSetting C k top r.setting w = (⟨w.disk.withDirs (top ++ [r.setting]), fun j => if j = k then ⟨top ++ [r.setting], top ++ [r.setting], (w.ios k).loadPath⟩ else w.ios j⟩, true) := by
    unfold benchSetting
    simp only [IoWorld.exec, IoWorld.setPath, if_true, Io.saveDirOf, joinTo_plain _ hr, m1]
    congr 2
    funext j
    by_cases hj : j = k <;> simp [hj]
  have e2 : (⟨w.disk.withDirs (top ++ [r.setting]), fun j => if j = k then ⟨top ++ [r.setting], top ++ [r.setting], (w.ios k).loadPath⟩ else w.ios j⟩ : IoWorld B).exec C
      (.initSave k (some (repFolder r.rep)) none) =
      (⟨w.disk.withDirs (r.folder top), fun j => if j = k then ⟨top ++ [r.setting], r.folder top, (w.ios k).loadPath⟩ else w.ios j⟩, .ok ()) := by
    simp only [IoWorld.exec, if_true, Io.saveDirOf, joinTo_plain _ (repFolder_plain r.rep), ← hF, m2]
    congr 2
    funext j
    by_cases hj : j = k <;> simp [hj]
  refine ⟨⟨w.disk.withDirs (r.folder top), fun j => if j = k then ⟨top ++ [r.setting], r.folder top, (w.ios k).loadPath⟩ else w.ios j⟩, rfl, by simp, by simp, s2, ?_, ?_, ?_⟩
  · show w.disk.withDirs (r.folder top) (r.folder top) = some .dir
    unfold Disk.withDirs
    cases hd : w.disk (r.folder top) with
    | none => simp
    | some x =>
      cases x with
      | dir => simp
      | file b => exact absurd hd (h2 b)
  · unfold evolverRun
    rw [e1]
    dsimp only
    unfold benchRep
    rw [e2]
    dsimp only
    generalize IoWorld.script C _ r.cmds = x
    rcases x with ⟨w2, _ | _⟩ <;> rfl
  · unfold evolverRun
    rw [e1]
    dsimp only
    unfold benchRep
    rw [e2]
    dsimp only
    generalize IoWorld.script C _ r.cmds = x
    rcases x with ⟨w2, _ | _⟩ <;> simp

theorem folder_length (top : List FName) (r : BenchRun O D B) : (r.folder top).length = top.length + 2 := by simp [folder_eq]

theorem folder_inj {top : List FName} {r r' : BenchRun O D B} (h : r.folder top = r'.folder top) : r.setting = r'.setting ∧ r.rep = r'.rep := by
  rw [folder_eq, folder_eq] at h
  obtain ⟨h1, h2⟩ := List.append_inj' h rfl
  have h3 := (List.append_inj' h1 rfl).2
  simp only [List.cons.injEq, and_true] at h2 h3
  exact ⟨h3, decimal_inj (List.append_cancel_left h2)⟩

theorem folder_apart {top : List FName} {r r' : BenchRun O D B} (h : ¬ (r.setting = r'.setting ∧ r.rep = r'.rep)) {q : List FName} (hq : r.folder top <+: q) : ¬ r'.folder top <+: q := by
  intro hq'
  refine h (folder_inj (top := top) ?_)
  have : r.folder top <+: r'.folder top := List.prefix_of_prefix_length_le hq hq' (by rw [folder_length, folder_length])
  exact this.eq_of_length (by rw [folder_length, folder_length])

/-- One run: what it leaves alone, and what it depends on. -/
theorem run_effect (C : Coding O D B) (k : Nat) {top : List FName} {r : BenchRun O D B} (hr : PlainName r.setting) (hc : ∀ c ∈ r.cmds, LocalCmd k c) {w : IoWorld B} (hs : SoundDisk w.disk)
    (ht : w.disk top = some .dir) (h1 : ∀ b, w.disk (top ++ [r.setting]) ≠ some (.file b)) (h2 : ∀ b, w.disk (r.folder top) ≠ some (.file b)) :
    SoundDisk (evolverRun C k top r w).1.disk ∧ (∀ q, ¬ r.folder top <+: q → (evolverRun C k top r w).1.disk q = w.disk.withDirs (r.folder top) q) ∧
    ∀ w' : IoWorld B, SoundDisk w'.disk → w'.disk top = some .dir → (∀ b, w'.disk (top ++ [r.setting]) ≠ some (.file b)) → (∀ q, r.folder top <+: q → w.disk q = w'.disk q) →
      (∀ q, r.folder top <+: q → (evolverRun C k top r w).1.disk q = (evolverRun C k top r w').1.disk q) ∧ (evolverRun C k top r w).2 = (evolverRun C k top r w').2 := by
  obtain ⟨w3, a1, a2, -, a3, a4, a5, a6⟩ := run_start C k hr hs ht h1 h2
  have self : AgreeRun (r.folder top) k w3 w3 := ⟨⟨a3, a3, a4, fun q _ => rfl⟩, a2, a2⟩
  obtain ⟨-, b2, b3⟩ := script_agree C r.cmds hc self
  rw [a5]
  refine ⟨b2.disk.sound, fun q hq => by rw [b3 q hq, a1], fun w' hs' ht' h1' hq => ?_⟩
  obtain ⟨w3', c1, c2, -, c3, c4, c5, c6⟩ := run_start C k hr hs' ht' h1' (fun b => by rw [← hq _ (List.prefix_refl _)]; exact h2 b)
  have both : AgreeRun (r.folder top) k w3 w3' := by
    refine ⟨⟨a3, c3, a4, fun q hp => ?_⟩, a2, c2⟩
    rw [a1, c1]
    unfold Disk.withDirs
    rw [hq q hp]
  obtain ⟨d1, d2, -⟩ := script_agree C r.cmds hc both
  rw [c5]
  refine ⟨fun q hp => d2.disk.same q hp, ?_⟩
  rw [Bool.eq_iff_iff, a6, c6, d1]

/-- What stays ready for the runs to come. -/
theorem ready_after (C : Coding O D B) (k : Nat) {top : List FName} {r : BenchRun O D B} {rs : List (BenchRun O D B)} (hb : BenchSound k (r :: rs)) {w : IoWorld B} (hw : BenchReady top (r :: rs) w.disk) :
    BenchReady top rs (evolverRun C k top r w).1.disk ∧ (∀ r' ∈ rs, ∀ q, r'.folder top <+: q → (evolverRun C k top r w).1.disk q = w.disk q) := by
  obtain ⟨e1, e2, -⟩ := run_effect C k (hb.plain r List.mem_cons_self) (hb.calls r List.mem_cons_self) hw.sound hw.there (hw.setting r List.mem_cons_self) (hw.rep r List.mem_cons_self)
  have hle : ∀ q : List FName, q.length < top.length + 2 → ¬ r.folder top <+: q := fun q hq hp => by
    have := hp.length_le
    rw [folder_length] at this
    omega
  have keep : ∀ r' ∈ rs, ∀ q, r'.folder top <+: q → (evolverRun C k top r w).1.disk q = w.disk q := by
    intro r' hr' q hq
    have hap := (List.pairwise_cons.1 hb.apart).1 r' hr'
    have hn : ¬ r.folder top <+: q := folder_apart (fun h => hap ⟨h.1.symm, h.2.symm⟩) hq
    rw [e2 q hn]
    unfold Disk.withDirs
    rw [if_neg]
    rintro ⟨hp, -⟩
    have hl := hq.length_le
    rw [folder_length] at hl
    have : q = r.folder top := hp.eq_of_length_le (by rw [folder_length]; exact hl)
    exact hn (by rw [this])
  refine ⟨⟨e1, ?_, fun r' hr' b => ?_, fun r' hr' b => ?_⟩, keep⟩
  · rw [e2 top (hle _ (by omega))]
    unfold Disk.withDirs
    simp [hw.there]
  · rw [e2 _ (hle _ (by simp))]
    unfold Disk.withDirs
    split_ifs
    · simp
    · exact hw.setting r' (List.mem_cons_of_mem _ hr') b
  · rw [keep r' hr' _ (List.prefix_refl _)]
    exact hw.rep r' (List.mem_cons_of_mem _ hr') b

theorem bench_frame (C : Coding O D B) (k : Nat) (top : List FName) (rs : List (BenchRun O D B)) (hb : BenchSound k rs) (w : IoWorld B) (hw : BenchReady top rs w.disk) :
    ∀ q, (∀ r ∈ rs, ¬ r.folder top <+: q) →
      (evolverBench C k top rs w).disk q = w.disk q ∨ (evolverBench C k top rs w).disk q = some .dir ∧ w.disk q = none ∧ ∃ r ∈ rs, q <+: top ++ [r.setting] := by
  induction rs generalizing w with
  | nil => exact fun q _ => Or.inl rfl
  | cons r rs ih =>
    intro q hq
    have hb' : BenchSound k rs := ⟨fun r hr => hb.plain r (List.mem_cons_of_mem _ hr), fun r hr => hb.calls r (List.mem_cons_of_mem _ hr), (List.pairwise_cons.1 hb.apart).2⟩
    obtain ⟨-, e2, -⟩ := run_effect C k (hb.plain r List.mem_cons_self) (hb.calls r List.mem_cons_self) hw.sound hw.there (hw.setting r List.mem_cons_self) (hw.rep r List.mem_cons_self)
    have e := e2 q (hq r List.mem_cons_self)
    have i := ih hb' _ (ready_after C k hb hw).1 q (fun r hr => hq r (List.mem_cons_of_mem _ hr))
    unfold evolverBench
    unfold Disk.withDirs at e
    split_ifs at e with hc
    · refine Or.inr ⟨?_, hc.2, r, List.mem_cons_self, ?_⟩
      · rcases i with i | ⟨i, -⟩
        · rw [i, e]
        · exact i
      · have hF := folder_eq top r
        have := hc.1
        rw [hF, List.prefix_concat_iff] at this
        rcases this with h | h
        · exact absurd (by rw [h, hF]) (hq r List.mem_cons_self)
        · exact h
    · rcases i with i | ⟨i1, i2, r', hr', i3⟩
      · exact Or.inl (by rw [i, e])
      · exact Or.inr ⟨i1, by rw [← e]; exact i2, r', List.mem_cons_of_mem _ hr', i3⟩

/-- **C111.**  In `benchmark_evolvers` each run leaves in its folder what it would leave if it were the only one, whatever the other runs do and whether they fail; and the benchmark changes nothing
else, apart from making the folders of the settings. -/
theorem C111_folders (C : Coding O D B) (k : Nat) (top : List FName) (rs : List (BenchRun O D B)) (hb : BenchSound k rs) (w : IoWorld B) (hw : BenchReady top rs w.disk) :
    (∀ r ∈ rs, ∀ q, r.folder top <+: q → (evolverBench C k top rs w).disk q = (evolverRun C k top r w).1.disk q) ∧
    (∀ q, (∀ r ∈ rs, ¬ r.folder top <+: q) →
      (evolverBench C k top rs w).disk q = w.disk q ∨ (evolverBench C k top rs w).disk q = some .dir ∧ w.disk q = none ∧ ∃ r ∈ rs, q <+: top ++ [r.setting]) := by
  refine ⟨?_, bench_frame C k top rs hb w hw⟩
  induction rs generalizing w with
  | nil => intro r hr; simp at hr
  | cons r rs ih =>
    have hb' : BenchSound k rs := ⟨fun r hr => hb.plain r (List.mem_cons_of_mem _ hr), fun r hr => hb.calls r (List.mem_cons_of_mem _ hr), (List.pairwise_cons.1 hb.apart).2⟩
    obtain ⟨hw', keep⟩ := ready_after C k hb hw
    intro r' hr' q hq
    show (evolverBench C k top rs (evolverRun C k top r w).1).disk q = _
    rcases List.mem_cons.1 hr' with rfl | hr'
    · have hap := (List.pairwise_cons.1 hb.apart).1
      rcases bench_frame C k top rs hb' _ hw' q (fun r hr => folder_apart (hap r hr) hq) with h | ⟨-, h, r2, hr2, hp⟩
      · exact h
      · have h1 := hq.length_le
        have h2 := hp.length_le
        rw [folder_length] at h1
        simp only [List.length_append, List.length_cons, List.length_nil] at h2
        omega
    · rw [ih hb' _ hw' r' hr' q hq]
      obtain ⟨-, -, e3⟩ := run_effect C k (hb'.plain r' hr') (hb'.calls r' hr') hw'.sound hw'.there (hw'.setting r' hr') (hw'.rep r' hr')
      exact (e3 w hw.sound hw.there (hw.setting r' (List.mem_cons_of_mem _ hr')) (fun q hq => keep r' hr' q hq)).1 q hq

/-- **C111.**  A run that goes through leaves exactly the files of a topology optimisation in its folder, if this was new, whatever happens in the other runs. -/
theorem C111_results (C : Coding O D B) (k : Nat) (top : List FName) (rs : List (BenchRun O D B)) (hb : BenchSound k rs) (w : IoWorld B) (hw : BenchReady top rs w.disk) {r : BenchRun O D B} (hr : r ∈ rs)
    {x : RunData O D B} (hx : r.cmds = runCmds k x) (hser : Serialisable C x) (hnew : ∀ q, q ≠ [] → w.disk (r.folder top ++ q) = none) :
    ∀ q b, (evolverBench C k top rs w).disk (r.folder top ++ q) = some (.file b) ↔ RunFile C x q b := by
  intro q b
  rw [(C111_folders C k top rs hb w hw).1 r hr _ (List.prefix_append _ _)]
  obtain ⟨w3, a1, a2, -, a3, a4, a5, -⟩ := run_start C k (hb.plain r hr) hw.sound hw.there (hw.setting r hr) (hw.rep r hr)
  rw [a5, hx]
  obtain ⟨w', e, h⟩ := C77_run_new_folder C w3 a3 k x hser _ a2 a4 (fun q hq => by
    rw [a1]
    unfold Disk.withDirs
    rw [if_neg, hnew q hq]
    rintro ⟨hp, -⟩
    have := hp.length_le
    rw [List.length_append] at this
    exact hq (List.length_eq_zero_iff.1 (by omega)))
  rw [e]
  exact h q b

/-- **C111 (a file in the way).**  If a file is where the folder of a setting must be, a run of the setting fails and writes nothing; `benchmark_evolvers` leaves it out, and the other two scripts end there
with an exception, having made nothing of this setting or of those after it. -/
theorem C111_blocked (C : Coding O D B) (k : Nat) (top : List FName) {s : List Char} (hp : PlainName s) (w : IoWorld B) (hs : SoundDisk w.disk) {b : B} (hf : w.disk (top ++ [s]) = some (.file b)) :
    (∀ r : BenchRun O D B, r.setting = s → (evolverRun C k top r w).1.disk = w.disk ∧ (evolverRun C k top r w).2 = false) ∧
    (∀ rs gs, (groupBench C k top ((s, rs) :: gs) w).1.disk = w.disk ∧ (groupBench C k top ((s, rs) :: gs) w).2 = false) := by
  have key : ∃ ios, benchSetting C k top s w = (⟨w.disk, ios⟩, false) := by
    obtain ⟨e, he⟩ : ∃ e, mkdirs w.disk (top ++ [s]) = .error e := by
      rcases mkdirs_spec hs (top ++ [s]) with ⟨h, -⟩ | ⟨-, h⟩
      · exact absurd hf (h _ b (List.prefix_refl _))
      · exact h
    refine ⟨fun j => if j = k then ⟨top, top ++ [s], (w.ios k).loadPath⟩ else w.ios j, ?_⟩
    unfold benchSetting
    simp only [IoWorld.exec, IoWorld.setPath, if_true, Io.saveDirOf, joinTo_plain _ hp, he]
    congr 2
    funext j
    by_cases hj : j = k <;> simp [hj]
  obtain ⟨ios, he⟩ := key
  refine ⟨fun r hr => ?_, fun rs gs => ?_⟩
  · unfold evolverRun
    rw [hr, he]
    exact ⟨rfl, rfl⟩
  · rw [groupBench, he]
    exact ⟨rfl, rfl⟩

/-- The settings one after the other make the same runs. -/
theorem reps_again (C : Coding O D B) (k : Nat) {top : List FName} {s : List Char} (hs : PlainName s) {w : IoWorld B} (h : SoundDisk w.disk) (hd : w.disk (top ++ [s]) = some .dir)
    (hp : (w.ios k).path = top ++ [s]) {r : BenchRun O D B} (hr : r.setting = s) : evolverRun C k top r w = benchRep C k r w := by
  have m : mkdirs w.disk (top ++ [s]) = .ok w.disk := by
    have hne : ∀ q, q <+: top ++ [s] → w.disk q ≠ none := by
      intro q hq
      by_cases e : q = top ++ [s]
      · rw [e, hd]; simp
      · rw [sane_prefix h hd hq e]; simp
    rcases mkdirs_spec h (top ++ [s]) with ⟨-, e⟩ | ⟨⟨q, b, hq, hb⟩, -⟩
    · rw [e, withDirs_self _ hne]
    · by_cases e : q = top ++ [s]
      · rw [e, hd] at hb; simp at hb
      · rw [sane_prefix h hd hq e] at hb; simp at hb
  have e1 : benchSetting C k top r.setting w = (⟨w.disk, fun j => if j = k then ⟨top ++ [s], top ++ [s], (w.ios k).loadPath⟩ else w.ios j⟩, true) := by
    unfold benchSetting
    rw [hr]
    simp only [IoWorld.exec, IoWorld.setPath, if_true, Io.saveDirOf, joinTo_plain _ hs, m]
    congr 2
    funext j
    by_cases hj : j = k <;> simp [hj]
  unfold evolverRun
  rw [e1]
  dsimp only
  unfold benchRep
  have : (⟨w.disk, fun j => if j = k then ⟨top ++ [s], top ++ [s], (w.ios k).loadPath⟩ else w.ios j⟩ : IoWorld B).exec C (.initSave k (some (repFolder r.rep)) none) =
      w.exec C (.initSave k (some (repFolder r.rep)) none) := by
    simp only [IoWorld.exec, if_true, Io.saveDirOf, hp]
    have hf : (fun j => if j = k then { path := top ++ [s], savePath := joinTo (top ++ [s]) (PyPath.ofStr (repFolder r.rep)), loadPath := (w.ios k).loadPath } else if j = k then
        { path := top ++ [s], savePath := top ++ [s], loadPath := (w.ios k).loadPath } else w.ios j) =
        (fun j => if j = k then { path := top ++ [s], savePath := joinTo (top ++ [s]) (PyPath.ofStr (repFolder r.rep)), loadPath := (w.ios k).loadPath } else w.ios j : Nat → Io) := by
      funext j
      by_cases hj : j = k <;> simp [hj]
    rw [hf]
  rw [this]

theorem script_path (C : Coding O D B) (cs : List (IoCmd O D B)) (w : IoWorld B) (k : Nat) : ((w.script C cs).1.ios k).path = (w.ios k).path := by
  induction cs generalizing w with
  | nil => rfl
  | cons c cs ih =>
    unfold IoWorld.script
    have := exec_path C w c k
    cases e : w.exec C c with
    | mk w1 x =>
      rw [e] at this
      cases x with
      | error y => exact this
      | ok u => exact (ih w1).trans this

/-- Where a run leaves the object, and the folder of its setting. -/
theorem run_leaves (C : Coding O D B) (k : Nat) {top : List FName} {r : BenchRun O D B} (hr : PlainName r.setting) (hc : ∀ c ∈ r.cmds, LocalCmd k c) {w : IoWorld B} (hs : SoundDisk w.disk)
    (ht : w.disk top = some .dir) (h1 : ∀ b, w.disk (top ++ [r.setting]) ≠ some (.file b)) (h2 : ∀ b, w.disk (r.folder top) ≠ some (.file b)) :
    ((evolverRun C k top r w).1.ios k).path = top ++ [r.setting] ∧ (evolverRun C k top r w).1.disk (top ++ [r.setting]) = some .dir := by
  obtain ⟨w3, -, -, a3, -, -, a6, -⟩ := run_start C k hr hs ht h1 h2
  refine ⟨by rw [a6, script_path, a3], ?_⟩
  have hn : ¬ r.folder top <+: top ++ [r.setting] := by
    intro h
    have := h.length_le
    rw [folder_length] at this
    simp at this
  rw [(run_effect C k hr hc hs ht h1 h2).2.1 _ hn]
  have hp : top ++ [r.setting] <+: r.folder top := by
    rw [folder_eq]
    exact List.prefix_append _ _
  unfold Disk.withDirs
  cases hd : w.disk (top ++ [r.setting]) with
  | none => simp [hp]
  | some x =>
    cases x with
    | dir => simp
    | file b => exact absurd hd (h1 b)

/-- Runs up to the first that fails. -/
def seqRuns (C : Coding O D B) (k : Nat) (top : List FName) : List (BenchRun O D B) → IoWorld B → IoWorld B × Bool
  | [], w => (w, true)
  | r :: rs, w =>
    match evolverRun C k top r w with
    | (w1, false) => (w1, false)
    | (w1, true) => seqRuns C k top rs w1

theorem seqRuns_append (C : Coding O D B) (k : Nat) (top : List FName) (a b : List (BenchRun O D B)) (w : IoWorld B) : seqRuns C k top (a ++ b) w =
    match seqRuns C k top a w with
    | (w1, false) => (w1, false)
    | (w1, true) => seqRuns C k top b w1 := by
  induction a generalizing w with
  | nil => rfl
  | cons r a ih =>
    rw [List.cons_append, seqRuns, seqRuns]
    rcases evolverRun C k top r w with ⟨w1, _ | _⟩
    · rfl
    · exact ih w1

theorem BenchSound.tail {k : Nat} {r : BenchRun O D B} {rs : List (BenchRun O D B)} (hb : BenchSound k (r :: rs)) : BenchSound k rs :=
  ⟨fun r hr => hb.plain r (List.mem_cons_of_mem _ hr), fun r hr => hb.calls r (List.mem_cons_of_mem _ hr), (List.pairwise_cons.1 hb.apart).2⟩

theorem benchReps_seq (C : Coding O D B) (k : Nat) {top : List FName} {s : List Char} (hs : PlainName s) (rs more : List (BenchRun O D B)) (hset : ∀ r ∈ rs, r.setting = s) (hb : BenchSound k (rs ++ more))
    (w : IoWorld B) (hw : BenchReady top (rs ++ more) w.disk) (hd : w.disk (top ++ [s]) = some .dir) (hp : (w.ios k).path = top ++ [s]) :
    benchReps C k rs w = seqRuns C k top rs w ∧ BenchReady top more (seqRuns C k top rs w).1.disk := by
  induction rs generalizing w with
  | nil => exact ⟨rfl, hw⟩
  | cons r rs ih =>
    have hr := hset r List.mem_cons_self
    have e := reps_again C k hs hw.sound hd hp hr
    obtain ⟨p1, p2⟩ := run_leaves C k (hb.plain r List.mem_cons_self) (hb.calls r List.mem_cons_self) hw.sound hw.there (hw.setting r List.mem_cons_self) (hw.rep r List.mem_cons_self)
    have hw' := (ready_after C k hb hw).1
    rw [hr] at p1 p2
    unfold benchReps seqRuns
    rw [← e]
    have i := ih (fun r hr => hset r (List.mem_cons_of_mem _ hr)) hb.tail _ hw' p2 p1
    rcases hx : evolverRun C k top r w with ⟨w1, _ | _⟩
    · rw [hx] at hw'
      exact ⟨rfl, hw'.sound, hw'.there, fun r hr => hw'.setting r (List.mem_append_right _ hr), fun r hr => hw'.rep r (List.mem_append_right _ hr)⟩
    · rw [hx] at i
      exact i

theorem group_seq (C : Coding O D B) (k : Nat) (top : List FName) (gs : List (List Char × List (BenchRun O D B))) (hg : ∀ g ∈ gs, g.2 ≠ [] ∧ ∀ r ∈ g.2, r.setting = g.1)
    (hb : BenchSound k (gs.flatMap (·.2))) (w : IoWorld B) (hw : BenchReady top (gs.flatMap (·.2)) w.disk) : groupBench C k top gs w = seqRuns C k top (gs.flatMap (·.2)) w := by
  induction gs generalizing w with
  | nil => rfl
  | cons g gs ih =>
    obtain ⟨s, rs⟩ := g
    obtain ⟨hne, hset⟩ := hg (s, rs) List.mem_cons_self
    rw [List.flatMap_cons] at hb hw ⊢
    dsimp only at hne hset hb hw ⊢
    cases rs with
    | nil => exact absurd rfl hne
    | cons r rs =>
      have hr := hset r List.mem_cons_self
      have hplain := hb.plain r List.mem_cons_self
      obtain ⟨p1, p2⟩ := run_leaves C k hplain (hb.calls r List.mem_cons_self) hw.sound hw.there (hw.setting r List.mem_cons_self) (hw.rep r List.mem_cons_self)
      have hw' := (ready_after C k hb hw).1
      rw [hr] at p1 p2 hplain
      rw [seqRuns_append]
      have e : groupBench C k top ((s, r :: rs) :: gs) w =
          (match evolverRun C k top r w with
          | (w1, false) => (w1, false)
          | (w1, true) => match benchReps C k rs w1 with
            | (w2, false) => (w2, false)
            | (w2, true) => groupBench C k top gs w2) := by
        rw [groupBench.eq_2]
        unfold evolverRun
        rw [hr]
        rcases benchSetting C k top s w with ⟨w1, _ | _⟩
        · rfl
        · dsimp only
          rw [benchReps]
          rcases benchRep C k r w1 with ⟨w2, _ | _⟩ <;> rfl
      rw [e]
      obtain ⟨i1, i2⟩ := benchReps_seq C k hplain rs (gs.flatMap (·.2)) (fun r hr => hset r (List.mem_cons_of_mem _ hr)) hb.tail _ hw' p2 p1
      rw [seqRuns]
      rcases hx : evolverRun C k top r w with ⟨w1, _ | _⟩
      · rfl
      · rw [hx] at i1 i2
        dsimp only at i1 i2 ⊢
        rw [i1]
        have hb2 : BenchSound k (gs.flatMap (·.2)) := by
          refine ⟨fun r hr => hb.plain r (List.mem_append_right _ hr), fun r hr => hb.calls r (List.mem_append_right _ hr), ?_⟩
          exact (List.pairwise_append.1 hb.apart).2.1
        have j := ih (fun g hg' => hg g (List.mem_cons_of_mem _ hg')) hb2 _ i2
        rcases hy : seqRuns C k top rs w1 with ⟨w2, _ | _⟩
        · rfl
        · rw [hy] at j
          exact j

/-- **C111.**  `benchmark_elitism` and `benchmark_selection_rules` make the same runs in the same folders, but end with the first run that fails: up to there everything is as if each run were made by
itself, the runs behind are not made. -/
theorem C111_stops (C : Coding O D B) (k : Nat) (top : List FName) (gs : List (List Char × List (BenchRun O D B))) (hg : ∀ g ∈ gs, g.2 ≠ [] ∧ ∀ r ∈ g.2, r.setting = g.1)
    (hb : BenchSound k (gs.flatMap (·.2))) (w : IoWorld B) (hw : BenchReady top (gs.flatMap (·.2)) w.disk) :
    ∃ made rest, gs.flatMap (·.2) = made ++ rest ∧ (groupBench C k top gs w).1 = evolverBench C k top made w ∧
      ((groupBench C k top gs w).2 = true → rest = [] ∧ ∀ r ∈ made, (evolverRun C k top r w).2 = true) ∧
      ((groupBench C k top gs w).2 = false → ∃ before r, made = before ++ [r] ∧ (∀ r' ∈ before, (evolverRun C k top r' w).2 = true) ∧ (evolverRun C k top r w).2 = false) := by
  rw [group_seq C k top gs hg hb w hw]
  generalize gs.flatMap (·.2) = rs at hb hw
  induction rs generalizing w with
  | nil => exact ⟨[], [], rfl, rfl, fun _ => ⟨rfl, by simp⟩, fun h => by simp [seqRuns] at h⟩
  | cons r rs ih =>
    obtain ⟨hw', keep⟩ := ready_after C k hb hw
    obtain ⟨made, rest, h1, h2, h3, h4⟩ := ih _ hb.tail hw'
    have flag : ∀ r' ∈ rs, (evolverRun C k top r' (evolverRun C k top r w).1).2 = (evolverRun C k top r' w).2 := by
      intro r' hr'
      obtain ⟨-, -, e3⟩ := run_effect C k (hb.tail.plain r' hr') (hb.tail.calls r' hr') hw'.sound hw'.there (hw'.setting r' hr') (hw'.rep r' hr')
      exact (e3 w hw.sound hw.there (hw.setting r' (List.mem_cons_of_mem _ hr')) (fun q hq => keep r' hr' q hq)).2
    rw [seqRuns]
    rcases hx : evolverRun C k top r w with ⟨w1, _ | _⟩
    · refine ⟨[r], rs, rfl, ?_, fun h => by simp at h, fun _ => ⟨[], r, rfl, by simp, by rw [hx]⟩⟩
      show w1 = (evolverRun C k top r w).1
      rw [hx]
    · rw [hx] at h2 h3 h4 flag
      refine ⟨r :: made, rest, by rw [h1]; rfl, ?_, fun h => ?_, fun h => ?_⟩
      · show (seqRuns C k top rs w1).1 = evolverBench C k top made (evolverRun C k top r w).1
        rw [hx]; exact h2
      · obtain ⟨e, hall⟩ := h3 h
        refine ⟨e, fun r' hr' => ?_⟩
        rcases List.mem_cons.1 hr' with rfl | hr'
        · rw [hx]
        · rw [← flag r' (by rw [h1]; exact List.mem_append_left _ hr')]
          exact hall r' hr'
      · obtain ⟨before, r2, e, hall, hf⟩ := h4 h
        refine ⟨r :: before, r2, by rw [e]; rfl, fun r' hr' => ?_, ?_⟩
        · rcases List.mem_cons.1 hr' with rfl | hr'
          · rw [hx]
          · rw [← flag r' (by rw [h1, e]; simp [hr'])]
            exact hall r' hr'
        · rw [← flag r2 (by rw [h1, e]; simp)]
          exact hf

end

/-! ## The plan -/

theorem withSizes_map (hof : Nat) (l : List (List Char × Nat × Nat)) (g : GaSizes) : withSizes hof l g = l.map (fun x => ⟨x.1, x.2.1, x.2.2, min hof x.2.2⟩) := by
  induction l generalizing g with
  | nil => rfl
  | cons x l ih =>
    obtain ⟨s, i, p⟩ := x
    rw [withSizes, List.map_cons, ih]
    unfold GaSizes.setup
    congr 1
    dsimp only
    split_ifs with h
    · rw [Nat.min_eq_right (by omega)]; rfl
    · rw [Nat.min_eq_left (by omega)]; rfl

theorem underscore_decimal (n : Nat) : '_' ∉ decimal n := fun hc => absurd (decimal_digits n _ hc) (by decide)

theorem popFolder_inj {tail : List Char} {p p' : Nat} {c c' : List Char}
    (h : "popSize".toList ++ decimal p ++ ('_' :: tail) ++ c = "popSize".toList ++ decimal p' ++ ('_' :: tail) ++ c') : p = p' ∧ c = c' := by
  simp only [List.append_assoc, List.append_cancel_left_eq, List.cons_append] at h
  obtain ⟨h1, h2⟩ := cut_at (underscore_decimal p) (underscore_decimal p') h
  exact ⟨decimal_inj h1, List.append_cancel_left h2⟩

theorem evolverFolder_inj {p p' : Nat} {c c' : List Char} (h : evolverFolder p c = evolverFolder p' c') : p = p' ∧ c = c' :=
  popFolder_inj (tail := "evolver".toList) h

theorem dots_inj {r r' : List Char} (h : '_' ∉ r) (h' : '_' ∉ r') (e : r.map (fun c => if c = '.' then '_' else c) = r'.map (fun c => if c = '.' then '_' else c)) : r = r' := by
  induction r generalizing r' with
  | nil =>
    cases r' with
    | nil => rfl
    | cons x r' => simp at e
  | cons c r ih =>
    cases r' with
    | nil => simp at e
    | cons c' r' =>
      simp only [List.map_cons, List.cons.injEq] at e
      simp only [List.mem_cons, not_or] at h h'
      rw [ih h.2 h'.2 e.2]
      congr 1
      have e1 := e.1
      split_ifs at e1 with h1 h2 h2
      · rw [h1, h2]
      · exact absurd e1 h'.1
      · exact absurd e1.symm h.1
      · exact e1

theorem elitismFolder_inj {p p' : Nat} {r r' : List Char} (hr : '_' ∉ r) (hr' : '_' ∉ r') (h : elitismFolder p r = elitismFolder p' r') : p = p' ∧ r = r' := by
  obtain ⟨h1, h2⟩ := popFolder_inj (tail := "elitismRatio".toList) h
  exact ⟨h1, dots_inj hr hr' h2⟩

theorem sprod_mem {β γ : Type} {a : β} {b : γ} {l : List β} {m : List γ} : (a, b) ∈ l ×ˢ m ↔ a ∈ l ∧ b ∈ m := List.pair_mem_product

/-- **C111.**  `benchmark_evolvers` makes each combination of repetition, class and population size just once, each in a folder of its own, and gives to each run its population size and the smaller one of the
hall of fame asked for and of that size (not that of the run before), if no class occurs twice. -/
theorem C111_plan (reps : Nat) {classes : List (List Char)} {pops : List Nat} (hc : classes.Nodup) (hp : pops.Nodup) (g : GaSizes) :
    (evolverPlan reps classes pops g).length = reps * (classes.length * pops.length) ∧
    (∀ x, x ∈ evolverPlan reps classes pops g ↔ ∃ i c p, i < reps ∧ c ∈ classes ∧ p ∈ pops ∧ x = ⟨"popSize".toList ++ decimal p ++ "_evolver".toList ++ c, i, p, min g.nHof p⟩) ∧
    (evolverPlan reps classes pops g).Pairwise (fun x y => ¬ (x.setting = y.setting ∧ x.rep = y.rep)) := by
  have e : evolverPlan reps classes pops g = (List.range reps ×ˢ (classes ×ˢ pops)).map (fun x => ⟨evolverFolder x.2.2 x.2.1, x.1, x.2.2, min g.nHof x.2.2⟩) := by
    unfold evolverPlan
    rw [withSizes_map]
    simp only [SProd.sprod, List.product, List.map_flatMap, List.map_map, Function.comp_def]
  rw [e]
  refine ⟨by rw [List.length_map, List.length_product, List.length_range, List.length_product], fun x => ?_, ?_⟩
  · simp only [List.mem_map, Prod.exists, sprod_mem, List.mem_range]
    constructor
    · rintro ⟨i, c, p, ⟨h1, h2, h3⟩, rfl⟩
      exact ⟨i, c, p, h1, h2, h3, rfl⟩
    · rintro ⟨i, c, p, h1, h2, h3, rfl⟩
      exact ⟨i, c, p, ⟨h1, h2, h3⟩, rfl⟩
  · rw [List.pairwise_map]
    refine (List.nodup_range.product (hc.product hp)).imp (fun {x y} hne h => hne ?_)
    obtain ⟨h1, h2⟩ := evolverFolder_inj h.1
    exact Prod.ext h.2 (Prod.ext h2 h1)

/-- **C111.**  Likewise `benchmark_elitism`, the ratios being written without underscores, as numbers are. -/
theorem C111_plan_elitism (reps : Nat) {pops : List Nat} {ratios : List (List Char)} (hp : pops.Nodup) (hr : ratios.Nodup) (hu : ∀ r ∈ ratios, '_' ∉ r) (g : GaSizes) :
    (elitismPlan reps pops ratios g).length = pops.length * (ratios.length * reps) ∧
    (∀ x, x ∈ elitismPlan reps pops ratios g ↔ ∃ i p r, i < reps ∧ p ∈ pops ∧ r ∈ ratios ∧
      x = ⟨"popSize".toList ++ decimal p ++ "_elitismRatio".toList ++ r.map (fun c => if c = '.' then '_' else c), i, p, min g.nHof p⟩) ∧
    (elitismPlan reps pops ratios g).Pairwise (fun x y => ¬ (x.setting = y.setting ∧ x.rep = y.rep)) := by
  have e : elitismPlan reps pops ratios g = (pops ×ˢ (ratios ×ˢ List.range reps)).map (fun x => ⟨elitismFolder x.1 x.2.1, x.2.2, x.1, min g.nHof x.1⟩) := by
    unfold elitismPlan
    rw [withSizes_map]
    simp only [SProd.sprod, List.product, List.map_flatMap, List.map_map, Function.comp_def]
  rw [e]
  refine ⟨by rw [List.length_map, List.length_product, List.length_product, List.length_range], fun x => ?_, ?_⟩
  · simp only [List.mem_map, Prod.exists, sprod_mem, List.mem_range]
    constructor
    · rintro ⟨p, r, i, ⟨h1, h2, h3⟩, rfl⟩
      exact ⟨i, p, r, h3, h1, h2, rfl⟩
    · rintro ⟨i, p, r, h1, h2, h3, rfl⟩
      exact ⟨p, r, i, ⟨h2, h3, h1⟩, rfl⟩
  · rw [List.pairwise_map]
    refine (hp.product (hr.product List.nodup_range)).imp_of_mem (fun {x y} hx hy hne h => hne ?_)
    obtain ⟨x1, x2, x3⟩ := x
    obtain ⟨y1, y2, y3⟩ := y
    rw [sprod_mem, sprod_mem] at hx hy
    obtain ⟨h1, h2⟩ := elitismFolder_inj (hu _ hx.2.1) (hu _ hy.2.1) h.1
    exact Prod.ext h1 (Prod.ext h2 h.2)

/-- **C111.**  Likewise `benchmark_selection_rules`; here the hall of fame may be larger than the population. -/
theorem C111_plan_selection (reps : Nat) {rules : List (List Char)} (hr : rules.Nodup) (pop hof : Nat) :
    (selectionPlan reps rules pop hof).length = rules.length * reps ∧
    (∀ x, x ∈ selectionPlan reps rules pop hof ↔ ∃ i r, i < reps ∧ r ∈ rules ∧ x = ⟨"selectionRule_".toList ++ r, i, pop, hof⟩) ∧
    (selectionPlan reps rules pop hof).Pairwise (fun x y => ¬ (x.setting = y.setting ∧ x.rep = y.rep)) := by
  have e : selectionPlan reps rules pop hof = (rules ×ˢ List.range reps).map (fun x => ⟨ruleFolder x.1, x.2, pop, hof⟩) := by
    unfold selectionPlan
    simp only [SProd.sprod, List.product, List.map_flatMap, List.map_map, Function.comp_def]
  rw [e]
  refine ⟨by rw [List.length_map, List.length_product, List.length_range], fun x => ?_, ?_⟩
  · simp only [List.mem_map, Prod.exists, sprod_mem, List.mem_range]
    constructor
    · rintro ⟨r, i, ⟨h1, h2⟩, rfl⟩
      exact ⟨i, r, h2, h1, rfl⟩
    · rintro ⟨i, r, h1, h2, rfl⟩
      exact ⟨r, i, ⟨h2, h1⟩, rfl⟩
  · rw [List.pairwise_map]
    refine (hr.product List.nodup_range).imp (fun {x y} hne h => hne ?_)
    exact Prod.ext (List.append_cancel_left (as := "selectionRule_".toList) h.1) h.2

/-- Finding.  The folder of a run tells the class of the evolver, not its settings: with two evolvers of one class each of their runs is made twice in one folder. -/
theorem C111_same_class {reps : Nat} (hr : 0 < reps) (before between after : List (List Char)) (c : List Char) {pops : List Nat} (hp : pops ≠ []) (g : GaSizes) :
    ¬ (evolverPlan reps (before ++ c :: between ++ c :: after) pops g).Pairwise (fun x y => ¬ (x.setting = y.setting ∧ x.rep = y.rep)) := by
  obtain ⟨n, rfl⟩ : ∃ n, reps = n + 1 := ⟨reps - 1, by omega⟩
  obtain ⟨p, ps, rfl⟩ := List.exists_cons_of_ne_nil hp
  unfold evolverPlan
  rw [withSizes_map, List.range_succ_eq_map, List.flatMap_cons, List.map_append, List.flatMap_append, List.flatMap_append, List.map_append, List.map_append]
  intro h
  have h1 := (List.pairwise_append.1 (List.pairwise_append.1 h).1).2.2
  refine h1 ⟨evolverFolder p c, 0, p, min g.nHof p⟩ ?_ ⟨evolverFolder p c, 0, p, min g.nHof p⟩ ?_ ⟨rfl, rfl⟩
  · simp
  · simp

/-! ## The log files -/

section
variable {α : Type} {nl : List α}

theorem told_open {w v : LogWorld α} (hw : w.Open) {t : List α} (hs : v.stdout = w.stdout) (ht : v.tees = told t w.stdout w.tees) : v.Open := by
  refine ⟨by rw [hs]; exact hw.nodup, fun k hk => ?_⟩
  rw [hs] at hk
  obtain ⟨o, e, ho⟩ := hw.isOpen k hk
  exact ⟨_, by rw [ht, told_get, e]; rfl, by simp [hk, ho]⟩

theorem told_nil (ch : List Nat) (l : List (TeeObj α)) : told [] ch l = l := by
  refine List.ext_getElem? (fun k => ?_)
  rw [told_get]
  cases l[k]? with
  | none => rfl
  | some o => by_cases h : k ∈ ch <;> simp [h]

/-- Printing some lines. -/
theorem says_run (ts : List (List α)) (w : LogWorld α) (hw : w.Open) :
    ∃ w', w.run nl (ts.map .say) = (w', .ok ()) ∧ w'.stdout = w.stdout ∧ w'.screen = w.screen ++ linesOf nl ts ∧ w'.tees = told (linesOf nl ts) w.stdout w.tees ∧ w'.held = w.held := by
  induction ts generalizing w with
  | nil => exact ⟨w, rfl, rfl, by simp [linesOf], by rw [linesOf, List.flatMap_nil, told_nil], rfl⟩
  | cons t ts ih =>
    obtain ⟨w1, new, r1, s1, c1, t1, n1, -, h1⟩ := prog_run (nl := nl) (.say t) trivial w hw
    have hnew : new = [] := by simpa [LogProg.logs] using n1
    rw [hnew, List.append_nil] at t1
    obtain ⟨w2, r2, s2, c2, t2, h2⟩ := ih w1 (told_open hw s1 t1)
    refine ⟨w2, ?_, s2.trans s1, ?_, ?_, ?_⟩
    · rw [List.map_cons, show (LogOp.say t :: ts.map .say) = (LogProg.say t).ops ++ ts.map .say from rfl, log_run_append, r1]
      exact r2
    · rw [c2, c1]
      simp [linesOf, LogProg.text]
    · rw [t2, t1, s1, told_told]
      rfl
    · rw [h2]
      funext j
      exact h1 j (by simp [LogProg.objs])

theorem start_stays_open {w : LogWorld α} (hw : w.Open) (io p : Nat) : (w.start io p).Open := by
  refine ⟨List.nodup_cons.2 ⟨fun h => Nat.lt_irrefl _ (hw.lt _ h), hw.nodup⟩, fun k hk => ?_⟩
  show ∃ o, (w.tees ++ [(⟨w.stdout, p, [], true⟩ : TeeObj α)])[k]? = some o ∧ o.isOpen = true
  rcases List.mem_cons.1 hk with rfl | hk
  · exact ⟨⟨w.stdout, p, [], true⟩, by simp, rfl⟩
  · obtain ⟨o, e, ho⟩ := hw.isOpen k hk
    exact ⟨o, by rw [List.getElem?_append_left (hw.lt k hk), e], ho⟩

/-- A run that ends. -/
theorem bench_done (io p : Nat) (said after : List (List α)) (msg : List α) (w : LogWorld α) (hw : w.Open) :
    (benchLog nl io (RunTalk.toRun io p msg (.done said after)) w).Open ∧ (benchLog nl io (RunTalk.toRun io p msg (.done said after)) w).stdout = w.stdout ∧
    (benchLog nl io (RunTalk.toRun io p msg (.done said after)) w).screen = w.screen ++ (linesOf nl said ++ linesOf nl after) ∧
    (benchLog nl io (RunTalk.toRun io p msg (.done said after)) w).tees = told (linesOf nl said ++ linesOf nl after) w.stdout w.tees ++ [⟨w.stdout, p, linesOf nl said, false⟩] := by
  obtain ⟨w1, r1, s1, c1, t1, h1⟩ := says_run (nl := nl) said (w.start io p) (start_stays_open hw io p)
  have t1' : w1.tees = told (linesOf nl said) w.stdout w.tees ++ [⟨w.stdout, p, linesOf nl said, true⟩] := by
    rw [t1]
    show told _ (w.tees.length :: w.stdout) (w.tees ++ [_]) = _
    rw [told_last]
    simp
  have hheld : w1.held io = some w.tees.length := by rw [h1]; simp [LogWorld.start]
  have hget : w1.tees[w.tees.length]? = some ⟨w.stdout, p, linesOf nl said, true⟩ := by
    rw [t1', List.getElem?_append_right (Nat.le_of_eq (told_length _ _ _)), told_length]
    simp
  let v : LogWorld α := ⟨w.stdout, w1.screen, told (linesOf nl said) w.stdout w.tees ++ [⟨w.stdout, p, linesOf nl said, false⟩], w1.held⟩
  have hstop : w1.stop io = (v, .ok ()) := by
    unfold LogWorld.stop
    simp only [hheld, hget]
    refine congrArg (·, _) ?_
    show LogWorld.mk _ _ _ _ = _
    congr 1
    rw [t1']
    exact modify_mid _ _ [] _ (told_length _ _ _)
  have hv : v.Open := by
    refine ⟨hw.nodup, fun k hk => ?_⟩
    obtain ⟨o, e, ho⟩ := hw.isOpen k hk
    refine ⟨_, by show (told (linesOf nl said) w.stdout w.tees ++ _)[k]? = _; rw [List.getElem?_append_left (by rw [told_length]; exact hw.lt k hk), told_get, e]; rfl, by simp [show k ∈ w.stdout from hk, ho]⟩
  obtain ⟨w2, r2, s2, c2, t2, -⟩ := says_run (nl := nl) after v hv
  have e : benchLog nl io (RunTalk.toRun io p msg (.done said after)) w = w2 := by
    unfold benchLog RunTalk.toRun
    dsimp only
    have : w.run nl (.start io p :: (said.map .say ++ .stop io :: after.map .say)) = (w2, .ok ()) := by
      rw [LogWorld.run]
      show (w.start io p).run nl (said.map .say ++ .stop io :: after.map .say) = _
      rw [log_run_append, r1]
      show w1.run nl (.stop io :: after.map .say) = _
      simp only [LogWorld.run, LogWorld.step, hstop]
      exact r2
    rw [this]
  have hlt : ∀ k ∈ w.stdout, k < (told (linesOf nl said) w.stdout w.tees).length := by rw [told_length]; exact hw.lt
  rw [e]
  refine ⟨told_open hv s2 t2, s2, ?_, ?_⟩
  · rw [c2]
    show w1.screen ++ _ = _
    rw [c1]
    simp [LogWorld.start]
  · rw [t2]
    show told _ w.stdout (told _ w.stdout w.tees ++ _) = _
    rw [told_append _ _ hlt, told_told]

/-- A run that fails. -/
theorem bench_broke (io p : Nat) (said : List (List α)) (e : Err) (msg : List α) (w : LogWorld α) (hw : w.Open) :
    (benchLog nl io (RunTalk.toRun io p msg (.broke said e)) w).Open ∧ (benchLog nl io (RunTalk.toRun io p msg (.broke said e)) w).stdout = w.tees.length :: w.stdout ∧
    (benchLog nl io (RunTalk.toRun io p msg (.broke said e)) w).screen = w.screen ++ (linesOf nl said ++ (msg ++ nl)) ∧
    (benchLog nl io (RunTalk.toRun io p msg (.broke said e)) w).tees = told (linesOf nl said ++ (msg ++ nl)) w.stdout w.tees ++ [⟨w.stdout, p, linesOf nl said ++ (msg ++ nl), true⟩] := by
  have ho := start_stays_open hw io p
  obtain ⟨w1, r1, s1, c1, t1, -⟩ := says_run (nl := nl) said (w.start io p) ho
  have ho1 := told_open ho s1 t1
  obtain ⟨w2, r2, s2, c2, t2, -⟩ := says_run (nl := nl) [msg] w1 ho1
  have e : benchLog nl io (RunTalk.toRun io p msg (.broke said e)) w = w2 := by
    unfold benchLog RunTalk.toRun
    dsimp only
    have : w.run nl (.start io p :: (said.map .say ++ [.fail e])) = (w1, .error e) := by
      rw [LogWorld.run]
      show (w.start io p).run nl (said.map .say ++ [.fail e]) = _
      rw [log_run_append, r1]
      rfl
    rw [this]
    show (w1.run nl [.say msg]).1 = w2
    exact congrArg Prod.fst r2
  have hl : linesOf nl [msg] = msg ++ nl := by simp [linesOf]
  rw [e]
  refine ⟨told_open ho1 s2 t2, s2.trans s1, ?_, ?_⟩
  · rw [c2, c1, hl]
    simp [LogWorld.start]
  · rw [t2, t1, s1, told_told, hl]
    show told _ (w.tees.length :: w.stdout) (w.tees ++ [_]) = _
    rw [told_last]
    simp

/-- **C111.**  Findings on the log files of `benchmark_evolvers`.  The log of a run that ends holds what was printed during it.  A run that fails is never taken off `sys.stdout`: its log goes on receiving
the message and everything that later runs print, to the end of the script, and after `n` failures every text passes `n` files. -/
theorem C111_log (io : Nat) (l : List (Nat × List α × RunTalk α)) (w : LogWorld α) (hw : w.Open) :
    ((benchLogs nl io (l.map (fun r => RunTalk.toRun io r.1 r.2.1 r.2.2)) w).tees.drop w.tees.length).map (fun o => (o.path, o.logged)) = runLogs nl l ∧
    (benchLogs nl io (l.map (fun r => RunTalk.toRun io r.1 r.2.1 r.2.2)) w).screen = w.screen ++ saidBy nl l ∧
    (benchLogs nl io (l.map (fun r => RunTalk.toRun io r.1 r.2.1 r.2.2)) w).stdout.length =
      w.stdout.length + (l.filter (fun r => match r.2.2 with | .broke _ _ => true | .done _ _ => false)).length := by
  suffices H : ∃ new, (benchLogs nl io (l.map (fun r => RunTalk.toRun io r.1 r.2.1 r.2.2)) w).tees = told (saidBy nl l) w.stdout w.tees ++ new ∧
      new.map (fun o => (o.path, o.logged)) = runLogs nl l ∧
      (benchLogs nl io (l.map (fun r => RunTalk.toRun io r.1 r.2.1 r.2.2)) w).screen = w.screen ++ saidBy nl l ∧
      (benchLogs nl io (l.map (fun r => RunTalk.toRun io r.1 r.2.1 r.2.2)) w).stdout.length =
        w.stdout.length + (l.filter (fun r => match r.2.2 with | .broke _ _ => true | .done _ _ => false)).length by
    obtain ⟨new, h1, h2, h3, h4⟩ := H
    refine ⟨?_, h3, h4⟩
    rw [h1, List.drop_append, List.drop_eq_nil_of_le (Nat.le_of_eq (told_length _ _ _)), told_length]
    simpa using h2
  induction l generalizing w with
  | nil => exact ⟨[], by simp [benchLogs, saidBy, told_nil], rfl, by simp [benchLogs, saidBy], rfl⟩
  | cons r l ih =>
    obtain ⟨p, msg, talk⟩ := r
    rw [List.map_cons, benchLogs]
    cases talk with
    | done said after =>
      obtain ⟨o1, s1, c1, t1⟩ := bench_done (nl := nl) io p said after msg w hw
      obtain ⟨new, i1, i2, i3, i4⟩ := ih _ o1
      have hlt : ∀ k ∈ w.stdout, k < (told (linesOf nl said ++ linesOf nl after) w.stdout w.tees).length := by rw [told_length]; exact hw.lt
      refine ⟨⟨w.stdout, p, linesOf nl said, false⟩ :: new, ?_, ?_, ?_, ?_⟩
      · rw [i1, s1, t1, told_append _ _ hlt, told_told, List.append_assoc]
        rfl
      · rw [List.map_cons, i2]
        rfl
      · rw [i3, c1, List.append_assoc]
        rfl
      · rw [i4, s1]
        rfl
    | broke said e =>
      obtain ⟨o1, s1, c1, t1⟩ := bench_broke (nl := nl) io p said e msg w hw
      obtain ⟨new, i1, i2, i3, i4⟩ := ih _ o1
      refine ⟨⟨w.stdout, p, linesOf nl said ++ (msg ++ nl) ++ saidBy nl l, true⟩ :: new, ?_, ?_, ?_, ?_⟩
      · rw [i1, s1, t1]
        have : w.tees.length = (told (linesOf nl said ++ (msg ++ nl)) w.stdout w.tees).length := (told_length _ _ _).symm
        rw [this, told_last, told_told, List.append_assoc]
        rfl
      · rw [List.map_cons, i2]
        rfl
      · rw [i3, c1, List.append_assoc]
        rfl
      · rw [i4, s1, List.length_cons, List.filter_cons_of_pos rfl, List.length_cons]
        omega

end

/-! ## Cases -/

section
variable {O D B : Type}

theorem plain_arg {n : List Char} (h : PlainName n) : (PyArg.str n).toPath.abs = false ∧ (PyArg.str n).toPath.parts ≠ [] := by
  show isAbs n = false ∧ pathParts n ≠ []
  rw [isAbs_plain h, pathParts_plain h]
  exact ⟨rfl, by simp⟩

theorem popCmds_local (k gen : Nat) {folder pre : List Char} (hf : PlainName folder) (pop : List (Option D)) : ∀ c ∈ (popCmds k gen folder pre pop : List (IoCmd O D B)), LocalCmd k c := by
  intro c hc
  unfold popCmds at hc
  obtain ⟨p, -, hp⟩ := List.mem_filterMap.1 hc
  obtain ⟨x, -, rfl⟩ := Option.map_eq_some_iff.1 hp
  refine ⟨rfl, ?_, ?_⟩
  · show isAbs folder = false
    exact isAbs_plain hf
  · show pathParts folder ++ _ ≠ []
    rw [pathParts_plain hf]
    simp

/-- The calls of a topology optimisation are such as `BenchSound` asks for. -/
theorem runCmds_local (k : Nat) (r : RunData O D B) : ∀ c ∈ runCmds k r, LocalCmd k c := by
  have pn : ∀ n : List Char, PlainName n → (k = k ∧ (PyArg.str n).toPath.abs = false ∧ (PyArg.str n).toPath.parts ≠ []) := fun n h => ⟨rfl, plain_arg h⟩
  have hg : PlainName "reduced_graphs".toList := by unfold PlainName; decide
  have hh : PlainName "reduced_hof_graphs".toList := by unfold PlainName; decide
  intro c hc
  unfold runCmds at hc
  simp only [List.mem_append, List.mem_cons, List.not_mem_nil, or_false] at hc
  rcases hc with ((((rfl | rfl | rfl | rfl | rfl | rfl) | hc) | hc) | hc) | rfl
  · exact pn _ (by unfold PlainName; decide)
  · exact pn _ (by unfold PlainName; decide)
  · exact pn _ (by unfold PlainName; decide)
  · exact pn _ (by unfold PlainName; decide)
  · exact pn _ (by unfold PlainName; decide)
  · exact pn _ (by unfold PlainName; decide)
  · split_ifs at hc
    · rcases List.mem_cons.1 hc with rfl | hc
      · exact pn _ hg
      · exact popCmds_local k 0 hg _ c hc
    · simp at hc
  · split_ifs at hc
    · rcases List.mem_cons.1 hc with rfl | hc
      · exact pn _ hh
      · exact popCmds_local k 0 hh _ c hc
    · simp at hc
  · obtain ⟨p, -, hp⟩ := List.mem_flatMap.1 hc
    rcases List.mem_append.1 hp with hp | hp
    · split_ifs at hp
      · exact popCmds_local k _ hg _ c hp
      · simp at hp
    · split_ifs at hp
      · exact popCmds_local k _ hh _ c hp
      · simp at hp
  · exact pn _ (by unfold PlainName; decide)

/-- Names of classes make plain names of folders. -/
theorem evolverFolder_plain (p : Nat) {c : List Char} (h : '/' ∉ c) : PlainName (evolverFolder p c) := by
  have hl : 7 ≤ (evolverFolder p c).length := by
    unfold evolverFolder
    rw [List.length_append, List.length_append, List.length_append, show ("popSize".toList).length = 7 from rfl]
    omega
  refine ⟨fun e => ?_, fun e => ?_, fun e => ?_⟩
  · rw [e] at hl; exact absurd hl (by decide)
  · rw [e] at hl; exact absurd hl (by decide)
  · unfold evolverFolder at e
    rcases List.mem_append.1 e with e | e
    · rcases List.mem_append.1 e with e | e
      · rcases List.mem_append.1 e with e | e
        · revert e; decide
        · exact absurd (decimal_digits p _ e) (by decide)
      · revert e; decide
    · exact h e

/-- A run of which everything is saved as a number. -/
def benchData : RunData Nat Nat Nat := ⟨1, 2, 3, 4, 5, 6, [([some 7, none], [some 8])], 9, 10, true, true⟩

/-- Two settings with two repetitions each; one run fails in the middle, and one after it has written all. -/
def benchDemo : List (List Char × List (BenchRun Nat Nat Nat)) :=
  [(evolverFolder 8 ['A'], [⟨evolverFolder 8 ['A'], 0, runCmds 0 benchData, false⟩, ⟨evolverFolder 8 ['A'], 1, (runCmds 0 benchData).take 3, true⟩]),
   (evolverFolder 8 ['B'], [⟨evolverFolder 8 ['B'], 0, runCmds 0 benchData, true⟩, ⟨evolverFolder 8 ['B'], 1, runCmds 0 benchData, false⟩])]

theorem benchDemo_sound : BenchSound 0 (benchDemo.flatMap (·.2)) := by
  refine ⟨?_, ?_, ?_⟩
  · intro r hr
    simp only [benchDemo, List.flatMap_cons, List.flatMap_nil, List.append_nil, List.cons_append, List.nil_append, List.mem_cons, List.not_mem_nil, or_false] at hr
    have h1 : PlainName (evolverFolder 8 ['A']) := evolverFolder_plain 8 (by decide)
    have h2 : PlainName (evolverFolder 8 ['B']) := evolverFolder_plain 8 (by decide)
    rcases hr with rfl | rfl | rfl | rfl
    · exact h1
    · exact h1
    · exact h2
    · exact h2
  · intro r hr
    simp only [benchDemo, List.flatMap_cons, List.flatMap_nil, List.append_nil, List.cons_append, List.nil_append, List.mem_cons, List.not_mem_nil, or_false] at hr
    rcases hr with rfl | rfl | rfl | rfl <;> intro c hc
    · exact runCmds_local 0 benchData c hc
    · exact runCmds_local 0 benchData c (List.mem_of_mem_take hc)
    · exact runCmds_local 0 benchData c hc
    · exact runCmds_local 0 benchData c hc
  · have hne : evolverFolder 8 ['A'] ≠ evolverFolder 8 ['B'] := fun h => absurd (evolverFolder_inj h).2 (by decide)
    simp [benchDemo, hne]

/-- A disk with the folder `top` alone. -/
def benchDisk : Disk Nat := fun p => if p = [] ∨ p = ["top".toList] then some .dir else none

theorem benchDemo_ready : BenchReady ["top".toList] (benchDemo.flatMap (·.2)) benchDisk := by
  have nofile : ∀ p b, benchDisk p ≠ some (.file b) := by
    intro p b
    unfold benchDisk
    split_ifs <;> simp
  refine ⟨⟨rfl, fun p n e h => ?_⟩, by decide, fun r _ b => nofile _ b, fun r _ b => nofile _ b⟩
  unfold benchDisk at h ⊢
  split_ifs at h with hc
  rcases hc with hc | hc
  · simp at hc
  · have : p = [] := by
      have := congrArg List.length hc
      simp at this
      exact this
    simp [this]

/-- Everything can be written, and read again. -/
def benchCode : Coding Nat Nat Nat := ⟨fun o => (o, true), some, fun o => (o, true), some⟩

example := C111_folders benchCode 0 ["top".toList] _ benchDemo_sound ⟨benchDisk, fun _ => ⟨[], [], []⟩⟩ benchDemo_ready
example := C111_stops benchCode 0 ["top".toList] benchDemo (by simp [benchDemo]) benchDemo_sound ⟨benchDisk, fun _ => ⟨[], [], []⟩⟩ benchDemo_ready

example := C111_blocked (s := "A".toList) benchCode 0 [] (by unfold PlainName; decide) ⟨fun p => if p = [] then some .dir else if p = ["A".toList] then some (.file 3) else none, fun _ => ⟨[], [], []⟩⟩
  ⟨rfl, fun p n e h => by
    dsimp only at h ⊢
    split_ifs at h with h1 h2
    · simp at h1
    · have := congrArg List.length h2
      simp at this
      simp [this]⟩ (b := 3) rfl

/-- The third run is among those with a result, though it fails in the end, and though the second has failed. -/
example : ∀ q b, (evolverBench benchCode 0 ["top".toList] (benchDemo.flatMap (·.2)) ⟨benchDisk, fun _ => ⟨[], [], []⟩⟩).disk
    (["top".toList, evolverFolder 8 ['B'], "iteration_".toList ++ decimal 0] ++ q) = some (.file b) ↔ RunFile benchCode benchData q b :=
  C111_results benchCode 0 ["top".toList] _ benchDemo_sound ⟨benchDisk, fun _ => ⟨[], [], []⟩⟩ benchDemo_ready
    (r := ⟨evolverFolder 8 ['B'], 0, runCmds 0 benchData, true⟩) (by simp [benchDemo]) rfl
    ⟨rfl, rfl, fun _ _ => rfl, fun _ _ _ _ _ => rfl, fun _ _ _ _ _ => rfl⟩
    (fun q hq => by
      dsimp only
      unfold benchDisk
      rw [if_neg]
      rintro (h | h)
      · simp [BenchRun.folder] at h
      · have := congrArg List.length h
        simp [BenchRun.folder] at this)

example := C111_plan 6 (classes := ["ProbabilityLookupEvolver".toList, "OperatorBasedProbEvolver".toList, "HessianProbabilityEvolver".toList]) (pops := [8]) (by decide) (by decide) ⟨none, 6⟩
example : (evolverPlan 2 ["A".toList] [4, 8] ⟨none, 6⟩).map (fun x => (x.rep, x.nPop, x.nHof)) = [(0, 4, 4), (0, 8, 6), (1, 4, 4), (1, 8, 6)] := by decide
example := C111_plan_elitism 10 (pops := [8, 16]) (ratios := ["0".toList, "0.1".toList, "0.3".toList]) (by decide) (by decide) (by decide) ⟨none, 6⟩
example := C111_plan_selection 10 (rules := ["random".toList, "roulette".toList, "tournament".toList]) (by decide) 16 6
example := C111_same_class (reps := 6) (by decide) [] [] [] "ProbabilityLookupEvolver".toList (pops := [8]) (by decide) ⟨none, 6⟩

/-- Three runs, the second of which fails: its log has the text of the third as well. -/
example : runLogs ['.'] [(0, ['m'], .done [['a']] [['b']]), (1, ['n'], .broke [['c']] .valueError), (2, ['o'], .done [['d']] [])] = [(0, ['a', '.']), (1, ['c', '.', 'n', '.', 'd', '.']), (2, ['d', '.'])] := by
  decide
example := C111_log (nl := ['.']) 0 [(0, ['m'], .done [['a']] [['b']]), (1, ['n'], .broke [['c']] .valueError), (2, ['o'], .done [['d']] [])] (LogWorld.new Char) new_open

end

end Verif
