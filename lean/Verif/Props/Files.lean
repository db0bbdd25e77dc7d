import Verif.Lemmas.Files
import Mathlib.Data.Fintype.Pigeonhole
import Mathlib.Data.Fintype.Pi
import Mathlib.Data.Fintype.BigOperators
/-! # C77: what is saved can be found again -/

namespace Verif

section
variable {O D B : Type}

/-- **C77.** In any session, with any number of `InputOutput` objects and whatever exceptions are caught: the disk stays sound, no directory and no file
disappears or changes its kind, and a file keeps its bytes unless some call opens just this file for writing. -/
theorem C77_kept (C : Coding O D B) (w : IoWorld B) (h : SoundDisk w.disk) (cs : List (IoCmd O D B)) :
    SoundDisk (w.session C cs).disk ∧
    (∀ p, w.disk p = some .dir → (w.session C cs).disk p = some .dir) ∧
    (∀ p b, w.disk p = some (.file b) → ∃ b', (w.session C cs).disk p = some (.file b')) ∧
    (∀ p b, w.disk p = some (.file b) → LeavesAlone C p w cs → (w.session C cs).disk p = some (.file b)) := by
  have hg := session_grows C h cs
  exact ⟨hg.sane, hg.dir, hg.file, fun p b hp hl => hg.kept p b (fun hc => hc hl) hp⟩

/-- **C77.** `save_object`: it succeeds just if no folder on the way is a file, the place itself is not a folder, and the object can be pickled.  Missing
folders are made; nothing else on the disk changes.  If the object cannot be pickled, what was there before is lost all the same. -/
theorem C77_save_object (C : Coding O D B) (w : IoWorld B) (h : SoundDisk w.disk) (k : Nat) (o : O) (name : PyArg) (p : List FName)
    (hp : p = joinTo (w.ios k).savePath name.toPath) :
    ((w.exec C (.saveObj k o name)).2 = .ok () ↔
      ((∀ q b, q <+: p → q ≠ p → w.disk q ≠ some (.file b)) ∧ w.disk p ≠ some .dir) ∧ (C.dumpObj o).2 = true) ∧
    (((∀ q b, q <+: p → q ≠ p → w.disk q ≠ some (.file b)) ∧ w.disk p ≠ some .dir) → ∀ q,
      (w.exec C (.saveObj k o name)).1.disk q =
        if q = p then some (.file (C.dumpObj o).1) else if q <+: p then some .dir else w.disk q) ∧
    (¬ ((∀ q b, q <+: p → q ≠ p → w.disk q ≠ some (.file b)) ∧ w.disk p ≠ some .dir) →
      (w.exec C (.saveObj k o name)).1.disk = w.disk) ∧
    (w.exec C (.saveObj k o name)).1.ios = w.ios := by
  subst hp
  set p := joinTo (w.ios k).savePath name.toPath with hp
  have hdl : ∀ q, q <+: p → q ≠ p → q <+: p.dropLast := by
    intro q hq hne
    refine List.prefix_of_prefix_length_le hq (List.dropLast_prefix p) ?_
    have := hq.length_le
    have h5 : q.length ≠ p.length := fun h => hne (hq.eq_of_length h)
    rw [List.length_dropLast]
    omega
  have hpd : p ≠ [] → p.dropLast ≠ p := by
    intro h0 he
    have := congrArg List.length he
    rw [List.length_dropLast] at this
    have : 0 < p.length := List.length_pos_of_ne_nil h0
    omega
  rcases mkdirs_spec h p.dropLast with ⟨h1, h2⟩ | ⟨⟨q, b, hq, hf⟩, e, h2⟩
  · have hs := sane_withDirs h h1
    have e1 : (w.exec C (.saveObj k o name)) = (⟨(dumpTo (w.disk.withDirs p.dropLast) p (C.dumpObj o)).1, w.ios⟩,
        (dumpTo (w.disk.withDirs p.dropLast) p (C.dumpObj o)).2) := by
      simp only [IoWorld.exec, ← hp, h2]
    have hpar : w.disk.withDirs p.dropLast p.dropLast = some .dir := by
      unfold Disk.withDirs
      cases hd : w.disk p.dropLast with
      | none => simp
      | some e =>
        cases e with
        | dir => simp
        | file b => exact absurd hd (h1 _ b (List.prefix_refl _))
    by_cases hdir : w.disk p = some .dir
    · have hsame : w.disk.withDirs p.dropLast = w.disk := by
        refine withDirs_self _ (fun q hq => ?_)
        by_cases hqp : q = p
        · rw [hqp, hdir]; simp
        · rw [sane_prefix h hdir (hq.trans (List.dropLast_prefix p)) hqp]; simp
      rcases dumpTo_spec hs p (C.dumpObj o) with ⟨⟨-, h3⟩, -⟩ | ⟨-, e, h3⟩
      · rw [hsame] at h3
        exact absurd hdir h3
      · rw [h3] at e1
        rw [e1]
        refine ⟨⟨fun hc => (by cases hc), fun hc => absurd hdir hc.1.2⟩, fun hc => absurd hdir hc.2, fun _ => hsame, rfl⟩
    · have hp0 : p ≠ [] := by
        intro h0
        rw [h0] at hdir
        exact hdir h.root
      have hwd : w.disk.withDirs p.dropLast p ≠ some .dir := by
        unfold Disk.withDirs
        have : ¬ p <+: p.dropLast := by
          intro hc
          exact hpd hp0 ((List.dropLast_prefix p).eq_of_length_le hc.length_le)
        simpa [this] using hdir
      have hfree : ∀ q b, q <+: p → q ≠ p → w.disk q ≠ some (.file b) := fun q b hq hne => h1 q b (hdl q hq hne)
      rcases dumpTo_spec hs p (C.dumpObj o) with ⟨-, h3⟩ | ⟨h3, -⟩
      · rw [h3] at e1
        rw [e1]
        refine ⟨?_, fun _ q => ?_, fun hc => absurd ⟨hfree, hdir⟩ hc, rfl⟩
        · cases hb : (C.dumpObj o).2
          · simp
          · simp only [if_true, true_iff, and_true]
            exact ⟨hfree, hdir⟩
        · show Disk.put _ p _ q = _
          unfold Disk.put Disk.withDirs
          by_cases hqp : q = p
          · simp [hqp]
          · rw [if_neg hqp, if_neg hqp]
            by_cases hq : q <+: p
            · have hq' := hdl q hq hqp
              cases hd : w.disk q with
              | none => simp [hq, hq']
              | some e =>
                cases e with
                | dir => simp [hq]
                | file b => exact absurd hd (h1 q b hq')
            · have : ¬ q <+: p.dropLast := fun hc => hq (hc.trans (List.dropLast_prefix p))
              simp [hq, this]
      · exact absurd ⟨hpar, hwd⟩ h3
  · have e1 : (w.exec C (.saveObj k o name)) = (w, .error e) := by
      simp only [IoWorld.exec, ← hp, h2]
    have hbl : ¬ ((∀ q b, q <+: p → q ≠ p → w.disk q ≠ some (.file b)) ∧ w.disk p ≠ some .dir) := by
      rintro ⟨hc, hc'⟩
      by_cases hqp : q = p
      · rw [hqp] at hq
        by_cases h0 : p = []
        · rw [h0] at hc'
          exact hc' h.root
        · exact absurd ((List.dropLast_prefix p).eq_of_length_le hq.length_le) (hpd h0)
      · exact hc q b (hq.trans (List.dropLast_prefix p)) hqp hf
    rw [e1]
    exact ⟨⟨fun hc => (by cases hc), fun hc => absurd hc.1 hbl⟩, fun hc => absurd hc hbl, fun _ => rfl, rfl⟩

/-- **C77.** `save_json`: unlike `save_object` it makes no folders, so the folder must be there already; and again a dictionary which cannot be written
as JSON destroys the file saved before under this name. -/
theorem C77_save_json (C : Coding O D B) (w : IoWorld B) (h : SoundDisk w.disk) (k : Nat) (x : D) (name : PyArg) (p : List FName)
    (hp : p = joinTo (w.ios k).savePath name.toPath) :
    ((w.exec C (.saveJson k x name)).2 = .ok () ↔ (w.disk p.dropLast = some .dir ∧ w.disk p ≠ some .dir) ∧ (C.dumpJson x).2 = true) ∧
    ((w.disk p.dropLast = some .dir ∧ w.disk p ≠ some .dir) → ∀ q,
      (w.exec C (.saveJson k x name)).1.disk q = if q = p then some (.file (C.dumpJson x).1) else w.disk q) ∧
    (¬ (w.disk p.dropLast = some .dir ∧ w.disk p ≠ some .dir) → (w.exec C (.saveJson k x name)).1.disk = w.disk) ∧
    (w.exec C (.saveJson k x name)).1.ios = w.ios := by
  subst hp
  set p := joinTo (w.ios k).savePath name.toPath with hp
  rcases dumpTo_spec h p (C.dumpJson x) with ⟨h1, h2⟩ | ⟨h1, e, h2⟩
  · have e1 : w.exec C (.saveJson k x name) = (⟨w.disk.put p (.file (C.dumpJson x).1), w.ios⟩,
        if (C.dumpJson x).2 then .ok () else .error .coding) := by
      simp only [IoWorld.exec, ← hp, h2]
    rw [e1]
    refine ⟨?_, fun _ q => rfl, fun hc => absurd h1 hc, rfl⟩
    cases hb : (C.dumpJson x).2
    · simp
    · simp only [if_true, true_iff, and_true]
      exact h1
  · have e1 : w.exec C (.saveJson k x name) = (⟨w.disk, w.ios⟩, .error e) := by
      simp only [IoWorld.exec, ← hp, h2]
    rw [e1]
    exact ⟨⟨fun hc => (by cases hc), fun hc => absurd hc.1 h1⟩, fun hc => absurd hc h1, fun _ => rfl, rfl⟩

/-- **C77.** Loading returns a value just if there is a file of that name in the load folder and its bytes can be read as such a value. -/
theorem C77_load (C : Coding O D B) (w : IoWorld B) (h : SoundDisk w.disk) (k : Nat) (name : PyArg) :
    (∀ o, w.loadObj C k name = .ok o ↔ ∃ b, w.disk (joinTo (w.ios k).loadPath name.toPath) = some (.file b) ∧ C.loadObj b = some o) ∧
    (∀ x, w.loadJson C k name = .ok x ↔ ∃ b, w.disk (joinTo (w.ios k).loadPath name.toPath) = some (.file b) ∧ C.loadJson b = some x) := by
  have key : ∀ {α : Type} (f : B → Option α) (a : α) (p : List FName),
      decoded (readFile w.disk p) f = .ok a ↔ ∃ b, w.disk p = some (.file b) ∧ f b = some a := by
    intro α f a p
    cases hr : readFile w.disk p with
    | error e =>
      refine ⟨fun hc => (by cases hc), ?_⟩
      rintro ⟨b, hb, -⟩
      rw [(readFile_ok_iff h p b).2 hb] at hr
      cases hr
    | ok b =>
      have hb := (readFile_ok_iff h p b).1 hr
      rw [hb]
      cases hf : f b with
      | none =>
        simp only [decoded, hf, reduceCtorEq, false_iff]
        rintro ⟨b', hb', hf'⟩
        cases hb'
        rw [hf] at hf'
        cases hf'
      | some a' =>
        simp only [decoded, hf, Except.ok.injEq]
        refine ⟨fun e => ⟨b, rfl, by rw [hf, e]⟩, ?_⟩
        rintro ⟨b', hb', hf'⟩
        cases hb'
        rw [hf] at hf'
        exact Option.some.inj hf'
  exact ⟨fun o => key _ _ _, fun x => key _ _ _⟩

theorem exec_saved_obj (C : Coding O D B) (w : IoWorld B) (h : SoundDisk w.disk) (k : Nat) (o : O) (name : PyArg)
    (hok : (w.exec C (.saveObj k o name)).2 = .ok ()) :
    (w.exec C (.saveObj k o name)).1.disk (joinTo (w.ios k).savePath name.toPath) = some (.file (C.dumpObj o).1) ∧ (C.dumpObj o).2 = true := by
  obtain ⟨h1, h2, -⟩ := C77_save_object C w h k o name _ rfl
  obtain ⟨hf, hd⟩ := h1.1 hok
  refine ⟨?_, hd⟩
  rw [h2 hf]
  simp

theorem exec_saved_json (C : Coding O D B) (w : IoWorld B) (h : SoundDisk w.disk) (k : Nat) (x : D) (name : PyArg)
    (hok : (w.exec C (.saveJson k x name)).2 = .ok ()) :
    (w.exec C (.saveJson k x name)).1.disk (joinTo (w.ios k).savePath name.toPath) = some (.file (C.dumpJson x).1) ∧ (C.dumpJson x).2 = true := by
  obtain ⟨h1, h2, -⟩ := C77_save_json C w h k x name _ rfl
  obtain ⟨hf, hd⟩ := h1.1 hok
  refine ⟨?_, hd⟩
  rw [h2 hf]
  simp

/-- **C77.** What was saved is what is loaded: after any further session which does not write to the same file, every object whose load folder and
file name lead to that file gets the object back (and the dictionary as JSON gives it back). -/
theorem C77_back (C : Coding O D B) (hC : Faithful C) (w : IoWorld B) (h : SoundDisk w.disk) (k k' : Nat) (name name' : PyArg) (cs : List (IoCmd O D B)) :
    (∀ o, (w.exec C (.saveObj k o name)).2 = .ok () →
      LeavesAlone C (joinTo (w.ios k).savePath name.toPath) (w.exec C (.saveObj k o name)).1 cs →
      joinTo ((((w.exec C (.saveObj k o name)).1.session C cs).ios k').loadPath) name'.toPath = joinTo (w.ios k).savePath name.toPath →
      ((w.exec C (.saveObj k o name)).1.session C cs).loadObj C k' name' = .ok o) ∧
    (∀ x y, (w.exec C (.saveJson k x name)).2 = .ok () → C.loadJson (C.dumpJson x).1 = some y →
      LeavesAlone C (joinTo (w.ios k).savePath name.toPath) (w.exec C (.saveJson k x name)).1 cs →
      joinTo ((((w.exec C (.saveJson k x name)).1.session C cs).ios k').loadPath) name'.toPath = joinTo (w.ios k).savePath name.toPath →
      ((w.exec C (.saveJson k x name)).1.session C cs).loadJson C k' name' = .ok y) := by
  constructor
  · intro o hok hl hp
    have hs := (exec_grows C h (.saveObj k o name)).sane
    obtain ⟨h1, h2⟩ := exec_saved_obj C w h k o name hok
    obtain ⟨hs', -, -, hk⟩ := C77_kept C _ hs cs
    refine ((C77_load C _ hs' k' name').1 o).2 ⟨_, ?_, hC o h2⟩
    rw [hp]
    exact hk _ _ h1 hl
  · intro x y hok hy hl hp
    have hs := (exec_grows C h (.saveJson k x name)).sane
    obtain ⟨h1, h2⟩ := exec_saved_json C w h k x name hok
    obtain ⟨hs', -, -, hk⟩ := C77_kept C _ hs cs
    refine ((C77_load C _ hs' k' name').2 y).2 ⟨_, ?_, hy⟩
    rw [hp]
    exact hk _ _ h1 hl

theorem exec_path (C : Coding O D B) (w : IoWorld B) (c : IoCmd O D B) (k : Nat) : ((w.exec C c).1.ios k).path = (w.ios k).path := by
  cases c with
  | initSave j sub uid =>
    simp only [IoWorld.exec]
    split <;> (dsimp only; split_ifs with hk <;> simp_all)
  | initLoad j sub =>
    simp only [IoWorld.exec]
    split_ifs with hk <;> simp_all
  | mkdir j name =>
    simp only [IoWorld.exec]
    split <;> rfl
  | saveJson j x name => rfl
  | raw j b name => rfl
  | saveObj j o name =>
    simp only [IoWorld.exec]
    split <;> rfl
  | metadata j sub data =>
    simp only [IoWorld.exec]
    split
    · rfl
    · split
      · rfl
      · split <;> rfl

theorem session_path (C : Coding O D B) (w : IoWorld B) (cs : List (IoCmd O D B)) (k : Nat) :
    ((w.session C cs).ios k).path = (w.ios k).path := by
  induction cs generalizing w with
  | nil => rfl
  | cons c cs ih => rw [IoWorld.session, ih, exec_path]

theorem exec_initSave_ios (C : Coding O D B) (w : IoWorld B) (k : Nat) (sub uid : Option (List Char)) :
    ((w.exec C (.initSave k sub uid)).1.ios k).savePath = (w.ios k).saveDirOf sub uid ∧
    ((w.exec C (.initSave k sub uid)).1.ios k).loadPath = (w.ios k).loadPath := by
  simp only [IoWorld.exec]
  split <;> simp

/-- **C77.** A save folder, and its name as an argument of `init_load_dir`: after `init_save_dir(sub, unique_id)`, `save_object(o, name)` and any session
which does not write to that file, `init_load_dir` with the name of the folder (the identifier included) and `load_object(name)` give the object back. -/
theorem C77_folder (C : Coding O D B) (hC : Faithful C) (w : IoWorld B) (h : SoundDisk w.disk) (k : Nat) (sub uid folder : Option (List Char))
    (hf : folder = match sub, uid with
      | some s, some u => some (u ++ '_' :: s)
      | some s, none => some s
      | none, some u => some u
      | none, none => none) (o : O) (name : PyArg) (w₁ w₂ : IoWorld B) (cs : List (IoCmd O D B))
    (h1 : w.exec C (.initSave k sub uid) = (w₁, .ok ())) (h2 : w₁.exec C (.saveObj k o name) = (w₂, .ok ()))
    (hl : LeavesAlone C (joinTo (w₁.ios k).savePath name.toPath) w₂ cs) :
    ((w₂.session C cs).exec C (.initLoad k folder)).2 = .ok () ∧
    ((w₂.session C cs).exec C (.initLoad k folder)).1.loadObj C k name = .ok o := by
  have hs1 : SoundDisk w₁.disk := by
    have := (exec_grows C h (.initSave k sub uid)).sane
    rwa [h1] at this
  have hs2 : SoundDisk w₂.disk := by
    have := (exec_grows C hs1 (.saveObj k o name)).sane
    rwa [h2] at this
  have hsp : (w₁.ios k).savePath = (w.ios k).saveDirOf sub uid := by
    have := (exec_initSave_ios C w k sub uid).1
    rwa [h1] at this
  have hdir1 : w₁.disk ((w.ios k).saveDirOf sub uid) = some .dir := by
    simp only [IoWorld.exec] at h1
    rcases mkdirs_spec h ((w.ios k).saveDirOf sub uid) with ⟨hb, hm⟩ | ⟨-, e, hm⟩
    · rw [hm] at h1
      have : w₁.disk = w.disk.withDirs ((w.ios k).saveDirOf sub uid) := by
        have := congrArg (fun r => r.1.disk) h1
        exact this.symm
      rw [this]
      unfold Disk.withDirs
      cases hd : w.disk ((w.ios k).saveDirOf sub uid) with
      | none => simp
      | some e =>
        cases e with
        | dir => simp
        | file b => exact absurd hd (hb _ b (List.prefix_refl _))
    · rw [hm] at h1
      have := congrArg (fun r => r.2) h1
      cases this
  have hdir2 : w₂.disk ((w.ios k).saveDirOf sub uid) = some .dir := by
    have := (exec_grows C hs1 (.saveObj k o name)).dir _ hdir1
    rwa [h2] at this
  obtain ⟨hs3, hd3, -, hk⟩ := C77_kept C w₂ hs2 cs
  have hpath : ((w₂.session C cs).ios k).path = (w.ios k).path := by
    rw [session_path]
    have e1 := exec_path C w (.initSave k sub uid) k
    have e2 := exec_path C w₁ (.saveObj k o name) k
    rw [h1] at e1
    rw [h2] at e2
    rw [e2, e1]
  have hload : ((w₂.session C cs).ios k).loadDirOf folder = (w.ios k).saveDirOf sub uid := by
    subst hf
    cases sub <;> cases uid <;> simp [Io.loadDirOf, Io.saveDirOf, hpath]
  have hfile : w₂.disk (joinTo (w₁.ios k).savePath name.toPath) = some (.file (C.dumpObj o).1) ∧ (C.dumpObj o).2 = true := by
    have := exec_saved_obj C w₁ hs1 k o name (by rw [h2])
    rwa [h2] at this
  constructor
  · simp only [IoWorld.exec, hload]
    rw [hd3 _ hdir2]
    rfl
  · refine ((C77_load C _ hs3 k name).1 o |> fun _ => ?_)
    have hs4 : SoundDisk ((w₂.session C cs).exec C (.initLoad k folder)).1.disk := hs3
    refine ((C77_load C _ hs4 k name).1 o).2 ⟨_, ?_, hC o hfile.2⟩
    have : (((w₂.session C cs).exec C (.initLoad k folder)).1.ios k).loadPath = (w₁.ios k).savePath := by
      simp only [IoWorld.exec, if_true, hload, hsp]
    rw [this]
    exact hk _ _ hfile.1 hl

/-- **C77.** The identifier is needed.  A new object (load folder and save folder are its directory) with an identifier drawn by `init_save_dir`: what it
saves under a name cannot be loaded under this name from the directory itself, nor after `init_load_dir` with the name of the sub-folder given to
`init_save_dir`, which raises. -/
theorem C77_identifier_needed (C : Coding O D B) (w : IoWorld B) (h : SoundDisk w.disk) (k : Nat) (s u : List Char) (hs : PlainName s)
    (hu : u ≠ []) (hu' : '/' ∉ u) (o : O) (name : PyArg) (hrel : name.toPath.abs = false) (hnew : (w.ios k).loadPath = (w.ios k).path)
    (hno : ∀ b, w.disk ((w.ios k).path ++ name.toPath.parts) ≠ some (.file b)) (hno' : w.disk ((w.ios k).path ++ [s]) = none) :
    let w₂ := w.session C [.initSave k (some s) (some u), .saveObj k o name]
    (∀ o', w₂.loadObj C k name ≠ .ok o') ∧ (w₂.exec C (.initLoad k (some s))).2 = .error .exists_ := by
  have hus : PlainName (u ++ '_' :: s) := by
    refine ⟨by simp, fun hc => ?_, fun hc => ?_⟩
    · have := congrArg List.length hc
      have h1 : 0 < u.length := List.length_pos_of_ne_nil hu
      simp at this
      omega
    · rcases List.mem_append.1 hc with hc | hc
      · exact hu' hc
      · rcases List.mem_cons.1 hc with hc | hc
        · exact absurd hc (by decide)
        · exact hs.2.2 hc
  have hne : s ≠ u ++ '_' :: s := by
    intro hc
    have := congrArg List.length hc
    simp at this
    omega
  set P := (w.ios k).path with hP
  have hsave : (w.ios k).saveDirOf (some s) (some u) = P ++ [u ++ '_' :: s] := joinTo_plain P hus
  have hw1 : (w.exec C (.initSave k (some s) (some u))).1.disk = w.disk ∨
      (w.exec C (.initSave k (some s) (some u))).1.disk = w.disk.withDirs (P ++ [u ++ '_' :: s]) := by
    simp only [IoWorld.exec, hsave]
    rcases mkdirs_spec h (P ++ [u ++ '_' :: s]) with ⟨-, hm⟩ | ⟨-, e, hm⟩
    · rw [hm]; exact Or.inr rfl
    · rw [hm]; exact Or.inl rfl
  set w₁ := (w.exec C (.initSave k (some s) (some u))).1 with hw
  have hsane1 : SoundDisk w₁.disk := (exec_grows C h _).sane
  have hsp : (w₁.ios k).savePath = P ++ [u ++ '_' :: s] := by
    rw [hw, (exec_initSave_ios C w k (some s) (some u)).1, hsave]
  have hpath1 : (w₁.ios k).path = P := by rw [hw, exec_path]
  have hlp1 : (w₁.ios k).loadPath = P := by rw [hw, (exec_initSave_ios C w k (some s) (some u)).2, hnew]
  obtain ⟨-, c2, c3, c4⟩ := C77_save_object C w₁ hsane1 k o name _ rfl
  have hjoin : joinTo (w₁.ios k).savePath name.toPath = P ++ [u ++ '_' :: s] ++ name.toPath.parts := by
    rw [hsp]
    simp [joinTo, hrel]
  rw [hjoin] at c2 c3
  have hd1 : ∀ q, w₁.disk q = w.disk q ∨ (q <+: P ++ [u ++ '_' :: s] ∧ w₁.disk q = some .dir) := by
    intro q
    rcases hw1 with e | e
    · exact Or.inl (by rw [e])
    · rw [e]
      unfold Disk.withDirs
      split_ifs with hq
      · exact Or.inr ⟨hq.1, rfl⟩
      · exact Or.inl rfl
  have hd2 : ∀ q, q ≠ P ++ [u ++ '_' :: s] ++ name.toPath.parts → (w₁.exec C (.saveObj k o name)).1.disk q = w.disk q ∨
      (q <+: P ++ [u ++ '_' :: s] ++ name.toPath.parts ∧ (w₁.exec C (.saveObj k o name)).1.disk q = some .dir) := by
    intro q hq
    have h1 : w₁.disk q = w.disk q ∨ (q <+: P ++ [u ++ '_' :: s] ++ name.toPath.parts ∧ w₁.disk q = some .dir) := by
      rcases hd1 q with e | ⟨e1, e2⟩
      · exact Or.inl e
      · exact Or.inr ⟨e1.trans (List.prefix_append _ _), e2⟩
    by_cases hfree : (∀ q' b, q' <+: P ++ [u ++ '_' :: s] ++ name.toPath.parts → q' ≠ P ++ [u ++ '_' :: s] ++ name.toPath.parts →
        w₁.disk q' ≠ some (.file b)) ∧ w₁.disk (P ++ [u ++ '_' :: s] ++ name.toPath.parts) ≠ some .dir
    · rw [c2 hfree q, if_neg hq]
      split_ifs with hq'
      · exact Or.inr ⟨hq', rfl⟩
      · exact h1
    · rw [c3 hfree]
      exact h1
  have hsane2 : SoundDisk (w₁.exec C (.saveObj k o name)).1.disk := (exec_grows C hsane1 _).sane
  show (∀ o', (w₁.exec C (.saveObj k o name)).1.loadObj C k name ≠ .ok o') ∧
    ((w₁.exec C (.saveObj k o name)).1.exec C (.initLoad k (some s))).2 = .error .exists_
  constructor
  · intro o' hc
    obtain ⟨b, hb, -⟩ := ((C77_load C _ hsane2 k name).1 o').1 hc
    rw [c4, hlp1, joinTo, hrel] at hb
    simp only [Bool.false_eq_true, if_false] at hb
    have hq : P ++ name.toPath.parts ≠ P ++ [u ++ '_' :: s] ++ name.toPath.parts := by
      intro hc
      have := congrArg List.length hc
      simp at this
    rcases hd2 _ hq with e | ⟨-, e⟩
    · rw [e] at hb
      exact hno b hb
    · rw [e] at hb
      cases hb
  · have hq : P ++ [s] ≠ P ++ [u ++ '_' :: s] ++ name.toPath.parts := by
      intro hc
      simp only [List.append_assoc, List.append_cancel_left_eq, List.cons_append, List.nil_append, List.cons.injEq] at hc
      exact hne hc.1
    have hld : ((w₁.exec C (.saveObj k o name)).1.ios k).loadDirOf (some s) = P ++ [s] := by
      rw [c4]
      simp only [Io.loadDirOf, hpath1]
      exact joinTo_plain P hs
    simp only [IoWorld.exec.eq_2, hld]
    rcases hd2 _ hq with e | ⟨e, -⟩
    · rw [e, hno']
      rfl
    · exfalso
      obtain ⟨t, ht⟩ := e
      simp only [List.append_assoc, List.append_cancel_left_eq, List.cons_append, List.nil_append, List.cons.injEq] at ht
      exact hne ht.1

/-- **C77.** Where an object points.  A new one saves to and loads from one place: the absolute directory given, or `asope_data` two levels above the
working directory, or a folder in there.  Only `init_save_dir` moves the save folder, only `init_load_dir` the load folder (whether they succeed or
not), each for its own object alone. -/
theorem C77_pointers (C : Coding O D B) (w : IoWorld B) (c : IoCmd O D B) (top : List FName) (a b : FName) (s : List Char) :
    Io.init (top ++ [a, b]) none = ⟨top ++ ["asope_data".toList], top ++ ["asope_data".toList], top ++ ["asope_data".toList]⟩ ∧
    (PlainName s → Io.init (top ++ [a, b]) (some s) =
      ⟨top ++ ["asope_data".toList, s], top ++ ["asope_data".toList, s], top ++ ["asope_data".toList, s]⟩) ∧
    (PlainName s → Io.init (top ++ [a, b]) (some ('/' :: s)) = ⟨[s], [s], [s]⟩) ∧
    (∀ j, ((w.exec C c).1.ios j).path = (w.ios j).path) ∧
    (∀ j, (∀ sub uid, c ≠ .initSave j sub uid) → ((w.exec C c).1.ios j).savePath = (w.ios j).savePath) ∧
    (∀ j, (∀ sub, c ≠ .initLoad j sub) → ((w.exec C c).1.ios j).loadPath = (w.ios j).loadPath) := by
  have hdd : (top ++ [a, b]).dropLast.dropLast = top := by
    rw [show top ++ [a, b] = top ++ [a] ++ [b] by simp, List.dropLast_concat, List.dropLast_concat]
  refine ⟨by simp only [Io.init, hdd], fun hs => ?_, fun hs => ?_, exec_path C w c, fun j hc => ?_, fun j hc => ?_⟩
  · simp only [Io.init, hdd, isAbs_plain hs, pathParts_plain hs, Bool.false_eq_true, if_false, List.append_assoc, List.singleton_append]
  · have h1 : isAbs ('/' :: s) = true := rfl
    have h2 : pathParts ('/' :: s) = [s] := by
      rw [pathParts, splitSlash, if_pos rfl, splitSlash_plain hs.2.2]
      simp [hs.1, hs.2.1]
    simp only [Io.init, h1, h2, if_true]
  · cases c with
    | initSave k sub uid =>
      have hk : j ≠ k := fun e => hc sub uid (by rw [e])
      simp only [IoWorld.exec]
      split <;> simp [hk]
    | initLoad k sub =>
      simp only [IoWorld.exec]
      split_ifs with hk <;> simp_all
    | mkdir k name =>
      simp only [IoWorld.exec]
      split <;> rfl
    | saveJson k x name => rfl
    | raw k b name => rfl
    | saveObj k o name =>
      simp only [IoWorld.exec]
      split <;> rfl
    | metadata k sub data =>
      simp only [IoWorld.exec]
      split
      · rfl
      · split
        · rfl
        · split <;> rfl
  · cases c with
    | initSave k sub uid =>
      simp only [IoWorld.exec]
      split <;> (dsimp only; split_ifs with hk <;> simp_all)
    | initLoad k sub =>
      have hk : j ≠ k := fun e => hc sub (by rw [e])
      simp only [IoWorld.exec]
      simp [hk]
    | mkdir k name =>
      simp only [IoWorld.exec]
      split <;> rfl
    | saveJson k x name => rfl
    | raw k b name => rfl
    | saveObj k o name =>
      simp only [IoWorld.exec]
      split <;> rfl
    | metadata k sub data =>
      simp only [IoWorld.exec]
      split
      · rfl
      · split
        · rfl
        · split <;> rfl

/-- A new object with a plain name. -/
example : Io.init ["home".toList, "me".toList, "asope".toList, "scripts".toList] (some "data".toList) =
    ⟨["home".toList, "me".toList, "asope_data".toList, "data".toList], ["home".toList, "me".toList, "asope_data".toList, "data".toList],
      ["home".toList, "me".toList, "asope_data".toList, "data".toList]⟩ := by decide

/-! ### Identifiers -/

/-- **C77.** Runs are told apart by day, four characters and name together: two save folders of one directory agree just if all three agree, and
otherwise no file of one is a file of the other. -/
theorem C77_ids (io : Io) (day day' draw draw' s s' : List Char) (hd : IsDay day) (hd' : IsDay day') (hr : IsDraw draw) (hr' : IsDraw draw')
    (hs : '/' ∉ s) (hs' : '/' ∉ s') :
    (io.saveDirOf (some s) (some (uniqueId day draw)) = io.saveDirOf (some s') (some (uniqueId day' draw')) ↔
      day = day' ∧ draw = draw' ∧ s = s') ∧
    (¬ (day = day' ∧ draw = draw' ∧ s = s') → ∀ q q',
      io.saveDirOf (some s) (some (uniqueId day draw)) ++ q ≠ io.saveDirOf (some s') (some (uniqueId day' draw')) ++ q') := by
  have hplain : ∀ {day draw s : List Char}, IsDay day → IsDraw draw → '/' ∉ s → PlainName (uniqueId day draw ++ '_' :: s) := by
    intro day draw s hd hr hs
    refine ⟨by simp, fun hc => ?_, fun hc => ?_⟩
    · have := congrArg List.length hc
      simp [uniqueId, hd.1] at this
      omega
    · simp only [uniqueId, List.mem_append, List.mem_cons] at hc
      rcases hc with (hc | hc | hc) | hc | hc
      · exact hd.2 hc
      · exact absurd hc (by decide)
      · exact absurd (hr.2 _ hc) (by decide)
      · exact absurd hc (by decide)
      · exact hs hc
  have hdir : ∀ {day draw s : List Char}, IsDay day → IsDraw draw → '/' ∉ s →
      io.saveDirOf (some s) (some (uniqueId day draw)) = io.path ++ [uniqueId day draw ++ '_' :: s] :=
    fun hd hr hs => joinTo_plain io.path (hplain hd hr hs)
  have hinj : uniqueId day draw ++ '_' :: s = uniqueId day' draw' ++ '_' :: s' → day = day' ∧ draw = draw' ∧ s = s' := by
    intro e
    simp only [uniqueId, List.append_assoc, List.cons_append] at e
    obtain ⟨e1, e2⟩ := List.append_inj e (by rw [hd.1, hd'.1])
    obtain ⟨e3, e4⟩ := List.append_inj (List.cons.inj e2).2 (by rw [hr.1, hr'.1])
    exact ⟨e1, e3, (List.cons.inj e4).2⟩
  rw [hdir hd hr hs, hdir hd' hr' hs']
  constructor
  · constructor
    · intro e
      exact hinj (by simpa using e)
    · rintro ⟨rfl, rfl, rfl⟩
      rfl
  · intro hn q q' e
    simp only [List.append_assoc, List.append_cancel_left_eq, List.cons_append, List.nil_append, List.cons.injEq] at e
    exact hn (hinj e.1)

/-- **C77.** The identifier is not unique: there are 22⁴ = 234256 of them for a day (`string.hexdigits` has small and capital letters), so of more runs
on one day two have the same. -/
theorem C77_not_unique (n : Nat) (hn : 22 ^ 4 < n) (day : List Char) (draws : Fin n → List Char) (h : ∀ i, IsDraw (draws i)) :
    ∃ i j, i ≠ j ∧ uniqueId day (draws i) = uniqueId day (draws j) := by
  have hidx : ∀ i (m : Fin 4), ∃ x : Fin 22, hexdigits[x.1]? = (draws i)[m.1]? := by
    intro i m
    have hm : m.1 < (draws i).length := by rw [(h i).1]; exact m.2
    have hmem := (h i).2 _ (List.getElem_mem hm)
    obtain ⟨x, hx, e⟩ := List.getElem_of_mem hmem
    have hx' : x < 22 := by
      have : hexdigits.length = 22 := by decide
      omega
    refine ⟨⟨x, hx'⟩, ?_⟩
    rw [List.getElem?_eq_getElem hm, ← e, List.getElem?_eq_getElem hx]
  choose f hf using hidx
  have hcard : Fintype.card (Fin 4 → Fin 22) < Fintype.card (Fin n) := by
    rw [Fintype.card_fun, Fintype.card_fin, Fintype.card_fin, Fintype.card_fin]
    exact hn
  obtain ⟨i, j, hij, he⟩ := Fintype.exists_ne_map_eq_of_card_lt f hcard
  refine ⟨i, j, hij, ?_⟩
  refine congrArg (uniqueId day) (List.ext_getElem? (fun m => ?_))
  by_cases hm : m < 4
  · have h1 := hf i ⟨m, hm⟩
    have h2 := hf j ⟨m, hm⟩
    rw [he] at h1
    exact h1.symm.trans h2
  · rw [List.getElem?_eq_none (by rw [(h i).1]; omega), List.getElem?_eq_none (by rw [(h j).1]; omega)]

/-- **C77.** `save_machine_metadata`: without a sub-path the file goes to the directory of the object, not to its save folder; a relative string or path
goes below the save folder; an absolute `Path` (as the scripts pass it) is taken as it is; an absolute string raises `AttributeError`, and so does
nothing else.  On a machine of which the data cannot be had, `TypeError`. -/
theorem C77_metadata (C : Coding O D B) (w : IoWorld B) (h : SoundDisk w.disk) (k : Nat) :
    (∀ sub, w.exec C (.metadata k sub none) = (w, .error .type)) ∧
    (∀ s x, isAbs s = true → w.exec C (.metadata k (some (.str s)) (some x)) = (w, .error .attribute)) ∧
    (∀ sub x p, ((sub = none ∧ p = (w.ios k).path) ∨
        (∃ a : PyArg, sub = some a ∧ a.toPath.abs = false ∧ p = (w.ios k).savePath ++ a.toPath.parts) ∨
        (∃ a : PyPath, sub = some (.path a) ∧ a.abs = true ∧ p = a.parts)) →
      (∀ q b, q <+: p → w.disk q ≠ some (.file b)) → w.disk (p ++ ["metadata.json".toList]) ≠ some .dir →
      ((w.exec C (.metadata k sub (some x))).2 = .ok () ↔ (C.dumpJson x).2 = true) ∧
      ∀ q, (w.exec C (.metadata k sub (some x))).1.disk q =
        if q = p ++ ["metadata.json".toList] then some (.file (C.dumpJson x).1) else if q <+: p then some .dir else w.disk q) := by
  refine ⟨fun sub => rfl, fun s x hs => ?_, ?_⟩
  · simp [IoWorld.exec, Io.metadataDir, hs]
  · intro sub x p hsub hb hd
    have hm : (w.ios k).metadataDir sub = .ok p := by
      rcases hsub with ⟨rfl, rfl⟩ | ⟨a, rfl, ha, rfl⟩ | ⟨a, rfl, ha, rfl⟩
      · rfl
      · cases a with
        | str s =>
          have : isAbs s = false := ha
          simp [Io.metadataDir, this, joinTo, PyArg.toPath, PyPath.ofStr]
        | path a =>
          have : a.abs = false := ha
          simp [Io.metadataDir, this, joinTo, PyArg.toPath]
      · simp [Io.metadataDir, ha]
    rcases mkdirs_spec h p with ⟨-, hmk⟩ | ⟨⟨q, b, hq, hf⟩, -⟩
    · have hs := sane_withDirs h hb
      have hpd : w.disk.withDirs p p = some .dir := by
        unfold Disk.withDirs
        cases hd : w.disk p with
        | none => simp
        | some e =>
          cases e with
          | dir => simp
          | file b => exact absurd hd (hb _ b (List.prefix_refl _))
      have hnp : ¬ p ++ ["metadata.json".toList] <+: p := fun hc => by
        have := hc.length_le
        rw [List.length_append, List.length_singleton] at this
        omega
      have hpm : w.disk.withDirs p (p ++ ["metadata.json".toList]) ≠ some .dir := by
        unfold Disk.withDirs
        rw [if_neg (fun hc => hnp hc.1)]
        exact hd
      rcases dumpTo_spec hs (p ++ ["metadata.json".toList]) (C.dumpJson x) with ⟨-, h3⟩ | ⟨h3, -⟩
      · have e1 : w.exec C (.metadata k sub (some x)) = (⟨(w.disk.withDirs p).put (p ++ ["metadata.json".toList]) (.file (C.dumpJson x).1), w.ios⟩,
            if (C.dumpJson x).2 then .ok () else .error .coding) := by
          simp only [IoWorld.exec, hm, hmk, h3]
        rw [e1]
        refine ⟨?_, fun q => ?_⟩
        · cases hc : (C.dumpJson x).2 <;> simp
        · show Disk.put _ _ _ q = _
          unfold Disk.put
          split_ifs with h1 h2
          · rfl
          · unfold Disk.withDirs
            cases hc : w.disk q with
            | none => simp [h2]
            | some e =>
              cases e with
              | dir => simp
              | file b => exact absurd hc (hb q b h2)
          · simp [Disk.withDirs, h2]
      · exact absurd ⟨by rw [List.dropLast_concat]; exact hpd, hpm⟩ h3
    · exact absurd hf (hb q b hq)

/-! ### The files of a run -/

/-- The call writes `b` to `q` in the save folder of object `k`, and can serialise it. -/
def WritesTo (C : Coding O D B) (k : Nat) (q : List FName) (b : B) : IoCmd O D B → Prop
  | .saveObj j o name => j = k ∧ name.toPath = ⟨false, q⟩ ∧ C.dumpObj o = (b, true)
  | .saveJson j x name => j = k ∧ name.toPath = ⟨false, q⟩ ∧ C.dumpJson x = (b, true)
  | .raw j b' name => j = k ∧ name.toPath = ⟨false, q⟩ ∧ b' = b
  | _ => False

theorem exec_writes (C : Coding O D B) {w : IoWorld B} (h : SoundDisk w.disk) {k : Nat} {q : List FName} {b : B} {c : IoCmd O D B}
    (hc : WritesTo C k q b c) (hd : w.disk ((w.ios k).savePath ++ q).dropLast = some .dir) (hn : w.disk ((w.ios k).savePath ++ q) ≠ some .dir) :
    w.exec C c = (⟨w.disk.put ((w.ios k).savePath ++ q) (.file b), w.ios⟩, .ok ()) := by
  have key : ∀ r : B × Bool, r = (b, true) →
      dumpTo w.disk ((w.ios k).savePath ++ q) r = (w.disk.put ((w.ios k).savePath ++ q) (.file b), .ok ()) := by
    rintro r rfl
    rcases dumpTo_spec h ((w.ios k).savePath ++ q) (b, true) with ⟨-, h2⟩ | ⟨h1, -⟩
    · rw [h2]
      rfl
    · exact absurd ⟨hd, hn⟩ h1
  cases c with
  | saveObj j o name =>
    obtain ⟨rfl, h2, h3⟩ := hc
    have hj : joinTo (w.ios j).savePath name.toPath = (w.ios j).savePath ++ q := by simp [joinTo, h2]
    have hm : mkdirs w.disk ((w.ios j).savePath ++ q).dropLast = .ok w.disk := by
      have hpre : ∀ q', q' <+: ((w.ios j).savePath ++ q).dropLast → w.disk q' = some .dir := by
        intro q' hq'
        by_cases he : q' = ((w.ios j).savePath ++ q).dropLast
        · rw [he, hd]
        · exact sane_prefix h hd hq' he
      rcases mkdirs_spec h ((w.ios j).savePath ++ q).dropLast with ⟨-, hm⟩ | ⟨⟨q', b', hq', hf⟩, -⟩
      · rw [hm, withDirs_self]
        intro q' hq'
        rw [hpre q' hq']
        simp
      · rw [hpre q' hq'] at hf
        cases hf
    simp only [IoWorld.exec, hj, hm, key _ h3]
  | saveJson j x name =>
    obtain ⟨rfl, h2, h3⟩ := hc
    have hj : joinTo (w.ios j).savePath name.toPath = (w.ios j).savePath ++ q := by simp [joinTo, h2]
    simp only [IoWorld.exec, hj, key _ h3]
  | raw j b' name =>
    obtain ⟨rfl, h2, rfl⟩ := hc
    have hj : joinTo (w.ios j).savePath name.toPath = (w.ios j).savePath ++ q := by simp [joinTo, h2]
    simp only [IoWorld.exec, hj, key _ rfl]
  | initSave => exact absurd hc id
  | initLoad => exact absurd hc id
  | mkdir => exact absurd hc id
  | metadata => exact absurd hc id

theorem script_append (C : Coding O D B) (w : IoWorld B) (cs cs' : List (IoCmd O D B)) {w' : IoWorld B} (h : w.script C cs = (w', .ok ())) :
    w.script C (cs ++ cs') = w'.script C cs' := by
  induction cs generalizing w with
  | nil =>
    rw [IoWorld.script] at h
    cases h
    rfl
  | cons c cs ih =>
    rw [List.cons_append]
    rw [IoWorld.script] at h ⊢
    cases he : w.exec C c with
    | mk w₁ r =>
      rw [he] at h
      cases r with
      | error e => cases h
      | ok u => exact ih w₁ h

/-- The state of a run on the way: the folders in `F` are there, the files in `done` are written, all else is as in `d`. -/
structure OnTheWay (R : List FName → B → Prop) (S : List FName) (d : Disk B) (F : List FName → Prop) (done : List FName → B → Prop)
    (d' : Disk B) : Prop where
  sane : SoundDisk d'
  folder : ∀ q, F q → d' (S ++ q) = some .dir
  written : ∀ q b, done q b → d' (S ++ q) = some (.file b)
  rest : ∀ p, (d' p = d p) ∨ (∃ q b, p = S ++ q ∧ R q b ∧ d' p = some (.file b)) ∨ (∃ q, p = S ++ q ∧ F q ∧ d' p = some .dir)

theorem script_writes (C : Coding O D B) {R : List FName → B → Prop} (hfun : ∀ q b b', R q b → R q b' → b = b') {S : List FName} {k : Nat}
    {d : Disk B} {F : List FName → Prop} (hnF : ∀ q b, R q b → ¬ F q) (hnd : ∀ q b, R q b → d (S ++ q) ≠ some .dir) (hne : ∀ q b, R q b → q ≠ [])
    (cs : List (IoCmd O D B)) {done : List FName → B → Prop} (hdone : ∀ q b, done q b → R q b) {w : IoWorld B}
    (hS : (w.ios k).savePath = S) (hw : OnTheWay R S d F done w.disk)
    (hcs : ∀ c ∈ cs, ∃ q b, R q b ∧ WritesTo C k q b c ∧ F q.dropLast) :
    ∃ d', w.script C cs = (⟨d', w.ios⟩, .ok ()) ∧ OnTheWay R S d F (fun q b => done q b ∨ ∃ c ∈ cs, WritesTo C k q b c ∧ R q b) d' := by
  induction cs generalizing w done with
  | nil =>
    refine ⟨w.disk, rfl, hw.sane, hw.folder, ?_, hw.rest⟩
    rintro q b (h | ⟨c, hc, -⟩)
    · exact hw.written q b h
    · cases hc
  | cons c cs ih =>
    obtain ⟨q, b, hR, hwr, hF⟩ := hcs c (by simp)
    have hq0 := hne q b hR
    have hdl : (S ++ q).dropLast = S ++ q.dropLast := List.dropLast_append_of_ne_nil hq0
    have hpar : w.disk ((w.ios k).savePath ++ q).dropLast = some .dir := by
      rw [hS, hdl]
      exact hw.folder _ hF
    have hnot : w.disk ((w.ios k).savePath ++ q) ≠ some .dir := by
      rw [hS]
      rcases hw.rest (S ++ q) with e | ⟨q', b', -, -, e⟩ | ⟨q', e1, e2, e⟩
      · rw [e]
        exact hnd q b hR
      · rw [e]
        simp
      · have : q = q' := by simpa using e1
        subst this
        exact absurd e2 (hnF q b hR)
    have hex := exec_writes C hw.sane hwr hpar hnot
    rw [hS] at hex hpar hnot
    have hw' : OnTheWay R S d F (fun q' b' => done q' b' ∨ (q' = q ∧ b' = b)) (w.disk.put (S ++ q) (.file b)) := by
      refine ⟨sane_put_file hw.sane hpar hnot, fun q' hq' => ?_, ?_, fun p => ?_⟩
      · have h1 := hw.folder q' hq'
        have : S ++ q' ≠ S ++ q := by
          intro e
          rw [e] at h1
          exact hnot h1
        rw [Disk.put, if_neg this, h1]
      · rintro q' b' (h1 | ⟨rfl, rfl⟩)
        · by_cases e : q' = q
          · subst e
            rw [Disk.put, if_pos rfl, hfun q' b b' hR (hdone _ _ h1)]
          · have : S ++ q' ≠ S ++ q := by simpa using e
            rw [Disk.put, if_neg this]
            exact hw.written q' b' h1
        · rw [Disk.put, if_pos rfl]
      · by_cases e : p = S ++ q
        · exact Or.inr (Or.inl ⟨q, b, e, hR, by rw [Disk.put, if_pos e]⟩)
        · rw [Disk.put, if_neg e]
          exact hw.rest p
    obtain ⟨d', h1, h2⟩ := ih (w := ⟨w.disk.put (S ++ q) (.file b), w.ios⟩) (done := fun q' b' => done q' b' ∨ (q' = q ∧ b' = b))
      (by rintro q' b' (h | ⟨rfl, rfl⟩); exacts [hdone _ _ h, hR]) hS hw' (fun c hc => hcs c (by simp [hc]))
    refine ⟨d', ?_, h2.sane, h2.folder, ?_, h2.rest⟩
    · rw [IoWorld.script, hex]
      exact h1
    · rintro q' b' (h | ⟨c', hc', hw1, hR'⟩)
      · exact h2.written _ _ (Or.inl (Or.inl h))
      · rcases List.mem_cons.1 hc' with rfl | hc'
        · refine h2.written _ _ (Or.inl (Or.inr ?_))
          have hqq : q' = q := by
            cases c' with
            | saveObj => exact (congrArg PyPath.parts (hw1.2.1.symm.trans hwr.2.1))
            | saveJson => exact (congrArg PyPath.parts (hw1.2.1.symm.trans hwr.2.1))
            | raw => exact (congrArg PyPath.parts (hw1.2.1.symm.trans hwr.2.1))
            | initSave => exact absurd hwr id
            | initLoad => exact absurd hwr id
            | mkdir => exact absurd hwr id
            | metadata => exact absurd hwr id
          subst hqq
          exact ⟨rfl, hfun _ _ _ hR' hR⟩
        · exact h2.written _ _ (Or.inr ⟨c', hc', hw1, hR'⟩)

theorem script_mkdir (C : Coding O D B) {R : List FName → B → Prop} {S : List FName} {k : Nat}
    {d : Disk B} {F : List FName → Prop} {f : List Char} (hf : PlainName f) (hnf : ∀ b, d (S ++ [f]) ≠ some (.file b))
    (hnR : ∀ b, ¬ R [f] b) {done : List FName → B → Prop} (hF0 : F []) {w : IoWorld B}
    (hS : (w.ios k).savePath = S) (hw : OnTheWay R S d F done w.disk) :
    ∃ d', w.script C [IoCmd.mkdir k (.str f)] = (⟨d', w.ios⟩, .ok ()) ∧ OnTheWay R S d (fun q => F q ∨ q = [f]) done d' := by
  have hSd : w.disk S = some .dir := by
    have := hw.folder [] hF0
    rwa [List.append_nil] at this
  have hj : joinTo (w.ios k).savePath (PyArg.toPath (.str f)) = S ++ [f] := by rw [hS]; exact joinTo_plain S hf
  have hnotfile : ∀ b, w.disk (S ++ [f]) ≠ some (.file b) := by
    intro b hb
    rcases hw.rest (S ++ [f]) with e | ⟨q, b', e1, e2, -⟩ | ⟨q, -, -, e⟩
    · rw [e] at hb
      exact hnf b hb
    · have : [f] = q := by simpa using e1
      subst this
      exact hnR b' e2
    · rw [e] at hb
      cases hb
  have hb : ∀ q b, q <+: S ++ [f] → w.disk q ≠ some (.file b) := by
    intro q b hq hc
    by_cases he : q = S ++ [f]
    · subst he
      exact hnotfile b hc
    · have hqS : q <+: S := by
        refine List.prefix_of_prefix_length_le hq (List.prefix_append _ _) ?_
        have h1 := hq.length_le
        have h5 : q.length ≠ (S ++ [f]).length := fun h => he (hq.eq_of_length h)
        rw [List.length_append, List.length_singleton] at h1 h5
        omega
      by_cases heS : q = S
      · rw [heS, hSd] at hc
        cases hc
      · rw [sane_prefix hw.sane hSd hqS heS] at hc
        cases hc
  rcases mkdirs_spec hw.sane (S ++ [f]) with ⟨-, hm⟩ | ⟨⟨q, b, hq, hc⟩, -⟩
  · refine ⟨w.disk.withDirs (S ++ [f]), ?_, sane_withDirs hw.sane hb, ?_, ?_, ?_⟩
    · simp only [IoWorld.script, IoWorld.exec, hj, hm]
    · rintro q (hq | rfl)
      · have := hw.folder q hq
        simp [Disk.withDirs, this]
      · unfold Disk.withDirs
        cases hc : w.disk (S ++ [f]) with
        | none => simp
        | some e =>
          cases e with
          | dir => simp
          | file b => exact absurd hc (hnotfile b)
    · intro q b hq
      have := hw.written q b hq
      simp [Disk.withDirs, this]
    · intro p
      unfold Disk.withDirs
      split_ifs with hc
      · right; right
        have : p = S ++ [f] := by
          by_contra he
          have hpS : p <+: S := by
            refine List.prefix_of_prefix_length_le hc.1 (List.prefix_append _ _) ?_
            have h1 := hc.1.length_le
            have h5 : p.length ≠ (S ++ [f]).length := fun h => he (hc.1.eq_of_length h)
            rw [List.length_append, List.length_singleton] at h1 h5
            omega
          by_cases heS : p = S
          · have := hc.2
            rw [heS, hSd] at this
            cases this
          · have := hc.2
            rw [sane_prefix hw.sane hSd hpS heS] at this
            cases this
        exact ⟨[f], this, Or.inr rfl, rfl⟩
      · rcases hw.rest p with e | e | ⟨q, e1, e2, e3⟩
        · exact Or.inl e
        · exact Or.inr (Or.inl e)
        · exact Or.inr (Or.inr ⟨q, e1, Or.inl e2, e3⟩)
  · exact absurd hc (hb q b hq)

theorem RunFile.fun {C : Coding O D B} {r : RunData O D B} (q : List FName) (b b' : B) (h : RunFile C r q b) (h' : RunFile C r q b') : b = b' := by
  generalize hq : q = q' at h'
  cases h <;> cases h' <;> first | rfl | (exfalso; revert hq; decide) | skip
  all_goals first | (exfalso; simp at hq; done) | skip
  · rename_i g i pop x _ h2 h3 g' i' pop' x' _ h2' h3'
    obtain ⟨rfl, rfl⟩ := graphFile_inj (List.cons.inj (List.cons.inj hq).2).1
    rw [h2] at h2'
    cases h2'
    rw [h3] at h3'
    cases h3'
    rfl
  · rename_i g i pop x _ h2 h3 g' i' pop' x' _ h2' h3'
    obtain ⟨rfl, rfl⟩ := graphFile_inj (List.cons.inj (List.cons.inj hq).2).1
    rw [h2] at h2'
    cases h2'
    rw [h3] at h3'
    cases h3'
    rfl

theorem RunFile.ne_nil {C : Coding O D B} {r : RunData O D B} (q : List FName) (b : B) (h : RunFile C r q b) : q ≠ [] := by
  cases h <;> simp

theorem RunFile.not_folder {C : Coding O D B} {r : RunData O D B} (q : List FName) (b : B) (h : RunFile C r q b) :
    q ≠ ["reduced_graphs".toList] ∧ q ≠ ["reduced_hof_graphs".toList] := by
  cases h <;> first | decide | simp

theorem mem_popCmds {k gen : Nat} {folder pre : List Char} (hf : PlainName folder) (hp : '/' ∉ pre) {pop : List (Option D)} {c : IoCmd O D B} :
    c ∈ (popCmds k gen folder pre pop : List (IoCmd O D B)) ↔
      ∃ (i : Nat) (x : D), pop[i]? = some (some x) ∧ c = .saveJson k x (.path ⟨false, [folder, graphFile pre gen i]⟩) := by
  unfold popCmds
  simp only [List.mem_filterMap, Option.map_eq_some_iff, isAbs_plain hf, pathParts_plain hf, pathParts_plain (graphFile_plain hp gen _),
    List.singleton_append]
  constructor
  · rintro ⟨⟨y, i⟩, hm, x, hx, rfl⟩
    rw [List.mem_zipIdx_iff_getElem?] at hm
    dsimp only at hm hx
    subst hx
    exact ⟨i, x, hm, rfl⟩
  · rintro ⟨i, x, hi, rfl⟩
    exact ⟨(some x, i), List.mem_zipIdx_iff_getElem?.2 hi, x, rfl, rfl⟩

/-- **C77.** The files of a topology optimization.  In a save folder which exists, with nothing in the way and with everything serialisable, no call on
`io` fails, and in the end each file of the run holds just what was to be saved in it, under its own name: no graph of any generation overwrites
another.  Whatever else is on the disk (files of an earlier run in the same folder, too) is as before. -/
theorem C77_run (C : Coding O D B) (w : IoWorld B) (h : SoundDisk w.disk) (k : Nat) (r : RunData O D B) (hser : Serialisable C r) (S : List FName)
    (hS : (w.ios k).savePath = S) (hdir : w.disk S = some .dir) (hfree : ∀ q b, RunFile C r q b → w.disk (S ++ q) ≠ some .dir)
    (hg : r.saveGraphs = true → ∀ b, w.disk (S ++ ["reduced_graphs".toList]) ≠ some (.file b))
    (hh : r.saveHof = true → ∀ b, w.disk (S ++ ["reduced_hof_graphs".toList]) ≠ some (.file b)) :
    ∃ w', w.script C (runCmds k r) = (w', .ok ()) ∧ w'.ios = w.ios ∧
      (∀ q b, RunFile C r q b → w'.disk (S ++ q) = some (.file b)) ∧
      (∀ p, (∀ q b, RunFile C r q b → p ≠ S ++ q) → w'.disk p =
        if (r.saveGraphs = true ∧ p = S ++ ["reduced_graphs".toList]) ∨ (r.saveHof = true ∧ p = S ++ ["reduced_hof_graphs".toList])
        then some .dir else w.disk p) := by
  set rg : FName := "reduced_graphs".toList with hrg
  set rh : FName := "reduced_hof_graphs".toList with hrh
  have hrgp : PlainName rg := by rw [hrg]; unfold PlainName; decide
  have hrhp : PlainName rh := by rw [hrh]; unfold PlainName; decide
  have hgp : '/' ∉ "graph_".toList := by decide
  have hhp : '/' ∉ "hof_".toList := by decide
  have hprod : ∀ {α : Type} (x : α × Bool), x.2 = true → x = (x.1, true) := by
    rintro α ⟨a, b⟩ rfl
    rfl
  -- the states on the way
  let F1 : List FName → Prop := fun q => q = []
  let F2 : List FName → Prop := fun q => F1 q ∨ (r.saveGraphs = true ∧ q = [rg])
  let F3 : List FName → Prop := fun q => F2 q ∨ (r.saveHof = true ∧ q = [rh])
  have hnF3 : ∀ q b, RunFile C r q b → ¬ F3 q := by
    rintro q b hq ((h1 | h1) | h1)
    · exact RunFile.ne_nil q b hq h1
    · exact (RunFile.not_folder q b hq).1 h1.2
    · exact (RunFile.not_folder q b hq).2 h1.2
  have hnF2 : ∀ q b, RunFile C r q b → ¬ F2 q := fun q b hq hc => hnF3 q b hq (Or.inl hc)
  have hnF1 : ∀ q b, RunFile C r q b → ¬ F1 q := fun q b hq hc => hnF2 q b hq (Or.inl hc)
  have hway0 : OnTheWay (RunFile C r) S w.disk F1 (fun _ _ => False) w.disk := by
    refine ⟨h, ?_, fun _ _ hc => hc.elim, fun p => Or.inl rfl⟩
    rintro q rfl
    rwa [List.append_nil]
  -- the first six files
  let c1 : List (IoCmd O D B) := [.raw k r.stdout (.str "stdout_logging.log".toList),
   .saveJson k r.gaOpts (.str "ga_opts.json".toList),
   .saveObj k r.propagator (.str "propagator.pkl".toList),
   .saveObj k r.evaluator (.str "evaluator.pkl".toList),
   .saveObj k r.evolver (.str "evolver.pkl".toList),
   .saveJson k r.settings (.str "optimization_settings.json".toList)]
  have w1 : WritesTo C k ["stdout_logging.log".toList] r.stdout (.raw k r.stdout (.str "stdout_logging.log".toList)) := ⟨rfl, by decide, rfl⟩
  have w2 : WritesTo C k ["ga_opts.json".toList] (C.dumpJson r.gaOpts).1 (.saveJson k r.gaOpts (.str "ga_opts.json".toList)) :=
    ⟨rfl, by decide, hprod _ hser.gaOpts⟩
  have w3 : WritesTo C k ["propagator.pkl".toList] (C.dumpObj r.propagator).1 (.saveObj k r.propagator (.str "propagator.pkl".toList)) :=
    ⟨rfl, by decide, hprod _ (hser.objects _ (by simp))⟩
  have w4 : WritesTo C k ["evaluator.pkl".toList] (C.dumpObj r.evaluator).1 (.saveObj k r.evaluator (.str "evaluator.pkl".toList)) :=
    ⟨rfl, by decide, hprod _ (hser.objects _ (by simp))⟩
  have w5 : WritesTo C k ["evolver.pkl".toList] (C.dumpObj r.evolver).1 (.saveObj k r.evolver (.str "evolver.pkl".toList)) :=
    ⟨rfl, by decide, hprod _ (hser.objects _ (by simp))⟩
  have w6 : WritesTo C k ["optimization_settings.json".toList] (C.dumpJson r.settings).1
      (.saveJson k r.settings (.str "optimization_settings.json".toList)) := ⟨rfl, by decide, hprod _ hser.settings⟩
  have w7 : WritesTo C k ["log.pkl".toList] (C.dumpObj r.log).1 (.saveObj k r.log (.str "log.pkl".toList)) :=
    ⟨rfl, by decide, hprod _ (hser.objects _ (by simp))⟩
  obtain ⟨d1, s1, o1⟩ := script_writes C RunFile.fun hnF1 hfree RunFile.ne_nil c1 (fun _ _ hc => hc.elim) hS hway0 (by
    intro c hc
    simp only [c1, List.mem_cons, List.not_mem_nil, or_false] at hc
    rcases hc with rfl | rfl | rfl | rfl | rfl | rfl
    · exact ⟨_, _, .stdout, w1, rfl⟩
    · exact ⟨_, _, .gaOpts, w2, rfl⟩
    · exact ⟨_, _, .propagator, w3, rfl⟩
    · exact ⟨_, _, .evaluator, w4, rfl⟩
    · exact ⟨_, _, .evolver, w5, rfl⟩
    · exact ⟨_, _, .settings, w6, rfl⟩)
  -- a graph of a population
  have wg : ∀ gen ind pop x, r.saveGraphs = true → r.populations[gen]? = some pop → pop[ind]? = some (some x) →
      RunFile C r [rg, graphFile "graph_".toList gen ind] (C.dumpJson x).1 ∧
      WritesTo C k [rg, graphFile "graph_".toList gen ind] (C.dumpJson x).1
        (.saveJson k x (.path ⟨false, [rg, graphFile "graph_".toList gen ind]⟩)) := by
    intro gen ind pop x h1 h2 h3
    exact ⟨.graph gen ind pop x h1 h2 h3, rfl, rfl,
      hprod _ (hser.graphs h1 pop (List.mem_of_getElem? h2) x (List.mem_of_getElem? h3))⟩
  have wh : ∀ gen ind pop x, r.saveHof = true → r.halls[gen]? = some pop → pop[ind]? = some (some x) →
      RunFile C r [rh, graphFile "hof_".toList gen ind] (C.dumpJson x).1 ∧
      WritesTo C k [rh, graphFile "hof_".toList gen ind] (C.dumpJson x).1
        (.saveJson k x (.path ⟨false, [rh, graphFile "hof_".toList gen ind]⟩)) := by
    intro gen ind pop x h1 h2 h3
    exact ⟨.hof gen ind pop x h1 h2 h3, rfl, rfl,
      hprod _ (hser.halls h1 pop (List.mem_of_getElem? h2) x (List.mem_of_getElem? h3))⟩
  have hfun := @RunFile.fun O D B C r
  have hdone1 : ∀ {F : List FName → Prop} {done : List FName → B → Prop} {d : Disk B} {cs : List (IoCmd O D B)}, OnTheWay (RunFile C r) S w.disk F (fun q b => done q b ∨ ∃ c ∈ cs, WritesTo C k q b c ∧ RunFile C r q b) d →
      (∀ q b, done q b → RunFile C r q b) →
      ∀ q b, (done q b ∨ ∃ c ∈ cs, WritesTo C k q b c ∧ RunFile C r q b) → RunFile C r q b := by
    rintro F done d cs - hd q b (h1 | ⟨c, -, -, h1⟩)
    · exact hd q b h1
    · exact h1
  have o1R := hdone1 o1 (fun _ _ hc => hc.elim)
  -- the folder of the populations
  let c2 : List (IoCmd O D B) := if r.saveGraphs then .mkdir k (.str rg) :: popCmds k 0 rg "graph_".toList [some r.start] else []
  obtain ⟨d2, s2, D2, o2R, o2, hD2⟩ : ∃ d2, (⟨d1, w.ios⟩ : IoWorld B).script C c2 = (⟨d2, w.ios⟩, .ok ()) ∧
      ∃ D2 : List FName → B → Prop, (∀ q b, D2 q b → RunFile C r q b) ∧ OnTheWay (RunFile C r) S w.disk F2 D2 d2 ∧
        ∀ q b, ((False ∨ ∃ c ∈ c1, WritesTo C k q b c ∧ RunFile C r q b) ∨ ∃ c ∈ c2, WritesTo C k q b c ∧ RunFile C r q b) → D2 q b := by
    by_cases hb : r.saveGraphs = true
    · obtain ⟨d1', s1', o1'⟩ := script_mkdir C (R := RunFile C r) (F := F1) (w := ⟨d1, w.ios⟩) (k := k) hrgp (hg hb) (fun b hc => (RunFile.not_folder _ b hc).1 rfl) rfl hS o1
      have hF : ∀ q, (F1 q ∨ q = [rg]) ↔ F2 q := by
        intro q
        simp only [F2, hb, true_and]
      obtain ⟨d2, s2, o2⟩ := script_writes C RunFile.fun (fun q b hq hc => hnF2 q b hq ((hF q).1 hc)) hfree RunFile.ne_nil
        (popCmds k 0 rg "graph_".toList [some r.start]) o1R (w := ⟨d1', w.ios⟩) hS o1' (by
          intro c hc
          obtain ⟨i, x, hi, rfl⟩ := (mem_popCmds hrgp hgp).1 hc
          obtain ⟨a1, a2⟩ := wg 0 i _ x hb rfl hi
          exact ⟨_, _, a1, a2, Or.inr rfl⟩)
      refine ⟨d2, ?_, _, hdone1 o2 o1R, ⟨o2.sane, fun q hq => o2.folder q ((hF q).2 hq), o2.written, fun p => ?_⟩, ?_⟩
      · have e : c2 = [.mkdir k (.str rg)] ++ popCmds k 0 rg "graph_".toList [some r.start] := by
          simp only [c2, hb, if_true, List.singleton_append]
        rw [e, script_append C _ _ _ s1']
        exact s2
      · rcases o2.rest p with e | e | ⟨q, e1, e2, e3⟩
        · exact Or.inl e
        · exact Or.inr (Or.inl e)
        · exact Or.inr (Or.inr ⟨q, e1, (hF q).1 e2, e3⟩)
      · rintro q b (hq | ⟨c, hc, hq⟩)
        · exact Or.inl hq
        · simp only [c2, hb, if_true, List.mem_cons] at hc
          rcases hc with rfl | hc
          · exact absurd hq.1 id
          · exact Or.inr ⟨c, hc, hq⟩
    · have e : c2 = [] := by simp [c2, hb]
      refine ⟨d1, by rw [e]; rfl, _, o1R, ⟨o1.sane, ?_, o1.written, fun p => ?_⟩, ?_⟩
      · rintro q (hq | hq)
        · exact o1.folder q hq
        · exact absurd hq.1 hb
      · rcases o1.rest p with e | e | ⟨q, e1, e2, e3⟩
        · exact Or.inl e
        · exact Or.inr (Or.inl e)
        · exact Or.inr (Or.inr ⟨q, e1, Or.inl e2, e3⟩)
      · rintro q b (hq | ⟨c, hc, hq⟩)
        · exact hq
        · rw [e] at hc
          cases hc
  -- the folder of the halls of fame
  let c3 : List (IoCmd O D B) := if r.saveHof then .mkdir k (.str rh) :: popCmds k 0 rh "hof_".toList [some r.start] else []
  obtain ⟨d3, s3, D3, o3R, o3, hD3⟩ : ∃ d3, (⟨d2, w.ios⟩ : IoWorld B).script C c3 = (⟨d3, w.ios⟩, .ok ()) ∧
      ∃ D3 : List FName → B → Prop, (∀ q b, D3 q b → RunFile C r q b) ∧ OnTheWay (RunFile C r) S w.disk F3 D3 d3 ∧
        ∀ q b, (D2 q b ∨ ∃ c ∈ c3, WritesTo C k q b c ∧ RunFile C r q b) → D3 q b := by
    by_cases hb : r.saveHof = true
    · obtain ⟨d1', s1', o1'⟩ := script_mkdir C (R := RunFile C r) (F := F2) (w := ⟨d2, w.ios⟩) (k := k) hrhp (hh hb) (fun b hc => (RunFile.not_folder _ b hc).2 rfl)
        (Or.inl rfl) hS o2
      have hF : ∀ q, (F2 q ∨ q = [rh]) ↔ F3 q := by
        intro q
        simp only [F3, hb, true_and]
      obtain ⟨d3, s3, o3⟩ := script_writes C RunFile.fun (fun q b hq hc => hnF3 q b hq ((hF q).1 hc)) hfree RunFile.ne_nil
        (popCmds k 0 rh "hof_".toList [some r.start]) o2R (w := ⟨d1', w.ios⟩) hS o1' (by
          intro c hc
          obtain ⟨i, x, hi, rfl⟩ := (mem_popCmds hrhp hhp).1 hc
          obtain ⟨a1, a2⟩ := wh 0 i _ x hb rfl hi
          exact ⟨_, _, a1, a2, Or.inr rfl⟩)
      refine ⟨d3, ?_, _, hdone1 o3 o2R, ⟨o3.sane, fun q hq => o3.folder q ((hF q).2 hq), o3.written, fun p => ?_⟩, ?_⟩
      · have e : c3 = [.mkdir k (.str rh)] ++ popCmds k 0 rh "hof_".toList [some r.start] := by
          simp only [c3, hb, if_true, List.singleton_append]
        rw [e, script_append C _ _ _ s1']
        exact s3
      · rcases o3.rest p with e | e | ⟨q, e1, e2, e3⟩
        · exact Or.inl e
        · exact Or.inr (Or.inl e)
        · exact Or.inr (Or.inr ⟨q, e1, (hF q).1 e2, e3⟩)
      · rintro q b (hq | ⟨c, hc, hq⟩)
        · exact Or.inl hq
        · simp only [c3, hb, if_true, List.mem_cons] at hc
          rcases hc with rfl | hc
          · exact absurd hq.1 id
          · exact Or.inr ⟨c, hc, hq⟩
    · have e : c3 = [] := by simp [c3, hb]
      refine ⟨d2, by rw [e]; rfl, _, o2R, ⟨o2.sane, ?_, o2.written, fun p => ?_⟩, ?_⟩
      · rintro q (hq | hq)
        · exact o2.folder q hq
        · exact absurd hq.1 hb
      · rcases o2.rest p with e | e | ⟨q, e1, e2, e3⟩
        · exact Or.inl e
        · exact Or.inr (Or.inl e)
        · exact Or.inr (Or.inr ⟨q, e1, Or.inl e2, e3⟩)
      · rintro q b (hq | ⟨c, hc, hq⟩)
        · exact hq
        · rw [e] at hc
          cases hc
  -- the generations and the log
  let c4 : List (IoCmd O D B) := r.gens.zipIdx.flatMap (fun p =>
      (if r.saveGraphs then popCmds k (p.2 + 1) rg "graph_".toList p.1.1 else []) ++
      (if r.saveHof then popCmds k (p.2 + 1) rh "hof_".toList p.1.2 else []))
  have hgens : ∀ (g : Nat) (p : List (Option D) × List (Option D)), (p, g) ∈ r.gens.zipIdx ↔ r.gens[g]? = some p :=
    fun g p => List.mem_zipIdx_iff_getElem?
  obtain ⟨d4, s4, o4⟩ := script_writes C RunFile.fun hnF3 hfree RunFile.ne_nil
    (c4 ++ [.saveObj k r.log (.str "log.pkl".toList)]) o3R (w := ⟨d3, w.ios⟩) hS o3 (by
      intro c hc
      rcases List.mem_append.1 hc with hc | hc
      · simp only [c4, List.mem_flatMap] at hc
        obtain ⟨⟨p, g⟩, hpg, hc⟩ := hc
        have hp := (hgens g p).1 hpg
        rcases List.mem_append.1 hc with hc | hc
        · by_cases hb : r.saveGraphs = true
          · rw [if_pos hb] at hc
            obtain ⟨i, x, hi, rfl⟩ := (mem_popCmds hrgp hgp).1 hc
            obtain ⟨a1, a2⟩ := wg (g + 1) i p.1 x hb (by simp [RunData.populations, hp]) hi
            exact ⟨_, _, a1, a2, Or.inl (Or.inr ⟨hb, rfl⟩)⟩
          · rw [if_neg hb] at hc
            cases hc
        · by_cases hb : r.saveHof = true
          · rw [if_pos hb] at hc
            obtain ⟨i, x, hi, rfl⟩ := (mem_popCmds hrhp hhp).1 hc
            obtain ⟨a1, a2⟩ := wh (g + 1) i p.2 x hb (by simp [RunData.halls, hp]) hi
            exact ⟨_, _, a1, a2, Or.inr ⟨hb, rfl⟩⟩
          · rw [if_neg hb] at hc
            cases hc
      · rw [List.mem_singleton.1 hc]
        exact ⟨_, _, .log, w7, Or.inl (Or.inl rfl)⟩)
  refine ⟨⟨d4, w.ios⟩, ?_, rfl, ?_, ?_⟩
  · have e : runCmds k r = c1 ++ (c2 ++ (c3 ++ (c4 ++ [.saveObj k r.log (.str "log.pkl".toList)]))) := by
      simp only [runCmds, c1, c2, c3, c4, List.append_assoc, hrg, hrh]
    rw [e, script_append C _ _ _ s1, script_append C _ _ _ s2, script_append C _ _ _ s3]
    exact s4
  · intro q b hq
    refine o4.written q b ?_
    have in1 : ∀ c ∈ c1, WritesTo C k q b c → (D3 q b ∨ ∃ c ∈ c4 ++ [.saveObj k r.log (.str "log.pkl".toList)], WritesTo C k q b c ∧ RunFile C r q b) :=
      fun c hc hwr => Or.inl (hD3 _ _ (Or.inl (hD2 _ _ (Or.inl (Or.inr ⟨c, hc, hwr, hq⟩)))))
    cases hq with
    | stdout => exact in1 _ (by simp [c1]) w1
    | gaOpts => exact in1 _ (by simp [c1]) w2
    | propagator => exact in1 _ (by simp [c1]) w3
    | evaluator => exact in1 _ (by simp [c1]) w4
    | evolver => exact in1 _ (by simp [c1]) w5
    | settings => exact in1 _ (by simp [c1]) w6
    | log => exact Or.inr ⟨_, by simp, w7, .log⟩
    | graph gen ind pop x hb hpop hx =>
      obtain ⟨a1, a2⟩ := wg gen ind pop x hb hpop hx
      cases gen with
      | zero =>
        have e : pop = [some r.start] := by simpa [RunData.populations] using hpop.symm
        subst e
        refine Or.inl (hD3 _ _ (Or.inl (hD2 _ _ (Or.inr ⟨_, ?_, a2, a1⟩))))
        simp only [c2, hb, if_true]
        exact List.mem_cons_of_mem _ ((mem_popCmds hrgp hgp).2 ⟨ind, x, hx, rfl⟩)
      | succ g =>
        simp only [RunData.populations, List.getElem?_cons_succ, List.getElem?_map, Option.map_eq_some_iff] at hpop
        obtain ⟨p, hp, rfl⟩ := hpop
        refine Or.inr ⟨_, List.mem_append.2 (Or.inl ?_), a2, a1⟩
        simp only [c4, List.mem_flatMap]
        refine ⟨(p, g), (hgens g p).2 hp, List.mem_append.2 (Or.inl ?_)⟩
        rw [if_pos hb]
        exact (mem_popCmds hrgp hgp).2 ⟨ind, x, hx, rfl⟩
    | hof gen ind pop x hb hpop hx =>
      obtain ⟨a1, a2⟩ := wh gen ind pop x hb hpop hx
      cases gen with
      | zero =>
        have e : pop = [some r.start] := by simpa [RunData.halls] using hpop.symm
        subst e
        refine Or.inl (hD3 _ _ (Or.inr ⟨_, ?_, a2, a1⟩))
        simp only [c3, hb, if_true]
        exact List.mem_cons_of_mem _ ((mem_popCmds hrhp hhp).2 ⟨ind, x, hx, rfl⟩)
      | succ g =>
        simp only [RunData.halls, List.getElem?_cons_succ, List.getElem?_map, Option.map_eq_some_iff] at hpop
        obtain ⟨p, hp, rfl⟩ := hpop
        refine Or.inr ⟨_, List.mem_append.2 (Or.inl ?_), a2, a1⟩
        simp only [c4, List.mem_flatMap]
        refine ⟨(p, g), (hgens g p).2 hp, List.mem_append.2 (Or.inr ?_)⟩
        rw [if_pos hb]
        exact (mem_popCmds hrhp hhp).2 ⟨ind, x, hx, rfl⟩
  · intro p hp
    split_ifs with hc
    · rcases hc with ⟨hb, rfl⟩ | ⟨hb, rfl⟩
      · exact o4.folder _ (Or.inl (Or.inr ⟨hb, rfl⟩))
      · exact o4.folder _ (Or.inr ⟨hb, rfl⟩)
    · rcases o4.rest p with e | ⟨q, b, e1, e2, -⟩ | ⟨q, e1, e2, e3⟩
      · exact e
      · exact absurd e1 (hp q b e2)
      · rcases e2 with (e2 | e2) | e2
        · have e2 : q = [] := e2
          subst e2
          rw [List.append_nil] at e1
          subst e1
          show d4 p = _
          rw [e3, hdir]
        · exact absurd (Or.inl ⟨e2.1, by rw [e1, e2.2]⟩) hc
        · exact absurd (Or.inr ⟨e2.1, by rw [e1, e2.2]⟩) hc

/-- **C77.** In a new folder, as `init_save_dir` makes it when the identifier is new, these are all the files. -/
theorem C77_run_new_folder (C : Coding O D B) (w : IoWorld B) (h : SoundDisk w.disk) (k : Nat) (r : RunData O D B) (hser : Serialisable C r)
    (S : List FName) (hS : (w.ios k).savePath = S) (hdir : w.disk S = some .dir) (hnew : ∀ q, q ≠ [] → w.disk (S ++ q) = none) :
    ∃ w', w.script C (runCmds k r) = (w', .ok ()) ∧ ∀ q b, w'.disk (S ++ q) = some (.file b) ↔ RunFile C r q b := by
  obtain ⟨w', h1, -, h2, h3⟩ := C77_run C w h k r hser S hS hdir (fun q b hq => by rw [hnew q (RunFile.ne_nil q b hq)]; simp)
    (fun _ b => by rw [hnew _ (by simp)]; simp) (fun _ b => by rw [hnew _ (by simp)]; simp)
  refine ⟨w', h1, fun q b => ⟨fun hq => ?_, h2 q b⟩⟩
  by_cases hR : ∃ b', RunFile C r q b'
  · obtain ⟨b', hb'⟩ := hR
    rw [h2 q b' hb'] at hq
    cases hq
    exact hb'
  · exfalso
    have := h3 (S ++ q) (fun q' b' hq' e => hR ⟨b', by rwa [(List.append_cancel_left e)]⟩)
    rw [hq] at this
    split_ifs at this with hc
    · cases this
    by_cases hq0 : q = []
    · rw [hq0, List.append_nil, hdir] at this
      cases this
    · rw [hnew q hq0] at this
      cases this

/-- **C77.** Without its folder (no `init_save_dir`, and the directory of the object does not exist) a run ends at its first step, the log of the
standard output: nothing is written. -/
theorem C77_run_no_folder (C : Coding O D B) (w : IoWorld B) (h : SoundDisk w.disk) (k : Nat) (r : RunData O D B)
    (hno : w.disk (w.ios k).savePath ≠ some .dir) : ∃ e, w.script C (runCmds k r) = (w, .error e) := by
  have hj : joinTo (w.ios k).savePath (PyArg.toPath (.str "stdout_logging.log".toList)) = (w.ios k).savePath ++ ["stdout_logging.log".toList] :=
    joinTo_plain _ (by unfold PlainName; decide)
  rcases dumpTo_spec h ((w.ios k).savePath ++ ["stdout_logging.log".toList]) (r.stdout, true) with ⟨⟨h1, -⟩, -⟩ | ⟨-, e, h2⟩
  · rw [List.dropLast_concat] at h1
    exact absurd h1 hno
  · refine ⟨e, ?_⟩
    simp only [runCmds, List.cons_append, IoWorld.script, IoWorld.exec, hj, h2]

end

/-! ### A concrete disk -/

namespace FilesDemo

/-- A disk with the working directory of the scripts and nothing else. -/
def disk : Disk (Option Nat) := fun q => if q <+: ["home".toList, "me".toList, "asope".toList, "scripts".toList] then some .dir else none

/-- Objects and dictionaries are numbers; the dictionary 0 cannot be written as JSON. -/
def coding : Coding Nat Nat (Option Nat) where
  dumpObj n := (some n, true)
  loadObj b := b
  dumpJson n := (if n = 0 then none else some n, n != 0)
  loadJson b := b

/-- Every object as `InputOutput()` makes it in the working directory. -/
def world : IoWorld (Option Nat) := ⟨disk, fun _ => Io.init ["home".toList, "me".toList, "asope".toList, "scripts".toList] none⟩

theorem sane : SoundDisk disk := by
  constructor
  · decide
  · intro p n e hp
    unfold disk at hp ⊢
    split_ifs at hp with h
    rw [if_pos ((List.prefix_append p [n]).trans h)]

theorem faithful : Faithful coding := fun _ _ => rfl

def name (s : String) : PyArg := .str s.toList

/-- Two generations, with a hall of fame of two places of which one is filled at first. -/
def data : RunData Nat Nat (Option Nat) :=
  ⟨7, 1, 2, 3, 8, 10, [([some 11, some 12], [some 11, none]), ([some 13, some 12], [some 13, some 11])], 4, none, true, true⟩

/-- What is where, after a session. -/
def after (cs : List (IoCmd Nat Nat (Option Nat))) (p : List String) : Option (DiskEntry (Option Nat)) :=
  (world.session coding cs).disk (p.map String.toList)

/-- The last exception of a session. -/
def outcome (cs : List (IoCmd Nat Nat (Option Nat))) (c : IoCmd Nat Nat (Option Nat)) : Option IoErr :=
  match ((world.session coding cs).exec coding c).2 with
  | .ok _ => none
  | .error e => some e

end FilesDemo

open FilesDemo in
/-- **C77.** Surprises, on a concrete disk.
1. `save_json(x, 'sub/a.json')` fails where `save_object(o, 'sub/a.pkl')` makes the folder.
2. Saving a dictionary which JSON does not know over a good file leaves a file which cannot be loaded.
3. As in the documentation of the class, `init_save_dir('test', unique_id=False)` and `save_machine_metadata(sub_path='test')`: the data are in
   `test/test`, not in `test`.
4. Two runs which draw the same identifier share a folder, without any complaint: the later one overwrites.
5. After a failed `init_load_dir` the object does point to the folder which is not there: what could be loaded before no longer can.
6. A file name which is an absolute path does not go to the save folder. -/
theorem C77_surprises :
    (outcome [.initSave 0 none none] (.saveJson 0 5 (name "sub/a.json")) = some .notFound ∧
      outcome [.initSave 0 none none] (.saveObj 0 5 (name "sub/a.pkl")) = none) ∧
    (((world.session coding [.initSave 0 none none, .saveJson 0 5 (name "a.json")]).loadJson coding 0 (name "a.json")).toOption = some 5 ∧
      outcome [.initSave 0 none none, .saveJson 0 5 (name "a.json")] (.saveJson 0 0 (name "a.json")) = some .coding ∧
      ((world.session coding [.initSave 0 none none, .saveJson 0 5 (name "a.json"), .saveJson 0 0 (name "a.json")]).loadJson coding 0
        (name "a.json")).toOption = none) ∧
    (after [.initSave 0 (some "test".toList) none, .metadata 0 (some (name "test")) (some 9)]
        ["home", "me", "asope_data", "test", "test", "metadata.json"] = some (.file (some 9)) ∧
      after [.initSave 0 (some "test".toList) none, .metadata 0 (some (name "test")) (some 9)]
        ["home", "me", "asope_data", "test", "metadata.json"] = none) ∧
    (after [.initSave 0 (some "run".toList) (some "20200101_1aB9".toList), .saveObj 0 5 (name "log.pkl"),
        .initSave 1 (some "run".toList) (some "20200101_1aB9".toList), .saveObj 1 6 (name "log.pkl")]
      ["home", "me", "asope_data", "20200101_1aB9_run", "log.pkl"] = some (.file (some 6)) ∧
      outcome [.initSave 0 (some "run".toList) (some "20200101_1aB9".toList), .saveObj 0 5 (name "log.pkl")]
        (.initSave 1 (some "run".toList) (some "20200101_1aB9".toList)) = none) ∧
    (((world.session coding [.initSave 0 none none, .saveObj 0 5 (name "a.pkl")]).loadObj coding 0 (name "a.pkl")).toOption = some 5 ∧
      outcome [.initSave 0 none none, .saveObj 0 5 (name "a.pkl")] (.initLoad 0 (some "old".toList)) = some .exists_ ∧
      ((world.session coding [.initSave 0 none none, .saveObj 0 5 (name "a.pkl"), .initLoad 0 (some "old".toList)]).loadObj coding 0
        (name "a.pkl")).toOption = none) ∧
    (after [.initSave 0 (some "test".toList) none, .saveObj 0 5 (name "/home/a.pkl")] ["home", "a.pkl"] = some (.file (some 5)) ∧
      after [.initSave 0 (some "test".toList) none, .saveObj 0 5 (name "/home/a.pkl")]
        ["home", "me", "asope_data", "test", "home", "a.pkl"] = none) := by
  decide +kernel

/-! ### The hypotheses can be met -/

open FilesDemo in
/-- Saving in a folder with an identifier, another run in between, and loading by the name of the folder. -/
example : let w₂ := world.session coding [.initSave 0 (some "run".toList) (some "20200101_1aB9".toList), .saveObj 0 5 (name "sub/a.pkl")]
    let w₃ := w₂.session coding [.initSave 1 (some "run".toList) (some "20200101_1aB8".toList), .saveObj 1 6 (name "sub/a.pkl")]
    (w₃.exec coding (.initLoad 0 (some "20200101_1aB9_run".toList))).1.loadObj coding 0 (name "sub/a.pkl") = .ok 5 := by
  refine (C77_folder coding faithful world sane 0 (some "run".toList) (some "20200101_1aB9".toList) (some "20200101_1aB9_run".toList) (by decide) 5
    (name "sub/a.pkl") _ _ [.initSave 1 (some "run".toList) (some "20200101_1aB8".toList), .saveObj 1 6 (name "sub/a.pkl")]
    (Prod.ext rfl ?_) (Prod.ext rfl ?_) ⟨id, ?_, trivial⟩).2
  · rfl
  · rfl
  · show ¬ (_ = _)
    decide +kernel

open FilesDemo in
/-- The identifier is needed. -/
example : ∀ o', (world.session coding [.initSave 0 (some "run".toList) (some "20200101_1aB9".toList), .saveObj 0 5 (name "a.pkl")]).loadObj coding 0
    (name "a.pkl") ≠ .ok o' :=
  (C77_identifier_needed coding world sane 0 "run".toList "20200101_1aB9".toList (by unfold PlainName; decide) (by decide) (by decide) 5
    (name "a.pkl") (by decide) rfl (by
      have e : world.disk ((world.ios 0).path ++ (name "a.pkl").toPath.parts) = none := by decide
      intro b hb
      rw [e] at hb
      cases hb) (by decide)).1

/-- Days and draws as they are. -/
example : IsDay "20200101".toList ∧ IsDraw "1aB9".toList ∧ IsDraw "1ab9".toList := by
  unfold IsDay IsDraw
  decide

open FilesDemo in
/-- A run in a new folder. -/
example : ∃ w', (world.session coding [.initSave 0 (some "run".toList) (some "20200101_1aB9".toList)]).script coding (runCmds 0 data) = (w', .ok ()) ∧
    ∀ q b, w'.disk (["home".toList, "me".toList, "asope_data".toList, "20200101_1aB9_run".toList] ++ q) = some (.file b) ↔
      RunFile coding data q b := by
  refine C77_run_new_folder coding _ ((C77_kept coding world sane _).1) 0 data ⟨rfl, rfl, fun o _ => rfl, fun _ pop hpop x hx => ?_,
    fun _ pop hpop x hx => ?_⟩ _ rfl (by decide +kernel) (fun q hq => ?_)
  · simp [RunData.populations, data] at hpop
    rcases hpop with rfl | rfl | rfl <;> simp at hx <;> rcases hx with rfl | rfl <;> rfl
  · simp [RunData.halls, data] at hpop
    rcases hpop with rfl | rfl | rfl <;> simp at hx <;> rcases hx with rfl | rfl <;> rfl
  · have hlen : ∀ p : List FName, 4 < p.length → disk p = none := by
      intro p hp
      have : ¬ p <+: ["home".toList, "me".toList, "asope".toList, "scripts".toList] := fun hc => by
        have := hc.length_le
        simp at this
        omega
      rw [disk, if_neg this]
    have hq' : 0 < q.length := List.length_pos_of_ne_nil hq
    rcases mkdirs_spec sane ["home".toList, "me".toList, "asope_data".toList, "20200101_1aB9_run".toList] with ⟨-, hm⟩ | ⟨⟨q', b, -, hf⟩, -⟩
    · have e : (world.session coding [.initSave 0 (some "run".toList) (some "20200101_1aB9".toList)]).disk =
          disk.withDirs ["home".toList, "me".toList, "asope_data".toList, "20200101_1aB9_run".toList] := by
        have e1 : (world.ios 0).saveDirOf (some "run".toList) (some "20200101_1aB9".toList) =
          ["home".toList, "me".toList, "asope_data".toList, "20200101_1aB9_run".toList] := by decide
        simp only [IoWorld.session, IoWorld.exec, e1]
        rw [show world.disk = disk from rfl, hm]
      rw [e, Disk.withDirs, if_neg]
      · exact hlen _ (by simp; omega)
      · rintro ⟨hc, -⟩
        have := hc.length_le
        rw [List.length_append] at this
        simp only [List.length_cons, List.length_nil] at this
        omega
    · unfold disk at hf
      split_ifs at hf
      cases hf

/-! Cases of the other theorems. -/

open FilesDemo in
example := C77_save_object coding world sane 0 5 (name "sub/a.pkl") _ rfl
open FilesDemo in
example := C77_save_json coding world sane 0 5 (name "a.json") _ rfl
open FilesDemo in
example := C77_load coding (world.session coding [.initSave 0 none none, .saveObj 0 5 (name "a.pkl")]) (C77_kept coding world sane _).1 0 (name "a.pkl")
open FilesDemo in
example : ((world.exec coding (.saveObj 0 5 (name "a.pkl"))).1.session coding [.saveObj 1 6 (name "b.pkl")]).loadObj coding 2 (name "a.pkl") = .ok 5 :=
  (C77_back coding faithful world sane 0 2 (name "a.pkl") (name "a.pkl") [.saveObj 1 6 (name "b.pkl")]).1 5 rfl ⟨by
    show ¬ (_ = _)
    decide +kernel, trivial⟩ (by decide +kernel)
example := C77_ids (Io.init ["home".toList, "me".toList, "asope".toList, "scripts".toList] none) "20200101".toList "20200102".toList "1aB9".toList
  "1ab9".toList "run".toList "test".toList (by unfold IsDay; decide) (by unfold IsDay; decide) (by unfold IsDraw; decide) (by unfold IsDraw; decide)
  (by decide) (by decide)
example := C77_not_unique 234257 (by decide) "20200101".toList (fun _ => "1aB9".toList) (fun _ => by unfold IsDraw; decide)
open FilesDemo in
example := C77_metadata coding world sane 0
open FilesDemo in
example := C77_run_no_folder coding world sane 0 data (by decide)

end Verif
