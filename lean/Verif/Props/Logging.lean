import Verif.Spec.Logging
/-! # What is printed and what is logged (C108) -/

namespace Verif
variable {α : Type} {nl : List α}

/-! ## Writing -/

/-- `t` added to the files of `ch`. -/
def told (t : List α) (ch : List Nat) (l : List (TeeObj α)) : List (TeeObj α) := l.mapIdx (fun k o => if k ∈ ch then { o with logged := o.logged ++ t } else o)

theorem told_get (t : List α) (ch : List Nat) (l : List (TeeObj α)) (k : Nat) :
    (told t ch l)[k]? = (l[k]?).map (fun o => if k ∈ ch then { o with logged := o.logged ++ t } else o) := by
  simp [told, List.getElem?_mapIdx]

theorem told_length (t : List α) (ch : List Nat) (l : List (TeeObj α)) : (told t ch l).length = l.length := by simp [told]

theorem told_told (t u : List α) (ch : List Nat) (l : List (TeeObj α)) : told u ch (told t ch l) = told (t ++ u) ch l := by
  refine List.ext_getElem? (fun k => ?_)
  rw [told_get, told_get, told_get]
  cases l[k]? with
  | none => rfl
  | some o => by_cases hk : k ∈ ch <;> simp [hk]

theorem told_append (t : List α) {ch : List Nat} {l : List (TeeObj α)} (m : List (TeeObj α)) (h : ∀ k ∈ ch, k < l.length) : told t ch (l ++ m) = told t ch l ++ m := by
  refine List.ext_getElem? (fun k => ?_)
  rw [told_get]
  by_cases hk : k < l.length
  · rw [List.getElem?_append_left hk, List.getElem?_append_left (by rw [told_length]; exact hk), told_get]
  · have hm : k ∉ ch := fun hc => hk (h k hc)
    rw [List.getElem?_append_right (by omega), List.getElem?_append_right (by rw [told_length]; omega), told_length]
    simp [hm]

theorem told_last (t : List α) {ch : List Nat} {l : List (TeeObj α)} (o : TeeObj α) :
    told t (l.length :: ch) (l ++ [o]) = told t ch l ++ [{ o with logged := o.logged ++ t }] := by
  refine List.ext_getElem? (fun k => ?_)
  rw [told_get]
  by_cases hk : k < l.length
  · rw [List.getElem?_append_left hk, List.getElem?_append_left (by rw [told_length]; exact hk), told_get]
    have : k ≠ l.length := by omega
    simp [this]
  · rw [List.getElem?_append_right (by omega), List.getElem?_append_right (by rw [told_length]; omega), told_length]
    by_cases hk' : k = l.length
    · subst hk'; simp
    · have : k - l.length = (k - l.length - 1) + 1 := by omega
      rw [this]; simp

/-- The world after `t` was written to the screen and the files of `ch`. -/
def wrote (t : List α) (ch : List Nat) (w : LogWorld α) : LogWorld α := { w with screen := w.screen ++ t, tees := told t ch w.tees }

theorem wrote_get (t : List α) (ch : List Nat) (w : LogWorld α) (k : Nat) :
    (wrote t ch w).tees[k]? = (w.tees[k]?).map (fun o => if k ∈ ch then { o with logged := o.logged ++ t } else o) := told_get t ch w.tees k

theorem logWorld_ext {w v : LogWorld α} (h1 : w.stdout = v.stdout) (h2 : w.screen = v.screen) (h3 : ∀ k : Nat, w.tees[k]? = v.tees[k]?) (h4 : w.held = v.held) : w = v := by
  obtain ⟨a, b, c, d⟩ := w
  obtain ⟨a', b', c', d'⟩ := v
  simp only at h1 h2 h3 h4
  subst h1; subst h2; subst h4
  rw [List.ext_getElem? h3]

theorem write_open (t : List α) (ch : List Nat) (w : LogWorld α) (hn : ch.Nodup) (ho : ∀ k ∈ ch, ∃ o, w.tees[k]? = some o ∧ o.isOpen = true) :
    LogWorld.write t ch w = (wrote t ch w, .ok ()) := by
  induction ch with
  | nil =>
    refine Prod.ext (logWorld_ext rfl rfl (fun k => ?_) rfl) rfl
    rw [wrote_get]
    simp [LogWorld.write]
  | cons k ks ih =>
    have hk := List.nodup_cons.1 hn
    rw [LogWorld.write, ih hk.2 (fun j hj => ho j (List.mem_cons_of_mem _ hj))]
    obtain ⟨o, e, hop⟩ := ho k List.mem_cons_self
    have e1 : (wrote t ks w).tees[k]? = some o := by rw [wrote_get, e]; simp [hk.1]
    simp only [e1, hop, if_true]
    refine Prod.ext (logWorld_ext rfl rfl (fun j => ?_) rfl) rfl
    show ((wrote t ks w).tees.modify k _)[j]? = _
    rw [List.getElem?_modify, wrote_get, wrote_get]
    by_cases hj : k = j
    · subst hj
      rw [e]; simp [hk.1]
    · cases hw : w.tees[j]? with
      | none => rfl
      | some o' =>
        have : j ≠ k := fun h => hj h.symm
        simp [this, hj]

theorem write_screen (t : List α) (ch : List Nat) (w : LogWorld α) :
    (LogWorld.write t ch w).1.screen = w.screen ++ t ∧ (LogWorld.write t ch w).1.stdout = w.stdout := by
  induction ch with
  | nil => exact ⟨rfl, rfl⟩
  | cons k ks ih =>
    rw [LogWorld.write]
    split
    · next w1 e h => rw [h] at ih; exact ih
    · next w1 u h =>
      rw [h] at ih
      split
      · exact ih
      · split <;> exact ih

/-! ## What is printed -/

/-- Logging never keeps anything from the screen: whatever statements are run, all that those which succeed print reaches the screen, in order and once; if one raises, all before it has,
and so has its own text (at most the end of the line is missing). -/
theorem C108_screen (ops : List (LogOp α)) (w : LogWorld α) :
    ((w.run nl ops).2 = .ok () → (w.run nl ops).1.screen = w.screen ++ ops.flatMap (LogOp.text nl)) ∧
    (∀ e, (w.run nl ops).2 = .error e → ∃ before op after, ops = before ++ op :: after ∧ ∃ part, (w.run nl ops).1.screen = w.screen ++ before.flatMap (LogOp.text nl) ++ part ∧
      (((∃ io, op = .stop io) ∨ op = .fail e) ∧ part = [] ∨ ∃ t, op = .say t ∧ (part = t ∨ part = t ++ nl))) := by
  induction ops generalizing w with
  | nil => exact ⟨fun _ => by simp [LogWorld.run], fun e h => by simp [LogWorld.run] at h⟩
  | cons o ops ih =>
    have hs : ((w.step nl o).2 = .ok () → (w.step nl o).1.screen = w.screen ++ o.text nl) ∧
        (∀ e, (w.step nl o).2 = .error e → ∃ part, (w.step nl o).1.screen = w.screen ++ part ∧
          (((∃ io, o = .stop io) ∨ o = .fail e) ∧ part = [] ∨ ∃ t, o = .say t ∧ (part = t ∨ part = t ++ nl))) := by
      cases o with
      | say t =>
        show ((w.print nl t).2 = _ → (w.print nl t).1.screen = _) ∧ (∀ e, (w.print nl t).2 = _ → ∃ part, (w.print nl t).1.screen = _ ∧ _)
        unfold LogWorld.print
        have h1 := write_screen t w.stdout w
        split
        · next w1 e h =>
          rw [h] at h1
          exact ⟨fun hh => by simp at hh, fun e' _ => ⟨t, h1.1, Or.inr ⟨t, rfl, Or.inl rfl⟩⟩⟩
        · next w1 u h =>
          rw [h] at h1
          have h2 := (write_screen nl w1.stdout w1).1
          have h3 : (LogWorld.write nl w1.stdout w1).1.screen = w.screen ++ (t ++ nl) := by rw [h2, h1.1, List.append_assoc]
          exact ⟨fun _ => h3, fun e' _ => ⟨t ++ nl, h3, Or.inr ⟨t, rfl, Or.inr rfl⟩⟩⟩
      | flush =>
        refine ⟨fun _ => ?_, fun e h => by simp [LogWorld.step] at h⟩
        show (w.flush).screen = w.screen ++ []
        rw [List.append_nil]
        unfold LogWorld.flush
        split <;> rfl
      | start io p =>
        refine ⟨fun _ => ?_, fun e h => by simp [LogWorld.step] at h⟩
        show w.screen = w.screen ++ []
        rw [List.append_nil]
      | stop io =>
        have : (w.stop io).1.screen = w.screen := by
          unfold LogWorld.stop
          split
          · rfl
          · split <;> rfl
        exact ⟨fun _ => by show (w.stop io).1.screen = w.screen ++ []; rw [this, List.append_nil],
          fun e _ => ⟨[], by show (w.stop io).1.screen = w.screen ++ []; rw [this, List.append_nil], Or.inl ⟨Or.inl ⟨io, rfl⟩, rfl⟩⟩⟩
      | fail e => exact ⟨fun h => by simp [LogWorld.step] at h, fun e' h => ⟨[], by simp [LogWorld.step], Or.inl ⟨Or.inr (by simp only [LogWorld.step, Except.error.injEq] at h; rw [h]), rfl⟩⟩⟩
    rw [LogWorld.run]
    split
    · next w1 e h =>
      rw [h] at hs
      refine ⟨fun hh => by simp at hh, fun e' he => ?_⟩
      obtain ⟨part, a, b⟩ := hs.2 e' he
      exact ⟨[], o, ops, rfl, part, by simpa using a, b⟩
    · next w1 u h =>
      rw [h] at hs
      have hw := hs.1 rfl
      obtain ⟨i1, i2⟩ := ih w1
      simp only at hw
      refine ⟨fun hh => by rw [i1 hh, hw, List.flatMap_cons, List.append_assoc], fun e he => ?_⟩
      obtain ⟨before, op, after, e1, part, e2, e3⟩ := i2 e he
      exact ⟨o :: before, op, after, by rw [e1]; rfl, part, by rw [e2, hw, List.flatMap_cons, List.append_assoc, List.append_assoc, List.append_assoc, List.append_assoc], e3⟩

/-! ## Well nested logging -/

theorem log_run_append (a b : List (LogOp α)) (w : LogWorld α) : w.run nl (a ++ b) =
    match w.run nl a with
    | (w1, .error e) => (w1, .error e)
    | (w1, .ok _) => w1.run nl b := by
  induction a generalizing w with
  | nil => rfl
  | cons o a ih =>
    rw [List.cons_append, LogWorld.run, LogWorld.run]
    cases h : w.step nl o with
    | mk w1 r =>
      cases r with
      | error e => rfl
      | ok u => exact ih w1

theorem modify_mid (a : List (TeeObj α)) (x : TeeObj α) (b : List (TeeObj α)) (f : TeeObj α → TeeObj α) {n : Nat} (hn : a.length = n) :
    (a ++ x :: b).modify n f = a ++ f x :: b := by
  subst hn
  induction a with
  | nil => rfl
  | cons y a ih => simpa using ih

theorem LogWorld.Open.lt {w : LogWorld α} (hw : w.Open) : ∀ k ∈ w.stdout, k < w.tees.length := fun k hk => by
  obtain ⟨o, e, -⟩ := hw.isOpen k hk
  exact (List.getElem?_eq_some_iff.1 e).1

theorem prog_run (P : LogProg α) (hP : P.Sound) (w : LogWorld α) (hw : w.Open) :
    ∃ w' new, w.run nl P.ops = (w', .ok ()) ∧ w'.stdout = w.stdout ∧ w'.screen = w.screen ++ P.text nl ∧
      w'.tees = told (P.text nl) w.stdout w.tees ++ new ∧
      new.map (fun o => (o.path, o.logged)) = P.logs nl ∧ (∀ o ∈ new, o.isOpen = false) ∧ (∀ j, j ∉ P.objs → w'.held j = w.held j) := by
  induction P generalizing w with
  | say t =>
    have h1 : w.print nl t = (wrote nl w.stdout (wrote t w.stdout w), .ok ()) := by
      unfold LogWorld.print
      rw [write_open t w.stdout w hw.nodup hw.isOpen]
      refine write_open nl w.stdout _ hw.nodup (fun k hk => ?_)
      obtain ⟨o, e, ho⟩ := hw.isOpen k hk
      exact ⟨_, by rw [wrote_get, e]; rfl, by simp [hk, ho]⟩
    refine ⟨wrote nl w.stdout (wrote t w.stdout w), [], ?_, rfl, ?_, ?_, rfl, by simp, fun _ _ => rfl⟩
    · show w.run nl [.say t] = _
      simp only [LogWorld.run, LogWorld.step, h1]
    · simp [wrote, LogProg.text]
    · rw [List.append_nil]
      exact told_told t nl w.stdout w.tees
  | seq a b iha ihb =>
    obtain ⟨w1, new1, r1, s1, c1, t1, n1, l1, h1⟩ := iha hP.1 w hw
    have hw1 : w1.Open := by
      refine ⟨by rw [s1]; exact hw.nodup, fun k hk => ?_⟩
      rw [s1] at hk
      obtain ⟨o, e, ho⟩ := hw.isOpen k hk
      refine ⟨_, by rw [t1, List.getElem?_append_left (by rw [told_length]; exact hw.lt k hk), told_get, e]; rfl, by simp [hk, ho]⟩
    obtain ⟨w2, new2, r2, s2, c2, t2, n2, l2, h2⟩ := ihb hP.2 w1 hw1
    refine ⟨w2, new1 ++ new2, ?_, s2.trans s1, ?_, ?_, ?_, ?_, fun j hj => ?_⟩
    · show w.run nl (a.ops ++ b.ops) = _
      rw [log_run_append, r1]; exact r2
    · rw [c2, c1, LogProg.text, List.append_assoc]
    · rw [t2, t1, s1, told_append _ _ (by rw [told_length]; exact hw.lt), told_told, List.append_assoc]; rfl
    · rw [List.map_append, n1, n2]; rfl
    · intro o ho
      rcases List.mem_append.1 ho with h | h
      · exact l1 o h
      · exact l2 o h
    · simp only [LogProg.objs, List.mem_append, not_or] at hj
      rw [h2 j hj.2, h1 j hj.1]
  | logged io p body ih =>
    have hw1 : (w.start io p).Open := by
      refine ⟨List.nodup_cons.2 ⟨fun h => Nat.lt_irrefl _ (hw.lt _ h), hw.nodup⟩, fun k hk => ?_⟩
      show ∃ o, (w.tees ++ [(⟨w.stdout, p, [], true⟩ : TeeObj α)])[k]? = some o ∧ o.isOpen = true
      rcases List.mem_cons.1 hk with rfl | hk
      · exact ⟨⟨w.stdout, p, [], true⟩, by simp, rfl⟩
      · obtain ⟨o, e, ho⟩ := hw.isOpen k hk
        exact ⟨o, by rw [List.getElem?_append_left (hw.lt k hk), e], ho⟩
    obtain ⟨w2, new, r2, s2, c2, t2, n2, l2, h2⟩ := ih hP.2 (w.start io p) hw1
    have hheld : w2.held io = some w.tees.length := by
      rw [h2 io hP.1]; simp [LogWorld.start]
    have t3 : w2.tees = told (body.text nl) w.stdout w.tees ++ (⟨w.stdout, p, body.text nl, true⟩ :: new) := by
      rw [t2]
      show told _ (w.tees.length :: w.stdout) (w.tees ++ [_]) ++ new = _
      rw [told_last]
      simp
    have hget : w2.tees[w.tees.length]? = some ⟨w.stdout, p, body.text nl, true⟩ := by
      rw [t3, List.getElem?_append_right (Nat.le_of_eq (told_length _ _ _)), told_length]
      simp
    have hmod : w2.tees.modify w.tees.length (fun o => { o with isOpen := false }) =
        told (body.text nl) w.stdout w.tees ++ (⟨w.stdout, p, body.text nl, false⟩ :: new) := by
      rw [t3]
      exact modify_mid _ _ _ _ (told_length _ _ _)
    refine ⟨{ w2 with stdout := w.stdout }.onTee w.tees.length (fun o => { o with isOpen := false }), ⟨w.stdout, p, body.text nl, false⟩ :: new, ?_, rfl, c2, hmod, ?_, ?_, ?_⟩
    · show w.run nl (.start io p :: (body.ops ++ [.stop io])) = _
      rw [LogWorld.run]
      show (w.start io p).run nl (body.ops ++ [.stop io]) = _
      rw [log_run_append, r2]
      show w2.run nl [.stop io] = _
      have : w2.stop io = ({ w2 with stdout := w.stdout }.onTee w.tees.length (fun o => { o with isOpen := false }), .ok ()) := by
        unfold LogWorld.stop
        simp only [hheld, hget]
      simp only [LogWorld.run, LogWorld.step, this]
    · rw [List.map_cons, n2]; rfl
    · intro o ho
      rcases List.mem_cons.1 ho with rfl | ho
      · rfl
      · exact l2 o ho
    · intro j hj
      simp only [LogProg.objs, List.mem_cons, not_or] at hj
      show w2.held j = w.held j
      rw [h2 j hj.2]
      simp [LogWorld.start, hj.1]

/-- Programs in which every `init_logging` has its `close_logging`, and no object logs twice at a time, run without an exception and leave `sys.stdout` as it was.  The screen and
every file that was open receive all that is printed, other old files nothing; each new file holds exactly what was printed while it was open (also by parts that are
logged elsewhere in addition), and is closed in the end. -/
theorem C108_nested (P : LogProg α) (hP : P.Sound) (w : LogWorld α) (hw : w.Open) :
    ∃ w', w.run nl P.ops = (w', .ok ()) ∧ w'.stdout = w.stdout ∧ w'.screen = w.screen ++ P.text nl ∧
      (∀ k ∈ w.stdout, w.Received w' k (P.text nl)) ∧ (∀ k, k < w.tees.length → k ∉ w.stdout → w'.tees[k]? = w.tees[k]?) ∧
      (w'.tees.drop w.tees.length).map (fun o => (o.path, o.logged)) = P.logs nl ∧ (∀ o ∈ w'.tees.drop w.tees.length, o.isOpen = false) ∧ w'.Open := by
  obtain ⟨w', new, r, h1, h2, h3, h4, h5, -⟩ := prog_run (nl := nl) P hP w hw
  have hd : w'.tees.drop w.tees.length = new := by
    rw [h3, List.drop_append, List.drop_eq_nil_of_le (Nat.le_of_eq (told_length _ _ _)), told_length]
    simp
  have hg : ∀ k, k < w.tees.length → w'.tees[k]? = (w.tees[k]?).map (fun o => if k ∈ w.stdout then { o with logged := o.logged ++ P.text nl } else o) := by
    intro k hk
    rw [h3, List.getElem?_append_left (by rw [told_length]; exact hk), told_get]
  have hrec : ∀ k ∈ w.stdout, ∃ o, w.tees[k]? = some o ∧ w'.tees[k]? = some { o with logged := o.logged ++ P.text nl } ∧ o.isOpen = true := by
    intro k hk
    obtain ⟨o, e, ho⟩ := hw.isOpen k hk
    exact ⟨o, e, by rw [hg k (hw.lt k hk), e]; simp [hk], ho⟩
  refine ⟨w', r, h1, h2, fun k hk => ?_, fun k hk hn => ?_, by rw [hd, h4], by rw [hd]; exact h5, by rw [h1]; exact hw.nodup, fun k hk => ?_⟩
  · obtain ⟨o, e, e', -⟩ := hrec k hk
    exact ⟨o, _, e, e', rfl, rfl, rfl⟩
  · rw [hg k hk]
    simp [hn]
  · rw [h1] at hk
    obtain ⟨o, e, e', ho⟩ := hrec k hk
    exact ⟨_, e', ho⟩

theorem new_open : (LogWorld.new α).Open := ⟨List.nodup_nil, by simp [LogWorld.new]⟩

/-- So, starting with nothing logged, a file holds in the end what was printed while it was open the last time; what was logged to the same file before is gone (finding: a second
run with the same `InputOutput` erases the log of the first). -/
theorem C108_files (P : LogProg α) (hP : P.Sound) (path : Nat) :
    ((LogWorld.new α).run nl P.ops).1.content path = (((P.logs nl).filter (fun l => l.1 = path)).getLast?).map (·.2) := by
  obtain ⟨w', r, -, -, -, -, h4, -⟩ := C108_nested (nl := nl) P hP (LogWorld.new α) new_open
  rw [r]
  have e : w'.tees.map (fun o => (o.path, o.logged)) = P.logs nl := by simpa [LogWorld.new] using h4
  rw [← e, List.filter_map, List.getLast?_map]
  unfold LogWorld.content
  cases h : (w'.tees.filter (fun o => o.path = path)).getLast? <;> simp [Function.comp_def, h]

/-! ## What goes wrong -/

theorem write_closed (t : List α) (k : Nat) (ks : List Nat) (w : LogWorld α) (hn : ks.Nodup) (hk : k ∉ ks) (ho : ∀ j ∈ ks, ∃ o, w.tees[j]? = some o ∧ o.isOpen = true)
    {o : TeeObj α} (hc : w.tees[k]? = some o) (hcl : o.isOpen = false) : LogWorld.write t (k :: ks) w = (wrote t ks w, .error .valueError) := by
  rw [LogWorld.write, write_open t ks w hn ho]
  have e1 : (wrote t ks w).tees[k]? = some o := by rw [wrote_get, hc]; simp [hk]
  simp only [e1, hcl]
  rfl

/-- Finding: flushing `sys.stdout` while something is logged (`print(..., flush=True)` does it) closes the log.  The next `print` raises `ValueError`, after its text has reached the screen
and the other logs; the log itself gets nothing any more. -/
theorem C108_flush (w : LogWorld α) (hw : w.Open) {k : Nat} {ks : List Nat} (hs : w.stdout = k :: ks) (t : List α) (rest : List (LogOp α)) :
    ∃ w', w.run nl (.flush :: .say t :: rest) = (w', .error .valueError) ∧ w'.screen = w.screen ++ t ∧ (∀ j ∈ ks, w.Received w' j t) ∧
      (w'.tees[k]?).map (·.logged) = (w.tees[k]?).map (·.logged) := by
  have hn := hw.nodup
  rw [hs] at hn
  obtain ⟨hk, hks⟩ := List.nodup_cons.1 hn
  obtain ⟨o, e, -⟩ := hw.isOpen k (by rw [hs]; exact List.mem_cons_self)
  have ef : w.flush = w.onTee k (fun o => { o with isOpen := false }) := by
    unfold LogWorld.flush; rw [hs]
  have eg : ∀ j, (w.onTee k (fun o => { o with isOpen := false })).tees[j]? = (w.tees[j]?).map (fun o => if j = k then { o with isOpen := false } else o) := by
    intro j
    show (w.tees.modify k _)[j]? = _
    rw [List.getElem?_modify]
    by_cases hj : k = j
    · subst hj; simp
    · have : j ≠ k := fun h => hj h.symm
      cases w.tees[j]? <;> simp [hj, this]
  have hne : ∀ j ∈ ks, j ≠ k := fun j hj h => hk (h ▸ hj)
  have hwr : LogWorld.write t (k :: ks) (w.onTee k (fun o => { o with isOpen := false })) = (wrote t ks (w.onTee k (fun o => { o with isOpen := false })), .error .valueError) :=
    write_closed (o := { o with isOpen := false }) t k ks _ hks hk (fun j hj => by
      obtain ⟨o', e', ho'⟩ := hw.isOpen j (by rw [hs]; exact List.mem_cons_of_mem _ hj)
      exact ⟨o', by rw [eg, e']; simp [hne j hj], ho'⟩) (by rw [eg, e]; simp) rfl
  refine ⟨wrote t ks (w.onTee k (fun o => { o with isOpen := false })), ?_, rfl, fun j hj => ?_, ?_⟩
  · have hp : (w.onTee k (fun o => { o with isOpen := false })).print nl t = (wrote t ks (w.onTee k (fun o => { o with isOpen := false })), .error .valueError) := by
      unfold LogWorld.print
      have : (w.onTee k (fun o => { o with isOpen := false })).stdout = k :: ks := hs
      rw [this, hwr]
    simp only [LogWorld.run, LogWorld.step, ef, hp]
  · obtain ⟨o', e', ho'⟩ := hw.isOpen j (by rw [hs]; exact List.mem_cons_of_mem _ hj)
    exact ⟨o', { o' with logged := o'.logged ++ t }, e', by rw [wrote_get, eg, e']; simp [hj, hne j hj], rfl, rfl, rfl⟩
  · rw [wrote_get, eg, e]
    simp [hk]

theorem start_open {w : LogWorld α} (hw : w.Open) (io p : Nat) : (w.start io p).Open := by
  refine ⟨List.nodup_cons.2 ⟨fun h => Nat.lt_irrefl _ (hw.lt _ h), hw.nodup⟩, fun k hk => ?_⟩
  show ∃ o, (w.tees ++ [(⟨w.stdout, p, [], true⟩ : TeeObj α)])[k]? = some o ∧ o.isOpen = true
  rcases List.mem_cons.1 hk with rfl | hk
  · exact ⟨⟨w.stdout, p, [], true⟩, by simp, rfl⟩
  · obtain ⟨o, e, ho⟩ := hw.isOpen k hk
    exact ⟨o, by rw [List.getElem?_append_left (hw.lt k hk), e], ho⟩

/-- Finding: a program that raises while it logs leaves the logging on.  (`topology_optimization` begins with `init_logging` and calls `close_logging` on its last lines only, without
`try`; an unknown update rule already raises in between.)  Whatever the process prints later, by programs that know nothing of it, is appended to the log of the failed one. -/
theorem C108_failed (io path : Nat) (P Q : LogProg α) (hP : P.Sound) (hQ : Q.Sound) (e : Err) (after : List (LogOp α)) (w : LogWorld α) (hw : w.Open) :
    ∃ w1 w2, w.run nl (.start io path :: (P.ops ++ .fail e :: after)) = (w1, .error e) ∧ w1.stdout = w.tees.length :: w.stdout ∧
      w1.run nl Q.ops = (w2, .ok ()) ∧ w2.stdout = w1.stdout ∧
      ∃ o, w2.tees[w.tees.length]? = some o ∧ o.path = path ∧ o.logged = P.text nl ++ Q.text nl ∧ o.isOpen = true := by
  obtain ⟨w1, r1, s1, -, c1, -, -, -, o1⟩ := C108_nested (nl := nl) P hP _ (start_open hw io path)
  obtain ⟨w2, r2, s2, -, c2, -, -, -, o2⟩ := C108_nested (nl := nl) Q hQ w1 o1
  have hm : w.tees.length ∈ (w.start io path).stdout := List.mem_cons_self
  obtain ⟨a, b, e1, e2, e3, e4, e5⟩ := c1 _ hm
  obtain ⟨b', c, f1, f2, f3, f4, f5⟩ := c2 w.tees.length (by rw [s1]; exact hm)
  have ha : a = ⟨w.stdout, path, [], true⟩ := by
    have : (w.start io path).tees[w.tees.length]? = some ⟨w.stdout, path, [], true⟩ := by
      show (w.tees ++ [(⟨w.stdout, path, [], true⟩ : TeeObj α)])[w.tees.length]? = _
      simp
    rw [this] at e1
    exact (Option.some.inj e1).symm
  rw [e2] at f1
  obtain rfl := Option.some.inj f1
  subst ha
  refine ⟨w1, w2, ?_, s1, r2, s2, c, f2, by rw [f4, e4], by rw [f3, e3]; rfl, by rw [f5, e5]⟩
  rw [LogWorld.run]
  show (w.start io path).run nl (P.ops ++ .fail e :: after) = _
  rw [log_run_append, r1]
  rfl

/-- Finding: an object that begins to log again before it ended the first log never ends it: `close_logging`, however often it is called, puts back the first log. -/
theorem C108_reentered (io p q : Nat) (m : Nat) (w : LogWorld α) (hw : w.Open) :
    ∃ w', w.run nl (.start io p :: .start io q :: List.replicate (m + 1) (.stop io)) = (w', .ok ()) ∧ w'.stdout = w.tees.length :: w.stdout ∧ w'.Open := by
  have hl : ((w.start io p).start io q).tees.length = w.tees.length + 2 := by simp [LogWorld.start]
  have key : ∀ (m : Nat) (v : LogWorld α), v.held io = some (w.tees.length + 1) → (v.tees[w.tees.length + 1]?).map (·.terminal) = some (w.tees.length :: w.stdout) →
      (∀ k, k ≤ w.tees.length → v.tees[k]? = ((w.start io p).tees)[k]?) →
      ∃ w', v.run nl (List.replicate (m + 1) (.stop io)) = (w', .ok ()) ∧ w'.stdout = w.tees.length :: w.stdout ∧
        (∀ k, k ≤ w.tees.length → w'.tees[k]? = ((w.start io p).tees)[k]?) := by
    intro m
    induction m with
    | zero =>
      intro v h1 h2 h3
      obtain ⟨o, e, ho⟩ := Option.map_eq_some_iff.1 h2
      refine ⟨{ v with stdout := o.terminal }.onTee (w.tees.length + 1) (fun o => { o with isOpen := false }), ?_, ho, fun k hk => ?_⟩
      · have : v.stop io = ({ v with stdout := o.terminal }.onTee (w.tees.length + 1) (fun o => { o with isOpen := false }), .ok ()) := by
          unfold LogWorld.stop
          simp only [h1, e]
        simp only [List.replicate, LogWorld.run, LogWorld.step, this]
      · show (v.tees.modify (w.tees.length + 1) _)[k]? = _
        rw [List.getElem?_modify, h3 k hk]
        have : w.tees.length + 1 ≠ k := by omega
        simp [this]
    | succ m ih =>
      intro v h1 h2 h3
      obtain ⟨o, e, ho⟩ := Option.map_eq_some_iff.1 h2
      have hst : v.stop io = ({ v with stdout := o.terminal }.onTee (w.tees.length + 1) (fun o => { o with isOpen := false }), .ok ()) := by
        unfold LogWorld.stop
        simp only [h1, e]
      obtain ⟨w', r, s, t⟩ := ih ({ v with stdout := o.terminal }.onTee (w.tees.length + 1) (fun o => { o with isOpen := false })) h1 (by
          show ((v.tees.modify (w.tees.length + 1) _)[w.tees.length + 1]?).map _ = _
          rw [List.getElem?_modify, e]
          simp [ho]) (fun k hk => by
          show (v.tees.modify (w.tees.length + 1) _)[k]? = _
          rw [List.getElem?_modify, h3 k hk]
          have : w.tees.length + 1 ≠ k := by omega
          simp [this])
      refine ⟨w', ?_, s, t⟩
      have hst' : v.step nl (.stop io) = _ := hst
      rw [List.replicate_succ, LogWorld.run, hst']
      exact r
  obtain ⟨w', r, s, t⟩ := key m ((w.start io p).start io q) (by simp [LogWorld.start]) (by
      show (((w.tees ++ [(⟨w.stdout, p, [], true⟩ : TeeObj α)]) ++ [(⟨w.tees.length :: w.stdout, q, [], true⟩ : TeeObj α)])[w.tees.length + 1]?).map _ = _
      rw [List.getElem?_append_right (by simp)]
      simp) (fun k hk => by
      show ((w.start io p).tees ++ [_])[k]? = _
      rw [List.getElem?_append_left (by simp [LogWorld.start]; omega)])
  have hs := start_open hw io p
  refine ⟨w', r, s, by rw [s]; exact hs.nodup, fun k hk => ?_⟩
  rw [s] at hk
  obtain ⟨o, e, ho⟩ := hs.isOpen k hk
  have : k ≤ w.tees.length := by
    rcases List.mem_cons.1 hk with rfl | hk
    · exact Nat.le_refl _
    · exact Nat.le_of_lt (hw.lt k hk)
  exact ⟨o, by rw [t k this]; exact e, ho⟩

/-- Finding: if two objects log at the same time and the first to begin is the first to end, `sys.stdout` is left with its closed log: the next `print` raises `ValueError`. -/
theorem C108_crossed {a b : Nat} (hab : a ≠ b) (p q : Nat) (t : List α) (w : LogWorld α) (hw : w.Open) :
    ∃ w1 w2, w.run nl [.start a p, .start b q, .stop a, .stop b] = (w1, .ok ()) ∧ w1.stdout = w.tees.length :: w.stdout ∧
      w1.run nl [.say t] = (w2, .error .valueError) ∧ w2.screen = w.screen ++ t := by
  have hs := start_open hw a p
  let v := (w.start a p).start b q
  have hva : v.held a = some w.tees.length := by simp [v, LogWorld.start, hab]
  have hvb : v.held b = some (w.tees.length + 1) := by simp [v, LogWorld.start]
  have hvt : v.tees = w.tees ++ [(⟨w.stdout, p, [], true⟩ : TeeObj α), ⟨w.tees.length :: w.stdout, q, [], true⟩] := by simp [v, LogWorld.start]
  let v1 : LogWorld α := { v with stdout := w.stdout, tees := w.tees ++ [(⟨w.stdout, p, [], false⟩ : TeeObj α), ⟨w.tees.length :: w.stdout, q, [], true⟩] }
  let v2 : LogWorld α := { v with stdout := w.tees.length :: w.stdout, tees := w.tees ++ [(⟨w.stdout, p, [], false⟩ : TeeObj α), ⟨w.tees.length :: w.stdout, q, [], false⟩] }
  have h1 : v.stop a = (v1, .ok ()) := by
    have e : v.tees[w.tees.length]? = some ⟨w.stdout, p, [], true⟩ := by rw [hvt]; simp
    unfold LogWorld.stop
    simp only [hva, e]
    refine Prod.ext (logWorld_ext rfl rfl (fun k => ?_) rfl) rfl
    show (v.tees.modify w.tees.length _)[k]? = _
    rw [hvt, modify_mid _ _ _ _ rfl]
  have h2 : v1.stop b = (v2, .ok ()) := by
    have e : v1.tees[w.tees.length + 1]? = some ⟨w.tees.length :: w.stdout, q, [], true⟩ := by
      show (w.tees ++ [(⟨w.stdout, p, [], false⟩ : TeeObj α), ⟨w.tees.length :: w.stdout, q, [], true⟩])[w.tees.length + 1]? = _
      rw [List.getElem?_append_right (by omega)]
      simp
    have hvb' : v1.held b = some (w.tees.length + 1) := hvb
    unfold LogWorld.stop
    simp only [hvb', e]
    refine Prod.ext (logWorld_ext rfl rfl (fun k => ?_) rfl) rfl
    show ((w.tees ++ [(⟨w.stdout, p, [], false⟩ : TeeObj α), ⟨w.tees.length :: w.stdout, q, [], true⟩]).modify (w.tees.length + 1) _)[k]? = _
    have : w.tees ++ [(⟨w.stdout, p, [], false⟩ : TeeObj α), ⟨w.tees.length :: w.stdout, q, [], true⟩] =
      (w.tees ++ [(⟨w.stdout, p, [], false⟩ : TeeObj α)]) ++ ⟨w.tees.length :: w.stdout, q, [], true⟩ :: [] := by simp
    rw [this, modify_mid _ _ _ _ (by simp)]
    simp [v2]
  have hwr : LogWorld.write t (w.tees.length :: w.stdout) v2 = (wrote t w.stdout v2, .error .valueError) := by
    refine write_closed (o := ⟨w.stdout, p, [], false⟩) t _ _ _ hw.nodup (fun h => Nat.lt_irrefl _ (hw.lt _ h)) (fun j hj => ?_) ?_ rfl
    · obtain ⟨o, e, ho⟩ := hw.isOpen j hj
      exact ⟨o, by show (w.tees ++ [_, _])[j]? = _; rw [List.getElem?_append_left (hw.lt j hj), e], ho⟩
    · show (w.tees ++ [(⟨w.stdout, p, [], false⟩ : TeeObj α), _])[w.tees.length]? = _
      simp
  refine ⟨v2, wrote t w.stdout v2, ?_, rfl, ?_, rfl⟩
  · have e0 : w.step nl (.start a p) = (w.start a p, .ok ()) := rfl
    have e1 : (w.start a p).step nl (.start b q) = (v, .ok ()) := rfl
    have e2 : v.step nl (.stop a) = (v1, .ok ()) := h1
    have e3 : v1.step nl (.stop b) = (v2, .ok ()) := h2
    simp only [LogWorld.run, e0, e1, e2, e3]
  · have hp : v2.print nl t = (wrote t w.stdout v2, .error .valueError) := by
      unfold LogWorld.print
      have : v2.stdout = w.tees.length :: w.stdout := rfl
      rw [this, hwr]
    simp only [LogWorld.run, LogWorld.step, hp]

/-- `close_logging` of an object that never logged raises `AttributeError` and changes nothing. -/
theorem C108_unstarted (io : Nat) (w : LogWorld α) (h : w.held io = none) (rest : List (LogOp α)) : w.run nl (.stop io :: rest) = (w, .error .attributeError) := by
  have : w.stop io = (w, .error .attributeError) := by unfold LogWorld.stop; simp only [h]
  simp only [LogWorld.run, LogWorld.step, this]

/-! ## Cases -/

/-- Two logs, one within the other, with something printed before, between and after. -/
def teeDemo : LogProg Char := .seq (.say ['a']) (.seq (.logged 0 7 (.seq (.say ['b']) (.seq (.logged 1 8 (.say ['c'])) (.say ['d'])))) (.say ['e']))

theorem teeDemo_sound : teeDemo.Sound := by simp [teeDemo, LogProg.Sound, LogProg.objs]

example : teeDemo.logs ['.'] = [(7, ['b', '.', 'c', '.', 'd', '.']), (8, ['c', '.'])] := rfl
example : ((LogWorld.new Char).run ['.'] teeDemo.ops).1.content 7 = some ['b', '.', 'c', '.', 'd', '.'] := C108_files teeDemo teeDemo_sound 7
example := C108_nested (nl := ['.']) teeDemo teeDemo_sound _ (start_open new_open 5 9)
example := C108_flush (nl := ['.']) _ (start_open (start_open new_open 5 9) 6 3) rfl ['x'] []
example := C108_failed (nl := ['.']) 4 2 teeDemo (.say ['z']) teeDemo_sound trivial .notImplemented [.stop 4] _ (start_open new_open 5 9)
example := C108_reentered (nl := ['.']) 4 2 2 3 _ (start_open new_open 5 9)
example := C108_crossed (nl := ['.']) (show (4 : Nat) ≠ 6 by decide) 2 3 ['x'] _ (start_open new_open 5 9)
example := C108_unstarted (nl := ['.']) 4 (LogWorld.new Char) rfl [.say ['x']]
example := (C108_screen (nl := ['.']) teeDemo.ops (LogWorld.new Char)).1 rfl
example := (C108_screen (nl := ['.']) [.start 0 1, .say ['x'], .flush, .say ['y'], .say ['z']] (LogWorld.new Char)).2 .valueError rfl

end Verif
