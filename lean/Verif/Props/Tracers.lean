import Verif.Spec.Tracers
/-!
# C122: no trace of automatic differentiation stays in a design
-/

namespace Verif

theorem Num.unwrap_traced : ∀ (k : Nat) (v : Num), (Num.traced k v).unwrap = v.unwrap
  | 0, _ => rfl
  | k + 1, v => Num.unwrap_traced k v

theorem Num.depth_traced : ∀ (k : Nat) (v : Num), (Num.traced k v).depth = v.depth + k
  | 0, _ => rfl
  | k + 1, v => by rw [Num.traced, Num.depth, Num.depth_traced k v, Nat.add_assoc]

/-! ### Reading and writing -/

theorem freeSlots_congr {h h' : THeap} (hl : ∀ m, (h' m).locks = (h m).locks ∧ (h' m).nodeLock = (h m).nodeLock) :
    ∀ ms, freeSlots h' ms = freeSlots h ms
  | [] => rfl
  | m :: ms => by rw [freeSlots, freeSlots, (hl m).1, (hl m).2, freeSlots_congr hl ms]

theorem freeSlots_mem {h : THeap} {s : ModelId × Nat} : ∀ {ms}, s ∈ freeSlots h ms → s.1 ∈ ms
  | [], hs => by cases hs
  | m :: ms, hs => by
    rw [freeSlots, List.mem_append] at hs
    rcases hs with hs | hs
    · split at hs
      · cases hs
      · obtain ⟨p, _, rfl⟩ := List.mem_map.1 hs
        exact List.mem_cons_self
    · exact List.mem_cons_of_mem _ (freeSlots_mem hs)

theorem zipIdx_filter_nodup (l : List Bool) (m : ModelId) : ((l.zipIdx.filter (fun p => !p.1)).map (fun p => (m, p.2))).Nodup := by
  have h1 : (l.zipIdx.map Prod.snd).Nodup := by rw [List.zipIdx_map_snd]; exact List.nodup_range'
  have h2 : ((l.zipIdx.filter (fun p => !p.1)).map Prod.snd).Nodup := h1.sublist (List.filter_sublist.map _)
  have h3 : (l.zipIdx.filter (fun p => !p.1)).map (fun p => (m, p.2)) = ((l.zipIdx.filter (fun p => !p.1)).map Prod.snd).map (fun i => (m, i)) := by
    rw [List.map_map]; rfl
  rw [h3]
  exact List.Pairwise.map _ (fun a b hab h => hab (Prod.mk.inj h).2) h2

/-- **C122.** The free parameters are those a component that is not locked leaves unlocked. -/
theorem C122_free {h : THeap} {m : ModelId} {i : Nat} : ∀ {ms : List ModelId}, (m, i) ∈ freeSlots h ms ↔ m ∈ ms ∧ (h m).nodeLock = false ∧ (h m).locks[i]? = some false
  | [] => by simp [freeSlots]
  | a :: ms => by
    rw [freeSlots, List.mem_append, C122_free, List.mem_cons]
    constructor
    · rintro (hs | ⟨h1, h2⟩)
      · split at hs
        · cases hs
        · rename_i hl
          obtain ⟨⟨b, j⟩, hp, he⟩ := List.mem_map.1 hs
          obtain ⟨hp, hb⟩ := List.mem_filter.1 hp
          injection he with e1 e2
          subst e1
          simp only at e2
          subst e2
          have := List.mem_zipIdx_iff_getElem?.1 hp
          cases b with
          | true => simp at hb
          | false => exact ⟨.inl rfl, by simpa using hl, this⟩
      · exact ⟨.inr h1, h2⟩
    · rintro ⟨rfl | h1, h2, h3⟩
      · left
        rw [h2]
        simp only [Bool.false_eq_true, if_false]
        exact List.mem_map.2 ⟨(false, i), List.mem_filter.2 ⟨List.mem_zipIdx_iff_getElem?.2 h3, rfl⟩, rfl⟩
      · exact .inr ⟨h1, h2, h3⟩

theorem freeSlots_nodup {h : THeap} : ∀ {ms : List ModelId}, ms.Nodup → (freeSlots h ms).Nodup
  | [], _ => List.nodup_nil
  | m :: ms, hn => by
    obtain ⟨h1, h2⟩ := List.nodup_cons.1 hn
    rw [freeSlots, List.nodup_append]
    refine ⟨?_, freeSlots_nodup h2, ?_⟩
    · split
      · exact List.nodup_nil
      · exact zipIdx_filter_nodup _ _
    · intro a ha b hb hab
      subst hab
      split at ha
      · cases ha
      · obtain ⟨p, _, rfl⟩ := List.mem_map.1 ha
        exact h1 (freeSlots_mem hb)

theorem writeSlots_frame : ∀ {xs ss} {h h' : THeap}, writeSlots h xs ss = .ok h' → ∀ m,
    (h' m).locks = (h m).locks ∧ (h' m).nodeLock = (h m).nodeLock ∧ (h' m).attrs = (h m).attrs ∧ (h' m).memo = (h m).memo ∧
      (h' m).params.length = (h m).params.length ∧ ∀ i, (m, i) ∉ ss → (h' m).params[i]? = (h m).params[i]?
  | [], ss, h, h', he, m => by
    cases ss <;> (simp only [writeSlots] at he; injection he with he; subst he; exact ⟨rfl, rfl, rfl, rfl, rfl, fun _ _ => rfl⟩)
  | x :: xs, [], h, h', he, m => by
    simp only [writeSlots] at he
    injection he with he
    subst he
    exact ⟨rfl, rfl, rfl, rfl, rfl, fun _ _ => rfl⟩
  | x :: xs, (a, j) :: ss, h, h', he, m => by
    rw [writeSlots] at he
    split at he
    · obtain ⟨h1, h2, h3, h4, h5, h6⟩ := writeSlots_frame he m
      by_cases hm : m = a
      · subst hm
        rw [if_pos rfl] at h1 h2 h3 h4 h5
        refine ⟨h1, h2, h3, h4, by rw [h5]; exact List.length_set, fun i hi => ?_⟩
        rw [h6 i (fun hc => hi (List.mem_cons_of_mem _ hc)), if_pos rfl]
        exact List.getElem?_set_ne (fun hij => hi (by rw [hij]; exact List.mem_cons_self))
      · rw [if_neg hm] at h1 h2 h3 h4 h5
        refine ⟨h1, h2, h3, h4, h5, fun i hi => ?_⟩
        rw [h6 i (fun hc => hi (List.mem_cons_of_mem _ hc)), if_neg hm]
    · cases he

theorem writeSlots_written {P : Num → Prop} : ∀ {xs ss} {h h' : THeap}, writeSlots h xs ss = .ok h' → (∀ x ∈ xs, P x) → ss.length ≤ xs.length →
    ∀ m i v, (m, i) ∈ ss → (h' m).params[i]? = some v → P v
  | [], [], _, _, _, _, _, m, i, v, hm, _ => by cases hm
  | [], _ :: _, _, _, _, _, hl, _, _, _, _, _ => absurd hl (by simp)
  | x :: xs, [], _, _, _, _, _, m, i, v, hm, _ => by cases hm
  | x :: xs, (a, j) :: ss, h, h', he, hP, hl, m, i, v, hm, hv => by
    rw [writeSlots] at he
    split at he
    · next hj =>
      by_cases hin : (m, i) ∈ ss
      · exact writeSlots_written he (fun y hy => hP y (List.mem_cons_of_mem _ hy)) (by simpa using hl) m i v hin hv
      · rcases List.mem_cons.1 hm with h0 | h0
        · injection h0 with h1 h2
          subst h1
          subst h2
          rw [(writeSlots_frame he m).2.2.2.2.2 i hin, if_pos rfl] at hv
          rw [show ({ h m with params := (h m).params.set i x } : TComp).params[i]? = some x from List.getElem?_set_self hj] at hv
          injection hv with hv
          subst hv
          exact hP x List.mem_cons_self
        · exact absurd h0 hin
    · cases he

theorem readSlots_congr {h h' : THeap} : ∀ {ss}, (∀ m i, (m, i) ∈ ss → (h' m).params[i]? = (h m).params[i]?) → readSlots h' ss = readSlots h ss
  | [], _ => rfl
  | (m, i) :: ss, hc => by
    rw [readSlots, readSlots, hc m i List.mem_cons_self, readSlots_congr (fun m i hm => hc m i (List.mem_cons_of_mem _ hm))]

/-- What is written is read. -/
theorem readSlots_write : ∀ {xs ss} {h h' : THeap}, writeSlots h xs ss = .ok h' → ss.Nodup → xs.length = ss.length → readSlots h' ss = .ok xs
  | [], [], _, _, _, _, _ => rfl
  | [], _ :: _, _, _, _, _, hl => by simp at hl
  | _ :: _, [], _, _, _, _, hl => by simp at hl
  | x :: xs, (a, j) :: ss, h, h', he, hn, hl => by
    obtain ⟨h1, h2⟩ := List.nodup_cons.1 hn
    rw [writeSlots] at he
    split at he
    · next hj =>
      have hr := readSlots_write he h2 (by simpa using hl)
      have ha : (h' a).params[j]? = some x := by
        rw [(writeSlots_frame he a).2.2.2.2.2 j h1, if_pos rfl]
        exact List.getElem?_set_self hj
      rw [readSlots, ha, hr]
    · cases he

/-! ### Propagation -/

theorem collect_bound {b : Nat} {st : Store Nat} (hst : ∀ k s, st k = some s → s ≤ b) : ∀ {es : List Edge} {ss}, collect st es = .ok ss → ∀ s ∈ ss, s ≤ b
  | [], ss, h => by
    injection h with h
    subst h
    intro s hs
    cases hs
  | e :: es, ss, h => by
    unfold collect at h
    split at h
    · cases h
    · next s0 hs0 =>
      split at h
      · cases h
      · next ss' hss =>
        injection h with h
        subst h
        intro s hs
        rcases List.mem_cons.1 hs with rfl | hs
        · exact hst _ _ hs0
        · exact collect_bound hst hss s hs

theorem put_bound {b : Nat} {st : Store Nat} (hst : ∀ k s, st k = some s → s ≤ b) {k0 : Key} {s0 : Nat} (hs0 : s0 ≤ b) :
    ∀ k s, (st.put k0 s0) k = some s → s ≤ b := by
  intro k s hk
  unfold Store.put at hk
  split at hk
  · injection hk with hk
    omega
  · exact hst k s hk

theorem outLoop_bound {b : Nat} {B : Behav Nat} {states : List Nat} (hs : ∀ s ∈ states, s ≤ b) :
    ∀ {es : List Edge} {i : Nat} {st st' : Store Nat}, (∀ e ∈ es, ∀ s s', s ≤ b → throughEdge B e s = .ok s' → s' ≤ b) → (∀ k s, st k = some s → s ≤ b) →
      outLoop B states i es st = .ok st' → ∀ k s, st' k = some s → s ≤ b
  | [], i, st, st', _, hst, h => by
    injection h with h
    subst h
    exact hst
  | e :: es, i, st, st', hB, hst, h => by
    unfold outLoop at h
    split at h
    · cases h
    · next s0 hs0 =>
      split at h
      · cases h
      · next s1 hs1 => exact outLoop_bound hs (fun e he => hB e (List.mem_cons_of_mem _ he)) (put_bound hst (hB e List.mem_cons_self s0 s1 (hs s0 (List.mem_of_getElem? hs0)) hs1)) h

theorem throughEdge_bound {R : Spread} (hR : R.Lawful) {b : Nat} {h : THeap} {e : Edge} (hp : ∀ v ∈ (h e.comp.uid).params, v.depth ≤ b) {s s' : Nat} (hs : s ≤ b)
    (he : throughEdge (R.behav h) e s = .ok s') : s' ≤ b := by
  have hd : ∀ p ∈ (h e.comp.uid).params.map Num.depth, p ≤ b := by
    intro p hpm
    obtain ⟨v, hv, rfl⟩ := List.mem_map.1 hpm
    exact hp v hv
  unfold throughEdge at he
  split at he
  · cases he
  · next s1 hs1 =>
    have h1 : s1 ≤ b := hR.edge b _ _ _ _ hd hs hs1
    cases hno : R.noise e.comp.uid with
    | none =>
      have : (R.behav h).noise e.comp = none := by
        show (R.noise e.comp.uid).map _ = none
        rw [hno]
        rfl
      rw [this] at he
      injection he with he
      omega
    | some f =>
      have : (R.behav h).noise e.comp = some (fun s => f ((h e.comp.uid).params.map Num.depth) s) := by
        show (R.noise e.comp.uid).map _ = _
        rw [hno]
        rfl
      rw [this] at he
      exact hR.noise b _ f _ _ _ hno hd h1 he

theorem propNode_bound {R : Spread} (hR : R.Lawful) {b : Nat} {g : Graph} {h : THeap} (hp : ∀ m ∈ getModels g, ∀ v ∈ (h m).params, v.depth ≤ b) {v : NodeId}
    {st st' : Store Nat} (hst : ∀ k s, st k = some s → s ≤ b) (he : propNode g (R.behav h) 0 v st = .ok st') : ∀ k s, st' k = some s → s ≤ b := by
  have hedge : ∀ e ∈ g.outEdges v, ∀ s s', s ≤ b → throughEdge (R.behav h) e s = .ok s' → s' ≤ b := by
    intro e hem s s' hs hes
    have hme : e ∈ g.edges := (List.mem_filter.1 hem).1
    refine throughEdge_bound hR (hp _ ?_) hs hes
    unfold getModels
    exact List.mem_append_right _ (List.mem_map.2 ⟨e, hme, rfl⟩)
  unfold propNode at he
  split at he
  · cases he
  · next ins hins =>
    have hi : ∀ s ∈ ins, s ≤ b := by
      split at hins
      · injection hins with hins
        subst hins
        intro s hs
        rw [List.mem_singleton.1 hs]
        exact Nat.zero_le _
      · exact collect_bound hst hins
    split at he
    · cases he
    · next nd hnd =>
      have hmem : nd.comp.uid ∈ getModels g := by
        unfold getModels
        exact List.mem_append_left _ (List.mem_map.2 ⟨nd, List.mem_of_find?_eq_some hnd, rfl⟩)
      split at he
      · cases he
      · next outs houts =>
        have ho : ∀ s ∈ outs, s ≤ b := by
          refine hR.node b _ _ _ _ _ _ ?_ hi houts
          intro p hpm
          obtain ⟨w, hw, rfl⟩ := List.mem_map.1 hpm
          exact hp _ hmem w hw
        split at he
        · split at he
          · cases he
          · next s0 hs0 => exact outLoop_bound ho hedge (put_bound hst (ho s0 (List.mem_of_getElem? hs0))) he
        · exact outLoop_bound ho hedge hst he

theorem propLoop_bound {R : Spread} (hR : R.Lawful) {b : Nat} {g : Graph} {h : THeap} (hp : ∀ m ∈ getModels g, ∀ v ∈ (h m).params, v.depth ≤ b) :
    ∀ {vs : List NodeId} {st st' : Store Nat}, (∀ k s, st k = some s → s ≤ b) → propLoop g (R.behav h) 0 vs st = .ok st' → ∀ k s, st' k = some s → s ≤ b
  | [], st, st', hst, he => by
    injection he with he
    subst he
    exact hst
  | v :: vs, st, st', hst, he => by
    unfold propLoop at he
    split at he
    · cases he
    · next st1 h1 => exact propLoop_bound hR hp (propNode_bound hR hp hst h1) he

/-- Of signals that are made of parameters of at most `b` layers none has more. -/
theorem propagate_bound {R : Spread} (hR : R.Lawful) {b : Nat} {g : Graph} {h : THeap} (hp : ∀ m ∈ getModels g, ∀ v ∈ (h m).params, v.depth ≤ b) {old st : Store Nat}
    (he : propagate g (R.behav h) 0 old = .ok st) : ∀ k s, st k = some s → s ≤ b := by
  unfold propagate at he
  split at he
  · cases he
  · exact propLoop_bound hR hp (fun k s hk => by cases hk) he

/-! ### Calls -/

theorem call_ok {R : Spread} {k : Nat} {x : List Num} {d d' : TDesign} {s : Nat} (hc : d.call R k x = (d', .ok s)) :
    ∃ ps h st s0, d.places = some ps ∧ writeSlots d.heap (x.map (Num.traced k)) ps = .ok h ∧ propagate d.graph (R.behav h) 0 d.saves = .ok st ∧ R.score st = .ok s0 ∧ s = s0 - k ∧
      d' = { d with
        heap := fun m => if m ∈ getModels d.graph then { h m with attrs := (h m).params, memo := R.keep m ((h m).params.map Num.depth) st } else h m
        saves := st } := by
  unfold TDesign.call at hc
  split at hc
  · cases hc
  · next ps hps =>
    split at hc
    · cases hc
    · next h hh =>
      split at hc
      · cases hc
      · next st hst =>
        dsimp only at hc
        split at hc
        · cases hc
        · next s0 hs0 =>
          injection hc with h1 h2
          injection h2 with h2
          exact ⟨ps, h, st, s0, hps, hh, hst, hs0, h2.symm, h1.symm⟩

/-- What calls leave as it is. -/
structure TKept (d d' : TDesign) : Prop where
  graph : d'.graph = d.graph
  places : d'.places = d.places
  locks : ∀ m, (d'.heap m).locks = (d.heap m).locks ∧ (d'.heap m).nodeLock = (d.heap m).nodeLock
  length : ∀ m, (d'.heap m).params.length = (d.heap m).params.length
  others : ∀ ps, d.places = some ps → ∀ m i, (m, i) ∉ ps → (d'.heap m).params[i]? = (d.heap m).params[i]?
  matrix : d'.matrix = d.matrix

theorem TKept.trans {a b c : TDesign} (h1 : TKept a b) (h2 : TKept b c) : TKept a c where
  graph := h2.graph.trans h1.graph
  places := h2.places.trans h1.places
  locks m := ⟨(h2.locks m).1.trans (h1.locks m).1, (h2.locks m).2.trans (h1.locks m).2⟩
  length m := (h2.length m).trans (h1.length m)
  others ps hps m i hi := (h2.others ps (h1.places.trans hps) m i hi).trans (h1.others ps hps m i hi)
  matrix := h2.matrix.trans h1.matrix

theorem TKept.ready {d d' : TDesign} (hk : TKept d d') (hr : d.Ready) : d'.Ready := by
  unfold TDesign.Ready at *
  rw [hk.places, hr, hk.graph, freeSlots_congr hk.locks]

theorem TKept.lockedPlain {d d' : TDesign} (hk : TKept d d') (hr : d.Ready) (hl : d.LockedPlain) : d'.LockedPlain := by
  intro m hm i v hs hv
  rw [hk.graph] at hm hs
  rw [freeSlots_congr hk.locks] at hs
  rw [hk.others _ hr m i hs] at hv
  exact hl m hm i v hs hv

theorem call_kept {R : Spread} {k : Nat} {x : List Num} {d d' : TDesign} {s : Nat} (hc : d.call R k x = (d', .ok s)) : TKept d d' := by
  obtain ⟨ps, h, st, s0, hps, hw, _, _, _, rfl⟩ := call_ok hc
  have hf := writeSlots_frame hw
  refine ⟨rfl, rfl, fun m => ?_, fun m => ?_, fun ps' hps' m i hi => ?_, rfl⟩
  · dsimp only
    split
    · exact ⟨(hf m).1, (hf m).2.1⟩
    · exact ⟨(hf m).1, (hf m).2.1⟩
  · dsimp only
    split
    · exact (hf m).2.2.2.2.1
    · exact (hf m).2.2.2.2.1
  · rw [hps] at hps'
    injection hps' with hps'
    subst hps'
    dsimp only
    split
    · exact (hf m).2.2.2.2.2 i hi
    · exact (hf m).2.2.2.2.2 i hi

theorem calls_kept {R : Spread} : ∀ {cs : List (Nat × List Num)} {d d' : TDesign}, d.calls R cs = (d', .ok ()) → TKept d d'
  | [], d, d', h => by
    unfold TDesign.calls at h
    injection h with h
    subst h
    exact ⟨rfl, rfl, fun _ => ⟨rfl, rfl⟩, fun _ => rfl, fun _ _ _ _ _ => rfl, rfl⟩
  | (k, x) :: cs, d, d', h => by
    unfold TDesign.calls at h
    split at h
    · cases h
    · next d1 s h1 => exact (call_kept h1).trans (calls_kept h)

theorem call_params {R : Spread} {k : Nat} {x : List Num} {d d' : TDesign} {s : Nat} (hc : d.call R k x = (d', .ok s)) {ps} (hps : d.places = some ps) :
    ∃ h, writeSlots d.heap (x.map (Num.traced k)) ps = .ok h ∧ ∀ m, (d'.heap m).params = (h m).params := by
  obtain ⟨ps', h, st, s0, hps', hw, _, _, _, rfl⟩ := call_ok hc
  rw [hps] at hps'
  injection hps' with hps'
  subst hps'
  refine ⟨h, hw, fun m => ?_⟩
  dsimp only
  split <;> rfl

/-- **C122.** After a successful call at `x` — of the score, of its gradient or of its second derivatives — the extraction of parameters gives the numbers of `x` without any box, and
the extraction of attributes gives them in one box for each derivative. -/
theorem C122_extract {R : Spread} {k : Nat} {x : List Num} {d d' : TDesign} {s : Nat} (hr : d.Ready) (hn : (getModels d.graph).Nodup)
    (hx : x.length = (freeSlots d.heap (getModels d.graph)).length) (hc : d.call R k x = (d', .ok s)) :
    plainParameters d'.graph d'.heap = .ok (x.map Num.unwrap) ∧ rawParameters d'.graph d'.heap = .ok (x.map (Num.traced k)) := by
  have hk := call_kept hc
  obtain ⟨h, hw, hp⟩ := call_params hc hr
  have h1 : rawParameters d'.graph d'.heap = .ok (x.map (Num.traced k)) := by
    unfold rawParameters
    rw [hk.graph, freeSlots_congr hk.locks, ← readSlots_write hw (freeSlots_nodup hn) (by rw [List.length_map, hx])]
    exact readSlots_congr (fun m i _ => by rw [hp m])
  refine ⟨?_, h1⟩
  unfold plainParameters
  rw [h1]
  dsimp only
  rw [List.map_map]
  congr 1
  exact List.map_congr_left (fun v _ => Num.unwrap_traced k v)

theorem call_bound {R : Spread} (hR : R.Lawful) {k b : Nat} {x : List Num} {d d' : TDesign} {s : Nat} (hr : d.Ready) (hl : d.LockedPlain)
    (hx : (freeSlots d.heap (getModels d.graph)).length ≤ x.length) (hb : ∀ v ∈ x, v.depth + k ≤ b) (hc : d.call R k x = (d', .ok s)) :
    (∀ m ∈ getModels d.graph, ∀ v ∈ (d'.heap m).params, v.depth ≤ b) ∧ (∀ m ∈ getModels d.graph, ∀ v ∈ (d'.heap m).attrs, v.depth ≤ b) ∧
      (∀ m ∈ getModels d.graph, (d'.heap m).memo ≤ b) ∧ (∀ key s, d'.saves key = some s → s ≤ b) ∧ s ≤ b - k := by
  obtain ⟨ps, h, st, s0, hps, hw, hst, hs0, hs, rfl⟩ := call_ok hc
  unfold TDesign.Ready at hr
  rw [hr] at hps
  injection hps with hps
  subst hps
  have hf := writeSlots_frame hw
  have hp : ∀ m ∈ getModels d.graph, ∀ v ∈ (h m).params, v.depth ≤ b := by
    intro m hm v hv
    obtain ⟨i, hi⟩ := List.mem_iff_getElem?.1 hv
    by_cases hin : (m, i) ∈ freeSlots d.heap (getModels d.graph)
    · refine writeSlots_written (P := fun v => v.depth ≤ b) hw (fun y hy => ?_) (by rw [List.length_map]; exact hx) m i v hin hi
      obtain ⟨w, hw', rfl⟩ := List.mem_map.1 hy
      rw [Num.depth_traced]
      exact hb w hw'
    · rw [(hf m).2.2.2.2.2 i hin] at hi
      rw [hl m hm i v hin hi]
      exact Nat.zero_le _
  have hsv := propagate_bound hR hp hst
  have hd : ∀ m ∈ getModels d.graph, ∀ p ∈ (h m).params.map Num.depth, p ≤ b := by
    intro m hm p hpm
    obtain ⟨v, hv, rfl⟩ := List.mem_map.1 hpm
    exact hp m hm v hv
  refine ⟨fun m hm => ?_, fun m hm => ?_, fun m hm => ?_, hsv, ?_⟩
  · dsimp only
    rw [if_pos hm]
    exact hp m hm
  · dsimp only
    rw [if_pos hm]
    exact hp m hm
  · dsimp only
    rw [if_pos hm]
    exact hR.keep b _ _ _ (hd m hm) hsv
  · have := hR.score b _ _ hsv hs0
    omega

theorem depth_plain {x : List ℚ} : ∀ v ∈ x.map Num.plain, v.depth = 0 := by
  intro v hv
  obtain ⟨q, _, rfl⟩ := List.mem_map.1 hv
  rfl

/-- **C122.** One call of the score at plain numbers takes every box out of a design, whatever calls were made before. -/
theorem C122_clean {R : Spread} (hR : R.Lawful) {cs : List (Nat × List Num)} {x : List ℚ} {d d1 d2 : TDesign} {s : Nat} (hr : d.Ready) (hl : d.LockedPlain)
    (hm : ∀ r, d.matrix = some r → r = 0) (hx : x.length = (freeSlots d.heap (getModels d.graph)).length)
    (h1 : d.calls R cs = (d1, .ok ())) (h2 : d1.call R 0 (x.map .plain) = (d2, .ok s)) : d2.Clean ∧ s = 0 := by
  have hk := calls_kept h1
  have hk2 := call_kept h2
  obtain ⟨b1, b2, b3, b4, b5⟩ := call_bound hR (b := 0) (hk.ready hr) (hk.lockedPlain hr hl)
    (by rw [hk.graph, freeSlots_congr hk.locks, List.length_map, hx]) (fun v hv => by rw [depth_plain v hv]) h2
  refine ⟨⟨fun m hm v hv => ?_, fun m hm v hv => ?_, fun m hm => ?_, fun k s hs => ?_, fun r hr' => ?_⟩, by omega⟩
  · rw [hk2.graph] at hm
    exact Nat.le_zero.1 (b1 m hm v hv)
  · rw [hk2.graph] at hm
    exact Nat.le_zero.1 (b2 m hm v hv)
  · rw [hk2.graph] at hm
    exact Nat.le_zero.1 (b3 m hm)
  · exact Nat.le_zero.1 (b4 k s hs)
  · rw [hk2.matrix, hk.matrix] at hr'
    exact hm r hr'

/-- **C122.** That call is needed: after a gradient or second derivatives every free parameter is a box. -/
theorem C122_needed {R : Spread} {k : Nat} (hk1 : 0 < k) {x : List Num} {d d' : TDesign} {s : Nat} (hr : d.Ready)
    (hx : x.length = (freeSlots d.heap (getModels d.graph)).length) (hc : d.call R k x = (d', .ok s)) {m : ModelId} {i : Nat}
    (hs : (m, i) ∈ freeSlots d.heap (getModels d.graph)) {v : Num} (hv : (d'.heap m).params[i]? = some v) : k ≤ v.depth ∧ ¬ d'.Clean := by
  obtain ⟨h, hw, hp⟩ := call_params hc hr
  rw [hp m] at hv
  have hd : k ≤ v.depth := by
    refine writeSlots_written (P := fun v => k ≤ v.depth) hw (fun y hy => ?_) (by rw [List.length_map, hx]) m i v hs hv
    obtain ⟨w, _, rfl⟩ := List.mem_map.1 hy
    rw [Num.depth_traced]
    omega
  refine ⟨hd, fun hcl => ?_⟩
  have hmem : m ∈ getModels d'.graph := by
    rw [(call_kept hc).graph]
    exact freeSlots_mem hs
  have := hcl.params m hmem v (by rw [hp m]; exact List.mem_of_getElem? hv)
  omega

/-- **C122.** What `parameters_optimize_complete` returns has no boxes — in parameters, attributes, other stored values, signals or the matrix of second derivatives — whatever calls the
optimiser made, and its parameters are the result of the optimiser. -/
theorem C122_complete {R : Spread} (hR : R.Lawful) {cs : List (Nat × List Num)} {x : List ℚ} {d d' : TDesign} {s : Nat} (hl : d.LockedPlain)
    (hn : (getModels d.graph).Nodup) (hm : ∀ r, d.matrix = some r → r = 0) (hx : x.length = (freeSlots d.heap (getModels d.graph)).length)
    (h : optimizeTraced R cs x d = (d', .ok s)) : d'.Clean ∧ s = 0 ∧ plainParameters d'.graph d'.heap = .ok x := by
  have hux : (x.map Num.plain).map Num.unwrap = x := by
    rw [List.map_map]
    exact List.map_id _
  unfold optimizeTraced at h
  dsimp only at h
  split at h
  · cases h
  · next x0 hx0 =>
    have hr : ({ d with saves := Store.empty } : TDesign).init.Ready := rfl
    have hl' : ({ d with saves := Store.empty } : TDesign).init.LockedPlain := hl
    split at h
    · next hnil =>
      have hlen : x = [] := by
        subst hnil
        unfold plainParameters at hx0
        split at hx0
        · cases hx0
        · next vs hvs =>
          injection hx0 with hx0
          have hv0 : vs = [] := List.map_eq_nil_iff.1 hx0
          subst hv0
          have : freeSlots d.heap (getModels d.graph) = [] := by
            unfold rawParameters at hvs
            cases hfs : freeSlots d.heap (getModels d.graph) with
            | nil => rfl
            | cons a l =>
              rw [hfs] at hvs
              obtain ⟨a1, a2⟩ := a
              unfold readSlots at hvs
              split at hvs
              · cases hvs
              · split at hvs
                · cases hvs
                · cases hvs
          rw [this] at hx
          exact List.eq_nil_of_length_eq_zero hx
      subst hlen
      obtain ⟨h1, h2⟩ := C122_clean hR (cs := []) (x := []) hr hl' hm hx rfl h
      exact ⟨h1, h2, (C122_extract hr hn hx h).1⟩
    · split at h
      · cases h
      · next d2 u hd2 =>
        split at h
        · cases h
        · next d3 m3 hd3 =>
          have hk2 := calls_kept hd2
          have hr2 := hk2.ready hr
          have hl2 := hk2.lockedPlain hr hl'
          have hx2 : (x.map Num.plain).length = (freeSlots d2.heap (getModels d2.graph)).length := by
            rw [hk2.graph, freeSlots_congr hk2.locks, List.length_map, hx]
            rfl
          have hm3 : m3 = 0 := by
            have := (call_bound hR (b := 2) hr2 hl2 (le_of_eq hx2.symm) (fun v hv => by rw [depth_plain v hv]) hd3).2.2.2.2
            omega
          have hk3 := call_kept hd3
          have hx3 : (x.map Num.plain).length = (freeSlots d3.heap (getModels d3.graph)).length := by
            rw [hx2, hk3.graph, freeSlots_congr hk3.locks]
          have hr3 : ({ d3 with matrix := some m3 } : TDesign).Ready := hk3.ready hr2
          have hl3 : ({ d3 with matrix := some m3 } : TDesign).LockedPlain := hk3.lockedPlain hr2 hl2
          obtain ⟨h1, h2⟩ := C122_clean hR (cs := []) (x := x) hr3 hl3 (fun r hr' => by injection hr' with hr'; omega) (by rw [← hx3, List.length_map]) rfl h
          refine ⟨h1, h2, ?_⟩
          have hn3 : (getModels ({ d3 with matrix := some m3 } : TDesign).graph).Nodup := by
            show (getModels d3.graph).Nodup
            rw [hk3.graph, hk2.graph]
            exact hn
          rw [(C122_extract hr3 hn3 hx3 h).1, hux]

/-- **C122 (finding).** Asking for second derivatives at the parameters the extraction of attributes gives buries the parameters two layers deeper each time. -/
theorem C122_deeper {R : Spread} {d d' : TDesign} {s : Nat} (hr : d.Ready) (hn : (getModels d.graph).Nodup) {x : List Num} (hx : rawParameters d.graph d.heap = .ok x)
    (h : d.hessHere R = (d', .ok s)) : rawParameters d'.graph d'.heap = .ok (x.map (fun v => .box (.box v))) ∧ d'.Ready ∧ (getModels d'.graph).Nodup := by
  unfold TDesign.hessHere at h
  rw [hx] at h
  dsimp only at h
  have hlen : ∀ {ss : List (ModelId × Nat)} {vs}, readSlots d.heap ss = .ok vs → vs.length = ss.length := by
    intro ss
    induction ss with
    | nil => intro vs hv; injection hv with hv; subst hv; rfl
    | cons a ss ih =>
      intro vs hv
      obtain ⟨m, i⟩ := a
      unfold readSlots at hv
      split at hv
      · cases hv
      · split at hv
        · cases hv
        · next vs' hvs' =>
          injection hv with hv
          subst hv
          rw [List.length_cons, List.length_cons, ih hvs']
  have hk := call_kept h
  exact ⟨(C122_extract hr hn (hlen hx) h).2, hk.ready hr, by rw [hk.graph]; exact hn⟩

/-! ### Examples -/

namespace TracerExample

/-- Source, phase modulator with one free and one locked parameter, detector. -/
def g : Graph :=
  { nodes := [⟨0, ⟨10, 1, true, .sourceNode, 0⟩, 1⟩, ⟨1, ⟨11, 2, true, .sinkNode, 1⟩, 2⟩]
    edges := [⟨0, 1, 0, ⟨12, 50, true, .singlePath, 1⟩, 50⟩] }

def h : THeap := fun m => if m = 12 then ⟨[.plain 3, .plain 7], [.plain 3, .plain 7], 0, [false, true], false⟩ else ⟨[], [], 0, [], true⟩

/-- Every signal has as many layers as the deepest thing it is made of. -/
def R : Spread where
  node _ ps ins _ o := .ok (List.replicate (max 1 o) (max (ps.foldr max 0) (ins.foldr max 0)))
  edge _ ps s := .ok (max (ps.foldr max 0) s)
  noise m := if m = 12 then some (fun ps s => .ok (max (ps.foldr max 0) s)) else none
  keep _ ps _ := ps.foldr max 0
  score st := match st (.node 1) with
    | none => .error .keyError
    | some s => .ok s

theorem foldr_max_le {b : Nat} : ∀ {l : List Nat}, (∀ p ∈ l, p ≤ b) → l.foldr max 0 ≤ b
  | [], _ => Nat.zero_le _
  | a :: _, hl => Nat.max_le.2 ⟨hl a List.mem_cons_self, foldr_max_le (fun p hp => hl p (List.mem_cons_of_mem _ hp))⟩

theorem lawful : R.Lawful where
  node := by
    intro b m ps ins i o outs h1 h2 he s hs
    injection he with he
    subst he
    rw [List.eq_of_mem_replicate hs]
    exact Nat.max_le.2 ⟨foldr_max_le h1, foldr_max_le h2⟩
  edge := by
    intro b m ps s s' h1 h2 he
    injection he with he
    subst he
    exact Nat.max_le.2 ⟨foldr_max_le h1, h2⟩
  noise := by
    intro b m f ps s s' hf h1 h2 he
    change (if m = 12 then _ else _) = some f at hf
    split at hf
    · injection hf with hf
      subst hf
      injection he with he
      subst he
      exact Nat.max_le.2 ⟨foldr_max_le h1, h2⟩
    · cases hf
  keep := fun b m ps st h1 _ => foldr_max_le h1
  score := by
    intro b st s h1 he
    change (match st (.node 1) with | none => _ | some s => _) = _ at he
    split at he
    · cases he
    · next s0 hs0 =>
      injection he with he
      subst he
      exact h1 _ _ hs0

def d : TDesign := ⟨g, h, Store.empty, none, none⟩

theorem slots : freeSlots d.heap (getModels d.graph) = [(12, 0)] := by decide +kernel

theorem locked : d.LockedPlain := by
  intro m hm i v _ hv
  change (h m).params[i]? = some v at hv
  unfold h at hv
  split at hv
  · match i, hv with
    | 0, hv => injection hv with hv; subst hv; rfl
    | 1, hv => injection hv with hv; subst hv; rfl
    | _ + 2, hv => cases hv
  · cases hv

theorem ends : (optimizeTraced R [(0, [.plain 4]), (1, [.plain 4]), (0, [.plain 5]), (1, [.plain 5])] [5] d).2 = .ok 0 := by decide +kernel

theorem grad_ends : (d.init.call R 1 [.plain 4]).2 = .ok 0 := by decide +kernel

theorem grad_params : ((d.init.call R 1 [.plain 4]).1.heap 12).params = [.box (.plain 4), .plain 7] := by decide +kernel

/-- The modulator is optimised by gradients; what comes back has no boxes. -/
example : (d.heap 12).nodeLock = false ∧ (d.heap 12).locks[0]? = some false := (C122_free.1 (by rw [slots]; exact List.mem_cons_self)).2

example := C122_complete lawful locked (by decide +kernel) (fun r hr => by cases hr) (by rw [slots]; rfl) (Prod.ext rfl ends)

example := C122_clean lawful (cs := [(2, [.plain 4])]) (x := [5]) (d := d.init) rfl locked (fun r hr => by cases hr) (by rw [show freeSlots d.init.heap (getModels d.init.graph) = _ from slots]; rfl)
  (Prod.ext rfl (by decide +kernel)) (s := 0) (Prod.ext rfl (by decide +kernel))

example := C122_extract (R := R) (k := 1) (x := [.plain 4]) (d := d.init) rfl (by decide +kernel) (by rw [show freeSlots d.init.heap (getModels d.init.graph) = _ from slots]; rfl)
  (Prod.ext rfl grad_ends)

example := C122_needed (R := R) (k := 1) (by decide) (x := [.plain 4]) (d := d.init) (d' := (d.init.call R 1 [.plain 4]).1) (s := 0) rfl (by rw [show freeSlots d.init.heap (getModels d.init.graph) = _ from slots]; rfl)
  (Prod.ext rfl grad_ends) (m := 12) (i := 0) (by rw [show freeSlots d.init.heap (getModels d.init.graph) = _ from slots]; exact List.mem_cons_self) (v := .box (.plain 4)) (by rw [grad_params]; rfl)

example := C122_deeper (R := R) (d := d.init) rfl (by decide +kernel) (x := [.plain 3]) (by decide +kernel) (s := 0) (Prod.ext rfl (by decide +kernel))

end TracerExample

end Verif
