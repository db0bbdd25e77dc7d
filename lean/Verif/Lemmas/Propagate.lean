import Verif.Spec.Propagate
import Verif.Lemmas.Topo
/-! # Helper lemmas about propagation -/

namespace Verif
open Graph

variable {S : Type}

theorem collect_ok {st : Store S} : ∀ {es : List Edge} {ss}, collect st es = .ok ss →
    es.map (fun e => st (.edge e.ref)) = ss.map some
  | [], ss, h => by injection h with h; subst h; rfl
  | e :: es, ss, h => by
    unfold collect at h
    split at h
    · cases h
    · rename_i s hs
      split at h
      · cases h
      · rename_i rest hr
        injection h with h; subst h
        simp only [List.map_cons, hs, collect_ok hr]

theorem collect_total {st : Store S} : ∀ {es : List Edge}, (∀ e ∈ es, ∃ s, st (.edge e.ref) = some s) →
    ∃ ss, collect st es = .ok ss ∧ ss.length = es.length
  | [], _ => ⟨[], rfl, rfl⟩
  | e :: es, h => by
    obtain ⟨s, hs⟩ := h e (by simp)
    obtain ⟨ss, h1, h2⟩ := collect_total (es := es) (fun e he => h e (by simp [he]))
    exact ⟨s :: ss, by simp only [collect, hs, h1], by simp [h2]⟩

theorem throughEdge_ok {B : Behav S} {e s s2} (h : throughEdge B e s = .ok s2) :
    ∃ s1, B.edge e.comp s = .ok s1 ∧
      (B.noise e.comp = none ∧ s2 = s1 ∨ ∃ f, B.noise e.comp = some f ∧ f s1 = .ok s2) := by
  unfold throughEdge at h
  split at h
  · cases h
  · rename_i s1 h1
    split at h
    · rename_i hn
      injection h with h
      exact ⟨s1, h1, Or.inl ⟨hn, h.symm⟩⟩
    · rename_i f hf
      exact ⟨s1, h1, Or.inr ⟨f, hf, h⟩⟩

theorem outLoop_ok {B : Behav S} {states : List S} : ∀ {es : List Edge} {i st st'}, (es.map Edge.ref).Nodup →
    outLoop B states i es st = .ok st' →
    (∀ k e, es[k]? = some e → ∃ s s2, states[i + k]? = some s ∧ throughEdge B e s = .ok s2 ∧
      st' (.edge e.ref) = some s2) ∧
    (∀ key, (∀ e ∈ es, key ≠ .edge e.ref) → st' key = st key)
  | [], i, st, st', _, h => by
    injection h with h; subst h
    exact ⟨by simp, fun _ _ => rfl⟩
  | e :: es, i, st, st', hnd, h => by
    unfold outLoop at h
    split at h
    · cases h
    · rename_i s hs
      split at h
      · cases h
      · rename_i s2 h2
        rw [List.map_cons, List.nodup_cons] at hnd
        obtain ⟨a, b⟩ := outLoop_ok hnd.2 h
        refine ⟨fun k e' hk => ?_, fun key hkey => ?_⟩
        · cases k with
          | zero =>
            injection hk with hk; subst hk
            refine ⟨s, s2, hs, h2, ?_⟩
            rw [b]
            · simp [Store.put]
            · intro e' he' hc
              injection hc with hc
              exact hnd.1 (hc ▸ List.mem_map_of_mem he')
          | succ k =>
            have := a k e' (by simpa using hk)
            rw [show i + (k + 1) = i + 1 + k by omega]
            exact this
        · rw [b key (fun e' he' => hkey e' (by simp [he']))]
          unfold Store.put
          rw [if_neg (hkey e (by simp))]

theorem outLoop_total {B : Behav S} {states : List S} : ∀ {es : List Edge} {i st},
    i + es.length ≤ states.length → (∀ e ∈ es, ∀ s, ∃ s', throughEdge B e s = .ok s') →
    ∃ st', outLoop B states i es st = .ok st'
  | [], i, st, _, _ => ⟨st, rfl⟩
  | e :: es, i, st, hl, he => by
    simp only [List.length_cons] at hl
    have hi : i < states.length := by omega
    obtain ⟨s', hs'⟩ := he e (by simp) states[i]
    obtain ⟨st', h⟩ := outLoop_total (B := B) (states := states) (es := es) (i := i + 1)
      (st := st.put (.edge e.ref) s') (by omega) (fun e he' => he e (by simp [he']))
    exact ⟨st', by simp only [outLoop, List.getElem?_eq_getElem hi, hs', h]⟩

theorem Enough.through {g : Graph} {B : Behav S} (h : Enough g B) {e} (he : e ∈ g.edges) (s : S) :
    ∃ s', throughEdge B e s = .ok s' := by
  obtain ⟨s1, h1⟩ := h.edge e he s
  unfold throughEdge
  simp only [h1]
  split
  · exact ⟨_, rfl⟩
  · rename_i f hf; exact h.noise e he f hf s1

/-! ### Monotonicity of the equations -/

def Store.le (st st' : Store S) : Prop := ∀ k s, st k = some s → st' k = some s

theorem Inputs.mono {g : Graph} {inp : S} {st st' : Store S} (hle : st.le st') {v ins} (h : Inputs g inp st v ins) :
    Inputs g inp st' v ins := by
  rcases h with h | ⟨h1, h2⟩
  · exact Or.inl h
  · refine Or.inr ⟨h1, ?_⟩
    rw [← h2]
    apply List.map_congr_left
    intro e he
    have : st (.edge e.ref) ∈ (g.inEdges v).map (fun e => st (.edge e.ref)) :=
      List.mem_map_of_mem (f := fun e : Edge => st (.edge e.ref)) he
    rw [h2] at this
    obtain ⟨s, _, hs⟩ := List.mem_map.1 this
    rw [← hs]
    exact hle _ _ hs.symm

theorem Outputs.mono {g : Graph} {B : Behav S} {inp : S} {st st' : Store S} (hle : st.le st') {n outs}
    (h : Outputs g B inp st n outs) : Outputs g B inp st' n outs := by
  obtain ⟨ins, h1, h2⟩ := h
  exact ⟨ins, h1.mono hle, h2⟩

theorem EdgeEq.mono {g : Graph} {B : Behav S} {inp : S} {st st' : Store S} (hle : st.le st') {e}
    (h : EdgeEq g B inp st e) : EdgeEq g B inp st' e := by
  obtain ⟨n, hn, hid, outs, i, s, s1, s2, h1, h2, h3, h4, h5, h6⟩ := h
  exact ⟨n, hn, hid, outs, i, s, s1, s2, h1.mono hle, h2, h3, h4, h5, hle _ _ h6⟩

theorem SinkEq.mono {g : Graph} {B : Behav S} {inp : S} {st st' : Store S} (hle : st.le st') {n}
    (h : SinkEq g B inp st n) : SinkEq g B inp st' n := by
  obtain ⟨outs, s, h1, h2, h3⟩ := h
  exact ⟨outs, s, h1.mono hle, h2, hle _ _ h3⟩

/-- State of the computation after the nodes in `P`. -/
structure PInv (g : Graph) (B : Behav S) (inp : S) (P : List NodeId) (st : Store S) : Prop where
  edges : ∀ e ∈ g.edges, e.src ∈ P → EdgeEq g B inp st e
  sinks : ∀ n ∈ g.nodes, n.id ∈ P → g.outEdges n.id = [] → SinkEq g B inp st n
  only : ∀ k, st k ≠ none → (∃ e ∈ g.edges, e.src ∈ P ∧ k = .edge e.ref) ∨
    (∃ n ∈ g.nodes, n.id ∈ P ∧ g.outEdges n.id = [] ∧ k = .node n.id)

theorem outEdges_refs {g : Graph} (hw : g.WF) (v) : ((g.outEdges v).map Edge.ref).Nodup :=
  hw.refs_nodup.sublist (List.filter_sublist.map _)

theorem mem_outEdges {g : Graph} {v e} : e ∈ g.outEdges v ↔ e ∈ g.edges ∧ e.src = v := by
  simp [outEdges]

theorem mem_inEdges {g : Graph} {v e} : e ∈ g.inEdges v ↔ e ∈ g.edges ∧ e.dst = v := by
  simp [inEdges]

theorem propNode_inv {g : Graph} (hw : g.WF) {B : Behav S} {inp : S} {P st v st'} (hv : v ∉ P)
    (hi : PInv g B inp P st) (h : propNode g B inp v st = .ok st') : PInv g B inp (v :: P) st' := by
  unfold propNode at h
  split at h
  · cases h
  rename_i ins hins
  have hI : Inputs g inp st v ins := by
    split at hins
    · rename_i he; injection hins with hins; exact Or.inl ⟨he, hins.symm⟩
    · rename_i he; exact Or.inr ⟨he, collect_ok hins⟩
  split at h
  · cases h
  rename_i n hn
  obtain ⟨hnm, hnid⟩ := (node?_eq_some hw).1 hn
  split at h
  · cases h
  rename_i outs houts
  have hO : Outputs g B inp st n outs := ⟨ins, by rw [hnid]; exact hI, by rw [hnid]; exact houts⟩
  -- nothing of this node is stored yet
  have hfreshE : ∀ e ∈ g.edges, e.src = v → st (.edge e.ref) = none := by
    intro e he hs
    by_contra hc
    rcases hi.only _ hc with ⟨e', he', hp, hk⟩ | ⟨_, _, _, _, hk⟩
    · injection hk with hk
      have : e = e' := List.inj_on_of_nodup_map hw.refs_nodup he he' hk
      subst this
      exact hv (hs ▸ hp)
    · cases hk
  have hfreshN : st (.node v) = none := by
    by_contra hc
    rcases hi.only _ hc with ⟨_, _, _, hk⟩ | ⟨n', _, hp, _, hk⟩
    · cases hk
    · injection hk with hk; exact hv (hk ▸ hp)
  -- both branches
  have main : ∀ st1 : Store S, st.le st1 → (∀ e ∈ g.edges, e.src = v → st1 (.edge e.ref) = none) →
      (∀ k, st1 k ≠ none → st k ≠ none ∨ (g.outEdges v = [] ∧ k = .node v)) →
      (g.outEdges v = [] → ∃ s, outs[0]? = some s ∧ st1 (.node v) = some s) →
      outLoop B outs 0 (g.outEdges v) st1 = .ok st' → PInv g B inp (v :: P) st' := by
    intro st1 hle1 hfr hnew hsink hloop
    obtain ⟨a, b⟩ := outLoop_ok (outEdges_refs hw v) hloop
    have hle2 : st1.le st' := by
      intro k s hs
      rw [b k, hs]
      intro e he hc
      obtain ⟨h1, h2⟩ := mem_outEdges.1 he
      rw [hc, hfr e h1 h2] at hs
      cases hs
    have hle : st.le st' := fun k s hs => hle2 k s (hle1 k s hs)
    refine ⟨?_, ?_, ?_⟩
    · intro e he hs
      rcases List.mem_cons.1 hs with hs | hs
      · obtain ⟨k, hk, hke⟩ := List.getElem_of_mem (mem_outEdges.2 ⟨he, hs⟩)
        have hk' : (g.outEdges v)[k]? = some e := by rw [List.getElem?_eq_getElem hk, hke]
        obtain ⟨s, s2, h1, h2, h3⟩ := a k e hk'
        obtain ⟨s1, h4, h5⟩ := throughEdge_ok h2
        exact ⟨n, hnm, hnid.trans hs.symm, outs, k, s, s1, s2, hO.mono hle, by rw [hs]; exact hk',
          by simpa using h1, h4, h5, h3⟩
      · exact (hi.edges e he hs).mono hle
    · intro m hm hmP hme
      rcases List.mem_cons.1 hmP with hmv | hmP
      · have : m = n := List.inj_on_of_nodup_map hw.ids_nodup hm hnm (hmv.trans hnid.symm)
        subst this
        rw [hnid] at hme
        obtain ⟨s, h1, h2⟩ := hsink hme
        exact ⟨outs, s, hO.mono hle, h1, by rw [hnid]; exact hle2 _ _ h2⟩
      · exact (hi.sinks m hm hmP hme).mono hle
    · intro k hk
      by_cases hex : ∃ e ∈ g.outEdges v, k = .edge e.ref
      · obtain ⟨e, he, hke⟩ := hex
        obtain ⟨h1, h2⟩ := mem_outEdges.1 he
        exact Or.inl ⟨e, h1, by simp [h2], hke⟩
      · push Not at hex
        rw [b k hex] at hk
        rcases hnew k hk with hk | ⟨h1, h2⟩
        · rcases hi.only k hk with ⟨e, he, hp, hke⟩ | ⟨m, hm, hp, he, hke⟩
          · exact Or.inl ⟨e, he, by simp [hp], hke⟩
          · exact Or.inr ⟨m, hm, by simp [hp], he, hke⟩
        · exact Or.inr ⟨n, hnm, by simp [hnid], by rw [hnid]; exact h1, by rw [hnid]; exact h2⟩
  split at h
  · rename_i hd
    have hd' : g.outEdges v = [] := by unfold outDeg at hd; simpa using hd
    split at h
    · cases h
    rename_i s0 hs0
    refine main _ ?_ ?_ ?_ ?_ h
    · intro k s hs
      unfold Store.put
      rw [if_neg, hs]
      rintro rfl
      rw [hfreshN] at hs; cases hs
    · intro e he hs
      unfold Store.put
      rw [if_neg (by simp)]; exact hfreshE e he hs
    · intro k hk
      unfold Store.put at hk
      by_cases hkv : k = .node v
      · exact Or.inr ⟨hd', hkv⟩
      · rw [if_neg hkv] at hk; exact Or.inl hk
    · intro _
      exact ⟨s0, hs0, by simp [Store.put]⟩
  · rename_i hd
    have hd' : g.outEdges v ≠ [] := by unfold outDeg at hd; simpa using hd
    exact main st (fun _ _ h => h) hfreshE (fun k hk => Or.inl hk) (fun h => absurd h hd') h

theorem propNode_total {g : Graph} (hw : g.WF) {B : Behav S} (he : Enough g B) {inp : S} {P st v} (hv : v ∈ g.ids)
    (hi : PInv g B inp P st) (hpre : ∀ e ∈ g.edges, e.dst = v → e.src ∈ P) :
    ∃ st', propNode g B inp v st = .ok st' := by
  obtain ⟨n, hn⟩ := node?_isSome hw hv
  obtain ⟨hnm, hnid⟩ := (node?_eq_some hw).1 hn
  have hins : ∃ ins : List S, (if g.inEdges v = [] then Except.ok [inp] else collect st (g.inEdges v)) = .ok ins ∧
      ins.length = max 1 (g.inEdges v).length := by
    split
    · rename_i h; exact ⟨[inp], rfl, by simp [h]⟩
    · rename_i h
      obtain ⟨ss, h1, h2⟩ := collect_total (st := st) (es := g.inEdges v) (by
        intro e he
        obtain ⟨h1, h2⟩ := mem_inEdges.1 he
        obtain ⟨_, _, _, _, _, _, _, s2, _, _, _, _, _, h⟩ := hi.edges e h1 (hpre e h1 h2)
        exact ⟨s2, h⟩)
      have : (g.inEdges v).length ≠ 0 := by simpa using h
      exact ⟨ss, h1, by omega⟩
  obtain ⟨ins, h1, h2⟩ := hins
  obtain ⟨outs, h3, h4⟩ := he.node n hnm ins (by rw [hnid]; exact h2)
  rw [hnid] at h3 h4
  have hthrough : ∀ e ∈ g.outEdges v, ∀ s, ∃ s', throughEdge B e s = .ok s' := fun e hm s =>
    he.through (mem_outEdges.1 hm).1 s
  unfold propNode
  rw [h1]
  simp only [hn]
  rw [show B.node n.comp ins (g.inDeg v) (g.outDeg v) = .ok outs from h3]
  simp only
  split
  · have h0 : 0 < outs.length := by omega
    rw [List.getElem?_eq_getElem h0]
    exact outLoop_total (by omega) hthrough
  · exact outLoop_total (by omega) hthrough

theorem propLoop_inv {g : Graph} (hw : g.WF) {B : Behav S} {inp : S} : ∀ {vs P st st'}, (P.reverse ++ vs).Nodup →
    PInv g B inp P st → propLoop g B inp vs st = .ok st' → PInv g B inp (vs.reverse ++ P) st'
  | [], P, st, st', _, hi, h => by injection h with h; subst h; simpa using hi
  | v :: vs, P, st, st', hnd, hi, h => by
    unfold propLoop at h
    split at h
    · cases h
    rename_i st1 h1
    have hv : v ∉ P := by
      intro hc
      exact (List.nodup_append.1 hnd).2.2 v (by simp [hc]) v (by simp) rfl
    have := propLoop_inv hw (vs := vs) (P := v :: P) (by simpa using hnd) (propNode_inv hw hv hi h1) h
    simpa using this

theorem propLoop_total {g : Graph} (hw : g.WF) {B : Behav S} (he : Enough g B) {inp : S} : ∀ {vs P st},
    (P.reverse ++ vs).Nodup → (∀ v ∈ vs, v ∈ g.ids) →
    (∀ l1 v l2, vs = l1 ++ v :: l2 → ∀ e ∈ g.edges, e.dst = v → e.src ∈ P ∨ e.src ∈ l1) →
    PInv g B inp P st → ∃ st', propLoop g B inp vs st = .ok st'
  | [], _, st, _, _, _, _ => ⟨st, rfl⟩
  | v :: vs, P, st, hnd, hids, hpre, hi => by
    obtain ⟨st1, h1⟩ := propNode_total hw he (hids v (by simp)) hi (fun e hm hd => by
      rcases hpre [] v vs rfl e hm hd with h | h
      · exact h
      · simp at h)
    have hv : v ∉ P := by
      intro hc
      exact (List.nodup_append.1 hnd).2.2 v (by simp [hc]) v (by simp) rfl
    obtain ⟨st2, h2⟩ := propLoop_total hw he (vs := vs) (P := v :: P) (st := st1) (by simpa using hnd)
      (fun w hw => hids w (by simp [hw]))
      (fun l1 w l2 hl e hm hd => by
        rcases hpre (v :: l1) w l2 (by rw [hl]; rfl) e hm hd with h | h
        · exact Or.inl (by simp [h])
        · rcases List.mem_cons.1 h with h | h
          · exact Or.inl (by simp [h])
          · exact Or.inr h)
      (propNode_inv hw hv hi h1)
    exact ⟨st2, by simp only [propLoop, h1, h2]⟩

theorem PInv.empty (g : Graph) (B : Behav S) (inp : S) : PInv g B inp [] Store.empty where
  edges := fun e _ h => by simp at h
  sinks := fun n _ h => absurd h (List.not_mem_nil)
  only := by intro k h; exact absurd rfl h

theorem isSink_iff_outEdges {g : Graph} {n : Node} (hn : n ∈ g.nodes) : g.IsSink n.id ↔ g.outEdges n.id = [] := by
  unfold IsSink outEdges
  rw [List.filter_eq_nil_iff]
  simp only [decide_eq_true_eq]
  exact ⟨And.right, fun h => ⟨List.mem_map_of_mem hn, h⟩⟩

theorem idx_split {o l1 l2 : List NodeId} {v x : NodeId} (hnd : o.Nodup) (ho : o = l1 ++ v :: l2) (hx : x ∈ o)
    (hlt : o.idxOf x < o.idxOf v) : x ∈ l1 := by
  subst ho
  by_contra hc
  have hv : v ∉ l1 := fun h => (List.nodup_append.1 hnd).2.2 v h v (by simp) rfl
  rw [List.idxOf_append_of_notMem hc, List.idxOf_append_of_notMem hv] at hlt
  simp at hlt

end Verif

namespace Verif
open Graph
variable {S : Type}

theorem outLoop_complete {B : Behav S} {F : Store S} {states : List S} : ∀ {es : List Edge} {i st}, st.le F →
    (∀ k e, es[k]? = some e → ∃ s s2, states[i + k]? = some s ∧ throughEdge B e s = .ok s2 ∧
      F (.edge e.ref) = some s2) → ∃ st', outLoop B states i es st = .ok st' ∧ st'.le F
  | [], i, st, hle, _ => ⟨st, rfl, hle⟩
  | e :: es, i, st, hle, h => by
    obtain ⟨s, s2, h1, h2, h3⟩ := h 0 e rfl
    have hle' : (st.put (.edge e.ref) s2).le F := by
      intro k x hx
      unfold Store.put at hx
      split at hx
      · rename_i hk; rw [hk, h3, hx]
      · exact hle k x hx
    obtain ⟨st', h4, h5⟩ := outLoop_complete (B := B) (states := states) (es := es) (i := i + 1) hle' (fun k e' hk => by
      have := h (k + 1) e' (by simpa using hk)
      rw [show i + (k + 1) = i + 1 + k by omega] at this
      exact this)
    refine ⟨st', ?_, h5⟩
    rw [Nat.add_zero] at h1
    simp only [outLoop, h1, h2, h4]

theorem throughEdge_of {B : Behav S} {e s s1 s2} (h1 : B.edge e.comp s = .ok s1)
    (h2 : B.noise e.comp = none ∧ s2 = s1 ∨ ∃ f, B.noise e.comp = some f ∧ f s1 = .ok s2) :
    throughEdge B e s = .ok s2 := by
  unfold throughEdge
  rw [h1]
  rcases h2 with ⟨h2, rfl⟩ | ⟨f, h2, h3⟩
  · simp only [h2]
  · simp only [h2, h3]

theorem map_some_inj {a b : List S} (h : a.map some = b.map some) : a = b :=
  List.map_injective_iff.2 (Option.some_injective S) h

theorem collect_of {st : Store S} : ∀ {es : List Edge} {ss}, es.map (fun e => st (.edge e.ref)) = ss.map some →
    collect st es = .ok ss
  | [], [], _ => rfl
  | [], _ :: _, h => by simp at h
  | _ :: _, [], h => by simp at h
  | e :: es, s :: ss, h => by
    simp only [List.map_cons, List.cons.injEq] at h
    simp only [collect, h.1, collect_of h.2]

theorem propNode_complete {g : Graph} (hw : g.WF) {B : Behav S} {inp : S} {F : Store S} (hF : IsFlow g B inp F)
    {P st v} (hv : v ∈ g.ids) (hi : PInv g B inp P st) (hle : st.le F)
    (hpre : ∀ e ∈ g.edges, e.dst = v → e.src ∈ P) :
    ∃ st', propNode g B inp v st = .ok st' ∧ st'.le F := by
  obtain ⟨n, hn⟩ := node?_isSome hw hv
  obtain ⟨hnm, hnid⟩ := (node?_eq_some hw).1 hn
  have hsame : ∀ e ∈ g.inEdges v, st (.edge e.ref) = F (.edge e.ref) := by
    intro e he
    obtain ⟨h1, h2⟩ := mem_inEdges.1 he
    obtain ⟨_, _, _, _, _, _, _, s2, _, _, _, _, _, h⟩ := hi.edges e h1 (hpre e h1 h2)
    rw [h, hle _ _ h]
  have hout : ∃ outs, Outputs g B inp F n outs := by
    by_cases he : g.outEdges v = []
    · obtain ⟨outs, _, h, _⟩ := hF.sinks n hnm ((isSink_iff_outEdges hnm).2 (by rw [hnid]; exact he))
      exact ⟨outs, h⟩
    · obtain ⟨e, he⟩ := List.exists_mem_of_ne_nil _ he
      obtain ⟨h1, h2⟩ := mem_outEdges.1 he
      obtain ⟨m, hm, hmid, outs, _, _, _, _, h, _⟩ := hF.edges e h1
      have : m = n := List.inj_on_of_nodup_map hw.ids_nodup hm hnm (hmid.trans (h2.trans hnid.symm))
      exact ⟨outs, this ▸ h⟩
  obtain ⟨outs, ins, hI, hB⟩ := hout
  rw [hnid] at hI hB
  have hins : (if g.inEdges v = [] then Except.ok [inp] else collect st (g.inEdges v)) = .ok ins := by
    rcases hI with ⟨h1, h2⟩ | ⟨h1, h2⟩
    · rw [if_pos h1, h2]
    · rw [if_neg h1]
      apply collect_of
      rw [← h2]
      exact List.map_congr_left hsame
  -- outputs of the node in the flow are these
  have huniq : ∀ outs', Outputs g B inp F n outs' → outs' = outs := by
    rintro outs' ⟨ins', hI', hB'⟩
    rw [hnid] at hI' hB'
    have : ins' = ins := by
      rcases hI with ⟨h1, h2⟩ | ⟨h1, h2⟩ <;> rcases hI' with ⟨h1', h2'⟩ | ⟨h1', h2'⟩
      · rw [h2, h2']
      · exact absurd h1 h1'
      · exact absurd h1' h1
      · exact map_some_inj (h2'.symm.trans h2)
    subst this
    rw [hB'] at hB
    injection hB
  have hloop : ∀ k e, (g.outEdges v)[k]? = some e → ∃ s s2, outs[0 + k]? = some s ∧ throughEdge B e s = .ok s2 ∧
      F (.edge e.ref) = some s2 := by
    intro k e hk
    obtain ⟨h1, h2⟩ := mem_outEdges.1 (List.mem_of_getElem? hk)
    obtain ⟨m, hm, hmid, outs', i, s, s1, s2, h3, h4, h5, h6, h7, h8⟩ := hF.edges e h1
    have : m = n := List.inj_on_of_nodup_map hw.ids_nodup hm hnm (hmid.trans (h2.trans hnid.symm))
    subst this
    have := huniq outs' h3
    subst this
    rw [h2] at h4
    have hnd : (g.outEdges v).Nodup := List.Nodup.of_map _ (outEdges_refs hw v)
    have hik : i = k := by
      obtain ⟨hi1, hi2⟩ := List.getElem?_eq_some_iff.1 h4
      obtain ⟨hk1, hk2⟩ := List.getElem?_eq_some_iff.1 hk
      exact (List.Nodup.getElem_inj_iff hnd).1 (hi2.trans hk2.symm)
    subst hik
    exact ⟨s, s2, by simpa using h5, throughEdge_of h6 h7, h8⟩
  unfold propNode
  rw [hins]
  simp only [hn]
  rw [show B.node n.comp ins (g.inDeg v) (g.outDeg v) = .ok outs from hB]
  simp only
  split
  · rename_i hd
    have hd' : g.outEdges v = [] := by unfold outDeg at hd; simpa using hd
    obtain ⟨outs', s, h1, h2, h3⟩ := hF.sinks n hnm ((isSink_iff_outEdges hnm).2 (by rw [hnid]; exact hd'))
    have := huniq outs' h1
    subst this
    rw [h2]
    refine outLoop_complete ?_ hloop
    intro k x hx
    unfold Store.put at hx
    split at hx
    · rename_i hk; rw [hnid] at h3; rw [hk, h3, hx]
    · exact hle k x hx
  · exact outLoop_complete hle hloop

theorem propLoop_complete {g : Graph} (hw : g.WF) {B : Behav S} {inp : S} {F : Store S} (hF : IsFlow g B inp F) :
    ∀ {vs P st}, (P.reverse ++ vs).Nodup → (∀ v ∈ vs, v ∈ g.ids) →
    (∀ l1 v l2, vs = l1 ++ v :: l2 → ∀ e ∈ g.edges, e.dst = v → e.src ∈ P ∨ e.src ∈ l1) →
    PInv g B inp P st → st.le F → ∃ st', propLoop g B inp vs st = .ok st' ∧ st'.le F
  | [], _, st, _, _, _, _, hle => ⟨st, rfl, hle⟩
  | v :: vs, P, st, hnd, hids, hpre, hi, hle => by
    obtain ⟨st1, h1, hle1⟩ := propNode_complete hw hF (hids v (by simp)) hi hle (fun e hm hd => by
      rcases hpre [] v vs rfl e hm hd with h | h
      · exact h
      · simp at h)
    have hv : v ∉ P := by
      intro hc
      exact (List.nodup_append.1 hnd).2.2 v (by simp [hc]) v (by simp) rfl
    obtain ⟨st2, h2, hle2⟩ := propLoop_complete hw hF (vs := vs) (P := v :: P) (st := st1) (by simpa using hnd)
      (fun w hw => hids w (by simp [hw]))
      (fun l1 w l2 hl e hm hd => by
        rcases hpre (v :: l1) w l2 (by rw [hl]; rfl) e hm hd with h | h
        · exact Or.inl (by simp [h])
        · rcases List.mem_cons.1 h with h | h
          · exact Or.inl (by simp [h])
          · exact Or.inr h)
      (propNode_inv hw hv hi h1) hle1
    exact ⟨st2, by simp only [propLoop, h1, h2], hle2⟩

theorem topo_pre {g : Graph} (hw : g.WF) {order} (ho : g.IsTopo order) :
    ∀ l1 v l2, order = l1 ++ v :: l2 → ∀ e ∈ g.edges, e.dst = v → e.src ∈ ([] : List NodeId) ∨ e.src ∈ l1 := by
  intro l1 v l2 hl e he hd
  refine Or.inr (idx_split ho.nodup hl ((ho.mem_iff _).2 (hw.src_mem e he)) ?_)
  have := ho.forward e he
  rw [hd] at this
  exact this

theorem propagateWith_flow {g : Graph} (hw : g.WF) {B : Behav S} {inp : S} {order} (ho : g.IsTopo order) {old st}
    (h : propagateWith g B inp order old = .ok st) : IsFlow g B inp st := by
  have := propLoop_inv hw (P := []) (by simpa using ho.nodup) (PInv.empty g B inp) h
  rw [List.append_nil] at this
  have hm : ∀ v, v ∈ order.reverse ↔ v ∈ g.ids := fun v => by rw [List.mem_reverse]; exact ho.mem_iff v
  refine ⟨fun e he => this.edges e he ((hm _).2 (hw.src_mem e he)), fun n hn hs =>
    this.sinks n hn ((hm _).2 (List.mem_map_of_mem hn)) ((isSink_iff_outEdges hn).1 hs), fun k hk => ?_⟩
  rcases this.only k hk with ⟨e, he, _, h⟩ | ⟨n, hn, _, h1, h2⟩
  · exact Or.inl ⟨e, he, h⟩
  · exact Or.inr ⟨n, hn, (isSink_iff_outEdges hn).2 h1, h2⟩

theorem IsFlow.eq_of_le {g : Graph} {B : Behav S} {inp : S} {st F : Store S} (h : IsFlow g B inp st)
    (hF : IsFlow g B inp F) (hle : st.le F) : st = F := by
  funext k
  cases hk : st k with
  | some x => exact (hle k x hk).symm
  | none =>
    by_contra hc
    rcases hF.only k (fun h => hc h.symm) with ⟨e, he, rfl⟩ | ⟨n, hn, hs, rfl⟩
    · obtain ⟨_, _, _, _, _, _, _, s2, _, _, _, _, _, h⟩ := h.edges e he
      rw [hk] at h; cases h
    · obtain ⟨_, s, _, _, h⟩ := h.sinks n hn hs
      rw [hk] at h; cases h

theorem propagateWith_iff {g : Graph} (hw : g.WF) {B : Behav S} {inp : S} {order} (ho : g.IsTopo order) (old : Store S)
    (st : Store S) : propagateWith g B inp order old = .ok st ↔ IsFlow g B inp st := by
  refine ⟨propagateWith_flow hw ho, fun hF => ?_⟩
  obtain ⟨st', h1, h2⟩ := propLoop_complete hw hF (P := []) (by simpa using ho.nodup)
    (fun v hv => (ho.mem_iff v).1 hv) (topo_pre hw ho) (PInv.empty g B inp) (fun k s h => by cases h)
  have : propagateWith g B inp order old = .ok st' := h1
  rw [this, (propagateWith_flow hw ho this).eq_of_le hF h2]

end Verif
