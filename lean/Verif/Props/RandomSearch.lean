import Verif.Model.RandomSearch
import Verif.Props.Closure
/-! # C116: what the random search for designs finds -/

namespace Verif
open Graph

variable {eval : Graph → Heap → Except Err ℚ} {lib : Library}

/-! ### Values distributed from a list that is too short or too long -/

theorem setParam_same {h : Heap} {m : ModelId} {i : Nat} (hi : i < (h m).params.length) : setParam h m i ((h m).params[i]) = .ok h := by
  unfold setParam
  rw [if_pos hi]
  congr 1
  funext k
  by_cases hk : k = m
  · subst hk; simp
  · simp [hk]

theorem distribute_own_values : ∀ {ms : List ModelId} {is : List Nat} {h : Heap}, ms.length = is.length →
    (∀ s ∈ ms.zip is, s.2 < (h s.1).params.length) → ∃ ps : List ℚ, ps.length = ms.length ∧ distribute h ps ms is = .ok h
  | [], is, h, _, _ => ⟨[], rfl, by simp [distribute]⟩
  | m :: ms, [], h, hl, _ => by simp at hl
  | m :: ms, i :: is, h, hl, hv => by
    have hi : i < (h m).params.length := hv (m, i) (by simp)
    obtain ⟨ps, h1, h2⟩ := distribute_own_values (h := h) (by simpa using hl) (fun s hs => hv s (by simp [hs]))
    refine ⟨(h m).params[i] :: ps, by simp [h1], ?_⟩
    simp only [distribute, setParam_same hi]
    exact h2

theorem setParam_lengths {h h' : Heap} {m i x} (he : setParam h m i x = .ok h') (k : ModelId) : (h' k).params.length = (h k).params.length := by
  unfold setParam at he
  split at he
  · injection he with he
    subst he
    by_cases hk : k = m
    · subst hk; simp
    · simp [hk]
  · cases he

theorem distribute_fill : ∀ {x : List ℚ} {ms : List ModelId} {is : List Nat} {h h1 : Heap}, ms.length = is.length →
    (∀ s ∈ ms.zip is, s.2 < (h s.1).params.length) → distribute h x ms is = .ok h1 →
    ∃ ps : List ℚ, ps.length = ms.length ∧ ps.take x.length = x.take ms.length ∧ distribute h ps ms is = .ok h1
  | [], ms, is, h, h1, hl, hv, hd => by
    simp only [distribute] at hd
    injection hd with hd
    subst hd
    obtain ⟨ps, a, b⟩ := distribute_own_values hl hv
    exact ⟨ps, a, by simp, b⟩
  | x :: xs, [], is, h, h1, _, _, hd => by
    simp only [distribute] at hd
    injection hd with hd
    subst hd
    exact ⟨[], rfl, by simp, by simp [distribute]⟩
  | x :: xs, m :: ms, [], h, h1, hl, _, _ => by simp at hl
  | x :: xs, m :: ms, i :: is, h, h1, hl, hv, hd => by
    simp only [distribute] at hd
    cases hs : setParam h m i x with
    | error e => rw [hs] at hd; cases hd
    | ok h2 =>
      rw [hs] at hd
      simp only at hd
      obtain ⟨ps, a, b, c⟩ := distribute_fill (by simpa using hl)
        (fun s hsm => by rw [setParam_lengths hs]; exact hv s (by simp [hsm])) hd
      refine ⟨x :: ps, by simp [a], by simp [b], ?_⟩
      simp only [distribute, hs]
      exact c

/-! ### What the operations of the search leave alone -/

/-- Every graph object has the same objective function. -/
def AllFunc (c : Closure) (w : Process) : Prop := ∀ (k : Nat) (o : GObj), w.objs[k]? = some o → o.func = some c

theorem allFunc_exec {c : Closure} {w : Process} (h : AllFunc c w) {op : POp} (hop : ∀ i, op ≠ .init i) : AllFunc c (exec eval lib op w).1 := by
  intro k o hk
  by_cases hlt : k < w.objs.length
  · obtain ⟨o0, ho0⟩ : ∃ o0, w.objs[k]? = some o0 := ⟨_, List.getElem?_eq_getElem hlt⟩
    obtain ⟨o', a, b⟩ := func_kept (eval := eval) (lib := lib) (op := op) ho0 (by cases op <;> first | trivial | exact fun _ => hop _ rfl)
    rw [a] at hk
    obtain rfl := Option.some.inj hk
    rw [b]; exact h k o0 ho0
  · cases op with
    | init i => exact absurd rfl (hop i)
    | copy i =>
      cases ho : w.objs[i]? with
      | none =>
        unfold exec at hk
        simp only [POp.target, ho] at hk
        exact h k o hk
      | some oi =>
        rw [exec_copy ho] at hk
        simp only at hk
        rw [List.getElem?_append_right (by omega)] at hk
        obtain ⟨hz, hz'⟩ := List.getElem?_eq_some_iff.1 hk
        have : k - w.objs.length = 0 := by simpa using hz
        simp only [this, List.getElem_cons_zero] at hz'
        rw [← hz']
        exact h i oi ho
    | evolve i eop loc d pe pn =>
      exfalso
      have := (List.getElem?_eq_some_iff.1 hk).1
      unfold exec at this
      simp only [POp.target] at this
      split at this
      · exact hlt this
      · split at this
        · exact hlt this
        · simp at this; exact hlt this
    | alter i f =>
      exfalso
      have := (List.getElem?_eq_some_iff.1 hk).1
      unfold exec at this
      simp only [POp.target] at this
      split at this <;> exact hlt this
    | call i x =>
      exfalso
      have := (List.getElem?_eq_some_iff.1 hk).1
      unfold exec at this
      simp only [POp.target] at this
      split at this
      · exact hlt this
      · split at this
        · exact hlt this
        · split at this
          · exact hlt this
          · split at this <;> exact hlt this

/-- Graph object `b` and its components stay as they are. -/
theorem exec_other {c : Closure} {w : Process} (hsep : Separate w) (hf : AllFunc c w) {b : Nat} {ob : GObj} (hb : w.objs[b]? = some ob) (hc : c.self ≠ b)
    {op : POp} (hop : op.Leaves b) (hni : ∀ i, op ≠ .init i) :
    (exec eval lib op w).1.objs[b]? = some ob ∧ ∀ m ∈ getModels ob.graph, (exec eval lib op w).1.heap m = w.heap m := by
  have hused : ∀ m : Nat, m ∈ getModels ob.graph → m < w.next := hsep.used b ob hb
  have hblt : b < w.objs.length := (List.getElem?_eq_some_iff.1 hb).1
  unfold exec
  cases ho : w.objs[op.target]? with
  | none => exact ⟨hb, fun _ _ => rfl⟩
  | some o =>
    cases op with
    | init i => exact absurd rfl (hni i)
    | copy i =>
      simp only
      refine ⟨by rw [List.getElem?_append_left hblt]; exact hb, fun m hm => ?_⟩
      rw [if_neg (Nat.not_le.2 (hused m hm))]
    | evolve i eop loc d pe pn =>
      simp only
      split
      · exact ⟨hb, fun _ _ => rfl⟩
      · refine ⟨by simp only; rw [List.getElem?_set_ne hop]; exact hb, fun m hm => ?_⟩
        have := hused m hm
        have h1 : m ≠ w.next := fun e => by rw [e] at this; exact lt_irrefl _ this
        have h2 : m ≠ w.next + 1 := fun e => by rw [e] at this; omega
        simp [h1, h2]
    | alter i f =>
      simp only
      refine ⟨hb, fun m hm => if_neg (fun hmi => ?_)⟩
      exact hop (hsep.disjoint i b o ob ho hb m hmi hm)
    | call i x =>
      simp only
      split
      · exact ⟨hb, fun _ _ => rfl⟩
      · rename_i c' hc'
        split
        · exact ⟨hb, fun _ _ => rfl⟩
        · split
          · exact ⟨hb, fun _ _ => rfl⟩
          · rename_i h' hd
            refine ⟨hb, fun m hm => distribute_frame hd m (fun hmc => ?_)⟩
            have h1 := hf i o ho
            rw [hc'] at h1
            obtain rfl := Option.some.inj h1
            exact hc (((hsep.funcs i o c' ho hc').2 m hmc).2 b ob hb hm).symm

theorem execAll_append (a b : List POp) (w : Process) : execAll eval lib (a ++ b) w = execAll eval lib b (execAll eval lib a w) := by
  induction a generalizing w with
  | nil => rfl
  | cons x a ih => exact ih _

theorem allFunc_execAll {c : Closure} : ∀ (ops : List POp) {w : Process}, AllFunc c w → (∀ op ∈ ops, ∀ i, op ≠ .init i) → AllFunc c (execAll eval lib ops w)
  | [], _, h, _ => h
  | op :: ops, _, h, hops => allFunc_execAll ops (allFunc_exec h (hops op (by simp))) (fun x hx => hops x (by simp [hx]))

theorem execAll_other {c : Closure} {b : Nat} {ob : GObj} (hc : c.self ≠ b) : ∀ (ops : List POp) {w : Process}, Separate w → AllFunc c w → w.objs[b]? = some ob →
    (∀ op ∈ ops, op.Leaves b ∧ ∀ i, op ≠ .init i) →
    (execAll eval lib ops w).objs[b]? = some ob ∧ ∀ m ∈ getModels ob.graph, (execAll eval lib ops w).heap m = w.heap m
  | [], _, _, _, hb, _ => ⟨hb, fun _ _ => rfl⟩
  | op :: ops, w, hs, hf, hb, hops => by
    obtain ⟨h1, h2⟩ := hops op (by simp)
    obtain ⟨a1, a2⟩ := exec_other (eval := eval) (lib := lib) hs hf hb hc h1 h2
    obtain ⟨b1, b2⟩ := execAll_other hc ops (separate_exec hs op) (allFunc_exec hf h2) a1 (fun x hx => hops x (by simp [hx]))
    exact ⟨b1, fun m hm => (b2 m hm).trans (a2 m hm)⟩

/-! ### One turn as operations -/

/-- Operations a turn on object `j` consists of, up to the last call. -/
def POp.OnlyOn (j : GraphId) : POp → Prop
  | .evolve k _ _ _ _ _ => k = j
  | .alter k _ => k = j
  | .call k _ => k = j
  | _ => False

theorem POp.OnlyOn.leaves {j b : Nat} {op : POp} (h : op.OnlyOn j) (hb : b ≠ j) : op.Leaves b := by
  cases op with
  | init k => exact h.elim
  | copy k => exact h.elim
  | evolve k a1 a2 a3 a4 a5 => intro e; exact hb (e ▸ h)
  | alter k f => intro e; exact hb (e ▸ h)
  | call k x => trivial

theorem POp.OnlyOn.noInit {j : Nat} {op : POp} (h : op.OnlyOn j) (i : Nat) : op ≠ .init i := by
  rintro rfl; exact h

theorem onlyOn_length {j : Nat} : ∀ (ops : List POp) {w : Process}, (∀ op ∈ ops, op.OnlyOn j) → (execAll eval lib ops w).objs.length = w.objs.length
  | [], _, _ => rfl
  | op :: ops, w, hops => by
    have h := onlyOn_length ops (w := (exec eval lib op w).1) (fun x hx => hops x (by simp [hx]))
    simp only [execAll]
    rw [h]
    have ho := hops op (by simp)
    unfold exec
    cases op with
    | init k => exact ho.elim
    | copy k => exact ho.elim
    | evolve k a1 a2 a3 a4 a5 =>
      simp only [POp.target]
      split
      · rfl
      · split
        · rfl
        · simp
    | alter k f =>
      simp only [POp.target]
      split <;> rfl
    | call k x =>
      simp only [POp.target]
      split
      · rfl
      · split
        · rfl
        · split
          · rfl
          · split <;> rfl

theorem callEach_ok {j : Nat} : ∀ {ys : List (List ℚ)} {w w' : Process}, callEach eval lib j ys w = .ok w' → w' = execAll eval lib (ys.map (.call j)) w
  | [], w, w', h => by
    simp only [callEach] at h
    injection h with h
    exact h.symm
  | y :: ys, w, w', h => by
    simp only [callEach] at h
    split at h
    · cases h
    · rename_i w1 v hx
      have := callEach_ok h
      simp only [List.map_cons, execAll, hx]
      exact this

theorem callEach_objs {j : Nat} (ys : List (List ℚ)) : ∀ (w : Process), (execAll eval lib (ys.map (.call j)) w).objs = w.objs := by
  induction ys with
  | nil => intro w; rfl
  | cons y ys ih =>
    intro w
    simp only [List.map_cons, execAll]
    rw [ih]
    unfold exec
    simp only [POp.target]
    split
    · rfl
    · split
      · rfl
      · split
        · rfl
        · split <;> rfl

theorem searchOptimize_ok {j : Nat} {r : SearchDraw} {w w' : Process} {s : ℚ} (h : searchOptimize eval lib j r w = .ok (w', s)) :
    ∃ ops : List POp, (∀ op ∈ ops, op.OnlyOn j) ∧ exec eval lib (.call j r.x) (execAll eval lib ops w) = (w', .ok (some s)) := by
  unfold searchOptimize at h
  cases ho : w.objs[j]? with
  | none => rw [ho] at h; cases h
  | some o =>
    rw [ho] at h
    simp only at h
    cases he : extract [] o.graph w.heap with
    | error e => rw [he] at h; cases h
    | ok ex =>
      rw [he] at h
      simp only at h
      split at h
      · cases h
      · split at h
        · cases h
        · rename_i w1 hc
          split at h
          · cases h
          · rename_i h2 hd
            split at h
            · rename_i w3 s' hx
              injection h with h
              injection h with ha hb
              subst ha; subst hb
              have hw1 := callEach_ok hc
              have hob : w1.objs[j]? = some o := by rw [hw1, callEach_objs]; exact ho
              have halt : ({ w1 with heap := h2 } : Process) = (exec eval lib (.alter j (fun m _ => h2 m)) w1).1 := by
                unfold exec
                simp only [POp.target, hob]
                congr 1
                funext m
                by_cases hm : m ∈ getModels o.graph
                · simp [hm]
                · simp only [hm, if_false]
                  exact distribute_frame hd m (fun hc => hm (extract_models_sub he m hc))
              refine ⟨(if ex.models.length = 0 then [] else r.ys).map (POp.call j) ++ [.alter j (fun m _ => h2 m)], ?_, ?_⟩
              · intro op hop
                rcases List.mem_append.1 hop with hop | hop
                · obtain ⟨y, _, rfl⟩ := List.mem_map.1 hop; rfl
                · rw [List.mem_singleton.1 hop]; rfl
              · rw [execAll_append, ← hw1]
                simp only [execAll]
                rw [← halt]
                exact hx
            · cases h
            · cases h

/-! ### The invariant of the search -/

/-- What is known about the score of one turn: it is the score of the start design `g`, its free parameters set to a vector that begins with what the optimiser found. -/
def ScoresStart (eval : Graph → Heap → Except Err ℚ) (g : Graph) (h : Heap) (n : Nat) (x : List ℚ) (s : ℚ) : Prop :=
  ∃ ps h', ps.length = n ∧ ps.take x.length = x.take n ∧ SetTo g h ps h' ∧ eval g h' = .ok s

structure SearchInv (eval : Graph → Heap → Except Err ℚ) (g : Graph) (ex : Extracted) (h : Heap) (xs : List (List ℚ)) (st : SearchSt) : Prop where
  kept : Kept 0 g ⟨0, ex.models, ex.index⟩ h st.w
  funcs : AllFunc ⟨0, ex.models, ex.index⟩ st.w
  low : st.loss ≤ 0
  least : ∀ t ∈ st.tried, st.loss ≤ t.score
  none_ : st.best = none → st.loss = 0
  len : st.tried.length = xs.length
  score : ∀ (k : Nat) t, st.tried[k]? = some t → ∃ x, xs[k]? = some x ∧ ScoresStart eval g h ex.models.length x t.score
  best : ∀ b, st.best = some b → b ≠ 0 ∧ ∃ (k : Nat) (t : TriedDesign) (ob : GObj) (f : ModelId → ModelId), st.tried[k]? = some t ∧ t.score = st.loss ∧ st.loss < 0 ∧
    (∀ (k' : Nat) t', k' < k → st.tried[k']? = some t' → st.loss < t'.score) ∧ st.w.objs[b]? = some ob ∧ ob.graph = renameComps f t.graph ∧
    (getModels ob.graph).map st.w.heap = t.comps

theorem copy_comps {w : Process} {j : Nat} {o : GObj} (ho : w.objs[j]? = some o) :
    (exec eval lib (.copy j) w).1.objs[w.objs.length]? = some { o with graph := renameComps (fun u => w.next + u) o.graph } ∧
    (getModels (renameComps (fun u => w.next + u) o.graph)).map (exec eval lib (.copy j) w).1.heap = (getModels o.graph).map w.heap := by
  rw [exec_copy ho]
  refine ⟨by simp, ?_⟩
  rw [models_rename, List.map_map]
  apply List.map_congr_left
  intro m _
  simp

theorem scores_start (hev : OwnHeap eval) {g : Graph} {h : Heap} {ex : Extracted} (hpp : ParamsPresent g h) (hn : (componentsOf g).Nodup)
    (he : extract [] g h = .ok ex) {W W' : Process} (hk : Kept 0 g ⟨0, ex.models, ex.index⟩ h W) (hf : AllFunc ⟨0, ex.models, ex.index⟩ W) {j : Nat} {x : List ℚ} {s : ℚ}
    (hx : exec eval lib (.call j x) W = (W', .ok (some s))) : ScoresStart eval g h ex.models.length x s := by
  cases ho : W.objs[j]? with
  | none =>
    unfold exec at hx
    simp only [POp.target, ho] at hx
    injection hx with _ hx; cases hx
  | some o =>
    have h1 := exec_call (eval := eval) (lib := lib) (x := x) ho (hf j o ho) hk.obj
    obtain ⟨h', hp', d1, d2, d3, d4, d5⟩ := kept_call hpp he hk.heap x
    simp only [d1] at h1
    rw [h1] at hx
    injection hx with _ hx
    have hsc : eval g h' = .ok s := by
      cases hg : eval g h' with
      | error e => rw [hg] at hx; cases hx
      | ok v =>
        rw [hg] at hx
        have : some v = some s := by simpa [Except.map] using hx
        rw [Option.some.inj this]
    rw [hev g h' hp' d4] at hsc
    have hl : ex.models.length = ex.index.length := by
      obtain ⟨_, rfl⟩ := extract_eq he
      simp
    have hv : ∀ s ∈ ex.models.zip ex.index, s.2 < ((fun m => if m ∈ getModels g then W.heap m else h m) s.1).params.length := by
      intro s hs
      rw [hk.heap.length]
      obtain ⟨_, rfl⟩ := extract_eq he
      simp only [List.zip_map'] at hs
      obtain ⟨u, hu, rfl⟩ := List.mem_map.1 hs
      exact params_slots hpp u hu
    obtain ⟨ps, p1, p2, p3⟩ := distribute_fill hl hv d2
    obtain ⟨h'', q1, q2⟩ := setTo_of hpp hn he hk.heap p1
    rw [p3] at q1
    injection q1 with q1
    subst q1
    exact ⟨ps, hp', p1, p2, q2, hsc⟩

theorem searchStep_inv (hev : OwnHeap eval) {g : Graph} {h : Heap} {ex : Extracted} (hpp : ParamsPresent g h) (hn : (componentsOf g).Nodup)
    (he : extract [] g h = .ok ex) {xs : List (List ℚ)} {st st' : SearchSt} {j : Nat} (hj : j ≠ 0) (hjb : st.best ≠ some j) {r : SearchDraw}
    (hi : SearchInv eval g ex h xs st) (hs : searchStep eval lib j r st = .ok st') :
    SearchInv eval g ex h (xs ++ [r.x]) st' ∧ (j < st.w.objs.length → st'.best ≠ some j) ∧ (st.w.objs.length ≤ st'.w.objs.length ∧ j < st.w.objs.length) := by
  unfold searchStep at hs
  split at hs
  · cases hs
  · rename_i w1 v hx1
    split at hs
    · cases hs
    · rename_i w2 s hopt
      obtain ⟨ops, hops, hcall⟩ := searchOptimize_ok hopt
      let all : List POp := .evolve j r.op r.loc r.d r.pe r.pn :: .alter j r.upd :: ops
      have hall : ∀ op ∈ all, op.OnlyOn j := by
        intro op hop
        rcases List.mem_cons.1 hop with rfl | hop
        · rfl
        · rcases List.mem_cons.1 hop with rfl | hop
          · rfl
          · exact hops op hop
      have hW : execAll eval lib ops (exec eval lib (.alter j r.upd) w1).1 = execAll eval lib all st.w := by
        simp only [all, execAll, hx1]
      rw [hW] at hcall
      have hkW : Kept 0 g ⟨0, ex.models, ex.index⟩ h (execAll eval lib all st.w) :=
        kept_execAll hpp he all hi.kept (fun op hop => (hall op hop).leaves (Ne.symm hj))
      have hfW : AllFunc ⟨0, ex.models, ex.index⟩ (execAll eval lib all st.w) := allFunc_execAll all hi.funcs (fun op hop => (hall op hop).noInit)
      have hsc := scores_start hev hpp hn he hkW hfW hcall
      let all2 : List POp := all ++ [.call j r.x]
      have hall2 : ∀ op ∈ all2, op.OnlyOn j := by
        intro op hop
        rcases List.mem_append.1 hop with hop | hop
        · exact hall op hop
        · rw [List.mem_singleton.1 hop]; rfl
      have hw2 : w2 = execAll eval lib all2 st.w := by
        simp only [all2, execAll_append, execAll, hcall]
      have hk2 : Kept 0 g ⟨0, ex.models, ex.index⟩ h w2 := by
        rw [hw2]; exact kept_execAll hpp he all2 hi.kept (fun op hop => (hall2 op hop).leaves (Ne.symm hj))
      have hf2 : AllFunc ⟨0, ex.models, ex.index⟩ w2 := by rw [hw2]; exact allFunc_execAll all2 hi.funcs (fun op hop => (hall2 op hop).noInit)
      have hkeep : ∀ (b : Nat) (ob : GObj), b ≠ 0 → b ≠ j → st.w.objs[b]? = some ob →
          w2.objs[b]? = some ob ∧ ∀ m ∈ getModels ob.graph, w2.heap m = st.w.heap m := by
        intro b ob hb0 hbj hob
        rw [hw2]
        exact execAll_other (c := ⟨0, ex.models, ex.index⟩) (Ne.symm hb0) all2 hi.kept.sep hi.funcs hob
          (fun op hop => ⟨(hall2 op hop).leaves hbj, (hall2 op hop).noInit⟩)
      have hlen : w2.objs.length = st.w.objs.length := by
        rw [hw2]; exact onlyOn_length all2 hall2
      have hjl : j < st.w.objs.length := by
        by_contra hc
        unfold exec at hx1
        simp only [POp.target, List.getElem?_eq_none (Nat.not_lt.1 hc)] at hx1
        injection hx1 with _ hx1; cases hx1
      split at hs
      · cases hs
      · rename_i o ho
        have hlen1 : (st.tried ++ [(⟨o.graph, (getModels o.graph).map w2.heap, s⟩ : TriedDesign)]).length = (xs ++ [r.x]).length := by
          simp [hi.len]
        have hscore : ∀ (k : Nat) t, (st.tried ++ [(⟨o.graph, (getModels o.graph).map w2.heap, s⟩ : TriedDesign)])[k]? = some t →
            ∃ x, (xs ++ [r.x])[k]? = some x ∧ ScoresStart eval g h ex.models.length x t.score := by
          intro k t hk
          by_cases hkl : k < st.tried.length
          · rw [List.getElem?_append_left hkl] at hk
            obtain ⟨x, a, b⟩ := hi.score k t hk
            exact ⟨x, by rw [List.getElem?_append_left (by rw [← hi.len]; exact hkl)]; exact a, b⟩
          · have hkk := (List.getElem?_eq_some_iff.1 hk).1
            simp only [List.length_append, List.length_singleton] at hkk
            have hke : k = st.tried.length := by omega
            subst hke
            rw [List.getElem?_append_right (le_refl _)] at hk
            simp only [Nat.sub_self, List.getElem?_cons_zero, Option.some.injEq] at hk
            subst hk
            exact ⟨r.x, by rw [hi.len, List.getElem?_append_right (le_refl _)]; simp, hsc⟩
        split at hs
        · rename_i hlt
          injection hs with hs
          subst hs
          obtain ⟨c1, c2⟩ := copy_comps (eval := eval) (lib := lib) ho
          refine ⟨⟨kept_exec hpp he hk2 trivial, allFunc_exec hf2 (by intro i hc; cases hc), le_of_lt (lt_of_lt_of_le hlt hi.low), ?_, by simp, hlen1, hscore, ?_⟩, ?_, ?_⟩
          · intro t ht
            rcases List.mem_append.1 ht with ht | ht
            · exact le_of_lt (lt_of_lt_of_le hlt (hi.least t ht))
            · rw [List.mem_singleton.1 ht]
          · intro b hb
            obtain rfl := Option.some.inj hb
            have hb0 : w2.objs.length ≠ 0 := by rw [hlen]; exact Nat.ne_of_gt (Nat.lt_of_le_of_lt (Nat.zero_le _) hjl)
            refine ⟨hb0, st.tried.length, ⟨o.graph, (getModels o.graph).map w2.heap, s⟩, _, _, by simp, rfl, lt_of_lt_of_le hlt hi.low, ?_, c1, rfl, c2⟩
            intro k' t' hk' ht'
            rw [List.getElem?_append_left hk'] at ht'
            exact lt_of_lt_of_le hlt (hi.least t' (List.mem_of_getElem? ht'))
          · intro _ hb
            have hbj : w2.objs.length = j := Option.some.inj hb
            rw [hlen] at hbj
            exact absurd hjl (by rw [hbj]; exact lt_irrefl _)
          · refine ⟨?_, hjl⟩
            rw [exec_copy ho]
            simp only [List.length_append, List.length_singleton]
            rw [hlen]
            exact Nat.le_succ _
        · rename_i hge
          injection hs with hs
          subst hs
          refine ⟨⟨hk2, hf2, hi.low, ?_, hi.none_, hlen1, hscore, ?_⟩, fun _ => hjb, le_of_eq hlen.symm, hjl⟩
          · intro t ht
            rcases List.mem_append.1 ht with ht | ht
            · exact hi.least t ht
            · rw [List.mem_singleton.1 ht]; exact not_lt.1 hge
          · intro b hb
            obtain ⟨b0, k, t, ob, f, k1, k2, k3, k4, k5, k6, k7⟩ := hi.best b hb
            have hbj : b ≠ j := fun e => hjb (by rw [← e]; exact hb)
            obtain ⟨m1, m2⟩ := hkeep b ob b0 hbj k5
            have hkl := (List.getElem?_eq_some_iff.1 k1).1
            refine ⟨b0, k, t, ob, f, by rw [List.getElem?_append_left hkl]; exact k1, k2, k3, ?_, m1, k6, ?_⟩
            · intro k' t' hk' ht'
              rw [List.getElem?_append_left (by omega)] at ht'
              exact k4 k' t' hk' ht'
            · rw [← k7]
              exact List.map_congr_left (fun m hm => m2 m hm)

theorem searchWalk_inv (hev : OwnHeap eval) {g : Graph} {h : Heap} {ex : Extracted} (hpp : ParamsPresent g h) (hn : (componentsOf g).Nodup)
    (he : extract [] g h = .ok ex) {j : Nat} (hj : j ≠ 0) : ∀ {rs : List SearchDraw} {xs : List (List ℚ)} {st st' : SearchSt}, st.best ≠ some j →
    SearchInv eval g ex h xs st → searchWalk eval lib j rs st = .ok st' → SearchInv eval g ex h (xs ++ rs.map (·.x)) st' ∧ st.w.objs.length ≤ st'.w.objs.length
  | [], xs, st, st', _, hi, hs => by
    simp only [searchWalk] at hs
    injection hs with hs
    subst hs
    exact ⟨by simpa using hi, le_refl _⟩
  | r :: rs, xs, st, st', hb, hi, hs => by
    simp only [searchWalk] at hs
    split at hs
    · cases hs
    · rename_i st1 h1
      obtain ⟨a, b, c, d⟩ := searchStep_inv hev hpp hn he hj hb hi h1
      obtain ⟨a2, c2⟩ := searchWalk_inv hev hpp hn he hj (b d) a hs
      refine ⟨by simpa using a2, le_trans c c2⟩

theorem searchInv_copy {g : Graph} {h : Heap} {ex : Extracted} (hpp : ParamsPresent g h)
    (he : extract [] g h = .ok ex) {xs : List (List ℚ)} {st : SearchSt} (hi : SearchInv eval g ex h xs st) (i : Nat) :
    SearchInv eval g ex h xs { st with w := (exec eval lib (.copy i) st.w).1 } := by
  refine ⟨kept_exec hpp he hi.kept trivial, allFunc_exec hi.funcs (by intro i hc; cases hc), hi.low, hi.least, hi.none_, hi.len, hi.score, ?_⟩
  intro b hb
  obtain ⟨b0, k, t, ob, f, k1, k2, k3, k4, k5, k6, k7⟩ := hi.best b hb
  obtain ⟨m1, m2⟩ := exec_other (eval := eval) (lib := lib) hi.kept.sep hi.funcs k5 (Ne.symm b0) (op := .copy i) trivial (by intro i hc; cases hc)
  refine ⟨b0, k, t, ob, f, k1, k2, k3, k4, m1, k6, ?_⟩
  rw [← k7]
  exact List.map_congr_left (fun m hm => m2 m hm)

theorem searchRounds_inv (hev : OwnHeap eval) {g : Graph} {h : Heap} {ex : Extracted} (hpp : ParamsPresent g h) (hn : (componentsOf g).Nodup)
    (he : extract [] g h = .ok ex) : ∀ {rounds : List (List SearchDraw)} {xs : List (List ℚ)} {st st' : SearchSt},
    SearchInv eval g ex h xs st → searchRounds eval lib rounds st = .ok st' → SearchInv eval g ex h (xs ++ rounds.flatten.map (·.x)) st'
  | [], xs, st, st', hi, hs => by
    simp only [searchRounds] at hs
    injection hs with hs
    subst hs
    simpa using hi
  | rs :: rounds, xs, st, st', hi, hs => by
    simp only [searchRounds] at hs
    split at hs
    · cases hs
    · rename_i st1 h1
      have hl0 : 0 < st.w.objs.length := (List.getElem?_eq_some_iff.1 hi.kept.obj).1
      have hb : st.best ≠ some st.w.objs.length := by
        intro hc
        obtain ⟨_, _, _, _, _, _, _, _, _, k5, _⟩ := hi.best _ hc
        exact lt_irrefl _ (List.getElem?_eq_some_iff.1 k5).1
      obtain ⟨a, _⟩ := searchWalk_inv hev hpp hn he (Nat.ne_of_gt hl0) (by exact hb) (searchInv_copy (lib := lib) hpp he hi 1) h1
      have := searchRounds_inv hev hpp hn he a hs
      simpa using this

theorem runSearch_inv (hev : OwnHeap eval) {w : Process} (hsep : Separate w) {g : Graph} {f0 : Option Closure} (hw : w.objs = [⟨g, f0⟩])
    (hpp : ParamsPresent g w.heap) (hn : (componentsOf g).Nodup) {rounds : List (List SearchDraw)} {st : SearchSt}
    (hr : runSearch eval lib rounds w = .ok st) :
    ∃ ex, extract [] g w.heap = .ok ex ∧ SearchInv eval g ex w.heap (rounds.flatten.map (·.x)) st := by
  obtain ⟨ex, he⟩ : ∃ ex, extract [] g w.heap = .ok ex := ⟨_, extract_ok (by intro a ha; simp at ha)⟩
  refine ⟨ex, he, ?_⟩
  have h0 : w.objs[0]? = some ⟨g, f0⟩ := by rw [hw]; rfl
  have hx : exec eval lib (.init 0) w = ({ w with objs := [⟨g, some ⟨0, ex.models, ex.index⟩⟩] }, .ok none) := by
    unfold exec
    simp only [POp.target, h0, he]
    rw [hw]
    rfl
  unfold runSearch at hr
  rw [hx] at hr
  simp only at hr
  have hsep1 := separate_exec (eval := eval) (lib := lib) hsep (.init 0)
  rw [hx] at hsep1
  have hf1 : AllFunc ⟨0, ex.models, ex.index⟩ ({ w with objs := [⟨g, some ⟨0, ex.models, ex.index⟩⟩] } : Process) := by
    intro k o hk
    match k, hk with
    | 0, hk => rw [← Option.some.inj hk]
    | k + 1, hk => simp at hk
  have hk1 : Kept 0 g ⟨0, ex.models, ex.index⟩ w.heap ({ w with objs := [⟨g, some ⟨0, ex.models, ex.index⟩⟩] } : Process) := by
    refine ⟨hsep1, rfl, ?_, ?_⟩
    · intro k o c hk hc _
      have := hf1 k o hk
      rw [hc] at this
      exact Option.some.inj this
    · have : (fun m => if m ∈ getModels g then w.heap m else w.heap m) = w.heap := by funext m; simp
      simp only
      rw [this]
      exact SameLocked.refl _ _
  have hi : SearchInv eval g ex w.heap [] ⟨({ w with objs := [⟨g, some ⟨0, ex.models, ex.index⟩⟩] } : Process), 0, none, []⟩ :=
    ⟨hk1, hf1, le_refl _, by simp, fun _ => rfl, rfl, by simp, by intro b hb; cases hb⟩
  have := searchRounds_inv hev hpp hn he (searchInv_copy (lib := lib) hpp he hi 0) hr
  simpa using this

/-! ### The property -/

/-- **C116.** What a search that ends reports: `loss` is not above zero nor above any of the scores, one for each turn of the loops; no design is reported exactly if no score is
below zero; the design reported, otherwise, is a copy of the first one that got the score `loss`, components as they were when it was scored. -/
theorem C116_reports (hev : OwnHeap eval) {w : Process} (hsep : Separate w) {g : Graph} {f0 : Option Closure} (hw : w.objs = [⟨g, f0⟩])
    (hpp : ParamsPresent g w.heap) (hn : (componentsOf g).Nodup) {rounds : List (List SearchDraw)} {st : SearchSt}
    (hr : runSearch eval lib rounds w = .ok st) :
    st.tried.length = rounds.flatten.length ∧ st.loss ≤ 0 ∧ (∀ t ∈ st.tried, st.loss ≤ t.score) ∧
    (st.best = none ↔ ∀ t ∈ st.tried, 0 ≤ t.score) ∧ (st.best = none → st.loss = 0) ∧
    ∀ b, st.best = some b → ∃ (k : Nat) (t : TriedDesign) (ob : GObj) (f : ModelId → ModelId), st.tried[k]? = some t ∧ t.score = st.loss ∧
      (∀ (k' : Nat) t', k' < k → st.tried[k']? = some t' → st.loss < t'.score) ∧
      st.w.objs[b]? = some ob ∧ ob.graph = renameComps f t.graph ∧ (componentsOf ob.graph).map st.w.heap = t.comps := by
  obtain ⟨ex, he, hi⟩ := runSearch_inv hev hsep hw hpp hn hr
  refine ⟨by rw [hi.len, List.length_map], hi.low, hi.least, ⟨?_, ?_⟩, hi.none_, ?_⟩
  · intro hb t ht
    rw [← hi.none_ hb]; exact hi.least t ht
  · intro hall
    cases hb : st.best with
    | none => rfl
    | some b =>
      obtain ⟨_, k, t, ob, f, k1, k2, k3, _⟩ := hi.best b hb
      have := hall t (List.mem_of_getElem? k1)
      rw [k2] at this
      exact absurd k3 (not_lt.2 this)
  · intro b hb
    obtain ⟨_, k, t, ob, f, k1, k2, _, k4, k5, k6, k7⟩ := hi.best b hb
    exact ⟨k, t, ob, f, k1, k2, k4, k5, k6, k7⟩

/-- **C116.** Finding: every score is a score of the start design.  In turn `k` the function called is that of the start design, with its free parameters set to the first entries
of the vector found for the evolved design (all of them, if that vector is long enough), whatever the design evolved to. -/
theorem C116_scores_start (hev : OwnHeap eval) {w : Process} (hsep : Separate w) {g : Graph} {f0 : Option Closure} (hw : w.objs = [⟨g, f0⟩])
    (hpp : ParamsPresent g w.heap) (hn : (componentsOf g).Nodup) {rounds : List (List SearchDraw)} {st : SearchSt}
    (hr : runSearch eval lib rounds w = .ok st) {k : Nat} {r : SearchDraw} (hk : rounds.flatten[k]? = some r) :
    ∃ ex t ps h', extract [] g w.heap = .ok ex ∧ st.tried[k]? = some t ∧ ps.length = ex.models.length ∧ ps.take r.x.length = r.x.take ex.models.length ∧
      (ex.models.length ≤ r.x.length → ps = r.x.take ex.models.length) ∧ SetTo g w.heap ps h' ∧ eval g h' = .ok t.score := by
  obtain ⟨ex, he, hi⟩ := runSearch_inv hev hsep hw hpp hn hr
  have hkl := (List.getElem?_eq_some_iff.1 hk).1
  have hlt : k < st.tried.length := by rw [hi.len, List.length_map]; exact hkl
  obtain ⟨x, hx, ps, h', p1, p2, p3, p4⟩ := hi.score k _ (List.getElem?_eq_getElem hlt)
  rw [List.getElem?_map, hk] at hx
  obtain rfl := Option.some.inj hx
  refine ⟨ex, _, ps, h', he, List.getElem?_eq_getElem hlt, p1, p2, fun hle => ?_, p3, p4⟩
  rw [← p2, List.take_of_length_le (by rw [p1]; exact hle)]

/-- **C116.** So the search cannot report anything better than the start design can do: a bound for the score of the start design at all parameters is a bound for `loss`
(or zero is). -/
theorem C116_no_better (hev : OwnHeap eval) {w : Process} (hsep : Separate w) {g : Graph} {f0 : Option Closure} (hw : w.objs = [⟨g, f0⟩])
    (hpp : ParamsPresent g w.heap) (hn : (componentsOf g).Nodup) {rounds : List (List SearchDraw)} {st : SearchSt}
    (hr : runSearch eval lib rounds w = .ok st) {b : ℚ} (hb : ∀ ps h' s, SetTo g w.heap ps h' → eval g h' = .ok s → b ≤ s) : min 0 b ≤ st.loss := by
  obtain ⟨ex, he, hi⟩ := runSearch_inv hev hsep hw hpp hn hr
  cases hbest : st.best with
  | none => rw [hi.none_ hbest]; exact min_le_left _ _
  | some i =>
    obtain ⟨_, k, t, _, _, k1, k2, _⟩ := hi.best i hbest
    obtain ⟨x, _, ps, h', _, _, p3, p4⟩ := hi.score k t k1
    rw [← k2]
    exact le_trans (min_le_right _ _) (hb ps h' _ p3 p4)

/-! ### A case -/

namespace SearchCase
open Func

/-- The line of the fixture grows by a component; the optimiser ends at `x`. -/
def turn (x : List ℚ) (n : Nat) : SearchDraw :=
  ⟨.addSeries, .iface ⟨2, ⟨1, 2, 0⟩⟩, ⟨n, Fixture.fiber 0, Fixture.split 0⟩, ⟨[50], [0], [100], [.float], [none], [false], false⟩, ⟨[], [], [], [], [], [], false⟩,
    fun _ p => p, [[1, 1, 1, 1]], x⟩

/-- Two walks of one turn. -/
def rounds : List (List SearchDraw) := [[turn [-1, -1, -1, 100] 9], [turn [1, 1, 1, -100] 9]]

/-- What is reported: `loss`, the scores, and what the design reported scores by itself. -/
def report (r : Except Err SearchSt) : Option (ℚ × List ℚ × Option (Option ℚ)) :=
  r.toOption.map (fun st => (st.loss, st.tried.map (·.score), (st.best.bind (fun b => st.w.objs[b]?)).map (fun o => (total o.graph st.w.heap).toOption)))

theorem reported : report (runSearch total Fixture.lib rounds w0) = some (-3, [-3, 3], some (some 97)) := by decide +kernel

theorem runs : ∃ st, runSearch total Fixture.lib rounds w0 = .ok st := by
  cases h : runSearch total Fixture.lib rounds w0 with
  | ok st => exact ⟨st, rfl⟩
  | error e => have := reported; rw [h] at this; simp [report, Except.toOption] at this

example : ∃ st, runSearch total Fixture.lib rounds w0 = .ok st ∧ st.tried.length = 2 ∧ ¬ ∀ t ∈ st.tried, 0 ≤ t.score := by
  obtain ⟨st, h⟩ := runs
  have := C116_reports total_own w0_sep rfl line_params (by decide) h
  refine ⟨st, h, this.1, fun hc => ?_⟩
  have h2 := reported
  rw [h] at h2
  simp only [report, Except.toOption, Option.map_some, Option.some.injEq, Prod.mk.injEq] at h2
  have h3 := this.2.2.2.2.1 (this.2.2.2.1.2 hc)
  rw [h2.1] at h3
  norm_num at h3

/-- Minus the number of edges: the start design scores -3, the evolved designs -4. -/
def minusEdges (g : Graph) (_ : Heap) : Except Err ℚ := .ok (-(g.edges.length : ℚ))

example : ∃ st, runSearch minusEdges Fixture.lib rounds w0 = .ok st ∧ min 0 (-3) ≤ st.loss := by
  have hrun : (runSearch minusEdges Fixture.lib rounds w0).toOption.map (·.loss) = some (-3) := by decide +kernel
  cases h : runSearch minusEdges Fixture.lib rounds w0 with
  | error e => rw [h] at hrun; simp [Except.toOption] at hrun
  | ok st =>
    refine ⟨st, rfl, C116_no_better (b := -3) (fun _ _ _ _ => rfl) w0_sep rfl line_params (by decide) h (fun ps h' s _ hs => ?_)⟩
    have : (-3 : ℚ) = s := by simpa [minusEdges, Fixture.line] using hs
    exact le_of_eq this

example : ∃ t ps h', ps.length = 3 ∧ ps = [(1 : ℚ), 1, 1] ∧ SetTo Fixture.line heap ps h' ∧ total Fixture.line h' = .ok (TriedDesign.score t) := by
  obtain ⟨st, h⟩ := runs
  obtain ⟨ex, t, ps, h', a, _, b, _, c, d, e⟩ := C116_scores_start total_own w0_sep rfl line_params (by decide) h (k := 1) rfl
  have hl := line_ex ex a
  rw [hl] at b c
  exact ⟨t, ps, h', b, c (by decide), d, e⟩

end SearchCase

/-- **C116.** Finding: the number reported need not be the score of the design reported (here -3 for a design that scores 97), and designs are passed over whose score is far below
it (the second design tried scores -97). -/
theorem C116_wrong_loss : ∃ (eval : Graph → Heap → Except Err ℚ) (w : Process) (rounds : List (List SearchDraw)) (st : SearchSt) (b : Nat) (ob : GObj), OwnHeap eval ∧ Separate w ∧
    runSearch eval Fixture.lib rounds w = .ok st ∧ st.best = some b ∧ st.w.objs[b]? = some ob ∧ st.loss = -3 ∧ eval ob.graph st.w.heap = .ok 97 ∧
    ∃ (k : Nat) (o : GObj), st.w.objs[k]? = some o ∧ eval o.graph st.w.heap = .ok (-97) := by
  obtain ⟨st, h⟩ := SearchCase.runs
  have h2 := SearchCase.reported
  have h3 : ((runSearch Func.total Fixture.lib SearchCase.rounds Func.w0).toOption.bind (fun st => st.w.objs[4]?.map (fun o => (Func.total o.graph st.w.heap).toOption))) =
      some (some (-97)) := by decide +kernel
  rw [h] at h2 h3
  simp only [SearchCase.report, Except.toOption, Option.map_some, Option.some.injEq, Prod.mk.injEq, Option.bind_some] at h2 h3
  obtain ⟨l1, -, l2⟩ := h2
  have key : ∀ {g : Graph} {hp : Heap} {v : ℚ}, (Func.total g hp).toOption = some v → Func.total g hp = .ok v := by
    intro g hp v hv
    unfold Func.total at hv ⊢
    simp only [Except.toOption, Option.some.injEq] at hv
    rw [hv]
  cases hb : st.best with
  | none => rw [hb] at l2; simp at l2
  | some b =>
    rw [hb] at l2
    simp only [Option.bind_some] at l2
    cases ho : st.w.objs[b]? with
    | none => rw [ho] at l2; simp at l2
    | some ob =>
      rw [ho] at l2
      simp only [Option.map_some, Option.some.injEq] at l2
      cases ho4 : st.w.objs[4]? with
      | none => rw [ho4] at h3; simp at h3
      | some o4 =>
        rw [ho4] at h3
        simp only [Option.map_some, Option.some.injEq] at h3
        exact ⟨Func.total, Func.w0, SearchCase.rounds, st, b, ob, Func.total_own, Func.w0_sep, h, hb, ho, l1, key l2, 4, o4, ho4, key h3⟩

end Verif
