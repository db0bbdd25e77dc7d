import Verif.Model.Propagate
import Mathlib.Order.Filter.Basic
/-!
# Runs of a family of systems

One topology, components that depend on a parameter.  When the run at `θ₀` succeeds, so do those "near" `θ₀` (along a filter), with states of a given kind as
functions of the parameter.
-/

namespace Verif
open Graph Filter

variable {E S : Type}

/-- Stored states as functions of the parameter. -/
abbrev FamStore (E S : Type) := Key → Option (E → S)

/-- The store at a parameter. -/
def FamStore.at (fs : FamStore E S) (θ : E) : Store S := fun k => (fs k).map (· θ)

/-- All stored functions are of kind `Q`. -/
def FamStore.All (Q : (E → S) → Prop) (fs : FamStore E S) : Prop := ∀ k s, fs k = some s → Q s

/-- A family of behaviours that takes functions of kind `Q` to functions of kind `Q`, on the components of `g`. -/
structure FamBehav (l : Filter E) (θ₀ : E) (Q : (E → S) → Prop) (g : Graph) (B : E → Behav S) : Prop where
  node : ∀ v ∈ g.nodes, ∀ (ss : List (E → S)) nIn nOut o, (∀ s ∈ ss, Q s) → (B θ₀).node v.comp (ss.map (· θ₀)) nIn nOut = .ok o →
    ∃ outs : List (E → S), (∀ s ∈ outs, Q s) ∧ ∀ᶠ θ in l, (B θ).node v.comp (ss.map (· θ)) nIn nOut = .ok (outs.map (· θ))
  edge : ∀ e ∈ g.edges, ∀ (s : E → S) o, Q s → (B θ₀).edge e.comp (s θ₀) = .ok o →
    ∃ s' : E → S, Q s' ∧ ∀ᶠ θ in l, (B θ).edge e.comp (s θ) = .ok (s' θ)
  noise : ∀ c, (∀ θ, (B θ).noise c = none) ∨ (∀ θ, (B θ).noise c = some .ok)

variable {l : Filter E} {θ₀ : E} {Q : (E → S) → Prop} {g : Graph} {B : E → Behav S}

theorem FamStore.put_at (fs : FamStore E S) (k : Key) (s : E → S) (θ : E) :
    FamStore.at (fun k' => if k' = k then some s else fs k') θ = (fs.at θ).put k (s θ) := by
  funext k'
  unfold FamStore.at Store.put
  by_cases h : k' = k <;> simp [h]

theorem FamStore.put_all {fs : FamStore E S} (h : fs.All Q) {k : Key} {s : E → S} (hs : Q s) :
    FamStore.All Q (fun k' => if k' = k then some s else fs k') := by
  intro k' s' h'
  dsimp only at h'
  split at h'
  · injection h' with h'; exact h' ▸ hs
  · exact h _ _ h'

/-- Collecting incoming states. -/
theorem fam_collect {fs : FamStore E S} (ha : fs.All Q) : ∀ (es : List Edge) {o : List S}, collect (fs.at θ₀) es = .ok o →
    ∃ ss : List (E → S), (∀ s ∈ ss, Q s) ∧ ∀ θ, collect (fs.at θ) es = .ok (ss.map (· θ))
  | [], _, _ => ⟨[], by simp, fun _ => rfl⟩
  | e :: es, o, h => by
    unfold collect at h
    cases hk : fs (.edge e.ref) with
    | none => simp [FamStore.at, hk] at h
    | some s =>
      cases hc : collect (fs.at θ₀) es with
      | error x => rw [hc] at h; simp [FamStore.at, hk] at h
      | ok ss0 =>
        obtain ⟨ss, h1, h2⟩ := fam_collect ha es hc
        refine ⟨s :: ss, ?_, fun θ => ?_⟩
        · intro t ht
          rcases List.mem_cons.1 ht with rfl | ht
          · exact ha _ _ hk
          · exact h1 t ht
        · unfold collect
          rw [h2 θ]
          simp [FamStore.at, hk]

theorem fam_edge (hB : FamBehav l θ₀ Q g B) {e : Edge} (he : e ∈ g.edges) {s : E → S} (hs : Q s) {o : S} (h : throughEdge (B θ₀) e (s θ₀) = .ok o) :
    ∃ s' : E → S, Q s' ∧ ∀ᶠ θ in l, throughEdge (B θ) e (s θ) = .ok (s' θ) := by
  unfold throughEdge at h
  cases hc : (B θ₀).edge e.comp (s θ₀) with
  | error x => rw [hc] at h; cases h
  | ok y =>
    obtain ⟨s', hq, hev⟩ := hB.edge e he s y hs hc
    refine ⟨s', hq, hev.mono fun θ hθ => ?_⟩
    unfold throughEdge
    rw [hθ]
    rcases hB.noise e.comp with hn | hn <;> rw [hn]

theorem fam_out (hB : FamBehav l θ₀ Q g B) (hl : ∀ p : E → Prop, (∀ᶠ θ in l, p θ) → p θ₀) {outs : List (E → S)} (ho : ∀ s ∈ outs, Q s) :
    ∀ (es : List Edge) (_ : ∀ e ∈ es, e ∈ g.edges) (i : Nat) {fs : FamStore E S} (_ : fs.All Q) {st : Store S},
      outLoop (B θ₀) (outs.map (· θ₀)) i es (fs.at θ₀) = .ok st →
      ∃ fs' : FamStore E S, fs'.All Q ∧ ∀ᶠ θ in l, outLoop (B θ) (outs.map (· θ)) i es (fs.at θ) = .ok (fs'.at θ)
  | [], _, _, fs, ha, _, _ => ⟨fs, ha, Eventually.of_forall fun _ => rfl⟩
  | e :: es, hes, i, fs, ha, st, h => by
    unfold outLoop at h
    cases hi : outs[i]? with
    | none => simp [hi] at h
    | some s =>
      have hi0 : ∀ θ, (outs.map (· θ))[i]? = some (s θ) := fun θ => by simp [hi]
      rw [hi0 θ₀] at h
      dsimp only at h
      cases ht : throughEdge (B θ₀) e (s θ₀) with
      | error x => rw [ht] at h; cases h
      | ok y =>
        rw [ht] at h
        dsimp only at h
        obtain ⟨s', hq, hev⟩ := fam_edge hB (hes e (by simp)) (ho s (List.mem_of_getElem? hi)) ht
        have hy : s' θ₀ = y := by have := hl _ hev; rw [ht] at this; injection this with this; exact this.symm
        rw [← hy, ← FamStore.put_at] at h
        obtain ⟨fs', h1, h2⟩ := fam_out hB hl ho es (fun e' he' => hes e' (by simp [he'])) (i + 1) (FamStore.put_all ha hq) h
        refine ⟨fs', h1, (hev.and h2).mono fun θ hθ => ?_⟩
        unfold outLoop
        rw [hi0 θ]
        dsimp only
        rw [hθ.1]
        dsimp only
        rw [← FamStore.put_at]
        exact hθ.2

theorem fam_node (hB : FamBehav l θ₀ Q g B) (hl : ∀ p : E → Prop, (∀ᶠ θ in l, p θ) → p θ₀) {inp : S} (hinp : Q (fun _ => inp)) (v : NodeId)
    {fs : FamStore E S} (ha : fs.All Q) {st : Store S} (h : propNode g (B θ₀) inp v (fs.at θ₀) = .ok st) :
    ∃ fs' : FamStore E S, fs'.All Q ∧ ∀ᶠ θ in l, propNode g (B θ) inp v (fs.at θ) = .ok (fs'.at θ) := by
  unfold propNode at h
  have hins : ∀ o, (if g.inEdges v = [] then .ok [inp] else collect (fs.at θ₀) (g.inEdges v)) = .ok o →
      ∃ ss : List (E → S), (∀ s ∈ ss, Q s) ∧ ∀ θ, (if g.inEdges v = [] then .ok [inp] else collect (fs.at θ) (g.inEdges v)) = .ok (ss.map (· θ)) := by
    intro o ho
    split at ho
    · rename_i hv
      exact ⟨[fun _ => inp], by simpa using hinp, fun θ => by simp [hv]⟩
    · rename_i hv
      obtain ⟨ss, h1, h2⟩ := fam_collect ha _ ho
      exact ⟨ss, h1, fun θ => by simp [hv, h2]⟩
  split at h
  · cases h
  · rename_i ins hi
    obtain ⟨ss, hss, hss'⟩ := hins ins hi
    have : ins = ss.map (· θ₀) := by have := hss' θ₀; rw [hi] at this; injection this
    subst this
    cases hn : g.node? v with
    | none => rw [hn] at h; cases h
    | some m =>
      rw [hn] at h
      dsimp only at h
      have hm : m ∈ g.nodes := List.mem_of_find?_eq_some hn
      cases hb : (B θ₀).node m.comp (ss.map (· θ₀)) (g.inDeg v) (g.outDeg v) with
      | error x => rw [hb] at h; cases h
      | ok o =>
        rw [hb] at h
        dsimp only at h
        obtain ⟨outs, hq, hev⟩ := hB.node m hm ss _ _ o hss hb
        have ho : o = outs.map (· θ₀) := by have := hl _ hev; rw [hb] at this; injection this
        subst ho
        have hsub : ∀ e ∈ g.outEdges v, e ∈ g.edges := fun e he => (List.mem_filter.1 he).1
        by_cases hd : g.outDeg v = 0
        · rw [if_pos hd] at h
          cases h0 : outs[0]? with
          | none => simp [h0] at h
          | some s =>
            have h00 : ∀ θ, (outs.map (· θ))[0]? = some (s θ) := fun θ => by simp [h0]
            rw [h00 θ₀] at h
            dsimp only at h
            rw [← FamStore.put_at] at h
            obtain ⟨fs', h1, h2⟩ := fam_out hB hl hq _ hsub 0 (FamStore.put_all ha (hq s (List.mem_of_getElem? h0))) h
            refine ⟨fs', h1, (hev.and h2).mono fun θ hθ => ?_⟩
            unfold propNode
            rw [hss' θ, hn]
            dsimp only
            rw [hθ.1]
            dsimp only
            rw [if_pos hd, h00 θ]
            dsimp only
            rw [← FamStore.put_at]
            exact hθ.2
        · rw [if_neg hd] at h
          obtain ⟨fs', h1, h2⟩ := fam_out hB hl hq _ hsub 0 ha h
          refine ⟨fs', h1, (hev.and h2).mono fun θ hθ => ?_⟩
          unfold propNode
          rw [hss' θ, hn]
          dsimp only
          rw [hθ.1]
          dsimp only
          rw [if_neg hd]
          exact hθ.2

theorem fam_loop (hB : FamBehav l θ₀ Q g B) (hl : ∀ p : E → Prop, (∀ᶠ θ in l, p θ) → p θ₀) {inp : S} (hinp : Q (fun _ => inp)) :
    ∀ (order : List NodeId) {fs : FamStore E S} (_ : fs.All Q) {st : Store S}, propLoop g (B θ₀) inp order (fs.at θ₀) = .ok st →
      ∃ fs' : FamStore E S, fs'.All Q ∧ ∀ᶠ θ in l, propLoop g (B θ) inp order (fs.at θ) = .ok (fs'.at θ)
  | [], fs, ha, _, _ => ⟨fs, ha, Eventually.of_forall fun _ => rfl⟩
  | v :: vs, fs, ha, st, h => by
    unfold propLoop at h
    cases hn : propNode g (B θ₀) inp v (fs.at θ₀) with
    | error x => rw [hn] at h; cases h
    | ok st1 =>
      rw [hn] at h
      dsimp only at h
      obtain ⟨f1, h1, h2⟩ := fam_node hB hl hinp v ha hn
      have : st1 = f1.at θ₀ := by have := hl _ h2; rw [hn] at this; injection this
      subst this
      obtain ⟨f2, h3, h4⟩ := fam_loop hB hl hinp vs h1 h
      refine ⟨f2, h3, (h2.and h4).mono fun θ hθ => ?_⟩
      unfold propLoop
      rw [hθ.1]
      exact hθ.2

/-- A run that succeeds at `θ₀` succeeds near `θ₀`, and every stored state is a function of kind `Q` of the parameter. -/
theorem fam_propagate (hB : FamBehav l θ₀ Q g B) (hl : ∀ p : E → Prop, (∀ᶠ θ in l, p θ) → p θ₀) {inp : S} (hinp : Q (fun _ => inp)) {old st : Store S}
    (h : propagate g (B θ₀) inp old = .ok st) :
    ∃ fs : FamStore E S, fs.All Q ∧ fs.at θ₀ = st ∧ ∀ᶠ θ in l, propagate g (B θ) inp old = .ok (fs.at θ) := by
  unfold propagate propagateWith at h
  cases ht : g.topoSort with
  | error x => rw [ht] at h; cases h
  | ok order =>
    rw [ht] at h
    dsimp only at h
    have he : ∀ θ, (FamStore.at (E := E) (S := S) (fun _ => none) θ) = Store.empty := fun θ => rfl
    rw [← he θ₀] at h
    obtain ⟨fs, h1, h2⟩ := fam_loop hB hl hinp order (fun _ _ h => by cases h) h
    refine ⟨fs, h1, ?_, h2.mono fun θ hθ => ?_⟩
    · have := hl _ h2
      rw [h] at this; injection this with this; exact this.symm
    · unfold propagate propagateWith
      rw [ht]
      exact hθ

end Verif
