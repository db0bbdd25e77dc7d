import Verif.Model.Objective
import Mathlib.Analysis.Calculus.ContDiff.Defs
/-! # Vocabulary: components and scores that depend smoothly on parameters (C91) -/

namespace Verif
open Topology

variable {n : Nat} {E : Type} [NormedAddCommGroup E] [NormedSpace ℝ E]

/-- The components `o θ` are of one kind and their settings are `k` times continuously differentiable functions of the parameters `θ` near `θ₀`; the settings at `θ₀`
are inside the range of the component: a filter of nonzero bandwidth, an amplifier (with the default exponent) and a photodiode with positive limits.  Of an amplifier only the gain is varied and of a
photodiode nothing (the other parameters are locked). -/
inductive Optic.SmoothAt (k : WithTop ℕ∞) (θ₀ : E) : (E → Optic n) → Prop
  | fiber {l : E → ℝ} : ContDiffAt ℝ k l θ₀ → SmoothAt k θ₀ (fun θ => .fiber (l θ))
  | voa {a : E → ℝ} : ContDiffAt ℝ k a θ₀ → SmoothAt k θ₀ (fun θ => .voa (a θ))
  | phaseMod {d f s : E → ℝ} : ContDiffAt ℝ k d θ₀ → ContDiffAt ℝ k f θ₀ → ContDiffAt ℝ k s θ₀ → SmoothAt k θ₀ (fun θ => .phaseMod (d θ) (f θ) (s θ))
  | intensityMod {d f b : E → ℝ} : ContDiffAt ℝ k d θ₀ → ContDiffAt ℝ k f θ₀ → ContDiffAt ℝ k b θ₀ →
      SmoothAt k θ₀ (fun θ => .intensityMod (d θ) (f θ) (b θ))
  | waveShaper {a p : List (E → ℝ)} : (∀ f ∈ a, ContDiffAt ℝ k f θ₀) → (∀ f ∈ p, ContDiffAt ℝ k f θ₀) →
      SmoothAt k θ₀ (fun θ => .waveShaper (a.map (· θ)) (p.map (· θ)))
  | splitDelay {r : List (E → ℝ)} : (∀ f ∈ r, ContDiffAt ℝ k f θ₀) → SmoothAt k θ₀ (fun θ => .splitDelay (r.map (· θ)))
  | delayLine {d : E → ℝ} : ContDiffAt ℝ k d θ₀ → SmoothAt k θ₀ (fun θ => .delayLine (d θ))
  | intDelayLine {d : E → ℝ} : ContDiffAt ℝ k d θ₀ → SmoothAt k θ₀ (fun θ => .intDelayLine (d θ))
  | waveguide : SmoothAt k θ₀ (fun _ => .waveguide)
  | phaseShifter {p : E → ℝ} : ContDiffAt ℝ k p θ₀ → SmoothAt k θ₀ (fun θ => .phaseShifter (p θ))
  | edfa {A : Edfa} {gain : E → ℝ} : ContDiffAt ℝ k gain θ₀ → 0 < A.pOutMax → A.alpha = 1 → SmoothAt k θ₀ (fun θ => .edfa { A with gainDb := gain θ })
  | progFilter {a p : List (E → ℝ)} : (∀ f ∈ a, ContDiffAt ℝ k f θ₀) → (∀ f ∈ p, ContDiffAt ℝ k f θ₀) →
      SmoothAt k θ₀ (fun θ => .progFilter (a.map (· θ)) (p.map (· θ)))
  | squareFilter {b : E → ℝ} : ContDiffAt ℝ k b θ₀ → b θ₀ ≠ 0 → SmoothAt k θ₀ (fun θ => .squareFilter (b θ))
  | source {x : E → Signal n} : ContDiffAt ℝ k x θ₀ → SmoothAt k θ₀ (fun θ => .source (x θ))
  | measure : SmoothAt k θ₀ (fun _ => .measure)
  | photodiode {D : Photodiode} : 0 < D.responsivity → 0 < D.maxCurrent → SmoothAt k θ₀ (fun _ => .photodiode D)

/-- The same for nodes; the ratios of a power splitter lie strictly between their bounds 0 and 1. -/
inductive Connector.SmoothAt (k : WithTop ℕ∞) (θ₀ : E) : (E → Connector) → Prop
  | terminal : SmoothAt k θ₀ (fun _ => .terminal)
  | splitter {a : List (E → ℝ)} : (∀ f ∈ a, ContDiffAt ℝ k f θ₀ ∧ 0 < f θ₀ ∧ f θ₀ < 1) → SmoothAt k θ₀ (fun θ => .splitter (a.map (· θ)))
  | freqSplitter {a : List (E → ℝ)} : (∀ f ∈ a, ContDiffAt ℝ k f θ₀) → SmoothAt k θ₀ (fun θ => .freqSplitter (a.map (· θ)))

/-- A score is a `k` times continuously differentiable function of the state near `s`. -/
def SmoothScoreAt (k : WithTop ℕ∞) (score : Signal n → Except Err ℝ) (s : Signal n) : Prop :=
  ∃ f : Signal n → ℝ, ContDiffAt ℝ k f s ∧ ∀ᶠ y in 𝓝 s, score y = .ok (f y)

/-- A system whose components and score depend smoothly on the parameters at `θ₀`, and which runs there. -/
structure SmoothSystemAt (k : WithTop ℕ∞) (P : Prop_ n) (g : Graph) (optic : E → Comp → Optic n) (conn : E → Comp → Connector) (hasNoise : Comp → Bool)
    (inp : Signal n) (old : Store (Signal n)) (at_ : Key) (score : Signal n → Except Err ℝ) (θ₀ : E) : Prop where
  optics : ∀ e ∈ g.edges, Optic.SmoothAt k θ₀ (fun θ => optic θ e.comp)
  conns : ∀ v ∈ g.nodes, Connector.SmoothAt k θ₀ (fun θ => conn θ v.comp)
  runs : ∃ st s, propagate g (physics P (optic θ₀) (conn θ₀) hasNoise) inp old = .ok st ∧ st at_ = some s ∧ SmoothScoreAt k score s

end Verif
