import Verif.Model.Harness
import Verif.Spec.Files
import Verif.Spec.Logging
/-! # Vocabulary for the benchmark scripts (C111) -/

namespace Verif

section
variable {O D B : Type}

/-- A call of a run: something is written under a relative name, with the object `k` of the run. -/
def LocalCmd (k : Nat) : IoCmd O D B → Prop
  | .saveObj j _ n => j = k ∧ n.toPath.abs = false ∧ n.toPath.parts ≠ []
  | .saveJson j _ n => j = k ∧ n.toPath.abs = false ∧ n.toPath.parts ≠ []
  | .raw j _ n => j = k ∧ n.toPath.abs = false ∧ n.toPath.parts ≠ []
  | .mkdir j n => j = k ∧ n.toPath.abs = false ∧ n.toPath.parts ≠ []
  | _ => False

/-- The folder of a run. -/
def BenchRun.folder (top : List FName) (r : BenchRun O D B) : List FName := top ++ [r.setting, "iteration_".toList ++ decimal r.rep]

/-- The place where the benchmark is to be made: the top folder exists, and no file is where a folder of a run must be. -/
structure BenchReady (top : List FName) (rs : List (BenchRun O D B)) (d : Disk B) : Prop where
  sound : SoundDisk d
  there : d top = some .dir
  setting : ∀ r ∈ rs, ∀ b, d (top ++ [r.setting]) ≠ some (.file b)
  rep : ∀ r ∈ rs, ∀ b, d (r.folder top) ≠ some (.file b)

/-- The runs have plain names for their settings, no two the same folder, and their calls are such as runs make. -/
structure BenchSound (k : Nat) (rs : List (BenchRun O D B)) : Prop where
  plain : ∀ r ∈ rs, PlainName r.setting
  calls : ∀ r ∈ rs, ∀ c ∈ r.cmds, LocalCmd k c
  apart : rs.Pairwise (fun r r' => ¬ (r.setting = r'.setting ∧ r.rep = r'.rep))

end

section
variable {α : Type}

/-- What a run says: during the optimisation, and then either after it or nothing because of an exception. -/
inductive RunTalk (α : Type) where
  | done (said after : List (List α))
  | broke (said : List (List α)) (e : Err)

/-- The run with its statements. -/
def RunTalk.toRun (io path : Nat) (message : List α) : RunTalk α → LoggedRun α
  | .done said after => ⟨path, said.map .say ++ .stop io :: after.map .say, message⟩
  | .broke said e => ⟨path, said.map .say ++ [.fail e], message⟩

/-- Lines as they are printed. -/
def linesOf (nl : List α) (ts : List (List α)) : List α := ts.flatMap (· ++ nl)

/-- Everything printed during runs, given with paths and messages. -/
def saidBy (nl : List α) (l : List (Nat × List α × RunTalk α)) : List α :=
  l.flatMap (fun r =>
    match r.2.2 with
    | .done said after => linesOf nl said ++ linesOf nl after
    | .broke said _ => linesOf nl said ++ (r.2.1 ++ nl))

/-- The log files in order: that of a run that ends holds what was printed during the optimisation; that of a run that fails holds what it printed, the message, and all that is printed
by the script from then on. -/
def runLogs (nl : List α) : List (Nat × List α × RunTalk α) → List (Nat × List α)
  | [] => []
  | (p, _, .done said _) :: l => (p, linesOf nl said) :: runLogs nl l
  | (p, m, .broke said _) :: l => (p, linesOf nl said ++ (m ++ nl) ++ saidBy nl l) :: runLogs nl l

end

end Verif
