import Verif.Model.Files
import Mathlib.Data.List.Infix
/-! # Vocabulary for saving and loading (C77) -/

namespace Verif

section
variable {O D B : Type}

/-- A disk as there is one: the root is a directory, and whatever exists is in a directory. -/
structure SoundDisk (d : Disk B) : Prop where
  root : d [] = some .dir
  up : ∀ p n e, d (p ++ [n]) = some e → d p = some .dir

/-- The file which a call opens for writing, if it comes that far. -/
def Opens (w : IoWorld B) : IoCmd O D B → List FName → Prop
  | .initSave _ _ _, _ => False
  | .initLoad _ _, _ => False
  | .mkdir _ _, _ => False
  | .saveObj k _ name, p => p = joinTo (w.ios k).savePath name.toPath
  | .saveJson k _ name, p => p = joinTo (w.ios k).savePath name.toPath
  | .raw k _ name, p => p = joinTo (w.ios k).savePath name.toPath
  | .metadata k sub _, p => ∃ q, (w.ios k).metadataDir sub = .ok q ∧ p = q ++ ["metadata.json".toList]

/-- No call of the session opens the file `p` for writing. -/
def LeavesAlone (C : Coding O D B) (p : List FName) : IoWorld B → List (IoCmd O D B) → Prop
  | _, [] => True
  | w, c :: cs => ¬ Opens w c p ∧ LeavesAlone C p (w.exec C c).1 cs

/-- `dill` gives back what it has dumped. -/
def Faithful (C : Coding O D B) : Prop := ∀ o, (C.dumpObj o).2 = true → C.loadObj (C.dumpObj o).1 = some o

/-- A name for one file or folder: not empty, not `.`, without `/`. -/
def PlainName (s : List Char) : Prop := s ≠ [] ∧ s ≠ ['.'] ∧ '/' ∉ s

/-- A day as `%Y%m%d` writes it, and four characters as `unique_id` draws them. -/
def IsDay (day : List Char) : Prop := day.length = 8 ∧ '/' ∉ day

/-- Four hexadecimal digits, small or capital. -/
def IsDraw (draw : List Char) : Prop := draw.length = 4 ∧ ∀ c ∈ draw, c ∈ hexdigits

/-- The populations of a run: before the first generation the first graph alone, then one for each generation. -/
def RunData.populations (r : RunData O D B) : List (List (Option D)) := [some r.start] :: r.gens.map (·.1)

/-- The halls of fame of a run: at first the first graph, then one for each generation. -/
def RunData.halls (r : RunData O D B) : List (List (Option D)) := [some r.start] :: r.gens.map (·.2)

/-- The files of a run with their contents, by their paths in the folder of the run. -/
inductive RunFile (C : Coding O D B) (r : RunData O D B) : List FName → B → Prop
  | stdout : RunFile C r ["stdout_logging.log".toList] r.stdout
  | gaOpts : RunFile C r ["ga_opts.json".toList] (C.dumpJson r.gaOpts).1
  | propagator : RunFile C r ["propagator.pkl".toList] (C.dumpObj r.propagator).1
  | evaluator : RunFile C r ["evaluator.pkl".toList] (C.dumpObj r.evaluator).1
  | evolver : RunFile C r ["evolver.pkl".toList] (C.dumpObj r.evolver).1
  | settings : RunFile C r ["optimization_settings.json".toList] (C.dumpJson r.settings).1
  | log : RunFile C r ["log.pkl".toList] (C.dumpObj r.log).1
  | graph (gen ind : Nat) (pop : List (Option D)) (x : D) : r.saveGraphs = true → r.populations[gen]? = some pop → pop[ind]? = some (some x) →
      RunFile C r ["reduced_graphs".toList, graphFile "graph_".toList gen ind] (C.dumpJson x).1
  | hof (gen ind : Nat) (pop : List (Option D)) (x : D) : r.saveHof = true → r.halls[gen]? = some pop → pop[ind]? = some (some x) →
      RunFile C r ["reduced_hof_graphs".toList, graphFile "hof_".toList gen ind] (C.dumpJson x).1

/-- Everything that a run saves can be serialised. -/
structure Serialisable (C : Coding O D B) (r : RunData O D B) : Prop where
  gaOpts : (C.dumpJson r.gaOpts).2 = true
  settings : (C.dumpJson r.settings).2 = true
  objects : ∀ o ∈ [r.propagator, r.evaluator, r.evolver, r.log], (C.dumpObj o).2 = true
  graphs : r.saveGraphs = true → ∀ pop ∈ r.populations, ∀ x, some x ∈ pop → (C.dumpJson x).2 = true
  halls : r.saveHof = true → ∀ pop ∈ r.halls, ∀ x, some x ∈ pop → (C.dumpJson x).2 = true

end

end Verif
