import Verif.Model.CommandLine
/-! # Vocabulary for the command line (C110) -/

namespace Verif

/-- A number with a minus sign: digits, or digits with a point and at least one digit behind it. -/
def NegNumber (a : List Char) : Prop :=
  ∃ d f : List Char, (∀ c ∈ d, c.isDigit = true) ∧ (∀ c ∈ f, c.isDigit = true) ∧ ((a = '-' :: d ∧ d ≠ []) ∨ (a = '-' :: (d ++ '.' :: f) ∧ f ≠ []))

/-- The argument is the name of a long option (help included), abbreviated or not, maybe with `=` and a value. -/
def NamesLong (a : List Char) : Prop :=
  ∃ p t : List Char, (a = '-' :: '-' :: p ∨ a = '-' :: '-' :: (p ++ '=' :: t)) ∧ (p <+: "help".toList ∨ ∃ k : OptKey, p <+: k.long)

/-- The argument begins with the name of a short option (help included). -/
def NamesShort (a : List Char) : Prop := ∃ t : List Char, a = '-' :: 'h' :: t ∨ ∃ k : OptKey, a = '-' :: k.short :: t

/-- An argument that can be the value of an option: it does not begin with a dash, or is a dash, or a negative number, or contains a space and names no option. -/
def IsWord (a : List Char) : Prop :=
  (∀ t, a ≠ '-' :: t) ∨ a = ['-'] ∨ NegNumber a ∨ (' ' ∈ a ∧ ¬ NamesLong a ∧ ¬ NamesShort a)

/-- The ways to give option `k` with value `v` (or without one) on the command line. -/
inductive Spelled : List (List Char) → OptKey → Option (List Char) → Prop where
  | short (k : OptKey) : Spelled [['-', k.short]] k none
  | shortArg (k : OptKey) (v : List Char) : IsWord v → Spelled [['-', k.short], v] k (some v)
  | attached (k : OptKey) (c : Char) (v : List Char) : c ≠ '=' → Spelled ['-' :: k.short :: c :: v] k (some (c :: v))
  | shortEq (k : OptKey) (v : List Char) : Spelled ['-' :: k.short :: '=' :: v] k (some v)
  | long (k : OptKey) (p : List Char) : p ≠ [] → p <+: k.long → Spelled ['-' :: '-' :: p] k none
  | longArg (k : OptKey) (p v : List Char) : p ≠ [] → p <+: k.long → IsWord v → Spelled ['-' :: '-' :: p, v] k (some v)
  | longEq (k : OptKey) (p v : List Char) : p ≠ [] → p <+: k.long → Spelled ['-' :: '-' :: (p ++ '=' :: v)] k (some v)

/-- What was given last for an option: nothing, no value, or a value. -/
def lastGiven : List (OptKey × Option (List Char)) → OptKey → Option (Option (List Char))
  | [], _ => none
  | (k', v) :: l, k =>
    match lastGiven l k with
    | some w => some w
    | none => if k' = k then some v else none

/-- What the script gets to see: for each option what was given last, the default otherwise; for `verbose` whether the value is a non-empty text. -/
def Opts.Reflects (o : Opts) (l : List (OptKey × Option (List Char))) : Prop :=
  o.dir = (lastGiven l .dir).getD (some "data".toList) ∧
  o.evaluator = (lastGiven l .evaluator).getD (some "rfawg_saw".toList) ∧
  o.selection = (lastGiven l .selection).getD (some "roulette".toList) ∧
  (lastGiven l .verbose = none → o.verbose = some false) ∧
  (lastGiven l .verbose = some none → o.verbose = none) ∧
  (∀ v, lastGiven l .verbose = some (some v) → o.verbose = some true ∧ v ≠ [] ∨ o.verbose = some false ∧ v = [])

end Verif
