import Verif.Model.Logging
/-! # Vocabulary for the log of what is printed (C108) -/

namespace Verif
variable {α : Type}

/-- Programs that log part of what they print, each part between `init_logging` and `close_logging` of one object. -/
inductive LogProg (α : Type) where
  | say (text : List α)
  | seq (a b : LogProg α)
  | logged (io path : Nat) (body : LogProg α)

/-- The statements of such a program. -/
def LogProg.ops : LogProg α → List (LogOp α)
  | .say t => [.say t]
  | .seq a b => a.ops ++ b.ops
  | .logged io p body => .start io p :: (body.ops ++ [.stop io])

/-- Everything it prints. -/
def LogProg.text (nl : List α) : LogProg α → List α
  | .say t => t ++ nl
  | .seq a b => a.text nl ++ b.text nl
  | .logged _ _ body => body.text nl

/-- The objects it logs with. -/
def LogProg.objs : LogProg α → List Nat
  | .say _ => []
  | .seq a b => a.objs ++ b.objs
  | .logged io _ body => io :: body.objs

/-- The log files it writes, in the order in which they are opened, each with what is printed while it is open. -/
def LogProg.logs (nl : List α) : LogProg α → List (Nat × List α)
  | .say _ => []
  | .seq a b => a.logs nl ++ b.logs nl
  | .logged _ p body => (p, body.text nl) :: body.logs nl

/-- No object is asked to log while it already does. -/
def LogProg.Sound : LogProg α → Prop
  | .say _ => True
  | .seq a b => a.Sound ∧ b.Sound
  | .logged io _ body => io ∉ body.objs ∧ body.Sound

/-- What the statements print. -/
def LogOp.text (nl : List α) : LogOp α → List α
  | .say t => t ++ nl
  | _ => []

/-- The `Tee`s on the way from `sys.stdout` to the screen are different ones, and their files are open. -/
structure LogWorld.Open (w : LogWorld α) : Prop where
  nodup : w.stdout.Nodup
  isOpen : ∀ k ∈ w.stdout, ∃ o, w.tees[k]? = some o ∧ o.isOpen = true

/-- What a file that was opened as `Tee` number `k` holds beyond what it held before. -/
def LogWorld.Received (w w' : LogWorld α) (k : Nat) (t : List α) : Prop :=
  ∃ o o', w.tees[k]? = some o ∧ w'.tees[k]? = some o' ∧ o'.logged = o.logged ++ t ∧ o'.path = o.path ∧ o'.isOpen = o.isOpen

/-- When nothing has been logged yet. -/
def LogWorld.new (α : Type) : LogWorld α := ⟨[], [], [], fun _ => none⟩

end Verif
