import Verif.Spec.Copy
import Verif.Spec.Observe

/-
What it means for two programs to see the same thing. Variables are objects: the only thing that a
program knows of them is which one is which, so that results are the same up to a one-to-one
correspondence between the variables of both programs.
-/

namespace Unc

variable {F : Type}

/-- The same observation, for variables that correspond to each other through `ρ`. -/
def Out.Same (ρ : List (VarId × VarId)) : Out F → Out F → Prop
  | .dict l, .dict l' => Renames ρ l l'
  | o, o' => o = o'

/-- The commands of a history that do more than reading something. -/
def effects (cs : List (Cmd F)) : List (Cmd F) := cs.filter (fun c => !c.isRead)

end Unc
