import Verif.Model.Print
import Verif.Spec.Same

/-
Vocabulary for programs that print and parse.
-/

set_option autoImplicit false

namespace Unc

/-- Commands that only print or look at something. -/
def PCmd.isRead {F : Type} : PCmd F → Bool
  | .run c => c.isRead
  | .format _ _ => true
  | .repr _ => true
  | .fromstr _ _ => false

/-- Copies. -/
def PCmd.isCopy {F : Type} : PCmd F → Bool
  | .run (.copy _) => true
  | .run (.deepcopy _) => true
  | .run (.pickle _) => true
  | _ => false

/-- The commands that are not reads. -/
def peffects {F : Type} (cs : List (PCmd F)) : List (PCmd F) := cs.filter (fun c => !c.isRead)

variable {F : Type} [PyMath F] [PyText F]

/-- State after a history. -/
def pafter (io : TextIO F) (cs : List (PCmd F)) : Machine F := Machine.init.prun io cs

/-- What a program sees when it runs `c` after the history `cs`. -/
def psees (io : TextIO F) (cs : List (PCmd F)) (c : PCmd F) : POut F := ((pafter io cs).pstep io c).2

/-- How to refer to the value bound by the command that follows the history `cs`. -/
def pnext (io : TextIO F) (cs : List (PCmd F)) : Arg F := .ref (pafter io cs).env.length

end Unc
