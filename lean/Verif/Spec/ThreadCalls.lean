import Verif.Model.ThreadCalls
import Verif.Spec.Observe

/-
Vocabulary of the properties about calls made by several threads, and about interrupted calls.
-/

namespace Unc

set_option autoImplicit false

variable {F : Type} [PyMath F]

/-- How many elements the wrapped function number `f` has taken, after the history `cs`, from the iterable of derivatives that was
given to `wrap()`. -/
def takenBy (cs : List (Cmd F)) (f : Nat) : Nat := ((after cs).w.wraps[f]?.map fun wf => wf.iter.taken).getD 0

/-- `x` is a number with uncertainty. -/
def IsUncertain (cs : List (Cmd F)) (x : Arg F) : Prop := sees cs (.derivatives x) ≠ .invalid

/-- This call needs a derivative that the function did not take from its iterable yet. -/
def NeedsNew (cs : List (Cmd F)) (c : Caller F) : Prop :=
  ∃ k x, c.args[k]? = some x ∧ IsUncertain cs x ∧ takenBy cs c.f ≤ k

/-- After the history `cs`, threads make calls; they do operations in the order given by the schedule `sched`; those that are not
finished at its end are stopped. State of the program, and what each thread sees (`none`: it is not finished). -/
def calls (cs : List (Cmd F)) (callers : List (Caller F)) (sched : List Nat) : Option (Machine F × List (Option (Out F))) :=
  (startCalls (after cs) callers).map fun r => (after cs).withCalls (r.run sched)

/-- A command that raises an exception and does nothing else. -/
def raises : Cmd F := .lcst (fun _ _ => .error (.other 2)) [] []

/-- What a thread that saw `o` did: its call, or nothing if it was stopped. -/
def Caller.did (c : Caller F) : Option (Out F) → Cmd F
  | some _ => c.cmd
  | none => raises

/-- At the end of the schedule, is a thread stopped between the moment when a derivative is taken from the iterable and the moment
when it is stored (lines 422 to 427 of core.py)? -/
def stoppedWhileStoring (cs : List (Cmd F)) (callers : List (Caller F)) (sched : List Nat) : Bool :=
  match startCalls (after cs) callers with
  | none => false
  | some r => (r.run sched).threads.any fun th =>
    match th.pc with
    | .append .. => true
    | _ => false

end Unc
