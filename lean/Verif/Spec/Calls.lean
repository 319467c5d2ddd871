import Verif.Spec.Lin
import Verif.Spec.Wrap
import Verif.Spec.Observe

/-
Specification of a call of a wrapped function, in terms of what can be observed on its arguments:
value, and derivatives for numbers with uncertainty.
-/

namespace Unc

variable {F : Type}

/-- What a program can observe of a value: (nominal) value, and derivatives for a number with
uncertainty. -/
abbrev Seen (F : Type) := PyVal F × Option (Lin F)

section
variable [PyFloat F]

/-- For each positional argument with uncertainty, from position `pos` on: documented derivative at
the nominal values, and derivatives of the argument. -/
def docPosTerms (df : WrapDef F) (av : List (PyVal F)) (kv : KwArgs F) :
    Nat → List (Seen F) → PyRes (List (F × Lin F))
  | _, [] => .ok []
  | pos, (_, none) :: rest => docPosTerms df av kv (pos + 1) rest
  | pos, (_, some D) :: rest => do
    let c ← df.specPos pos av kv
    let l ← docPosTerms df av kv (pos + 1) rest
    .ok ((c, D) :: l)

/-- Idem for each keyword argument. -/
def docKwTerms (df : WrapDef F) (av : List (PyVal F)) (kv : KwArgs F) :
    List (String × Seen F) → PyRes (List (F × Lin F))
  | [] => .ok []
  | (_, _, none) :: rest => docKwTerms df av kv rest
  | (name, _, some D) :: rest => do
    let c ← df.specKw name av kv
    let l ← docKwTerms df av kv rest
    .ok ((c, D) :: l)

/-- Some argument has an uncertainty. -/
def anyUnc (args : List (Seen F)) (kwargs : List (String × Seen F)) : Bool :=
  args.any (fun a => a.2.isSome) || kwargs.any (fun p => p.2.2.isSome)

/-- A call, as documented: the value is that of `f` on the nominal values, and the derivatives come
from the chain rule with the documented derivatives of `f`. A result that is not a number gives
`NotImplemented`, if there is an uncertainty. -/
def docCall (df : WrapDef F) (args : List (Seen F)) (kwargs : List (String × Seen F)) :
    PyRes (Seen F) :=
  let av := args.map Prod.fst
  let kv := kwargs.map (fun p => (p.1, p.2.1))
  do
    let v ← df.f av kv
    if anyUnc args kwargs = false then .ok (v, none)
    else if v.floatLike = false then .ok (.notImpl, none)
    else
      let l1 ← docPosTerms df av kv 0 args
      let l2 ← docKwTerms df av kv kwargs
      let x ← v.toFloat
      .ok (.flt x, some (Lin.comb (l1 ++ l2)))

end

variable [PyMath F]

/-- After the history `cs`, `x` is observed as `a`. -/
def SeenAs (cs : List (Cmd F)) (x : Arg F) (a : Seen F) : Prop :=
  sees cs (.nominal x) = .val a.1 ∧
  match a.2 with
  | none => sees cs (.derivatives x) = .invalid
  | some D => sees cs (.derivatives x) = .dict D

def AllSeenAs (cs : List (Cmd F)) : List (Arg F) → List (Seen F) → Prop
  | [], [] => True
  | x :: xs, a :: as => SeenAs cs x a ∧ AllSeenAs cs xs as
  | _, _ => False

def AllSeenAsKw (cs : List (Cmd F)) : List (String × Arg F) → List (String × Seen F) → Prop
  | [], [] => True
  | (k, x) :: xs, (k', a) :: as => k = k' ∧ SeenAs cs x a ∧ AllSeenAsKw cs xs as
  | _, _ => False

/-- Running command `c` after the history `cs` has the result `r`: exception, `NotImplemented`, or
value that can then be observed. -/
def Results (cs : List (Cmd F)) (c : Cmd F) : PyRes (Seen F) → Prop
  | .error e => sees cs c = .err e
  | .ok (.notImpl, _) => sees cs c = .val .notImpl
  | .ok a => sees cs c = .done ∧ SeenAs (cs ++ [c]) (next cs) a

end Unc
