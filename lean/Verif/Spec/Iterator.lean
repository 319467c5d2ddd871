import Verif.Model.WrapIterator
import Verif.Spec.Effects

/-
Vocabulary of C99: what a wrapped function asks from the iterator of derivatives given to `wrap`.
-/

namespace Unc

set_option autoImplicit false

section
variable {I D : Type}

/-- The same iterator, which also writes down its answers. -/
def notedSource (src : Source I D) : Source (I × List (NextRes D)) D :=
  fun i => (((src i.1).1, i.2 ++ [(src i.1).2]), (src i.1).2)

/-- The elements given by the iterator. -/
def elementsOf (answers : List (NextRes D)) : List (Option D) :=
  answers.filterMap fun
    | .item d => some d
    | _ => none

/-- No request raised an exception (other than `StopIteration`). -/
def NoException (answers : List (NextRes D)) : Prop := ∀ e, NextRes.raise e ∉ answers

end

section
variable {S I F : Type}

/-- The same arguments of `wrap`, with an iterator that writes down its answers. -/
def IWrapDef.noted (df : IWrapDef S I F) : IWrapDef S (I × List (NextRes (EDeriv S F))) F where
  f := df.f
  source := notedSource df.source
  derivativesKwargs := df.derivativesKwargs
  argspec := df.argspec
  kwargsNodup := df.kwargsNodup
  argspecNodup := df.argspecNodup

/-- The same arguments of `wrap`, with a list of derivatives: those that the iterator has given. -/
def IWrapDef.withList (df : IWrapDef S I F) (elements : List (Option (EDeriv S F))) : EWrapDef S F where
  f := df.f
  derivativesArgs k := (elements[k]?).join
  derivativesKwargs := df.derivativesKwargs
  argspec := df.argspec
  kwargsNodup := df.kwargsNodup
  argspecNodup := df.argspecNodup

/-- The same call, with an iterator that writes down its answers. -/
def ICall.noted {D : Type} (c : ICall S I F) : ICall S (I × List (NextRes D)) F where
  args := c.args
  kwargs := c.kwargs
  state := c.state
  before i := (c.before i.1, i.2)

end

end Unc
