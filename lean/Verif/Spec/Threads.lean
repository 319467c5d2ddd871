import Verif.Model.Threads

/-
Vocabulary for concurrent and interrupted readings.
-/

namespace Unc

set_option autoImplicit false

variable {F : Type}

/-- The object `j` is part of the (not yet expanded) definition of the object `i`. -/
inductive Uses (h : Heap F) (i : NodeId) : NodeId → Prop where
  | direct {ts : List (Item F)} {c : F} {j : NodeId} : h[i]? = some (.terms ts) → .pair c j ∈ ts →
      Uses h i j
  | step {j : NodeId} {ts : List (Item F)} {c : F} {k : NodeId} : Uses h i j →
      h[j]? = some (.terms ts) → .pair c k ∈ ts → Uses h i k

/-- The derivatives of the object were never read, and it is not a variable. -/
def Fresh (h : Heap F) (i : NodeId) : Prop := ∃ ts, h[i]? = some (.terms ts)

/-- No object that a thread reads for the first time is read by another thread for the first time, or
is part of the definition of an object that another thread reads for the first time. -/
def Separate (h : Heap F) (us : List (UF F)) : Prop :=
  ∀ (t t' : Nat) (u u' : UF F), t ≠ t' → us[t]? = some u → us[t']? = some u' →
    Fresh h u.lin → Fresh h u'.lin → u.lin ≠ u'.lin ∧ ¬ Uses h u.lin u'.lin

end Unc
