import Verif.Model.Broadcast

/- Specification: the broadcasting rules of NumPy. -/

namespace Unc

set_option autoImplicit false

/-- Length of dimension number `k`, from the last one; the missing dimensions have length 1. -/
def dimEnd (s : List Nat) (k : Nat) : Nat := (s.reverse[k]?).getD 1

/-- `r` is the shape of the result of the broadcasting of the shapes `ss`: it has as many dimensions as the shape with the most
dimensions; in each dimension, all the lengths that are not 1 are equal, and the result has this length. -/
structure IsBroadcast (ss : List (List Nat)) (r : List Nat) : Prop where
  le : ∀ s ∈ ss, s.length ≤ r.length
  attained : r = [] ∨ ∃ s ∈ ss, s.length = r.length
  dims : ∀ k, ∀ s ∈ ss, dimEnd s k = 1 ∨ dimEnd s k = dimEnd r k
  dim : ∀ k, dimEnd r k = 1 ∨ ∃ s ∈ ss, dimEnd s k = dimEnd r k

/-- Valid indices for a shape. -/
def InShape (r I : List Nat) : Prop := List.Forall₂ (· < ·) I r

/-- An array has as many elements as its shape says. -/
def NDArray.Valid {α : Type} (A : NDArray α) : Prop := A.data.length = A.shape.prod

/-- `J` are the indices, in an array of shape `s`, of the element that is used for the element `I` of the result: the last dimensions are
those of the array, and dimensions of length 1 are repeated. -/
def Aligned (s I J : List Nat) : Prop :=
  J.length = s.length ∧ ∀ k < s.length, J.reverse[k]? = if dimEnd s k = 1 then some 0 else I.reverse[k]?

end Unc
