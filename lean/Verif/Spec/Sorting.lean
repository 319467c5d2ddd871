import Verif.Spec.Observe

/-
Specification of algorithms that only compare the elements of a list (`sorted()`, `min()`, `max()`, `heapq`, `bisect`, etc.): an
algorithm is a tree of comparisons. It does not depend on the package.
-/

namespace Unc

set_option autoImplicit false

/-- An algorithm that compares elements of a list (given by their indices) with `<` and `>`, and that chooses what it does next
from the results of the comparisons. -/
inductive Algo (α : Type) where
  /-- the algorithm returns a result, like a list of indices -/
  | ret (r : α)
  /-- `items[i] < items[j]` -/
  | less (i j : Nat) (next : Bool → Algo α)
  /-- `items[i] > items[j]` -/
  | greater (i j : Nat) (next : Bool → Algo α)

section
variable {F : Type} {α : Type}

/-- The algorithm with a list of floats. `none`: IndexError. -/
def Algo.onFloats [PyFloat F] (ns : List F) : Algo α → Option α
  | .ret r => some r
  | .less i j next =>
    match ns[i]?, ns[j]? with
    | some a, some b => (next (PyFloat.ltb a b)).onFloats ns
    | _, _ => none
  | .greater i j next =>
    match ns[i]?, ns[j]? with
    | some a, some b => (next (PyFloat.ltb b a)).onFloats ns
    | _, _ => none

variable [PyMath F]

/-- What the comparison of two elements gives after the program `cs`; `none`: exception. The comparison of two floats is that of
Python. -/
def comparison (cs : List (Cmd F)) (op : CmpOp) (x y : Arg F) : Option Bool :=
  match op, x, y with
  | .lt, .const (.flt a), .const (.flt b) => some (PyFloat.ltb a b)
  | .gt, .const (.flt a), .const (.flt b) => some (PyFloat.ltb b a)
  | op, x, y =>
    match sees cs (.compare op x y) with
    | .bool r => some r
    | _ => none

/-- The algorithm with a list of numbers with uncertainty and floats, after the program `cs`. After each comparison, the
program can do other things (`others`), in other threads or in the algorithm itself. `none`: an exception. -/
def Algo.onNumbers (xs : List (Arg F)) (others : List (Cmd F) → List (Cmd F)) (cs : List (Cmd F)) : Algo α → Option α
  | .ret r => some r
  | .less i j next =>
    match xs[i]?, xs[j]? with
    | some x, some y =>
      match comparison cs .lt x y with
      | some r => (next r).onNumbers xs others (cs ++ (.compare .lt x y :: others cs))
      | none => none
    | _, _ => none
  | .greater i j next =>
    match xs[i]?, xs[j]? with
    | some x, some y =>
      match comparison cs .gt x y with
      | some r => (next r).onNumbers xs others (cs ++ (.compare .gt x y :: others cs))
      | none => none
    | _, _ => none

/-- `x` is a number with uncertainty with nominal value `n`, or the float `n`. -/
def HasNominal (cs : List (Cmd F)) (x : Arg F) (n : F) : Prop :=
  x = .const (.flt n) ∨ (sees cs (.derivatives x) ≠ .invalid ∧ sees cs (.nominal x) = .val (.flt n))

end

/-- `min(items)`, from the item `i`, with the smallest item so far: `if item < best: best = item`. -/
def minFrom (best : Nat) : List Nat → Algo Nat
  | [] => .ret best
  | i :: rest => .less i best fun r => minFrom (if r then i else best) rest

/-- `max(items)`: `if item > best: best = item`. -/
def maxFrom (best : Nat) : List Nat → Algo Nat
  | [] => .ret best
  | i :: rest => .greater i best fun r => maxFrom (if r then i else best) rest

/-- `min(items)`, for `n + 1` items: the index of the result. -/
def minItem (n : Nat) : Algo Nat := minFrom 0 (List.range' 1 n)

/-- `max(items)`, for `n + 1` items: the index of the result. -/
def maxItem (n : Nat) : Algo Nat := maxFrom 0 (List.range' 1 n)

/-- Position in the sorted list `sorted` of the item `i` (the place after the items that are not larger): the binary search of
`list.sort()` for short lists. -/
def insertAt (sorted : List Nat) (i : Nat) (next : Nat → Algo (List Nat)) : Nat → Nat → Nat → Algo (List Nat)
  | 0, l, _ => next l
  | fuel + 1, l, r =>
    if l < r then
      match sorted[(l + r) / 2]? with
      | some j => .less i j fun b => if b then insertAt sorted i next fuel l ((l + r) / 2) else insertAt sorted i next fuel ((l + r) / 2 + 1) r
      | none => next l
    else next l

/-- Insertion of the items `rest` into the sorted list. -/
def sortFrom (sorted : List Nat) : List Nat → Algo (List Nat)
  | [] => .ret sorted
  | i :: rest => insertAt sorted i (fun p => sortFrom (sorted.insertIdx p i) rest) sorted.length 0 sorted.length

/-- `sorted(items)`, for `n` items: the indices of the items, in order (binary insertion sort). -/
def sortItems (n : Nat) : Algo (List Nat) := sortFrom [] (List.range n)

end Unc
