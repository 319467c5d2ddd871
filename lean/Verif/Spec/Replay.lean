import Mathlib.Analysis.Calculus.FDeriv.Pi
import Mathlib.Analysis.Calculus.Deriv.Pi
import Verif.Py.NRMath
import Verif.Spec.Calls
import Verif.Spec.Plain
import Verif.Spec.Deriv

/-
A whole calculation as a real function of the nominal value of one of its variables: the program is run
again with plain floats, after a change of this nominal value.
-/

set_option autoImplicit false

namespace Unc

open Topology NR

/-- Nominal value of the variable that a command creates, if any (negative standard deviations are
refused). -/
noncomputable def Cmd.created : Cmd NR → Option NR
  | .ufloat n std _ => if PyFloat.ltb std 0 && !PyFloat.isInf std then none else some n
  | _ => none

/-- The nominal values of the variables that a program creates, in the order of their creation. -/
noncomputable def variableNominals (cs : List (Cmd NR)) : List NR := cs.filterMap Cmd.created

/-- `ufloat` with another nominal value. -/
def Cmd.setNominal (t : ℝ) : Cmd NR → Cmd NR
  | .ufloat _ std label => .ufloat (fin t) std label
  | c => c

/-- The program `cs`, with the nominal value `t` for the variable number `v`. -/
noncomputable def withNominal (t : ℝ) : Nat → List (Cmd NR) → List (Cmd NR)
  | _, [] => []
  | v, c :: cs =>
    match c.created, v with
    | none, v => c :: withNominal t v cs
    | some _, 0 => c.setNominal t :: cs
    | some _, v + 1 => c :: withNominal t v cs

/-- The value number `k` of the calculation `cs`, as a function of the nominal value `t` of the variable
number `v`: the program is run with plain floats. -/
noncomputable def valueWith (cs : List (Cmd NR)) (v k : Nat) (t : ℝ) : Option (PyVal NR) :=
  ((plainly (withNominal t v cs)).env[k]?).join

/-! ### Differentiability of operations -/

/-- The arguments of a function, where the arguments that have an uncertainty are given the values `y 0`,
`y 1`... (according to their position). -/
def movedArgs : List (Seen NR) → (ℕ → ℝ) → List (PyVal NR)
  | [], _ => []
  | (p, none) :: rest, y => p :: movedArgs rest (fun i => y (i + 1))
  | (_, some _) :: rest, y => .flt (fin (y 0)) :: movedArgs rest (fun i => y (i + 1))

/-- Idem for keyword arguments. -/
def movedKw : List (String × Seen NR) → (ℕ → ℝ) → KwArgs NR
  | [], _ => []
  | (k, p, none) :: rest, y => (k, p) :: movedKw rest (fun i => y (i + 1))
  | (k, _, some _) :: rest, y => (k, .flt (fin (y 0))) :: movedKw rest (fun i => y (i + 1))

/-- A finite sequence as an infinite sequence. -/
def extendSeq {n : Nat} (y : Fin n → ℝ) (i : ℕ) : ℝ := if h : i < n then y ⟨i, h⟩ else 0

/-- Nominal value of an argument with uncertainty (0 for other arguments, which do not move). -/
def Seen.real : Seen NR → ℝ
  | (.flt (fin x), some _) => x
  | _ => 0

/-- The nominal values of all the arguments. -/
def nominalSlots (args : List (Seen NR)) (kwargs : List (String × Seen NR)) (i : ℕ) : ℝ :=
  (((args ++ kwargs.map Prod.snd)[i]?).map Seen.real).getD 0

/-- Value of `f` when the arguments with uncertainty have the values `y`. -/
def movedCall (f : PyFn NR) (args : List (Seen NR)) (kwargs : List (String × Seen NR)) (y : ℕ → ℝ) :
    PyRes (PyVal NR) :=
  f (movedArgs args y) (movedKw kwargs (fun i => y (i + args.length)))

/-- `f` is differentiable at the nominal values, as a function of its arguments with uncertainty, with
partial derivatives `c`. -/
def DiffAt (f : PyFn NR) (args : List (Seen NR)) (kwargs : List (String × Seen NR)) (c : ℕ → ℝ) : Prop :=
  ∃ g : (Fin (args.length + kwargs.length) → ℝ) → ℝ,
    (∀ᶠ y in 𝓝 (fun i => nominalSlots args kwargs i), movedCall f args kwargs (extendSeq y) = .ok (.flt (fin (g y)))) ∧
    HasFDerivAt g (∑ i : Fin (args.length + kwargs.length), c i • ContinuousLinearMap.proj (R := ℝ) (φ := fun _ => ℝ) i)
      (fun i => nominalSlots args kwargs i)

/-- `f` is constant close to the nominal values, as a function of its arguments with uncertainty. -/
def LocallyConstantAt (f : PyFn NR) (args : List (Seen NR)) (kwargs : List (String × Seen NR)) : Prop :=
  ∃ r, ∀ᶠ y in 𝓝 (fun i : Fin (args.length + kwargs.length) => nominalSlots args kwargs i),
    movedCall f args kwargs (extendSeq y) = r

/-- The command `c`, run after `cs`, is a differentiable operation:
* wrapped functions: the function is differentiable at the nominal values of the arguments with uncertainty,
and the derivatives documented for the arguments (given to `wrap`, or else numerical) are right;
* operators: the operator is differentiable (the second derivative of `%`, which is numerical, must be
right);
* `modf`: not at the integers where it jumps; locally constant functions must be locally constant. -/
def SmoothCmd (cs : List (Cmd NR)) : Cmd NR → Prop
  | .ufloat n _ _ => ∃ x, n = fin x
  | .call f args kwargs => ∀ df av kv, (fnsOf cs)[f]? = some df → AllSeenAs cs args av →
      AllSeenAsKw cs kwargs kv → anyUnc av kv = true →
      ∃ c, DiffAt df.f av kv c ∧
        (∀ i a, av[i]? = some a → a.2 ≠ none →
          df.specPos i (av.map Prod.fst) (kv.map fun p => (p.1, p.2.1)) = .ok (fin (c i))) ∧
        (∀ i p, kv[i]? = some p → p.2.2 ≠ none →
          df.specKw p.1 (av.map Prod.fst) (kv.map fun p => (p.1, p.2.1)) = .ok (fin (c (av.length + i))))
  | .unop op x => ∀ a, SeenAs cs x a → ∃ c, DiffAt op.func [a] [] c
  | .binop op x y => ∀ a b, SeenAs cs x a → SeenAs cs y b → ∃ x y c, a.1 = .flt (fin x) ∧ b.1 = .flt (fin y) ∧ DiffAt op.method [a, b] [] c ∧
      (op = .mod → b.2 ≠ none →
        partialDerivative (BinOp.method .mod) (.pos 1) (flts [x, y]) [] = .ok (fin (c 1)))
  | .modf x => ∀ n D, SeenAs cs x (.flt (fin n), some D) → ∀ k : ℤ, k ≠ 0 → n ≠ k
  | .ldexp _ _ => True
  | .lcst f args kwargs => ∀ av kv, AllSeenAs cs args av → AllSeenAsKw cs kwargs kv →
      LocallyConstantAt f av kv
  | _ => False

/-- The arguments of a command. -/
def Cmd.inputs {F : Type} : Cmd F → List (Arg F)
  | .call _ args kwargs => args ++ kwargs.map Prod.snd
  | .unop _ x => [x]
  | .binop _ x y => [x, y]
  | .modf x => [x]
  | .ldexp x _ => [x]
  | .lcst _ args kwargs => args ++ kwargs.map Prod.snd
  | _ => []

/-- The value number `k` of the program `cs` is the result of differentiable operations only (other
values may be anything). -/
inductive SmoothResult : List (Cmd NR) → Nat → Prop where
  | new {cs : List (Cmd NR)} {c : Cmd NR} {k : Nat} (h1 : (after cs).env.length ≤ k)
      (h2 : k < (after (cs ++ [c])).env.length) (hs : SmoothCmd cs c)
      (hi : ∀ j, Arg.ref j ∈ c.inputs → SmoothResult cs j) : SmoothResult (cs ++ [c]) k
  | old {cs : List (Cmd NR)} {c : Cmd NR} {k : Nat} (h : SmoothResult cs k) : SmoothResult (cs ++ [c]) k

end Unc
