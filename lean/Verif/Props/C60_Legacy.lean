import Verif.Model.Legacy
import Verif.Py.ZN
import Verif.Props.C60_Fixers

/-!
# C60: the obsolete methods of the package

The updates of `.std_dev()`, `.set_std_dev()` and `.std_devs()` are correct for the objects of the package.
-/

set_option autoImplicit false

namespace Unc

variable {F : Type} [PyMath F] {S : Type}

/-- A number with uncertainty. -/
def IsUncNumber (v : LVal F) : Prop := ∃ u, v = .unc u

/-- A variable. -/
def IsUncVariable (v : LVal F) : Prop := ∃ u k, v = .unc u ∧ u.var = some k

/-- A matrix of the package. -/
def IsUMatrix (v : LVal F) : Prop := ∃ A, v = .matrix A

/-- **C60**: `x.std_dev()` gives what `x.std_dev` gives (same value or exception, same effects), for all numbers with
uncertainties. -/
theorem C60_package_std_dev (I : Interp (World F × S) (LVal F)) : CallableAttr (withPackage I) IsUncNumber "std_dev" := by
  rintro v ⟨u, rfl⟩
  funext w
  show Run.bind (inWorld (fun w => w.stdDev u) LVal.callableStdDev) _ w = inWorld (fun w => w.stdDev u) LVal.callableStdDev w
  unfold Run.bind inWorld
  cases (w.1.stdDev u).2 <;> rfl

/-- **C60**: `M.std_devs()` gives what `M.std_devs` gives, for all matrices. -/
theorem C60_package_std_devs (I : Interp (World F × S) (LVal F)) : CallableAttr (withPackage I) IsUMatrix "std_devs" := by
  rintro v ⟨A, rfl⟩
  funext w
  show Run.bind (inWorld (fun w => w.stdDevs A) LVal.callableStdDevs) _ w = inWorld (fun w => w.stdDevs A) LVal.callableStdDevs w
  unfold Run.bind inWorld
  cases (w.1.stdDevs A).2 <;> rfl

/-- **C60**: `x.set_std_dev(s)` is `x.std_dev = s`, for all variables. -/
theorem C60_package_set_std_dev (I : Interp (World F × S) (LVal F)) : SetsStdDev (withPackage I) IsUncVariable := by
  rintro v ⟨u, k, rfl, hk⟩
  refine ⟨.setStdDev u, fun w => ?_, fun a => rfl⟩
  show (match u.var with | Option.none => _ | some _ => _) = _
  rw [hk]

/-- **C60**: the update of a program that uses the package preserves its meaning, whatever else the program does, provided
that the obsolete methods are called on numbers with uncertainties, variables and matrices, that the order of evaluation of `e`
and `x` in `e.set_std_dev(x)` does not matter, and that `set_std_dev()` is not called with a keyword argument
(`C60_fails_set_std_dev_keyword`). -/
theorem C60_package_updates_partial (I : Interp (World F × S) (LVal F)) (e : Ex) (w : World F × S) :
    (AllCalls (StdDevSafe (withPackage I) IsUncNumber IsUncVariable) e → (fixStdDev e).eval (withPackage I) w = e.eval (withPackage I) w) ∧
    (AllCalls (StdDevsSafe (withPackage I) IsUMatrix) e → (fixStdDevs e).eval (withPackage I) w = e.eval (withPackage I) w) :=
  ⟨fun h => C60_std_dev_partial (C60_package_std_dev I) (C60_package_set_std_dev I) e h w,
    fun h => C60_std_devs (C60_package_std_devs I) e h w⟩

/-- A result that is not a variable has no method `set_std_dev`, and its standard deviation cannot be set. -/
theorem C60_package_results (I : Interp (World F × S) (LVal F)) (u : UF F) (hu : u.var = none) (s : F) (w : World F × S) :
    (withPackage I).attr (.unc u) "set_std_dev" w = (.error .attributeError, w) ∧
    (withPackage I).setattr (.unc u) "std_dev" (.float s) w = (.error .attributeError, w) := by
  constructor
  · show (match u.var with | Option.none => _ | some _ => _) = _
    rw [hu]
  · show inWorld (fun w => w.assignStd u s) _ w = _
    unfold inWorld World.assignStd
    rw [hu]
    rfl

/-- **C60**: a standard deviation that has been read can be used as a float: `x.std_dev = y.std_dev` and
`x.set_std_dev(y.std_dev)` do what `x.std_dev = s` and `x.set_std_dev(s)` do for the float `s` of the same value. -/
theorem C60_package_assign (I : Interp (World F × S) (LVal F)) (u y : UF F) (s : F) (w : World F × S)
    (hs : (w.1.stdDev y).2 = .ok s) :
    ∃ v w', (withPackage I).attr (.unc y) "std_dev" w = (.ok v, w') ∧
      (withPackage I).setattr (.unc u) "std_dev" v w' = (withPackage I).setattr (.unc u) "std_dev" (.float s) w' ∧
      (withPackage I).call (.setStdDev u) [(.pos, v)] w' = (withPackage I).setattr (.unc u) "std_dev" (.float s) w' := by
  refine ⟨.callableStdDev s, ((w.1.stdDev y).1, w.2), ?_, rfl, rfl⟩
  show inWorld (fun w => w.stdDev y) LVal.callableStdDev w = _
  unfold inWorld
  rw [hs]
  rfl

/-! ### A concrete case: `x.set_std_dev(y)` then `x.std_dev()`, for x = 1±2 and y = 3 -/

/-- The names of the program. -/
def legacyNames : Interp (World ZN × Unit) (LVal ZN) where
  name s := fun w =>
    if s = "x" then (.ok (.unc { nom := .fin 1, lin := 0, var := some 0 }), w) else (.ok (.float (.fin 3)), w)
  str _ := .none
  tuple _ := .none
  attr _ _ := fun w => (.error .attributeError, w)
  call _ _ := fun w => (.error .typeError, w)
  setattr _ _ _ := fun w => (.error .attributeError, w)
  setname _ v := fun w => (.ok v, w)
  trail _ r _ := r
  other _ l := (Run.all l).bind fun vs w => (.ok (vs.getLastD .none), w)

/-- `x = ufloat(1, 2)` -/
def legacyWorld : World ZN × Unit := ((World.ufloat ⟨[], [], []⟩ (.fin 1) (.fin 2) none).1, ())

/-- `x.set_std_dev(y); x.std_dev()` -/
def legacyProgram : Ex :=
  .other 0 [.call (.attr (.name "x") "set_std_dev") [.pos] [.name "y"], .call (.attr (.name "x") "std_dev") [] []]

example : fixStdDev legacyProgram =
    .other 0 [.assign (.name "x") "std_dev" (.name "y"), .attr (.name "x") "std_dev"] := rfl

example : AllCalls (StdDevSafe (withPackage legacyNames) IsUncNumber IsUncVariable) legacyProgram := by
  have hx : ∀ w v w', (Ex.name "x").eval (withPackage legacyNames) w = (.ok v, w') →
      v = .unc { nom := .fin 1, lin := 0, var := some 0 } := by
    intro w v w' h
    simp only [Ex.eval, withPackage, legacyNames, if_true, Prod.mk.injEq, Except.ok.injEq] at h
    exact h.1.symm
  refine ⟨⟨trivial, ⟨trivial, trivial⟩, fun w v w' h => ⟨_, _, hx w v w' h, rfl⟩, fun f => rfl⟩,
    ⟨trivial, trivial, fun w v w' h => ⟨_, hx w v w' h⟩⟩, trivial⟩

example : (match (legacyProgram.eval (withPackage legacyNames) legacyWorld).1 with
    | .ok (.callableStdDev x) => decide (x = .fin 3)
    | _ => false) = true := by decide +kernel

/-- The standard deviation of `x` is 2. -/
example : (legacyWorld.1.stdDev { nom := .fin 1, lin := 0, var := some 0 }).2 = .ok (.fin 2) := by decide +kernel

end Unc
