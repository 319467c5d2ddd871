import Verif.Model.Machine

/-
`correlated_values()` and `correlated_values_norm()` (core.py 139-258).

These functions only create objects: their effect is described by the commands that they run, and by
the values that they return (references to results of these commands). Real matrices are lists of
rows. NumPy's eigensolver `numpy.linalg.eigh()` is a parameter.
-/

namespace Unc

set_option autoImplicit false

variable {F : Type} [PyMath F]

/-- What `numpy.linalg.eigh()` is: it takes a matrix (list of rows) and returns the eigenvalues, and a
matrix (list of rows) whose columns are the eigenvectors. -/
abbrev EighFn (F : Type) := List (List F) → PyRes (List F × List (List F))

/-- `variances[variances < 0] = 0.` (core.py 232). -/
def clampVariance (x : F) : F := if PyFloat.ltb x 0 then 0 else x

/-- `Variable(0, sqrt(variance), tag) for (variance, tag) in zip(variances, tags)` (core.py 239-242).
-/
def newVariables : List (F × Option String) → PyRes (List (Cmd F))
  | [] => .ok []
  | (variance, tag) :: rest =>
    match PyFloat.sqrt variance with
    | .error e => .error e
    | .ok s =>
      match newVariables rest with
      | .error e => .error e
      | .ok l => .ok (.ufloat 0 s tag :: l)

/-- `transform *= std_devs[:, numpy.newaxis]` (core.py 246): each row is multiplied by a standard
deviation. NumPy's broadcasting rules: as many standard deviations as rows, or only one. -/
def scaleRows (transform : List (List F)) (stds : List F) : PyRes (List (List F)) :=
  match stds with
  | [s] => .ok (transform.map fun row => row.map fun c => c * s)
  | _ =>
    if stds.length = transform.length then
      .ok ((transform.zip stds).map fun p => p.1.map fun c => c * p.2)
    else .error .valueError

/-- `correlated_values_norm(values_with_std_dev, correlation_mat, tags)` (core.py 191-255): commands,
and result. `base` is the number of values bound so far. Simplification: when an exception is raised,
the objects that were created before are not in the model (nothing refers to them). -/
def correlatedValuesNorm (eigh : EighFn F) (base : Nat) (values : List (F × F))
    (correlation : List (List F)) (tags : Option (List (Option String))) :
    PyRes (List (Cmd F) × List (Arg F)) :=
  -- tags = (None,) * len(values_with_std_dev)
  let tags := tags.getD (List.replicate values.length none)
  -- (nominal_values, std_devs) = numpy.transpose(values_with_std_dev): two rows are needed
  if values.isEmpty then .error .valueError
  else
    match eigh correlation with
    | .error e => .error e
    | .ok (variances, transform) =>
      match newVariables ((variances.map clampVariance).zip tags) with
      | .error e => .error e
      | .ok vars =>
        match scaleRows transform (values.map Prod.snd) with
        | .error e => .error e
        | .ok transform =>
          let variables : List (Arg F) := (List.range vars.length).map fun k => .ref (base + k)
          -- AffineScalarFunc(value, LinearCombination(dict(zip(variables, coords))))
          let funcs := (transform.zip (values.map Prod.fst)).map fun p =>
            Cmd.affine p.2 (variables.zip p.1)
          .ok (vars ++ funcs,
            (List.range funcs.length).map fun i => .ref (base + vars.length + i))

/-- `numpy.sqrt()`: NaN (with a warning) for negative numbers. -/
def npSqrt (x : F) : F :=
  match PyFloat.sqrt x with
  | .ok r => r
  | .error _ => PyFloat.nan

/-- `x/y` for NumPy arrays. Simplification: NaN if `y` is 0 (NumPy also returns infinities, with a
warning); `correlated_values()` never divides by 0. -/
def npDiv (x y : F) : F :=
  match PyFloat.truediv x y with
  | .ok r => r
  | .error _ => PyFloat.nan

/-- `numpy.diag(mat)`, for a square matrix. -/
def npDiag (mat : List (List F)) : List F := mat.zipIdx.filterMap fun p => p.1[p.2]?

/-- `correlated_values(nom_values, covariance_mat, tags)` (core.py 139-189). Simplification: a matrix
that is not square is rejected here (in the code, this is done by `numpy.linalg.eigh()`, if NumPy's
broadcasting rules do not raise an exception before). -/
def correlatedValues (eigh : EighFn F) (base : Nat) (noms : List F) (covariance : List (List F))
    (tags : Option (List (Option String))) : PyRes (List (Cmd F) × List (Arg F)) :=
  if covariance.all fun row => row.length == covariance.length then
    let stds := (npDiag covariance).map npSqrt
    -- norm_vector[norm_vector==0] = 1
    let norm := stds.map fun s => if PyFloat.eqb s 0 then 1 else s
    -- covariance_mat/norm_vector/norm_vector[:,numpy.newaxis]
    let correlation := (covariance.zip norm).map fun p =>
      (p.1.zip norm).map fun q => npDiv (npDiv q.1 q.2) p.2
    correlatedValuesNorm eigh base (noms.zip stds) correlation tags
  else .error .valueError

end Unc
