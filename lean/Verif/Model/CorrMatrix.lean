import Verif.Model.Correlated

/-
`correlation_matrix()` (core.py 2933-2943).
-/

set_option autoImplicit false

namespace Unc

variable {F : Type} [PyMath F]

/-- What `correlation_matrix()` does with the result of `covariance_matrix()` (core.py 2939-2943):
`cov_mat/std_devs/std_devs[numpy.newaxis].T`, i.e. the element (i, j) is divided by the standard deviation j, then by the
standard deviation i. An empty list has no diagonal: `ValueError`. (Divisions by 0 are divisions of 0 or NaN by 0, since a
covariance is 0 or NaN when one of the variances is 0: `npDiv` is NumPy's division in this case.) -/
def correlationMatrix (cov : List (List F)) : PyRes (List (List F)) :=
  if cov.isEmpty then .error .valueError
  else
    let stds := (npDiag cov).map npSqrt
    .ok ((cov.zip stds).map fun p => (p.1.zip stds).map fun q => npDiv (npDiv q.1 q.2) p.2)

end Unc
