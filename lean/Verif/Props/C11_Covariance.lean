import Verif.Props.Examples
import Verif.Lemmas.CovReal

/-
C11, C12: covariance matrices.
-/

namespace Unc

set_option autoImplicit false

open NR Finset

/-- **C11**: `covariance_matrix([x_0, ..., x_(m-1)])` is the m×m matrix of the sums, over the
variables, of derivative times derivative times current variance of the variable. -/
theorem C11_covariance_matrix {cs : List (Cmd NR)} {m : ℕ} {x : Fin m → Arg NR} {n : Fin m → NR}
    {D : Fin m → VarId → Option NR} {σ : VarId → ℝ}
    (hq : ∀ i, Quantity cs (x i) (n i) (D i) (fun v => fin (σ v))) (hnan : ∀ i v, D i v ≠ some nan)
    {V : Finset ℕ} (hV : ∀ i v, D i v ≠ none → v ∈ V) :
    sees cs (.covarianceMatrix (List.ofFn x)) =
      .matrix (List.ofFn fun i => List.ofFn fun j => fin (covM D σ V i j)) := by
  obtain ⟨s, hs⟩ := Reaches.exists cs
  have h := fun i => hs.quantity (hq i)
  choose q h1 h2 h3 h4 using h
  rw [(hs.read (c := .covarianceMatrix (List.ofFn x)) rfl).1]
  simp only [SState.step, evalArgs_ofFn _ x q h1, List.map_ofFn, Out.matrix.injEq]
  congr 1
  funext i
  simp only [Function.comp]
  congr 1
  funext j
  simp only [Function.comp]
  rw [h3 i, h3 j, specCov_fin (hnan i) (hnan j) (h4 i)]
  congr 1
  apply sum_eq_of_support (D := D i) _ (hV i)
  · intro v hv; simp [hv]
  · intro v hv
    obtain ⟨cell, hc, -⟩ := h4 i v hv
    exact mem_range.mpr (List.getElem?_eq_some_iff.mp hc).1

/-- **C11**: the matrix is symmetric and positive semi-definite. -/
theorem C11_positive_semidefinite {m : ℕ} (D : Fin m → VarId → Option NR) (σ : VarId → ℝ)
    (V : Finset ℕ) : (covM D σ V).IsSymm ∧ (covM D σ V).PosSemidef := by
  constructor
  · ext i j
    simp only [covM, Matrix.transpose_apply]
    exact sum_congr rfl (fun v _ => by ring)
  · let A : Matrix (Fin m) V ℝ := fun i v => coef (D i v) * σ v
    have : covM D σ V = A * A.conjTranspose := by
      ext i j
      rw [Matrix.mul_apply]
      unfold covM
      rw [← sum_coe_sort]
      refine sum_congr rfl (fun v _ => ?_)
      rw [Matrix.conjTranspose_apply, star_trivial]
      simp only [A]
      ring
    rw [this]
    exact Matrix.posSemidef_self_mul_conjTranspose A

/-- **C11**: the diagonal elements are the squares of the standard deviations. -/
theorem C11_diagonal {cs : List (Cmd NR)} {m : ℕ} {x : Fin m → Arg NR} {n : Fin m → NR}
    {D : Fin m → VarId → Option NR} {σ : VarId → ℝ}
    (hq : ∀ i, Quantity cs (x i) (n i) (D i) (fun v => fin (σ v))) (hnan : ∀ i v, D i v ≠ some nan)
    {V : Finset ℕ} (hV : ∀ i v, D i v ≠ none → v ∈ V) (i : Fin m) :
    ∃ std : ℝ, sees cs (.stdDev (x i)) = .val (.flt (fin std)) ∧ 0 ≤ std ∧ std ^ 2 = covM D σ V i i := by
  obtain ⟨s, hs⟩ := Reaches.exists cs
  obtain ⟨q, h1, -, h3, h4⟩ := hs.quantity (hq i)
  have hsd := (hs.stdDev h1).1
  rw [h3, specVariance_fin (hnan i) h4, nrSqrt_fin] at hsd
  refine ⟨_, hsd, Real.sqrt_nonneg _, ?_⟩
  rw [Real.sq_sqrt (sum_nonneg (fun v _ => sq_nonneg _))]
  have e : ∀ v, (coef (D i v) * σ v) ^ 2 = coef (D i v) * coef (D i v) * σ v ^ 2 := fun v => by ring
  simp only [e]
  apply sum_eq_of_support (D := D i) _ (hV i)
  · intro v hv; simp [hv]
  · intro v hv
    obtain ⟨cell, hc, -⟩ := h4 v hv
    exact mem_range.mpr (List.getElem?_eq_some_iff.mp hc).1

/-- **C11**: quantities without a common variable (in particular, different variables) have
covariance 0. -/
theorem C11_independent {m : ℕ} (D : Fin m → VarId → Option NR) (σ : VarId → ℝ)
    (V : Finset ℕ) (i j : Fin m) (h : ∀ v, D i v = none ∨ D j v = none) : covM D σ V i j = 0 := by
  unfold covM
  apply sum_eq_zero
  intro v _
  rcases h v with h | h <;> simp [h]

/-- `covariance_matrix([x, y, x*y])`, with x = 3±2, y = 5±1. -/
example : sees exCs (.covarianceMatrix [.ref 0, .ref 1, .ref 2]) =
    .matrix [[fin 4, fin 0, fin 20], [fin 0, fin 1, fin 3], [fin 20, fin 3, fin 109]] := by
  have h := C11_covariance_matrix (cs := exCs) (x := ![.ref 0, .ref 1, .ref 2])
    (n := ![fin 3, fin 5, fin 15]) (D := ![Lin.single 0, Lin.single 1, exP]) (σ := exStd)
    (V := {0, 1})
    (by
      intro i
      fin_cases i
      · exact ex_x
      · exact ex_y
      · exact ex_p)
    (by
      intro i v
      fin_cases i
      · simp [Lin.single]
      · simp [Lin.single]
      · simp [exP]; split <;> [simp; split <;> simp])
    (by
      intro i v
      fin_cases i
      · simp [Lin.single]; intro h; simp [h]
      · simp [Lin.single]; intro h; simp [h]
      · simp [exP]; intro h; by_contra h'; push Not at h'; simp [h'.1, h'.2] at h)
  simp only [List.ofFn_succ, List.ofFn_zero] at h
  simp [covM, Fin.succ] at h
  rw [h]
  simp [Lin.single, exP, exStd]
  norm_num

/-! ### C12 -/

/-- **C12** (partial: see `C12_negation`): if no variable has both a NaN derivative and the standard
deviation 0, the standard deviation is the square root of the (single) element of
`covariance_matrix([x])`; both are NaN if a derivative or a standard deviation is NaN. -/
theorem C12_diagonal_agrees_partial {cs : List (Cmd NR)} {x : Arg NR} {n : NR}
    {D : VarId → Option NR} {σ : VarId → NR} (hq : Quantity cs x n D σ)
    (h0 : ∀ v, D v = some nan → σ v ≠ fin 0) :
    (sees cs (.covarianceMatrix [x]) = .matrix [[nan]] ∧ sees cs (.stdDev x) = .val (.flt nan)) ∨
    (∃ std : ℝ, 0 ≤ std ∧ sees cs (.covarianceMatrix [x]) = .matrix [[fin (std ^ 2)]] ∧
      sees cs (.stdDev x) = .val (.flt (fin std))) := by
  obtain ⟨s, hs⟩ := Reaches.exists cs
  obtain ⟨q, h1, -, h3, h4⟩ := hs.quantity hq
  have hcov : specCov s.vars D D = specVariance s.vars D := by
    unfold specCov specVariance
    apply sumVars_congr
    intro v _
    unfold specVarianceTerm
    cases hd : D v with
    | none => rfl
    | some d =>
      obtain ⟨cell, hc, hcell⟩ := h4 v (by simp [hd])
      simp only [hc]
      apply specCov_diag_term
      intro e
      rw [hcell]
      exact h0 v (by rw [hd, e])
  have hm : sees cs (.covarianceMatrix [x]) = .matrix [[specVariance s.vars D]] := by
    rw [(hs.read (c := .covarianceMatrix [x]) rfl).1]
    simp [SState.step, evalArgs, h1, h3, hcov]
  have hsd := (hs.stdDev h1).1
  rw [h3] at hsd
  have hnn := nonNeg_variance s.vars D
  rw [hm, hsd]
  cases hv : specVariance s.vars D with
  | nan => left; simp
  | fin r =>
    right
    rw [hv] at hnn
    exact ⟨Real.sqrt r, Real.sqrt_nonneg r, by rw [Real.sq_sqrt hnn], by simp⟩

/-- **C12**, negation: `r = z**0.5` with z = 0±0 has standard deviation 0, but its variance according
to `covariance_matrix` is NaN. -/
theorem C12_negation :
    ∃ (cs : List (Cmd NR)) (x : Arg NR), sees cs (.stdDev x) = .val (.flt (fin 0)) ∧
      sees cs (.covarianceMatrix [x]) = .matrix [[nan]] := by
  refine ⟨exCs, .ref 4, ?_, ?_⟩
  · obtain ⟨q, h1, -, h3, -⟩ := ex_reaches.quantity ex_r
    rw [(ex_reaches.stdDev h1).1, h3]
    have : specVariance exState.vars exR = fin 0 := by
      simp [specVariance, exState, sumVars, specVarianceTerm, exR, specComponent, PyFloat.eqb]
    simp [this]
  · obtain ⟨q, h1, -, h3, -⟩ := ex_reaches.quantity ex_r
    rw [(ex_reaches.read (c := .covarianceMatrix [.ref 4]) rfl).1]
    simp only [SState.step, evalArgs, h1, List.map_cons, List.map_nil, h3]
    have : specCov exState.vars exR exR = nan := by
      simp [specCov, exState, sumVars, exR]
    rw [this]

example : ∃ std : ℝ, 0 ≤ std ∧ sees exCs (.covarianceMatrix [.ref 2]) = .matrix [[fin (std ^ 2)]] ∧
    sees exCs (.stdDev (.ref 2)) = .val (.flt (fin std)) := by
  rcases C12_diagonal_agrees_partial ex_p
    (by intro v; unfold exP; split <;> [simp; split <;> simp]) with ⟨h, -⟩ | h
  · exfalso
    obtain ⟨q, h1, -, h3, -⟩ := ex_reaches.quantity ex_p
    rw [(ex_reaches.read (c := .covarianceMatrix [.ref 2]) rfl).1] at h
    simp only [SState.step, evalArgs, h1, List.map_cons, List.map_nil, h3] at h
    simp [specCov, exState, sumVars, exP] at h
  · exact h

end Unc
