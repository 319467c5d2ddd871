import Verif.Model.CorrMatrix
import Verif.Lemmas.Correlated
import Verif.Props.C11_Covariance

/-
C70: correlation matrices.
-/

set_option autoImplicit false

namespace Unc

open NR Finset Matrix

/-- `correlation_matrix(xs)`, after the history `cs`. -/
noncomputable def correlationMatrixOf (cs : List (Cmd NR)) (xs : List (Arg NR)) : PyRes (List (List NR)) :=
  match sees cs (.covarianceMatrix xs) with
  | .matrix M => correlationMatrix M
  | .err e => .error e
  | _ => .error .typeError

/-- The correlation of two quantities: their covariance divided by their standard deviations, NaN if one of the standard
deviations is 0. -/
noncomputable def correlation (cov std std' : ℝ) : NR := if std = 0 ∨ std' = 0 then nan else fin (cov / (std * std'))

theorem npDiv_fin {x y : ℝ} (h : y ≠ 0) : npDiv (fin x) (fin y) = fin (x / y) := by
  simp [npDiv, PyFloat.truediv, h]

theorem npDiv_zero {x : NR} : npDiv x (fin 0) = nan := by
  cases x <;> simp [npDiv, PyFloat.truediv, PyFloat.nan]

theorem npDiv_nan {y : NR} : npDiv nan y = nan := by
  cases y with
  | nan => rfl
  | fin y => by_cases h : y = 0 <;> simp [npDiv, PyFloat.truediv, PyFloat.nan, h]

theorem correlationMatrix_rows {m : ℕ} (hm : 0 < m) {C : Matrix (Fin m) (Fin m) ℝ} (hC : C.PosSemidef) :
    correlationMatrix (rows C) = .ok (List.ofFn fun i => List.ofFn fun j =>
      correlation (C i j) (Real.sqrt (C i i)) (Real.sqrt (C j j))) := by
  have hdiag : ∀ k, 0 ≤ C k k := fun k => hC.diag_nonneg
  have hsqrt : ∀ i, npSqrt (fin (C i i)) = fin (Real.sqrt (C i i)) := by
    intro i
    simp [npSqrt, PyFloat.sqrt, not_lt.mpr (hdiag i)]
  have hne : (rows C).isEmpty = false := by
    cases m with
    | zero => omega
    | succ m => simp [rows, List.ofFn_succ]
  unfold correlationMatrix
  rw [hne]
  simp only [Bool.false_eq_true, if_false, npDiag_rows, List.map_ofFn, Function.comp_def, hsqrt]
  simp only [rows, zip_ofFn, List.map_ofFn, Function.comp_def]
  congr 2
  funext i
  congr 1
  funext j
  unfold correlation
  by_cases hj : Real.sqrt (C j j) = 0
  · rw [if_pos (Or.inr hj), hj, npDiv_zero, npDiv_nan]
  · rw [npDiv_fin hj]
    by_cases hi : Real.sqrt (C i i) = 0
    · rw [if_pos (Or.inl hi), hi, npDiv_zero]
    · rw [if_neg (by tauto), npDiv_fin hi, div_div, mul_comm]

theorem covM_nonneg {m : ℕ} (D : Fin m → VarId → Option NR) (σ : VarId → ℝ) (V : Finset ℕ) (i : Fin m) : 0 ≤ covM D σ V i i :=
  sum_nonneg fun v _ => by
    have : coef (D i v) * coef (D i v) * σ v ^ 2 = (coef (D i v) * σ v) ^ 2 := by ring
    rw [this]
    exact sq_nonneg _

theorem covM_symm {m : ℕ} (D : Fin m → VarId → Option NR) (σ : VarId → ℝ) (V : Finset ℕ) (i j : Fin m) :
    covM D σ V i j = covM D σ V j i := sum_congr rfl fun v _ => by ring

theorem covM_sub {m : ℕ} (D : Fin m → VarId → Option NR) (σ : VarId → ℝ) (V : Finset ℕ) (i j : Fin m) (a : ℝ) :
    ∑ v ∈ V, (σ v * (coef (D j v) - a * coef (D i v))) ^ 2 =
      covM D σ V j j - 2 * a * covM D σ V i j + a ^ 2 * covM D σ V i i := by
  unfold covM
  rw [mul_sum, mul_sum, ← sum_sub_distrib, ← sum_add_distrib]
  exact sum_congr rfl fun v _ => by ring

theorem covM_cauchy {m : ℕ} (D : Fin m → VarId → Option NR) (σ : VarId → ℝ) (V : Finset ℕ) (i j : Fin m) :
    covM D σ V i j ^ 2 ≤ covM D σ V i i * covM D σ V j j := by
  have hp := covM_nonneg D σ V i
  have key : ∀ a : ℝ, 0 ≤ covM D σ V j j - 2 * a * covM D σ V i j + a ^ 2 * covM D σ V i i := by
    intro a
    rw [← covM_sub]
    exact sum_nonneg fun v _ => sq_nonneg _
  rcases hp.lt_or_eq with hp | hp
  · have := key (covM D σ V i j / covM D σ V i i)
    have e : covM D σ V j j - 2 * (covM D σ V i j / covM D σ V i i) * covM D σ V i j +
        (covM D σ V i j / covM D σ V i i) ^ 2 * covM D σ V i i =
        (covM D σ V i i * covM D σ V j j - covM D σ V i j ^ 2) / covM D σ V i i := by
      field_simp
      ring
    rw [e] at this
    have := (le_div_iff₀ hp).1 this
    linarith
  · have h0 := posSemidef_null (C11_positive_semidefinite D σ V).2 hp.symm j
    rw [h0, ← hp]
    simp

theorem sqrt_ne {x : ℝ} (hx : 0 ≤ x) : Real.sqrt x ≠ 0 ↔ 0 < x := by
  rw [Ne, Real.sqrt_eq_zero hx]
  exact ⟨fun h => lt_of_le_of_ne hx (Ne.symm h), fun h => ne_of_gt h⟩

/-- Correlation coefficients, as real numbers. -/
theorem corr_bounds {p q r : ℝ} (hp : 0 < p) (hq : 0 < q) (h : r ^ 2 ≤ p * q) :
    -1 ≤ r / (Real.sqrt p * Real.sqrt q) ∧ r / (Real.sqrt p * Real.sqrt q) ≤ 1 := by
  have h1 : 0 < Real.sqrt p * Real.sqrt q := mul_pos (Real.sqrt_pos.2 hp) (Real.sqrt_pos.2 hq)
  have h2 : (Real.sqrt p * Real.sqrt q) ^ 2 = p * q := by
    rw [mul_pow, Real.sq_sqrt hp.le, Real.sq_sqrt hq.le]
  rw [← h2] at h
  have h3 := abs_le_of_sq_le_sq' h h1.le
  constructor
  · rw [le_div_iff₀ h1]; linarith [h3.1]
  · rw [div_le_iff₀ h1]; linarith [h3.2]

theorem Quantity.support {cs : List (Cmd NR)} {m : ℕ} {x : Fin m → Arg NR} {n : Fin m → NR}
    {D : Fin m → VarId → Option NR} {σ : VarId → NR} (hq : ∀ i, Quantity cs (x i) (n i) (D i) σ) :
    ∃ V : Finset ℕ, ∀ i v, D i v ≠ none → v ∈ V := by
  obtain ⟨s, hs⟩ := Reaches.exists cs
  refine ⟨Finset.range s.vars.length, fun i v hv => ?_⟩
  obtain ⟨q, -, -, -, h4⟩ := hs.quantity (hq i)
  obtain ⟨cell, hc, -⟩ := h4 v hv
  exact mem_range.mpr (List.getElem?_eq_some_iff.mp hc).1

theorem correlationMatrixOf_eq {cs : List (Cmd NR)} {m : ℕ} (hm : 0 < m) {x : Fin m → Arg NR} {n : Fin m → NR}
    {D : Fin m → VarId → Option NR} {σ : VarId → ℝ}
    (hq : ∀ i, Quantity cs (x i) (n i) (D i) (fun v => fin (σ v))) (hnan : ∀ i v, D i v ≠ some nan)
    {V : Finset ℕ} (hV : ∀ i v, D i v ≠ none → v ∈ V) :
    (∀ i, sees cs (.stdDev (x i)) = .val (.flt (fin (Real.sqrt (covM D σ V i i))))) ∧
    correlationMatrixOf cs (List.ofFn x) = .ok (List.ofFn fun i => List.ofFn fun j =>
      correlation (covM D σ V i j) (Real.sqrt (covM D σ V i i)) (Real.sqrt (covM D σ V j j))) := by
  constructor
  · intro i
    obtain ⟨std, h1, h2, h3⟩ := C11_diagonal hq hnan hV i
    rw [h1, ← h3, Real.sqrt_sq h2]
  · unfold correlationMatrixOf
    rw [C11_covariance_matrix hq hnan hV]
    exact correlationMatrix_rows hm (C11_positive_semidefinite D σ V).2

/-- **C70**: the elements of `correlation_matrix([x_0, ..., x_(m-1)])` are the covariances divided by the standard deviations of
the two quantities (as `covariance_matrix()` and `std_dev` give them), and NaN for quantities that have no uncertainty. -/
theorem C70_correlation_matrix {cs : List (Cmd NR)} {m : ℕ} (hm : 0 < m) {x : Fin m → Arg NR} {n : Fin m → NR}
    {D : Fin m → VarId → Option NR} {σ : VarId → ℝ}
    (hq : ∀ i, Quantity cs (x i) (n i) (D i) (fun v => fin (σ v))) (hnan : ∀ i v, D i v ≠ some nan) :
    ∃ (C : Matrix (Fin m) (Fin m) ℝ) (s : Fin m → ℝ),
      sees cs (.covarianceMatrix (List.ofFn x)) = .matrix (List.ofFn fun i => List.ofFn fun j => fin (C i j)) ∧
      (∀ i, sees cs (.stdDev (x i)) = .val (.flt (fin (s i)))) ∧
      correlationMatrixOf cs (List.ofFn x) = .ok (List.ofFn fun i => List.ofFn fun j => correlation (C i j) (s i) (s j)) := by
  obtain ⟨V, hV⟩ := Quantity.support hq
  obtain ⟨h1, h2⟩ := correlationMatrixOf_eq hm hq hnan hV
  exact ⟨covM D σ V, fun i => Real.sqrt (covM D σ V i i), C11_covariance_matrix hq hnan hV, h1, h2⟩

/-- **C70**: correlations are symmetric; they are 1 on the diagonal; they are between -1 and 1; they are 0 for quantities that
have no variable in common (for quantities that have an uncertainty). -/
theorem C70_properties {cs : List (Cmd NR)} {m : ℕ} (hm : 0 < m) {x : Fin m → Arg NR} {n : Fin m → NR}
    {D : Fin m → VarId → Option NR} {σ : VarId → ℝ}
    (hq : ∀ i, Quantity cs (x i) (n i) (D i) (fun v => fin (σ v))) (hnan : ∀ i v, D i v ≠ some nan) :
    ∃ R : Fin m → Fin m → NR, correlationMatrixOf cs (List.ofFn x) = .ok (List.ofFn fun i => List.ofFn (R i)) ∧
      (∀ i j, R i j = R j i) ∧
      (∀ i j, R i j = nan ↔ sees cs (.stdDev (x i)) = .val (.flt (fin 0)) ∨ sees cs (.stdDev (x j)) = .val (.flt (fin 0))) ∧
      ∀ i j, R i j ≠ nan →
        R i i = fin 1 ∧ (∃ r, R i j = fin r ∧ -1 ≤ r ∧ r ≤ 1) ∧
        ((∀ v, D i v = none ∨ D j v = none) → R i j = fin 0) := by
  obtain ⟨V, hV⟩ := Quantity.support hq
  obtain ⟨h1, h2⟩ := correlationMatrixOf_eq hm hq hnan hV
  have hn : ∀ i j, correlation (covM D σ V i j) (Real.sqrt (covM D σ V i i)) (Real.sqrt (covM D σ V j j)) = nan ↔
      Real.sqrt (covM D σ V i i) = 0 ∨ Real.sqrt (covM D σ V j j) = 0 := by
    intro i j
    unfold correlation
    split_ifs with h
    · simp [h]
    · simp [h]
  refine ⟨_, h2, ?_, ?_, ?_⟩
  · intro i j
    unfold correlation
    rw [covM_symm D σ V i j, mul_comm]
    simp only [or_comm]
  · intro i j
    rw [hn, h1, h1]
    simp
  · intro i j hij
    rw [Ne, hn, not_or] at hij
    obtain ⟨hi, hj⟩ := hij
    have hpi := (sqrt_ne (covM_nonneg D σ V i)).1 hi
    have hpj := (sqrt_ne (covM_nonneg D σ V j)).1 hj
    refine ⟨?_, ?_, ?_⟩
    · unfold correlation
      rw [if_neg (by tauto), Real.mul_self_sqrt hpi.le, div_self hpi.ne']
    · unfold correlation
      rw [if_neg (by tauto)]
      exact ⟨_, rfl, corr_bounds hpi hpj (covM_cauchy D σ V i j)⟩
    · intro hd
      unfold correlation
      rw [if_neg (by tauto), C11_independent D σ V i j hd, zero_div]

/-- **C70**: a correlation is 1 (-1) exactly if, up to variables that have no uncertainty, the derivatives of the second
quantity are those of the first one multiplied by a positive (negative) number: they are linked by an affine relation. -/
theorem C70_perfect {cs : List (Cmd NR)} {m : ℕ} (hm : 0 < m) {x : Fin m → Arg NR} {n : Fin m → NR}
    {D : Fin m → VarId → Option NR} {σ : VarId → ℝ}
    (hq : ∀ i, Quantity cs (x i) (n i) (D i) (fun v => fin (σ v))) (hnan : ∀ i v, D i v ≠ some nan) :
    ∃ R : Fin m → Fin m → NR, correlationMatrixOf cs (List.ofFn x) = .ok (List.ofFn fun i => List.ofFn (R i)) ∧
      ∀ i j, R i j ≠ nan →
        (R i j = fin 1 ↔ ∃ a : ℝ, 0 < a ∧ ∀ v, σ v ≠ 0 → coef (D j v) = a * coef (D i v)) ∧
        (R i j = fin (-1) ↔ ∃ a : ℝ, a < 0 ∧ ∀ v, σ v ≠ 0 → coef (D j v) = a * coef (D i v)) := by
  obtain ⟨V, hV⟩ := Quantity.support hq
  obtain ⟨h1, h2⟩ := correlationMatrixOf_eq hm hq hnan hV
  refine ⟨_, h2, ?_⟩
  intro i j hij
  have hij' : ¬(Real.sqrt (covM D σ V i i) = 0 ∨ Real.sqrt (covM D σ V j j) = 0) := by
    intro h
    unfold correlation at hij
    rw [if_pos h] at hij
    exact hij rfl
  have hR : correlation (covM D σ V i j) (Real.sqrt (covM D σ V i i)) (Real.sqrt (covM D σ V j j)) =
      fin (covM D σ V i j / (Real.sqrt (covM D σ V i i) * Real.sqrt (covM D σ V j j))) := by
    unfold correlation
    rw [if_neg hij']
  rw [hR]
  rw [not_or] at hij'
  have hpi := (sqrt_ne (covM_nonneg D σ V i)).1 hij'.1
  have hpj := (sqrt_ne (covM_nonneg D σ V j)).1 hij'.2
  have hs : 0 < Real.sqrt (covM D σ V i i) * Real.sqrt (covM D σ V j j) := mul_pos (Real.sqrt_pos.2 hpi) (Real.sqrt_pos.2 hpj)
  -- the two directions
  have hto : covM D σ V i j ^ 2 = covM D σ V i i * covM D σ V j j →
      ∀ v, σ v ≠ 0 → coef (D j v) = covM D σ V i j / covM D σ V i i * coef (D i v) := by
    intro he
    have hz := covM_sub D σ V i j (covM D σ V i j / covM D σ V i i)
    have e : covM D σ V j j - 2 * (covM D σ V i j / covM D σ V i i) * covM D σ V i j +
        (covM D σ V i j / covM D σ V i i) ^ 2 * covM D σ V i i = 0 := by
      field_simp
      nlinarith
    rw [e, sum_eq_zero_iff_of_nonneg fun v _ => sq_nonneg _] at hz
    intro v hv
    by_cases hvV : v ∈ V
    · have := hz v hvV
      rw [sq_eq_zero_iff, mul_eq_zero] at this
      rcases this with h | h
      · exact absurd h hv
      · linarith
    · have a1 : D i v = none := by
        by_contra h
        exact hvV (hV i v h)
      have a2 : D j v = none := by
        by_contra h
        exact hvV (hV j v h)
      simp [a1, a2, coef]
  have hfrom : ∀ a : ℝ, (∀ v, σ v ≠ 0 → coef (D j v) = a * coef (D i v)) →
      covM D σ V i j = a * covM D σ V i i ∧ covM D σ V j j = a ^ 2 * covM D σ V i i := by
    intro a ha
    unfold covM
    rw [mul_sum, mul_sum]
    constructor
    · refine sum_congr rfl fun v _ => ?_
      by_cases hv : σ v = 0
      · simp [hv]
      · rw [ha v hv]; ring
    · refine sum_congr rfl fun v _ => ?_
      by_cases hv : σ v = 0
      · simp [hv]
      · rw [ha v hv]; ring
  have hsq : (Real.sqrt (covM D σ V i i) * Real.sqrt (covM D σ V j j)) ^ 2 = covM D σ V i i * covM D σ V j j := by
    rw [mul_pow, Real.sq_sqrt hpi.le, Real.sq_sqrt hpj.le]
  constructor
  · rw [NR.fin.injEq, div_eq_one_iff_eq hs.ne']
    constructor
    · intro he
      exact ⟨_, div_pos (he ▸ hs) hpi, hto (by rw [he, hsq])⟩
    · rintro ⟨a, ha, had⟩
      obtain ⟨e1, e2⟩ := hfrom a had
      rw [e1, e2, ← Real.sqrt_mul hpi.le]
      have : covM D σ V i i * (a ^ 2 * covM D σ V i i) = (a * covM D σ V i i) ^ 2 := by ring
      rw [this, Real.sqrt_sq (mul_nonneg ha.le hpi.le)]
  · rw [NR.fin.injEq, div_eq_iff hs.ne']
    constructor
    · intro he
      refine ⟨_, div_neg_of_neg_of_pos ?_ hpi, hto (by rw [he]; linarith [hsq])⟩
      rw [he]
      linarith
    · rintro ⟨a, ha, had⟩
      obtain ⟨e1, e2⟩ := hfrom a had
      rw [e1, e2, ← Real.sqrt_mul hpi.le]
      have : covM D σ V i i * (a ^ 2 * covM D σ V i i) = (-a * covM D σ V i i) ^ 2 := by ring
      rw [this, Real.sqrt_sq (mul_nonneg (by linarith) hpi.le)]
      ring

/-- No quantity: NumPy raises ValueError. -/
theorem C70_empty (cs : List (Cmd NR)) : correlationMatrixOf cs [] = .error .valueError := by
  obtain ⟨s, hs⟩ := Reaches.exists cs
  unfold correlationMatrixOf
  rw [(hs.read (c := .covarianceMatrix []) rfl).1]
  rfl

/-- `correlation_matrix([x, y])`, with x = 3±2, y = 5±1. -/
example : correlationMatrixOf exCs [.ref 0, .ref 1] = .ok [[fin 1, fin 0], [fin 0, fin 1]] := by
  have h := correlationMatrixOf_eq (cs := exCs) (m := 2) (by decide) (x := ![.ref 0, .ref 1])
    (n := ![fin 3, fin 5]) (D := ![Lin.single 0, Lin.single 1]) (σ := exStd) (V := {0, 1})
    (by
      intro i
      fin_cases i
      · exact ex_x
      · exact ex_y)
    (by
      intro i v
      fin_cases i <;> simp [Lin.single])
    (by
      intro i v
      fin_cases i <;> (simp [Lin.single]; intro h; simp [h]))
  have h2 := h.2
  simp only [List.ofFn_succ, List.ofFn_zero] at h2
  simp [covM, Fin.succ] at h2
  rw [h2]
  have c1 : coef (some (1 : NR)) = 1 := rfl
  have c0 : coef (none : Option NR) = 0 := rfl
  have s4 : Real.sqrt (2 ^ 2) = 2 := Real.sqrt_sq (by norm_num)
  simp [Lin.single, exStd, correlation, c1, c0, s4]
  norm_num

end Unc
