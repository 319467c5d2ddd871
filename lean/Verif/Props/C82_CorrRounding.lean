import Verif.Lemmas.CorrRounding
import Verif.Props.C70_Correlation
import Verif.Props.C80_CovRounding

/-
C82: correlation matrices calculated with floating-point arithmetic. `seesCorrelation` and `corrBound` are defined in
`Spec/CorrRounding.lean`.
-/

set_option autoImplicit false

namespace Unc

theorem seesCorrelation_ok {F : Type} [PyMath F] {cs : List (Cmd F)} {xs : List (Arg F)} {R : List (List F)}
    (h : seesCorrelation cs xs = .ok R) :
    ∃ M, sees cs (.covarianceMatrix xs) = .matrix M ∧ correlationMatrix M = .ok R := by
  unfold seesCorrelation at h
  cases hs : sees cs (.covarianceMatrix xs) with
  | matrix M => rw [hs] at h; exact ⟨M, rfl, h⟩
  | err e => rw [hs] at h; cases h
  | _ => rw [hs] at h; cases h

/-- **C82**: after any history, and for any floating-point arithmetic, the correlation matrix of `n` numbers is an n×n matrix,
and `n` is not 0. -/
theorem C82_shape {F : Type} [PyMath F] (cs : List (Cmd F)) (xs : List (Arg F)) (R : List (List F))
    (h : seesCorrelation cs xs = .ok R) :
    xs ≠ [] ∧ R.length = xs.length ∧ ∀ row ∈ R, row.length = xs.length := by
  obtain ⟨M, h1, h2⟩ := seesCorrelation_ok h
  obtain ⟨s1, s2, -⟩ := C80_symmetric cs xs M h1
  obtain ⟨c0, c1, c2, -⟩ := correlationMatrix_entry (by rw [s1]; exact s2) h2
  rw [s1] at c0 c1 c2
  refine ⟨?_, c1, c2⟩
  rintro rfl
  simp at c0

section
variable {F : Type} [PyMath F] [RoundedDiv F]

/-- **C82**: after any history, let `c` be the element (i, j) of `covariance_matrix(xs)`, and `vi`, `vj` the elements (i, i) and
(j, j), which are finite and positive. If the element (i, j) of `correlation_matrix(xs)` is finite, it is the exact quotient
c/(√vi √vj), up to the bound. -/
theorem C82_correlation (hu : Rounded.u F < 1) (cs : List (Cmd F)) (xs : List (Arg F)) (M R : List (List F))
    (hM : sees cs (.covarianceMatrix xs) = .matrix M) (hR : seesCorrelation cs xs = .ok R) (i j : Nat) (c vi vj r : F)
    (hc : entry M i j = some c) (hi : entry M i i = some vi) (hj : entry M j j = some vj)
    (fi : Rounded.Fin vi) (pi : 0 < Rounded.val vi) (fj : Rounded.Fin vj) (pj : 0 < Rounded.val vj)
    (hr : entry R i j = some r) (fr : Rounded.Fin r) :
    |Rounded.val r - Rounded.val c / (√(Rounded.val vi) * √(Rounded.val vj))| ≤
      corrBound (Rounded.u F) (Rounded.η F) (Rounded.val c / (√(Rounded.val vi) * √(Rounded.val vj)))
        (√(Rounded.val vi)) := by
  obtain ⟨M', h1, h2⟩ := seesCorrelation_ok hR
  rw [hM] at h1
  cases h1
  obtain ⟨s1, s2, -⟩ := C80_symmetric cs xs M hM
  obtain ⟨-, -, -, c3⟩ := correlationMatrix_entry (by rw [s1]; exact s2) h2
  rw [c3 i j c vi vj hc hi hj, Option.some.injEq] at hr
  subst hr
  obtain ⟨a1, a2⟩ := npSqrt_rounded fi pi.le
  obtain ⟨b1, b2⟩ := npSqrt_rounded fj pj.le
  obtain ⟨d1, d2⟩ := npDiv_rounded fr a1
  obtain ⟨-, e2⟩ := npDiv_rounded d1 b1
  exact corr_real Rounded.u_nonneg hu Rounded.η_nonneg (Real.sqrt_pos.2 pi) (Real.sqrt_pos.2 pj) a2 b2 e2 d2

/-- **C82**: the elements of the diagonal are 1, up to the bound. -/
theorem C82_diagonal (hu : Rounded.u F < 1) (cs : List (Cmd F)) (xs : List (Arg F)) (M R : List (List F))
    (hM : sees cs (.covarianceMatrix xs) = .matrix M) (hR : seesCorrelation cs xs = .ok R) (i : Nat) (v r : F)
    (hi : entry M i i = some v) (fi : Rounded.Fin v) (pi : 0 < Rounded.val v)
    (hr : entry R i i = some r) (fr : Rounded.Fin r) :
    |Rounded.val r - 1| ≤ corrBound (Rounded.u F) (Rounded.η F) 1 (√(Rounded.val v)) := by
  have h := C82_correlation hu cs xs M R hM hR i i v v v r hi hi hi fi pi fi pi hr fr
  rwa [Real.mul_self_sqrt pi.le, div_self pi.ne'] at h

/-- **C82**: the matrix is symmetric, up to the bounds. -/
theorem C82_symmetric (hu : Rounded.u F < 1) (cs : List (Cmd F)) (xs : List (Arg F)) (M R : List (List F))
    (hM : sees cs (.covarianceMatrix xs) = .matrix M) (hR : seesCorrelation cs xs = .ok R) (i j : Nat) (c vi vj r r' : F)
    (hc : entry M i j = some c) (hi : entry M i i = some vi) (hj : entry M j j = some vj)
    (fi : Rounded.Fin vi) (pi : 0 < Rounded.val vi) (fj : Rounded.Fin vj) (pj : 0 < Rounded.val vj)
    (hr : entry R i j = some r) (fr : Rounded.Fin r) (hr' : entry R j i = some r') (fr' : Rounded.Fin r') :
    |Rounded.val r - Rounded.val r'| ≤
      corrBound (Rounded.u F) (Rounded.η F) (Rounded.val c / (√(Rounded.val vi) * √(Rounded.val vj)))
        (√(Rounded.val vi)) +
      corrBound (Rounded.u F) (Rounded.η F) (Rounded.val c / (√(Rounded.val vi) * √(Rounded.val vj)))
        (√(Rounded.val vj)) := by
  have hs := (C80_symmetric cs xs M hM).2.2 i j
  have h1 := C82_correlation hu cs xs M R hM hR i j c vi vj r hc hi hj fi pi fj pj hr fr
  have h2 := C82_correlation hu cs xs M R hM hR j i c vj vi r' (hs ▸ hc) hj hi fj pj fi pi hr' fr'
  rw [mul_comm (√(Rounded.val vj))] at h2
  calc |Rounded.val r - Rounded.val r'| ≤
      |Rounded.val r - Rounded.val c / (√(Rounded.val vi) * √(Rounded.val vj))| +
        |Rounded.val c / (√(Rounded.val vi) * √(Rounded.val vj)) - Rounded.val r'| := abs_sub_le _ _ _
    _ ≤ _ := by rw [abs_sub_comm (_ / _)]; exact add_le_add h1 h2

end

/-! ### Rounding breaks the exact properties of correlations -/

/-- `x = ufloat(1, 0.1); y = 1.3*x` -/
def exC82 : List (Cmd B64) :=
  [.ufloat (.fin (2 ^ 1074)) exTenth none,
   .binop .mul (.const (.flt (.fin (5854679515581645 * 2 ^ 1022)))) (.ref 0)]

/-- **C82**: because of rounding, the elements of the diagonal are not always exactly 1, they can be larger than 1, and the
matrix is not exactly symmetric (although the covariance matrix is): with `x = ufloat(1, 0.1)` and `y = 1.3*x`,
`correlation_matrix([x, y])` is `[[1.0000000000000002, 0.9999999999999999], [1.0, 0.9999999999999998]]`. -/
theorem C82_fails_exact : seesCorrelation exC82 [.ref 0, .ref 1] =
    .ok [[.fin (2 ^ 1074 + 2 ^ 1022), .fin (2 ^ 1074 - 2 ^ 1021)], [.fin (2 ^ 1074), .fin (2 ^ 1074 - 2 ^ 1022)]] := by
  have h : (match seesCorrelation exC82 [.ref 0, .ref 1] with
    | .ok R => decide (R =
      [[.fin (2 ^ 1074 + 2 ^ 1022), .fin (2 ^ 1074 - 2 ^ 1021)], [.fin (2 ^ 1074), .fin (2 ^ 1074 - 2 ^ 1022)]])
    | .error _ => false) = true := by decide +kernel
  generalize seesCorrelation exC82 [.ref 0, .ref 1] = o at h ⊢
  cases o with
  | error e => cases h
  | ok R => rw [of_decide_eq_true h]

theorem B64.val_pos {m : ℤ} (h : 0 < m) : 0 < Rounded.val (B64.fin m) := by
  change 0 < (m : ℝ) * (2 : ℝ)⁻¹ ^ 1074
  have : (0 : ℝ) < m := by exact_mod_cast h
  positivity

/-- The hypotheses of `C82_correlation`, `C82_diagonal` and `C82_symmetric` are satisfied. -/
example : Rounded.u B64 < 1 ∧ ∃ (M R : List (List B64)) (c vi vj r r' : B64),
    sees exC82 (.covarianceMatrix [.ref 0, .ref 1]) = .matrix M ∧ seesCorrelation exC82 [.ref 0, .ref 1] = .ok R ∧
    entry M 0 1 = some c ∧ entry M 0 0 = some vi ∧ entry M 1 1 = some vj ∧
    Rounded.Fin vi ∧ 0 < Rounded.val vi ∧ Rounded.Fin vj ∧ 0 < Rounded.val vj ∧
    entry R 0 1 = some r ∧ Rounded.Fin r ∧ entry R 1 0 = some r' ∧ Rounded.Fin r' := by
  refine ⟨by change (2 : ℝ)⁻¹ ^ 53 < 1; norm_num, ?_⟩
  have h : ∃ a b c, (sees exC82 (.covarianceMatrix [.ref 0, .ref 1])).two = some (a, b, c) ∧ 0 < a ∧ 0 < c := by
    have h : (match (sees exC82 (.covarianceMatrix [.ref 0, .ref 1])).two with
      | some (a, _, c) => decide (0 < a ∧ 0 < c)
      | none => false) = true := by decide +kernel
    cases ho : (sees exC82 (.covarianceMatrix [.ref 0, .ref 1])).two with
    | none => rw [ho] at h; cases h
    | some p =>
      obtain ⟨a, b, c⟩ := p
      rw [ho] at h
      exact ⟨a, b, c, rfl, of_decide_eq_true h⟩
  obtain ⟨a, b, c, h1, h2, h3⟩ := h
  obtain ⟨M, m1, m2, m3, m4⟩ := Out.two_some h1
  exact ⟨M, _, _, _, _, _, _, m1, C82_fails_exact, m3, m2, m4, trivial, B64.val_pos h2, trivial, B64.val_pos h3,
    rfl, trivial, rfl, trivial⟩

/-- In exact arithmetic, `seesCorrelation` is the function of C70. -/
example (cs : List (Cmd NR)) (xs : List (Arg NR)) : seesCorrelation cs xs = correlationMatrixOf cs xs := by
  unfold seesCorrelation correlationMatrixOf
  cases sees cs (.covarianceMatrix xs) <;> rfl

end Unc
