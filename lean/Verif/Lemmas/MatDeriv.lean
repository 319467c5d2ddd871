import Mathlib.Topology.Instances.Matrix
import Mathlib.Analysis.Calculus.Deriv.Mul
import Mathlib.Analysis.Calculus.Deriv.Add
import Mathlib.LinearAlgebra.Matrix.Rank
import Mathlib.LinearAlgebra.Matrix.NonsingularInverse
import Verif.Spec.Matrices

/-
Derivatives of the inverse and of the pseudo-inverse of a matrix.
-/

namespace Unc

set_option autoImplicit false

open Matrix Filter Topology

variable {m n k : ℕ}

/-- Element-wise limit. -/
def MatTends (M : ℝ → Matrix (Fin m) (Fin n) ℝ) (L : Matrix (Fin m) (Fin n) ℝ) (t0 : ℝ) : Prop :=
  ∀ i j, Tendsto (fun t => M t i j) (𝓝 t0) (𝓝 (L i j))

theorem MatTends.mul {M : ℝ → Matrix (Fin m) (Fin k) ℝ} {L : Matrix (Fin m) (Fin k) ℝ}
    {M' : ℝ → Matrix (Fin k) (Fin n) ℝ} {L' : Matrix (Fin k) (Fin n) ℝ} {t0 : ℝ}
    (h : MatTends M L t0) (h' : MatTends M' L' t0) : MatTends (fun t => M t * M' t) (L * L') t0 := by
  intro i j
  simp only [Matrix.mul_apply]
  exact tendsto_finsetSum _ (fun l _ => (h i l).mul (h' l j))

theorem MatTends.transpose {M : ℝ → Matrix (Fin m) (Fin n) ℝ} {L : Matrix (Fin m) (Fin n) ℝ} {t0 : ℝ}
    (h : MatTends M L t0) : MatTends (fun t => (M t)ᵀ) Lᵀ t0 := fun i j => h j i

theorem MatTends.sub {M M' : ℝ → Matrix (Fin m) (Fin n) ℝ} {L L' : Matrix (Fin m) (Fin n) ℝ} {t0 : ℝ}
    (h : MatTends M L t0) (h' : MatTends M' L' t0) : MatTends (fun t => M t - M' t) (L - L') t0 :=
  fun i j => (h i j).sub (h' i j)

theorem MatTends.add {M M' : ℝ → Matrix (Fin m) (Fin n) ℝ} {L L' : Matrix (Fin m) (Fin n) ℝ} {t0 : ℝ}
    (h : MatTends M L t0) (h' : MatTends M' L' t0) : MatTends (fun t => M t + M' t) (L + L') t0 :=
  fun i j => (h i j).add (h' i j)

theorem MatTends.const (L : Matrix (Fin m) (Fin n) ℝ) (t0 : ℝ) : MatTends (fun _ => L) L t0 :=
  fun _ _ => tendsto_const_nhds

theorem MatTends.congr {M M' : ℝ → Matrix (Fin m) (Fin n) ℝ} {L : Matrix (Fin m) (Fin n) ℝ} {t0 : ℝ}
    (h : MatTends M L t0) (he : ∀ᶠ t in 𝓝 t0, M t = M' t) : MatTends M' L t0 :=
  fun i j => (h i j).congr' (he.mono fun t ht => by rw [ht])

theorem MatTends.tendsto {M : ℝ → Matrix (Fin m) (Fin n) ℝ} {L : Matrix (Fin m) (Fin n) ℝ} {t0 : ℝ}
    (h : MatTends M L t0) : Tendsto M (𝓝 t0) (𝓝 L) :=
  tendsto_pi_nhds.mpr fun i => tendsto_pi_nhds.mpr fun j => h i j

theorem MatTends.det {M : ℝ → Matrix (Fin n) (Fin n) ℝ} {L : Matrix (Fin n) (Fin n) ℝ} {t0 : ℝ}
    (h : MatTends M L t0) : Tendsto (fun t => (M t).det) (𝓝 t0) (𝓝 L.det) :=
  ((Continuous.matrix_det continuous_id).tendsto L).comp h.tendsto

/-- The inverse is continuous at invertible matrices. -/
theorem MatTends.inv {M : ℝ → Matrix (Fin n) (Fin n) ℝ} {L : Matrix (Fin n) (Fin n) ℝ} {t0 : ℝ}
    (h : MatTends M L t0) (hL : IsUnit L) :
    MatTends (fun t => (M t)⁻¹) L⁻¹ t0 ∧ ∀ᶠ t in 𝓝 t0, IsUnit (M t) := by
  have hdet : L.det ≠ 0 := ((isUnit_iff_isUnit_det L).mp hL).ne_zero
  constructor
  · intro i j
    have hadj : Tendsto (fun t => (M t).adjugate) (𝓝 t0) (𝓝 L.adjugate) :=
      ((Continuous.matrix_adjugate continuous_id).tendsto L).comp h.tendsto
    have hij := tendsto_pi_nhds.mp (tendsto_pi_nhds.mp hadj i) j
    simp only [Matrix.inv_def, Ring.inverse_eq_inv', Matrix.smul_apply, smul_eq_mul]
    exact (h.det.inv₀ hdet).mul hij
  · exact (h.det.eventually_ne hdet).mono fun t ht => (isUnit_iff_isUnit_det _).mpr (isUnit_iff_ne_zero.mpr ht)

/-- Element-wise bounds. -/
def MatBounded (M : ℝ → Matrix (Fin m) (Fin n) ℝ) (t0 : ℝ) : Prop :=
  ∃ C : ℝ, ∀ᶠ t in 𝓝 t0, ∀ i j, |M t i j| ≤ C

theorem MatTends.bounded {M : ℝ → Matrix (Fin m) (Fin n) ℝ} {L : Matrix (Fin m) (Fin n) ℝ} {t0 : ℝ}
    (h : MatTends M L t0) : MatBounded M t0 := by
  refine ⟨∑ i, ∑ j, (|L i j| + 1), ?_⟩
  have : ∀ i j, ∀ᶠ t in 𝓝 t0, |M t i j| ≤ |L i j| + 1 := fun i j =>
    ((h i j).abs.eventually (eventually_lt_nhds (lt_add_one _))).mono fun t ht => ht.le
  refine (eventually_all.mpr fun i => eventually_all.mpr fun j => this i j).mono fun t ht i j => ?_
  refine (ht i j).trans ?_
  have h1 : |L i j| + 1 ≤ ∑ j, (|L i j| + 1) :=
    Finset.single_le_sum (f := fun j => |L i j| + 1) (fun _ _ => by positivity) (Finset.mem_univ j)
  exact h1.trans (Finset.single_le_sum (f := fun i => ∑ j, (|L i j| + 1))
    (fun _ _ => Finset.sum_nonneg fun _ _ => by positivity) (Finset.mem_univ i))

theorem MatBounded.mul {M : ℝ → Matrix (Fin m) (Fin k) ℝ} {M' : ℝ → Matrix (Fin k) (Fin n) ℝ} {t0 : ℝ}
    (h : MatBounded M t0) (h' : MatBounded M' t0) : MatBounded (fun t => M t * M' t) t0 := by
  obtain ⟨C, h⟩ := h
  obtain ⟨C', h'⟩ := h'
  refine ⟨∑ _l : Fin k, |C| * |C'|, (h.and h').mono fun t ht i j => ?_⟩
  change |(M t * M' t) i j| ≤ _
  rw [Matrix.mul_apply]
  refine (Finset.abs_sum_le_sum_abs _ _).trans (Finset.sum_le_sum fun l _ => ?_)
  rw [abs_mul]
  exact mul_le_mul ((ht.1 i l).trans (le_abs_self C)) ((ht.2 l j).trans (le_abs_self C')) (abs_nonneg _) (abs_nonneg _)

theorem MatBounded.transpose {M : ℝ → Matrix (Fin m) (Fin n) ℝ} {t0 : ℝ} (h : MatBounded M t0) :
    MatBounded (fun t => (M t)ᵀ) t0 := by
  obtain ⟨C, h⟩ := h
  exact ⟨C, h.mono fun t ht i j => ht j i⟩

theorem MatBounded.sub {M M' : ℝ → Matrix (Fin m) (Fin n) ℝ} {t0 : ℝ} (h : MatBounded M t0)
    (h' : MatBounded M' t0) : MatBounded (fun t => M t - M' t) t0 := by
  obtain ⟨C, h⟩ := h
  obtain ⟨C', h'⟩ := h'
  refine ⟨C + C', (h.and h').mono fun t ht i j => ?_⟩
  exact (abs_sub _ _).trans (add_le_add (ht.1 i j) (ht.2 i j))

theorem MatBounded.congr {M M' : ℝ → Matrix (Fin m) (Fin n) ℝ} {t0 : ℝ}
    (h : MatBounded M t0) (he : ∀ᶠ t in 𝓝 t0, M t = M' t) : MatBounded M' t0 := by
  obtain ⟨C, h⟩ := h
  exact ⟨C, (h.and he).mono fun t ht i j => by rw [← ht.2]; exact ht.1 i j⟩

theorem MatBounded.mul_zero {M : ℝ → Matrix (Fin m) (Fin k) ℝ} {M' : ℝ → Matrix (Fin k) (Fin n) ℝ} {t0 : ℝ}
    (h : MatBounded M t0) (h' : MatTends M' 0 t0) : MatTends (fun t => M t * M' t) 0 t0 := by
  obtain ⟨C, h⟩ := h
  intro i j
  simp only [Matrix.mul_apply, Matrix.zero_apply]
  rw [← Finset.sum_const_zero (s := (Finset.univ : Finset (Fin k)))]
  refine tendsto_finsetSum _ (fun l _ => ?_)
  have h1 : Tendsto (fun t => C * |M' t l j|) (𝓝 t0) (𝓝 0) := by
    have := ((h' l j).abs).const_mul C
    simpa using this
  refine squeeze_zero_norm' (h.mono fun t ht => ?_) h1
  rw [Real.norm_eq_abs, abs_mul]
  exact mul_le_mul_of_nonneg_right (ht i l) (abs_nonneg _)

/-! ### Pseudo-inverse -/

/-- Difference between two pseudo-inverses. -/
theorem Penrose.sub {A B : Matrix (Fin m) (Fin n) ℝ} {P Q : Matrix (Fin n) (Fin m) ℝ} (hA : Penrose A P)
    (hB : Penrose B Q) :
    Q - P = -(Q * ((B - A) * P)) + Q * Qᵀ * ((B - A)ᵀ * (1 - A * P)) + (1 - Q * B) * ((B - A)ᵀ * (Pᵀ * P)) := by
  have h1 : Aᵀ * (1 - A * P) = 0 := by
    have := congrArg Matrix.transpose hA.apa
    rw [transpose_mul, hA.ap] at this
    rw [Matrix.mul_sub, Matrix.mul_one, this, sub_self]
  have h2 : (1 - Q * B) * Bᵀ = 0 := by
    have := congrArg Matrix.transpose hB.apa
    rw [Matrix.mul_assoc, transpose_mul, hB.pa] at this
    rw [Matrix.sub_mul, Matrix.one_mul, this, sub_self]
  have h3 : Q * Qᵀ * Bᵀ = Q := by
    rw [Matrix.mul_assoc, ← transpose_mul, hB.ap, ← Matrix.mul_assoc, hB.pap]
  have h4 : Aᵀ * (Pᵀ * P) = P := by
    rw [← Matrix.mul_assoc, ← transpose_mul, hA.pa, hA.pap]
  have e2 : Q * Qᵀ * ((B - A)ᵀ * (1 - A * P)) = Q - Q * (A * P) := by
    rw [transpose_sub, Matrix.sub_mul, h1, sub_zero, ← Matrix.mul_assoc, h3, Matrix.mul_sub, Matrix.mul_one]
  have e3 : (1 - Q * B) * ((B - A)ᵀ * (Pᵀ * P)) = Q * B * P - P := by
    rw [transpose_sub, Matrix.sub_mul Bᵀ, h4, Matrix.mul_sub, ← Matrix.mul_assoc, h2, Matrix.zero_mul, zero_sub,
      Matrix.sub_mul, Matrix.one_mul, neg_sub]
  rw [e2, e3, Matrix.sub_mul, Matrix.mul_sub, Matrix.mul_assoc Q B P]
  abel

theorem Penrose.unique {A : Matrix (Fin m) (Fin n) ℝ} {P Q : Matrix (Fin n) (Fin m) ℝ} (hP : Penrose A P)
    (hQ : Penrose A Q) : Q = P := by
  have := hP.sub hQ
  simpa [sub_eq_zero] using this

theorem Penrose.symm {A : Matrix (Fin m) (Fin n) ℝ} {P : Matrix (Fin n) (Fin m) ℝ} (h : Penrose A P) :
    Penrose P A := ⟨h.pap, h.apa, h.pa, h.ap⟩

theorem penrose_inv {N : Matrix (Fin n) (Fin n) ℝ} (hN : IsUnit N) : Penrose N N⁻¹ := by
  have hd := (isUnit_iff_isUnit_det N).mp hN
  have h1 : N * N⁻¹ = 1 := mul_nonsing_inv N hd
  have h2 : N⁻¹ * N = 1 := nonsing_inv_mul N hd
  constructor
  · rw [h1, Matrix.one_mul]
  · rw [h2, Matrix.one_mul]
  · rw [h1, transpose_one]
  · rw [h2, transpose_one]

/-- Elements of an orthogonal projection. -/
theorem proj_bound {E : Matrix (Fin n) (Fin n) ℝ} (hs : Eᵀ = E) (hi : E * E = E) (i j : Fin n) : |E i j| ≤ 1 := by
  have key : ∀ i j, E i j ^ 2 ≤ E i i := by
    intro i j
    have h := congrFun (congrFun hi i) i
    rw [Matrix.mul_apply] at h
    rw [← h]
    have : ∀ l, E i l * E l i = E i l ^ 2 := by
      intro l
      have := congrFun (congrFun hs i) l
      rw [transpose_apply] at this
      rw [this, sq]
    simp only [this]
    exact Finset.single_le_sum (f := fun l => E i l ^ 2) (fun _ _ => sq_nonneg _) (Finset.mem_univ j)
  have h1 : E i i ≤ 1 := by nlinarith [key i i]
  exact abs_le_one_iff_mul_self_le_one.mpr (by nlinarith [key i j])

/-! ### Constant rank -/

/-- Kernels of matrices of the same rank. -/
theorem ker_of_rank {A : Matrix (Fin m) (Fin n) ℝ} {P : Matrix (Fin n) (Fin m) ℝ}
    (h : A.rank ≤ (P * A).rank) (z : Fin n → ℝ) (hz : (P * A) *ᵥ z = 0) : A *ᵥ z = 0 := by
  have hle : LinearMap.ker A.mulVecLin ≤ LinearMap.ker (P * A).mulVecLin := by
    intro x hx
    rw [LinearMap.mem_ker, mulVecLin_apply] at hx ⊢
    rw [← mulVec_mulVec, hx, mulVec_zero]
  have h1 := LinearMap.finrank_range_add_finrank_ker A.mulVecLin
  have h2 := LinearMap.finrank_range_add_finrank_ker (P * A).mulVecLin
  have hr : (P * A).rank ≤ A.rank := rank_mul_le_right P A
  have heq := Submodule.eq_of_le_of_finrank_eq hle (by unfold Matrix.rank at h hr; omega)
  have : z ∈ LinearMap.ker A.mulVecLin := by
    rw [heq, LinearMap.mem_ker, mulVecLin_apply]; exact hz
  rwa [LinearMap.mem_ker, mulVecLin_apply] at this

theorem rank_add_le' (A B : Matrix (Fin m) (Fin n) ℝ) : (A + B).rank ≤ A.rank + B.rank := by
  unfold Matrix.rank
  refine (Submodule.finrank_mono ?_).trans (Submodule.finrank_add_le_finrank_add_finrank _ _)
  rintro _ ⟨x, rfl⟩
  rw [mulVecLin_add, LinearMap.add_apply]
  exact Submodule.add_mem_sup ⟨x, rfl⟩ ⟨x, rfl⟩

/-- Near a matrix, a matrix of the same rank has an explicit generalized inverse. -/
theorem ginv_of_rank {A0 A : Matrix (Fin m) (Fin n) ℝ} {P0 : Matrix (Fin n) (Fin m) ℝ} (h0 : Penrose A0 P0)
    (hr : A.rank = A0.rank) (hW : IsUnit (1 + P0 * (A - A0))) :
    A * ((1 + P0 * (A - A0))⁻¹ * P0) * A = A := by
  set W := 1 + P0 * (A - A0) with hWdef
  have hd := (isUnit_iff_isUnit_det W).mp hW
  have hWW : W * W⁻¹ = 1 := mul_nonsing_inv W hd
  have hWW' : W⁻¹ * W = 1 := nonsing_inv_mul W hd
  have hW2 : W = (1 - P0 * A0) + P0 * A := by rw [hWdef, Matrix.mul_sub]; abel
  -- rank of P0 A
  have hrank : A.rank ≤ (P0 * A).rank := by
    have h1 : W.rank = n := by rw [rank_of_isUnit W hW]; simp
    have h2 : W.rank ≤ (1 - P0 * A0).rank + (P0 * A).rank := by rw [hW2]; exact rank_add_le' _ _
    have h3 : A0.rank ≤ (P0 * A0).rank := by
      conv_lhs => rw [← h0.apa, Matrix.mul_assoc]
      exact rank_mul_le_right _ _
    have h4 : (1 - P0 * A0).rank + (P0 * A0).rank ≤ n := by
      have hmul : (1 - P0 * A0) * (P0 * A0) = 0 := by
        rw [Matrix.sub_mul, Matrix.one_mul, ← Matrix.mul_assoc, h0.pap, sub_self]
      have := rank_add_rank_le_card_of_mul_eq_zero hmul
      simpa using this
    rw [hr]; omega
  -- the kernel of A0 is mapped to the kernel of A
  have hker : A * (W⁻¹ * (1 - P0 * A0)) = 0 := by
    have hPZ : P0 * A * (W⁻¹ * (1 - P0 * A0)) = 0 := by
      have e : P0 * A0 * W = P0 * A := by
        rw [hW2, Matrix.mul_add, Matrix.mul_sub, Matrix.mul_one, ← Matrix.mul_assoc (P0 * A0) P0 A0, h0.pap, sub_self,
          zero_add, ← Matrix.mul_assoc, h0.pap]
      rw [← e, Matrix.mul_assoc (P0 * A0), ← Matrix.mul_assoc W, hWW, Matrix.one_mul, Matrix.mul_sub, Matrix.mul_one,
        ← Matrix.mul_assoc (P0 * A0) P0 A0, h0.pap, sub_self]
    ext i j
    have hz := ker_of_rank hrank (fun l : Fin n => (W⁻¹ * (1 - P0 * A0) : Matrix (Fin n) (Fin n) ℝ) l j) (by
      funext l
      exact congrFun (congrFun hPZ l) j)
    exact congrFun hz i
  have e : W⁻¹ * (P0 * A) = 1 - W⁻¹ * (1 - P0 * A0) := by
    have : P0 * A = W - (1 - P0 * A0) := by rw [hW2]; abel
    rw [this, Matrix.mul_sub, hWW']
  rw [Matrix.mul_assoc, Matrix.mul_assoc, e, Matrix.mul_sub, Matrix.mul_one, hker, sub_zero]

/-- The pseudo-inverse is continuous along a family of matrices of constant rank. -/
theorem penrose_tends {A : ℝ → Matrix (Fin m) (Fin n) ℝ} {P : ℝ → Matrix (Fin n) (Fin m) ℝ} {t0 : ℝ}
    (hA : MatTends A (A t0) t0) (hP : ∀ᶠ t in 𝓝 t0, Penrose (A t) (P t))
    (hr : ∀ᶠ t in 𝓝 t0, (A t).rank = (A t0).rank) : MatTends P (P t0) t0 := by
  have h0 : Penrose (A t0) (P t0) := hP.self_of_nhds
  have hdA : MatTends (fun t => A t - A t0) 0 t0 := by
    have := hA.sub (MatTends.const (A t0) t0)
    rwa [sub_self] at this
  have hW : MatTends (fun t => 1 + P t0 * (A t - A t0)) 1 t0 := by
    have := (MatTends.const (1 : Matrix (Fin n) (Fin n) ℝ) t0).add ((MatTends.const (P t0) t0).mul hdA)
    rwa [Matrix.mul_zero, add_zero] at this
  obtain ⟨hWi, hWu⟩ := hW.inv isUnit_one
  -- bounds
  have hE : MatBounded (fun t => P t * A t) t0 := by
    refine ⟨1, hP.mono fun t ht i j => proj_bound ht.pa ?_ i j⟩
    rw [← Matrix.mul_assoc, ht.pap]
  have hH : MatBounded (fun t => A t * P t) t0 := by
    refine ⟨1, hP.mono fun t ht i j => proj_bound ht.ap ?_ i j⟩
    rw [← Matrix.mul_assoc, ht.apa]
  have hG : MatBounded (fun t => (1 + P t0 * (A t - A t0))⁻¹ * P t0) t0 :=
    (hWi.mul (MatTends.const (P t0) t0)).bounded
  have hPb : MatBounded P t0 := by
    refine ((hE.mul hG).mul hH).congr ?_
    filter_upwards [hP, hr, hWu] with t h1 h2 h3
    have := ginv_of_rank h0 h2 h3
    calc P t * A t * ((1 + P t0 * (A t - A t0))⁻¹ * P t0) * (A t * P t)
        = P t * (A t * ((1 + P t0 * (A t - A t0))⁻¹ * P t0) * A t) * P t := by
          simp only [Matrix.mul_assoc]
      _ = P t := by rw [this, h1.pap]
  -- limit
  have hdP : MatTends (fun t => P t - P t0) 0 t0 := by
    have h1 : MatTends (fun t => P t * ((A t - A t0) * P t0)) 0 t0 := by
      refine hPb.mul_zero ?_
      have := hdA.mul (MatTends.const (P t0) t0)
      rwa [Matrix.zero_mul] at this
    have h2 : MatTends (fun t => P t * (P t)ᵀ * ((A t - A t0)ᵀ * (1 - A t0 * P t0))) 0 t0 := by
      refine (hPb.mul hPb.transpose).mul_zero ?_
      have := hdA.transpose.mul (MatTends.const (1 - A t0 * P t0) t0)
      rwa [transpose_zero, Matrix.zero_mul] at this
    have h3 : MatTends (fun t => (1 - P t * A t) * ((A t - A t0)ᵀ * ((P t0)ᵀ * P t0))) 0 t0 := by
      refine ((MatTends.const 1 t0).bounded.sub hE).mul_zero ?_
      have := hdA.transpose.mul (MatTends.const ((P t0)ᵀ * P t0) t0)
      rwa [transpose_zero, Matrix.zero_mul] at this
    have := (((MatTends.const 0 t0).sub h1).add h2).add h3
    rw [sub_zero, add_zero, add_zero] at this
    refine this.congr (hP.mono fun t ht => ?_)
    rw [h0.sub ht, zero_sub]
  have := hdP.add (MatTends.const (P t0) t0)
  rw [zero_add] at this
  exact this.congr (Eventually.of_forall fun t => by simp)

/-! ### Derivatives -/

/-- Element-wise derivative. -/
def MatDeriv (M : ℝ → Matrix (Fin m) (Fin n) ℝ) (dM : Matrix (Fin m) (Fin n) ℝ) (t0 : ℝ) : Prop :=
  ∀ i j, HasDerivAt (fun t => M t i j) (dM i j) t0

theorem MatDeriv.tends {M : ℝ → Matrix (Fin m) (Fin n) ℝ} {dM : Matrix (Fin m) (Fin n) ℝ} {t0 : ℝ}
    (h : MatDeriv M dM t0) : MatTends M (M t0) t0 := fun i j => (h i j).continuousAt.tendsto

theorem hasDerivAt_mul_zero {f g : ℝ → ℝ} {c d t0 : ℝ} (hf : Tendsto f (𝓝 t0) (𝓝 c)) (hg : HasDerivAt g d t0)
    (h0 : g t0 = 0) : HasDerivAt (fun t => f t * g t) (c * d) t0 := by
  rw [hasDerivAt_iff_tendsto_slope] at hg ⊢
  refine ((hf.mono_left nhdsWithin_le_nhds).mul hg).congr fun t => ?_
  simp only [slope_def_field, h0]
  ring

theorem MatTends.mul_deriv {M : ℝ → Matrix (Fin m) (Fin k) ℝ} {L : Matrix (Fin m) (Fin k) ℝ}
    {G : ℝ → Matrix (Fin k) (Fin n) ℝ} {dG : Matrix (Fin k) (Fin n) ℝ} {t0 : ℝ}
    (h : MatTends M L t0) (hG : MatDeriv G dG t0) (h0 : G t0 = 0) :
    MatDeriv (fun t => M t * G t) (L * dG) t0 := by
  intro i j
  simp only [Matrix.mul_apply]
  exact HasDerivAt.fun_sum fun l _ => hasDerivAt_mul_zero (h i l) (hG l j) (by rw [h0]; rfl)

theorem MatDeriv.mul_const {M : ℝ → Matrix (Fin m) (Fin k) ℝ} {dM : Matrix (Fin m) (Fin k) ℝ} {t0 : ℝ}
    (h : MatDeriv M dM t0) (C : Matrix (Fin k) (Fin n) ℝ) : MatDeriv (fun t => M t * C) (dM * C) t0 := by
  intro i j
  simp only [Matrix.mul_apply]
  exact HasDerivAt.fun_sum fun l _ => (h i l).mul_const _

theorem MatDeriv.transpose {M : ℝ → Matrix (Fin m) (Fin n) ℝ} {dM : Matrix (Fin m) (Fin n) ℝ} {t0 : ℝ}
    (h : MatDeriv M dM t0) : MatDeriv (fun t => (M t)ᵀ) dMᵀ t0 := fun i j => h j i

theorem MatDeriv.sub_const {M : ℝ → Matrix (Fin m) (Fin n) ℝ} {dM : Matrix (Fin m) (Fin n) ℝ} {t0 : ℝ}
    (h : MatDeriv M dM t0) (C : Matrix (Fin m) (Fin n) ℝ) : MatDeriv (fun t => M t - C) dM t0 :=
  fun i j => (h i j).sub_const _

theorem MatDeriv.add {M M' : ℝ → Matrix (Fin m) (Fin n) ℝ} {dM dM' : Matrix (Fin m) (Fin n) ℝ} {t0 : ℝ}
    (h : MatDeriv M dM t0) (h' : MatDeriv M' dM' t0) : MatDeriv (fun t => M t + M' t) (dM + dM') t0 :=
  fun i j => (h i j).add (h' i j)

theorem MatDeriv.neg {M : ℝ → Matrix (Fin m) (Fin n) ℝ} {dM : Matrix (Fin m) (Fin n) ℝ} {t0 : ℝ}
    (h : MatDeriv M dM t0) : MatDeriv (fun t => -M t) (-dM) t0 :=
  fun i j => (h i j).neg

theorem MatDeriv.congr {M M' : ℝ → Matrix (Fin m) (Fin n) ℝ} {dM : Matrix (Fin m) (Fin n) ℝ} {t0 : ℝ}
    (h : MatDeriv M dM t0) (he : ∀ᶠ t in 𝓝 t0, M' t = M t) : MatDeriv M' dM t0 :=
  fun i j => (h i j).congr_of_eventuallyEq (he.mono fun t ht => by simp only [ht])

/-- The derivative of the pseudo-inverse, where it is continuous. -/
theorem penrose_deriv {A : ℝ → Matrix (Fin m) (Fin n) ℝ} {P : ℝ → Matrix (Fin n) (Fin m) ℝ}
    {dA : Matrix (Fin m) (Fin n) ℝ} {t0 : ℝ}
    (hA : MatDeriv A dA t0) (hP : ∀ᶠ t in 𝓝 t0, Penrose (A t) (P t)) (hc : MatTends P (P t0) t0) :
    MatDeriv P (-(P t0 * (dA * P t0)) + P t0 * (P t0)ᵀ * (dAᵀ * (1 - A t0 * P t0)) +
      (1 - P t0 * A t0) * (dAᵀ * ((P t0)ᵀ * P t0))) t0 := by
  have h0 : Penrose (A t0) (P t0) := hP.self_of_nhds
  have hd : MatDeriv (fun t => A t - A t0) dA t0 := hA.sub_const _
  have hz : A t0 - A t0 = 0 := sub_self _
  have h1 := (hc.mul_deriv (hd.mul_const (P t0)) (by rw [hz, Matrix.zero_mul])).neg
  have h2 := (hc.mul hc.transpose).mul_deriv (hd.transpose.mul_const (1 - A t0 * P t0))
    (by rw [hz, transpose_zero, Matrix.zero_mul])
  have h3 := ((MatTends.const 1 t0).sub (hc.mul hA.tends)).mul_deriv (hd.transpose.mul_const ((P t0)ᵀ * P t0))
    (by rw [hz, transpose_zero, Matrix.zero_mul])
  have h := (h1.add h2).add h3
  have h' : MatDeriv (fun t => P t - P t0) _ t0 := h.congr (hP.mono fun t ht => h0.sub ht)
  intro i j
  have := (h' i j).add_const (P t0 i j)
  simpa using this

theorem inv_deriv {A : ℝ → Matrix (Fin n) (Fin n) ℝ} {dA : Matrix (Fin n) (Fin n) ℝ} {t0 : ℝ}
    (hA : MatDeriv A dA t0) (hu : IsUnit (A t0)) :
    MatDeriv (fun t => (A t)⁻¹) (-(A t0)⁻¹ * dA * (A t0)⁻¹) t0 := by
  obtain ⟨hc, hev⟩ := hA.tends.inv hu
  have h := penrose_deriv (P := fun t => (A t)⁻¹) hA (hev.mono fun t ht => penrose_inv ht) hc
  have hd := (isUnit_iff_isUnit_det _).mp hu
  have h1 : A t0 * (A t0)⁻¹ = 1 := mul_nonsing_inv _ hd
  have h2 : (A t0)⁻¹ * A t0 = 1 := nonsing_inv_mul _ hd
  simp only [h1, h2, sub_self, Matrix.mul_zero, Matrix.zero_mul, add_zero] at h
  rw [Matrix.neg_mul, Matrix.neg_mul, Matrix.mul_assoc]
  exact h

end Unc
