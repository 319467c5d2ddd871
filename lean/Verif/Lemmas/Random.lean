import Mathlib.Analysis.Calculus.Deriv.Abs
import Mathlib.Analysis.Calculus.Deriv.Inv
import Mathlib.Analysis.Calculus.Deriv.Pi
import Mathlib.Analysis.Calculus.FDeriv.Mul
import Mathlib.Analysis.Calculus.FDeriv.Pi
import Verif.Lemmas.Formula
import Verif.Spec.Random

/-! Random values of the variables of a formula. -/

namespace Unc

set_option autoImplicit false

open MeasureTheory ProbabilityTheory Filter Topology

variable {Ω : Type} [MeasurableSpace Ω]

namespace Formula

theorem random_measurable {φ : Formula} (h : φ.MeasurableFns) {X : VarId → Ω → ℝ} (hX : ∀ v, Measurable (X v)) :
    Measurable (φ.random X) := by
  unfold random
  induction φ with
  | var v => exact hX v
  | const c => exact measurable_const
  | pos a ih => exact ih h
  | neg a ih => exact (ih h).neg
  | abs a ih => exact measurable_norm.comp (ih h)
  | add a b iha ihb => exact (iha h.1).add (ihb h.2)
  | sub a b iha ihb => exact (iha h.1).sub (ihb h.2)
  | mul a b iha ihb => exact (iha h.1).mul (ihb h.2)
  | div a b iha ihb => exact (iha h.1).div (ihb h.2)
  | fn1 s a ih => exact h.1.comp (ih h.2)
  | fn2 s a b iha ihb => exact h.1.comp ((iha h.2.1).prodMk (ihb h.2.2))

/-- The point with the coordinates `p`, and those of `n` beyond. -/
def extend (n : VarId → ℝ) (k : ℕ) (p : Fin k → ℝ) (v : VarId) : ℝ := if h : v < k then p ⟨v, h⟩ else n v

theorem extend_restrict (n : VarId → ℝ) (k : ℕ) : extend n k (fun i => n i) = n := by
  funext v
  unfold extend
  split <;> rfl

theorem extend_update (n : VarId → ℝ) (k : ℕ) (i : Fin k) (t : ℝ) :
    extend n k (Function.update (fun i => n i) i t) = Function.update n i t := by
  funext v
  unfold extend
  split
  · rename_i h
    by_cases hv : v = i
    · subst hv; simp
    · rw [Function.update_of_ne hv, Function.update_of_ne (fun e => hv (congrArg Fin.val e))]
  · rename_i h
    rw [Function.update_of_ne (fun e : v = i => h (e.symm ▸ i.2))]

theorem differentiableAt {u η : ℝ} (hu : 0 ≤ u) (hη : 0 ≤ η) {n : VarId → ℝ} (k : ℕ) (φ : Formula) (h : φ.Safe u η n) :
    DifferentiableAt ℝ (fun p : Fin k → ℝ => φ.eval (extend n k p)) (fun i => n i) := by
  have hn := extend_restrict n k
  induction φ with
  | var v =>
    simp only [eval, extend]
    split
    · exact differentiableAt_apply _ _
    · exact differentiableAt_const _
  | const c => exact differentiableAt_const _
  | pos a ih => exact ih h
  | neg a ih => exact (ih h).neg
  | abs a ih =>
    have h0 : a.eval n ≠ 0 := abs_pos.1 ((a.err_nonneg hu hη h.1).trans_lt h.2)
    have h1 : DifferentiableAt ℝ (fun x : ℝ => |x|) (a.eval (extend n k fun i => n i)) := by
      rw [hn]
      exact (hasDerivAt_abs h0).differentiableAt
    exact h1.comp (fun i : Fin k => n i) (ih h.1)
  | add a b iha ihb => exact (iha h.1).add (ihb h.2)
  | sub a b iha ihb => exact (iha h.1).sub (ihb h.2)
  | mul a b iha ihb => exact (iha h.1).mul (ihb h.2)
  | div a b iha ihb =>
    have h0 : b.eval n ≠ 0 := abs_pos.1 ((b.err_nonneg hu hη h.2.1).trans_lt h.2.2.1)
    have h1 : DifferentiableAt ℝ (fun x : ℝ => x⁻¹) (b.eval (extend n k fun i => n i)) := by
      rw [hn]
      exact (hasDerivAt_inv h0).differentiableAt
    simp only [eval, div_eq_mul_inv]
    exact (iha h.1).mul (h1.comp (fun i : Fin k => n i) (ihb h.2.1))
  | fn1 s a ih =>
    have h0 := h.2.1.deriv (a.eval n) (h.2.2 _ (by simpa using a.err_nonneg hu hη h.1))
    rw [← hn] at h0
    exact (h0.differentiableAt).comp (fun i : Fin k => n i) (ih h.1)
  | fn2 s a b iha ihb =>
    have h0 := h.2.2.1.deriv (a.eval n) (b.eval n) (h.2.2.2 _ _ (by simpa using a.err_nonneg hu hη h.1)
      (by simpa using b.err_nonneg hu hη h.2.1))
    have h1 : DifferentiableAt ℝ (fun p : ℝ × ℝ => s.g p.1 p.2)
        (a.eval (extend n k fun i => n i), b.eval (extend n k fun i => n i)) := by
      rw [hn]; exact h0.differentiableAt
    exact DifferentiableAt.comp (g := fun p : ℝ × ℝ => s.g p.1 p.2) (fun i : Fin k => n i) h1 ((iha h.1).prodMk (ihb h.2.1))

/-- The first-order expansion of a formula, uniformly on bounded sets. -/
theorem expansion {u η : ℝ} (hu : 0 ≤ u) (hη : 0 ≤ η) {n : VarId → ℝ} (k : ℕ) (φ : Formula) (h : φ.Safe u η n)
    (B ε : ℝ) (hε : 0 < ε) : ∃ δ > 0, ∀ t, |t| < δ → ∀ y : VarId → ℝ, (∀ v, |y v| ≤ B) → (∀ v, k ≤ v → y v = 0) →
      |φ.eval (fun v => n v + t * y v) - φ.eval n - t * ∑ v ∈ Finset.range k, φ.partialAt n v * y v| ≤ ε * |t| := by
  have hd := (φ.differentiableAt hu hη k h).hasFDerivAt
  set L := fderiv ℝ (fun p : Fin k → ℝ => φ.eval (extend n k p)) (fun i => n i) with hL
  have hB : 0 < |B| + 1 := by positivity
  have hO := hd.isLittleO.def (show 0 < ε / (|B| + 1) by positivity)
  obtain ⟨δ, hδ, hO⟩ := Metric.eventually_nhds_iff.1 hO
  refine ⟨δ / (|B| + 1), by positivity, fun t ht y hy hk => ?_⟩
  set z : Fin k → ℝ := fun i => n i + t * y i with hz
  have hzn : z - (fun i : Fin k => n i) = t • fun i : Fin k => y i := by
    funext i; simp [hz]
  have hyn : ‖fun i : Fin k => y i‖ ≤ |B| + 1 := by
    rw [pi_norm_le_iff_of_nonneg hB.le]
    intro i
    rw [Real.norm_eq_abs]
    linarith [hy i, le_abs_self B]
  have hnorm : ‖z - fun i : Fin k => n i‖ ≤ |t| * (|B| + 1) := by
    rw [hzn, norm_smul, Real.norm_eq_abs]
    exact mul_le_mul_of_nonneg_left hyn (abs_nonneg t)
  have h1 := hO (y := z) (by
    rw [dist_eq_norm]
    refine hnorm.trans_lt ?_
    rwa [lt_div_iff₀ hB] at ht)
  have e1 : extend n k z = fun v => n v + t * y v := by
    funext v
    unfold extend
    split
    · rfl
    · rename_i hv
      rw [hk v (not_lt.1 hv)]; ring
  have e2 : L (z - fun i : Fin k => n i) = t * ∑ v ∈ Finset.range k, φ.partialAt n v * y v := by
    rw [hzn, map_smul, smul_eq_mul, ← Fin.sum_univ_eq_sum_range (fun v => φ.partialAt n v * y v)]
    congr 1
    have : (fun i : Fin k => y i) = ∑ i : Fin k, y i • Pi.single (M := fun _ : Fin k => ℝ) i (1 : ℝ) := by
      funext j
      simp [Finset.sum_apply, Pi.single_apply]
    rw [this, map_sum]
    refine Finset.sum_congr rfl fun i _ => ?_
    rw [map_smul, smul_eq_mul, mul_comm]
    congr 1
    have h2 : HasDerivAt (fun s => φ.eval (extend n k (Function.update (fun i => n i) i s))) (L (Pi.single i 1)) (n i) := by
      refine HasFDerivAt.comp_hasDerivAt (l := fun p : Fin k → ℝ => φ.eval (extend n k p)) (n i)
        (f := fun s => Function.update (fun i : Fin k => n i) i s) ?_ ?_
      · rw [Function.update_eq_self i (fun i : Fin k => n i)]
        exact hd
      · exact hasDerivAt_update _ i (n i)
    simp only [extend_update] at h2
    exact h2.deriv.symm
  rw [e1, extend_restrict, e2, Real.norm_eq_abs] at h1
  refine h1.trans ?_
  refine (mul_le_mul_of_nonneg_left hnorm (by positivity)).trans (le_of_eq ?_)
  field_simp

end Formula

/-! ### Covariances -/

section
variable {P : Measure Ω} [IsProbabilityMeasure P]

theorem memLp_bounded {X : Ω → ℝ} {a : ℝ} (hm : Measurable X) (h : ∀ ω, |X ω| ≤ a) : MemLp X 2 P :=
  MemLp.of_bound hm.aestronglyMeasurable a (.of_forall h)

theorem abs_integral_le {X : Ω → ℝ} {a : ℝ} (h : ∀ ω, |X ω| ≤ a) : |∫ ω, X ω ∂P| ≤ a := by
  have := norm_integral_le_of_norm_le_const (μ := P) (f := X) (C := a) (.of_forall h)
  simpa using this

theorem abs_covariance_le {X Y : Ω → ℝ} {a b : ℝ} (hX : ∀ ω, |X ω| ≤ a) (hY : ∀ ω, |Y ω| ≤ b) (ha : 0 ≤ a) :
    |cov[X, Y; P]| ≤ 4 * a * b := by
  have e1 := abs_integral_le (P := P) hX
  have e2 := abs_integral_le (P := P) hY
  unfold covariance
  refine abs_integral_le fun ω => ?_
  rw [abs_mul]
  have h1 : |X ω - ∫ x, X x ∂P| ≤ 2 * a := (abs_sub _ _).trans (by linarith [hX ω])
  have h2 : |Y ω - ∫ x, Y x ∂P| ≤ 2 * b := (abs_sub _ _).trans (by linarith [hY ω])
  calc _ ≤ 2 * a * (2 * b) := mul_le_mul h1 h2 (abs_nonneg _) (by positivity)
    _ = 4 * a * b := by ring

/-- Covariance of linear combinations of uncorrelated random variables. -/
theorem covariance_linear {X : VarId → Ω → ℝ} (k : ℕ) (hX : ∀ v < k, MemLp (X v) 2 P)
    (h : ∀ v < k, ∀ w < k, v ≠ w → cov[X v, X w; P] = 0) (a b : VarId → ℝ) :
    cov[fun ω => ∑ v ∈ Finset.range k, a v * X v ω, fun ω => ∑ v ∈ Finset.range k, b v * X v ω; P] =
      ∑ v ∈ Finset.range k, a v * b v * Var[X v; P] := by
  rw [covariance_fun_sum_fun_sum' (fun v hv => (hX v (Finset.mem_range.1 hv)).const_mul (a v))
    (fun v hv => (hX v (Finset.mem_range.1 hv)).const_mul (b v))]
  refine Finset.sum_congr rfl fun v hv => ?_
  rw [Finset.sum_eq_single v]
  · rw [covariance_const_mul_left, covariance_const_mul_right, covariance_self (hX v (Finset.mem_range.1 hv)).aemeasurable]
    ring
  · intro w hw' hw
    rw [covariance_const_mul_left, covariance_const_mul_right, h v (Finset.mem_range.1 hv) w (Finset.mem_range.1 hw') hw.symm]
    ring
  · exact fun h => (h hv).elim

end

/-! ### Small standard deviations -/

section
variable {F : Type} [PyFloat F] [Rounded F] {P : Measure Ω} [IsProbabilityMeasure P]

/-- Linear part of the random value of a formula. -/
noncomputable def linearPart (φ : Formula) (n : VarId → ℝ) (vars : List (RVar F)) (Z : VarId → Ω → ℝ) (ω : Ω) : ℝ :=
  ∑ v ∈ Finset.range vars.length, φ.term n vars v * Z v ω

theorem stdOf_beyond {vars : List (RVar F)} {v : VarId} (h : vars.length ≤ v) : stdOf vars v = 0 := by
  simp [stdOf, List.getElem?_eq_none h]

theorem stdOf_le (vars : List (RVar F)) (v : VarId) :
    |stdOf vars v| ≤ ∑ w ∈ Finset.range vars.length, |stdOf vars w| := by
  by_cases h : v < vars.length
  · exact Finset.single_le_sum (f := fun w => |stdOf vars w|) (fun _ _ => abs_nonneg _) (Finset.mem_range.2 h)
  · rw [stdOf_beyond (not_lt.1 h), abs_zero]
    exact Finset.sum_nonneg fun _ _ => abs_nonneg _

theorem linearPart_measurable (φ : Formula) (n : VarId → ℝ) (vars : List (RVar F)) {Z : VarId → Ω → ℝ} (hZ : Noise P vars.length Z) :
    Measurable (linearPart φ n vars Z) :=
  Finset.measurable_fun_sum _ fun v hv => (hZ.measurable v (Finset.mem_range.1 hv)).const_mul _

theorem linearPart_bounded (φ : Formula) (n : VarId → ℝ) (vars : List (RVar F)) {Z : VarId → Ω → ℝ} (hZ : Noise P vars.length Z) :
    ∃ M, 0 ≤ M ∧ ∀ ω, |linearPart φ n vars Z ω| ≤ M := by
  obtain ⟨B, hB⟩ := hZ.bounded
  refine ⟨∑ v ∈ Finset.range vars.length, |φ.term n vars v| * |B|, Finset.sum_nonneg fun _ _ => by positivity, fun ω => ?_⟩
  refine (Finset.abs_sum_le_sum_abs _ _).trans (Finset.sum_le_sum fun v hv => ?_)
  rw [abs_mul]
  exact mul_le_mul_of_nonneg_left ((hB v (Finset.mem_range.1 hv) ω).trans (le_abs_self B)) (abs_nonneg _)

theorem scaledValues_measurable (n : VarId → ℝ) (vars : List (RVar F)) {Z : VarId → Ω → ℝ} (hZ : Noise P vars.length Z) (t : ℝ) (v : VarId) :
    Measurable (scaledValues n vars Z t v) := by
  by_cases hv : v < vars.length
  · exact (((hZ.measurable v hv).const_mul _).const_mul _).const_add _
  · have : scaledValues n vars Z t v = fun _ => n v := by
      funext ω
      simp [scaledValues, stdOf_beyond (not_lt.1 hv)]
    rw [this]
    exact measurable_const

theorem random_expansion {u η : ℝ} (hu : 0 ≤ u) (hη : 0 ≤ η) {n : VarId → ℝ} (vars : List (RVar F)) {Z : VarId → Ω → ℝ}
    (hZ : Noise P vars.length Z) (φ : Formula) (h : φ.Safe u η n) (hm : φ.MeasurableFns) (ε : ℝ) (hε : 0 < ε) :
    ∃ δ > 0, ∀ t, |t| < δ → t ≠ 0 → ∃ R : Ω → ℝ, Measurable R ∧ (∀ ω, |R ω| ≤ ε) ∧
      φ.random (scaledValues n vars Z t) = fun ω => φ.eval n + t * (linearPart φ n vars Z ω + R ω) := by
  obtain ⟨B, hB⟩ := hZ.bounded
  set C := (∑ w ∈ Finset.range vars.length, |stdOf vars w|) * |B| with hC
  obtain ⟨δ, hδ, hx⟩ := φ.expansion hu hη vars.length h C ε hε
  refine ⟨δ, hδ, fun t ht h0 => ⟨fun ω => (φ.random (scaledValues n vars Z t) ω - φ.eval n) / t - linearPart φ n vars Z ω, ?_, ?_, ?_⟩⟩
  · exact (((Formula.random_measurable hm (scaledValues_measurable n vars hZ t)).sub_const _).div_const _).sub
      (linearPart_measurable φ n vars hZ)
  · intro ω
    have h1 := hx t ht (fun v => stdOf vars v * Z v ω) (fun v => by
      by_cases hv : v < vars.length
      · rw [abs_mul]
        exact mul_le_mul (stdOf_le vars v) ((hB v hv ω).trans (le_abs_self B)) (abs_nonneg _)
          (Finset.sum_nonneg fun _ _ => abs_nonneg _)
      · rw [stdOf_beyond (not_lt.1 hv), zero_mul, abs_zero]
        exact mul_nonneg (Finset.sum_nonneg fun _ _ => abs_nonneg _) (abs_nonneg _)) (fun v hv => by rw [stdOf_beyond hv, zero_mul])
    have e : linearPart φ n vars Z ω = ∑ v ∈ Finset.range vars.length, φ.partialAt n v * (stdOf vars v * Z v ω) :=
      Finset.sum_congr rfl fun v _ => by rw [Formula.term]; ring
    rw [← e] at h1
    have h2 : φ.random (scaledValues n vars Z t) ω - φ.eval n - t * linearPart φ n vars Z ω =
        t * ((φ.random (scaledValues n vars Z t) ω - φ.eval n) / t - linearPart φ n vars Z ω) := by
      field_simp
    change |φ.random (scaledValues n vars Z t) ω - φ.eval n - t * linearPart φ n vars Z ω| ≤ ε * |t| at h1
    rw [h2, abs_mul, mul_comm] at h1
    exact le_of_mul_le_mul_right h1 (abs_pos.2 h0)
  · funext ω
    field_simp
    ring

theorem covariance_linearPart (φ ψ : Formula) (n : VarId → ℝ) (vars : List (RVar F)) {Z : VarId → Ω → ℝ} (hZ : Noise P vars.length Z) :
    cov[linearPart φ n vars Z, linearPart ψ n vars Z; P] = φ.cov ψ n vars := by
  obtain ⟨B, hB⟩ := hZ.bounded
  unfold linearPart
  rw [covariance_linear vars.length (fun v hv => memLp_bounded (hZ.measurable v hv) (hB v hv)) hZ.uncorrelated]
  refine Finset.sum_congr rfl fun v hv => ?_
  rw [hZ.variance v (Finset.mem_range.1 hv), Formula.covTerm, Formula.term, Formula.term]
  ring

theorem covariance_limit {u η : ℝ} (hu : 0 ≤ u) (hη : 0 ≤ η) {n : VarId → ℝ} (vars : List (RVar F)) {Z : VarId → Ω → ℝ}
    (hZ : Noise P vars.length Z) (φ ψ : Formula) (hφ : φ.Safe u η n) (mφ : φ.MeasurableFns) (hψ : ψ.Safe u η n) (mψ : ψ.MeasurableFns) :
    Tendsto (fun t => cov[φ.random (scaledValues n vars Z t), ψ.random (scaledValues n vars Z t); P] / t ^ 2) (𝓝[≠] 0)
      (𝓝 (φ.cov ψ n vars)) := by
  obtain ⟨M, hM0, hM⟩ := linearPart_bounded φ n vars hZ
  obtain ⟨N, hN0, hN⟩ := linearPart_bounded ψ n vars hZ
  rw [Metric.tendsto_nhdsWithin_nhds]
  intro ε hε
  obtain ⟨e, he, he1, hsmall⟩ : ∃ e > 0, e ≤ 1 ∧ 4 * M * e + 4 * e * N + 4 * e * e < ε := by
    refine ⟨min 1 (ε / (4 * M + 4 * N + 5)), lt_min one_pos (by positivity), min_le_left _ _, ?_⟩
    set e := min 1 (ε / (4 * M + 4 * N + 5)) with hedef
    have he : 0 < e := lt_min one_pos (by positivity)
    have h1 : e ≤ 1 := min_le_left _ _
    have h2 : e * (4 * M + 4 * N + 5) ≤ ε := by
      have := min_le_right 1 (ε / (4 * M + 4 * N + 5))
      rwa [le_div_iff₀ (by positivity)] at this
    nlinarith
  obtain ⟨δ1, hδ1, h1⟩ := random_expansion hu hη vars hZ φ hφ mφ e he
  obtain ⟨δ2, hδ2, h2⟩ := random_expansion hu hη vars hZ ψ hψ mψ e he
  refine ⟨min δ1 δ2, lt_min hδ1 hδ2, fun {t} ht0 ht => ?_⟩
  have ht0 : t ≠ 0 := ht0
  rw [dist_zero_right, Real.norm_eq_abs] at ht
  obtain ⟨R, mR, bR, eR⟩ := h1 t (ht.trans_le (min_le_left _ _)) ht0
  obtain ⟨Q, mQ, bQ, eQ⟩ := h2 t (ht.trans_le (min_le_right _ _)) ht0
  have lU := memLp_bounded (P := P) (linearPart_measurable φ n vars hZ) hM
  have lV := memLp_bounded (P := P) (linearPart_measurable ψ n vars hZ) hN
  have lR := memLp_bounded (P := P) mR bR
  have lQ := memLp_bounded (P := P) mQ bQ
  have key : cov[φ.random (scaledValues n vars Z t), ψ.random (scaledValues n vars Z t); P] / t ^ 2 =
      φ.cov ψ n vars + (cov[linearPart φ n vars Z, Q; P] + cov[R, linearPart ψ n vars Z; P] + cov[R, Q; P]) := by
    have i1 : Integrable (fun ω => t * (linearPart φ n vars Z ω + R ω)) P := ((lU.add lR).const_mul t).integrable (by norm_num)
    have i2 : Integrable (fun ω => t * (linearPart ψ n vars Z ω + Q ω)) P := ((lV.add lQ).const_mul t).integrable (by norm_num)
    rw [eR, eQ, covariance_const_add_left i1, covariance_const_add_right i2, covariance_const_mul_left,
      covariance_const_mul_right]
    change t * (t * cov[linearPart φ n vars Z + R, linearPart ψ n vars Z + Q; P]) / t ^ 2 = _
    rw [covariance_add_left lU lR (lV.add lQ), covariance_add_right lU lV lQ, covariance_add_right lR lV lQ,
      covariance_linearPart φ ψ n vars hZ]
    field_simp
    ring
  rw [key, Real.dist_eq, add_sub_cancel_left]
  have b1 := abs_covariance_le (P := P) hM bQ hM0
  have b2 := abs_covariance_le (P := P) bR hN he.le
  have b3 := abs_covariance_le (P := P) bR bQ he.le
  exact ((abs_add_three _ _ _).trans (by linarith)).trans_lt hsmall

theorem mean_limit {u η : ℝ} (hu : 0 ≤ u) (hη : 0 ≤ η) {n : VarId → ℝ} (vars : List (RVar F)) {Z : VarId → Ω → ℝ}
    (hZ : Noise P vars.length Z) (φ : Formula) (hφ : φ.Safe u η n) (mφ : φ.MeasurableFns) :
    Tendsto (fun t => (∫ ω, φ.random (scaledValues n vars Z t) ω ∂P - φ.eval n) / t) (𝓝[≠] 0) (𝓝 0) := by
  obtain ⟨M, hM0, hM⟩ := linearPart_bounded φ n vars hZ
  obtain ⟨B, hB⟩ := hZ.bounded
  rw [Metric.tendsto_nhdsWithin_nhds]
  intro ε hε
  obtain ⟨δ, hδ, h⟩ := random_expansion hu hη vars hZ φ hφ mφ (ε / 2) (by positivity)
  refine ⟨δ, hδ, fun {t} ht0 ht => ?_⟩
  have ht0 : t ≠ 0 := ht0
  rw [dist_zero_right, Real.norm_eq_abs] at ht
  obtain ⟨R, mR, bR, eR⟩ := h t ht ht0
  have iU := (memLp_bounded (P := P) (linearPart_measurable φ n vars hZ) hM).integrable (by norm_num)
  have iR := (memLp_bounded (P := P) mR bR).integrable (by norm_num)
  have m0 : ∫ ω, linearPart φ n vars Z ω ∂P = 0 := by
    unfold linearPart
    rw [integral_finset_sum _ fun v hv => ((memLp_bounded (P := P) (hZ.measurable v (Finset.mem_range.1 hv))
      (hB v (Finset.mem_range.1 hv))).integrable (by norm_num)).const_mul _]
    refine Finset.sum_eq_zero fun v hv => ?_
    rw [integral_const_mul, hZ.mean v (Finset.mem_range.1 hv), mul_zero]
  have e : ∫ ω, φ.random (scaledValues n vars Z t) ω ∂P = φ.eval n + t * ∫ ω, R ω ∂P := by
    have i1 : Integrable (fun ω => t * (linearPart φ n vars Z ω + R ω)) P := (iU.add iR).const_mul t
    rw [eR]
    change ∫ ω, (φ.eval n + t * (linearPart φ n vars Z ω + R ω)) ∂P = _
    rw [integral_add (integrable_const _) i1, integral_const_mul, integral_add iU iR, m0]
    simp
  rw [e, dist_zero_right, Real.norm_eq_abs, add_sub_cancel_left, mul_div_cancel_left₀ _ ht0]
  exact (abs_integral_le bR).trans_lt (by linarith)

end

end Unc
