import Mathlib.Algebra.Order.Chebyshev
import Verif.Props.Examples
import Verif.Lemmas.CovReal

/-
C56 and C58: standard score; scaling, shift and independence laws of the standard deviation.
-/

namespace Unc

set_option autoImplicit false

open NR Finset

/-- **C56**: `x.std_score(v)` is `(v - nominal)/std_dev` if the standard deviation is not 0, and raises
ValueError otherwise. -/
theorem C56_std_score {cs : List (Cmd NR)} {x : Arg NR} {a : ℝ} {D : VarId → Option NR}
    {σ : VarId → NR} (hx : Quantity cs x (fin a) D σ) {s : ℝ}
    (hs : sees cs (.stdDev x) = .val (.flt (fin s))) (v : ℝ) :
    (s ≠ 0 → ∃ r, sees cs (.stdScore x (fin v)) = .val (.flt (fin r)) ∧ r = (v - a) / s ∧
      a + r * s = v) ∧
    (sees cs (.stdScore x (fin v)) = .err .valueError ↔ s = 0) := by
  obtain ⟨st, h⟩ := Reaches.exists cs
  obtain ⟨p, h1, h2, rfl, h4⟩ := h.quantity hx
  rw [(h.stdDev h1).1] at hs
  have hs' : nrSqrt (specVariance st.vars p.grad) = fin s := by simpa using hs
  have e : sees cs (.stdScore x (fin v)) =
      if s = 0 then .err .valueError else .val (.flt (fin ((v - a) / s))) := by
    rw [(h.read (c := .stdScore x (fin v)) rfl).1]
    simp only [SState.step, SState.read, h1, specStdScore]
    rw [specStdDev_eq_specStd h.wf (sevalUnc_mem h1), specStd_eq, hs', h2]
    by_cases hz : s = 0
    · simp [hz, PyFloat.truediv, PyRes.out]
    · simp [hz, PyFloat.truediv, PyRes.out]
  refine ⟨fun hz => ⟨(v - a) / s, by simp [e, hz], rfl, by field_simp; ring⟩, ?_⟩
  by_cases hz : s = 0 <;> simp [e, hz]

/-! ### C58 -/

/-- Standard deviation of the result of an operation. -/
theorem stdDev_binop {cs : List (Cmd NR)} {s : SState NR} (h : Reaches cs s) {op : BinOp}
    {x y : Arg NR} {a b : SVal NR} {q : SQ NR} (hx : x.seval s.env = some a)
    (hy : y.seval s.env = some b) (hr : specBinop op a b = .ok (.unc q))
    (hu : (a.isUnc || b.isUnc) = true) :
    sees (cs ++ [.binop op x y]) (.stdDev (next cs)) =
      .val (.flt (nrSqrt (specVariance s.vars q.grad))) := by
  obtain ⟨-, hr⟩ := h.binop hx hy hr hu
  exact (hr.stdDev (h.next_eval (l := []))).1

theorem specComponent_scale (c : ℝ) (d σ : NR) :
    specComponent (fin c * d) σ = fin |c| * specComponent d σ := by
  unfold specComponent
  cases PyFloat.eqb σ 0 with
  | true => simp
  | false =>
    cases d <;> cases σ <;> simp [PyFloat.abs, lift1, abs_mul, mul_assoc]

theorem sumVars_scale (c : ℝ) (f : VarId → NR) (n : Nat) :
    sumVars (fun v => fin c * f v) n = fin c * sumVars f n := by
  induction n with
  | zero => simp [sumVars]
  | succ n ih =>
    simp only [sumVars, ih]
    cases sumVars f n <;> cases f n <;> simp [mul_add]

theorem sumVars_add' (f g : VarId → NR) (n : Nat) :
    sumVars (fun v => f v + g v) n = sumVars f n + sumVars g n := by
  induction n with
  | zero => simp [sumVars]
  | succ n ih =>
    simp only [sumVars, ih]
    cases sumVars f n <;> cases sumVars g n <;> cases f n <;> cases g n <;> simp
    ring

theorem comb_one (c : NR) (g : Lin NR) (v : VarId) :
    Lin.comb [(c, g)] v = (g v).map (c * ·) := by
  simp only [Lin.comb, Lin.add, Lin.smul, Lin.zero]
  cases g v <;> rfl

theorem specVariance_scale (vars : List (SVar NR)) (c : ℝ) (g : Lin NR) :
    specVariance vars (Lin.comb [(fin c, g)]) = fin (c * c) * specVariance vars g := by
  unfold specVariance
  rw [← sumVars_scale]
  apply sumVars_congr
  intro v _
  unfold specVarianceTerm
  rw [comb_one]
  cases g v with
  | none => simp
  | some d =>
    cases vars[v]? with
    | none => simp
    | some cell =>
      simp only [Option.map_some, specComponent_scale]
      cases specComponent d cell.std with
      | nan => simp
      | fin k => simp only [fin_mul]; congr 1; rw [mul_mul_mul_comm, abs_mul_abs_self]

theorem nrSqrt_scale (c : ℝ) (z : NR) : nrSqrt (fin (c * c) * z) = fin |c| * nrSqrt z := by
  cases z with
  | nan => simp
  | fin z =>
    simp only [fin_mul, nrSqrt_fin]
    rw [Real.sqrt_mul (mul_self_nonneg c), Real.sqrt_mul_self_eq_abs]

/-- **C58**: `std_dev(c*x) = std_dev(x*c) = |c| std_dev(x)`, for all numbers with uncertainties (NaN
included). -/
theorem C58_scaling {cs : List (Cmd NR)} {x : Arg NR} {a : NR} {D : VarId → Option NR}
    {σ : VarId → NR} (hx : Quantity cs x a D σ) {s : NR}
    (hs : sees cs (.stdDev x) = .val (.flt s)) (c : ℝ) :
    sees (cs ++ [.binop .mul (.const (.flt (fin c))) x]) (.stdDev (next cs)) =
      .val (.flt (fin |c| * s)) ∧
    sees (cs ++ [.binop .mul x (.const (.flt (fin c)))]) (.stdDev (next cs)) =
      .val (.flt (fin |c| * s)) := by
  obtain ⟨st, h⟩ := Reaches.exists cs
  obtain ⟨p, h1, -⟩ := h.quantity hx
  rw [(h.stdDev h1).1] at hs
  have hs' : nrSqrt (specVariance st.vars p.grad) = s := by simpa using hs
  have e1 : specBinop .mul (.plain (.flt (fin c))) (.unc p) =
      .ok (.unc ⟨fin c * p.nom, Lin.comb [(fin c, p.grad)], none⟩) := specBinop_flt_unc rfl rfl
  have e2 : specBinop .mul (.unc p) (.plain (.flt (fin c))) =
      .ok (.unc ⟨p.nom * fin c, Lin.comb [(fin c, p.grad)], none⟩) := specBinop_unc_flt rfl rfl
  rw [stdDev_binop h rfl (seval_of_sevalUnc h1) e1 rfl, stdDev_binop h (seval_of_sevalUnc h1) rfl e2 rfl]
  simp only [specVariance_scale, nrSqrt_scale, hs', and_self]

/-- **C58**: `std_dev(x+c) = std_dev(c+x) = std_dev(x)`, for all numbers with uncertainties (NaN
included). -/
theorem C58_shift {cs : List (Cmd NR)} {x : Arg NR} {a : NR} {D : VarId → Option NR}
    {σ : VarId → NR} (hx : Quantity cs x a D σ) {s : NR}
    (hs : sees cs (.stdDev x) = .val (.flt s)) (c : NR) :
    sees (cs ++ [.binop .add (.const (.flt c)) x]) (.stdDev (next cs)) = .val (.flt s) ∧
    sees (cs ++ [.binop .add x (.const (.flt c))]) (.stdDev (next cs)) = .val (.flt s) := by
  obtain ⟨st, h⟩ := Reaches.exists cs
  obtain ⟨p, h1, -⟩ := h.quantity hx
  rw [(h.stdDev h1).1] at hs
  have hs' : nrSqrt (specVariance st.vars p.grad) = s := by simpa using hs
  have e1 : specBinop .add (.plain (.flt c)) (.unc p) =
      .ok (.unc ⟨c + p.nom, Lin.comb [(fin 1, p.grad)], none⟩) := specBinop_flt_unc rfl rfl
  have e2 : specBinop .add (.unc p) (.plain (.flt c)) =
      .ok (.unc ⟨p.nom + c, Lin.comb [(fin 1, p.grad)], none⟩) := specBinop_unc_flt rfl rfl
  rw [stdDev_binop h rfl (seval_of_sevalUnc h1) e1 rfl, stdDev_binop h (seval_of_sevalUnc h1) rfl e2 rfl]
  simp only [specVariance_scale, nrSqrt_scale, hs', and_self]
  cases s <;> simp

/-- Gradient of `x + y`. -/
noncomputable def sumGrad (g g' : Lin NR) : Lin NR := Lin.comb [(1, g), (1, g')]

theorem sumGrad_apply (g g' : Lin NR) (v : VarId) : sumGrad g g' v = optAdd (g v) (g' v) := by
  simp only [sumGrad, Lin.comb, Lin.add, Lin.smul, Lin.zero]
  cases g v with
  | none =>
    cases g' v with
    | none => rfl
    | some b => cases b <;> simp [optAdd]
  | some a =>
    cases g' v with
    | none => cases a <;> simp [optAdd]
    | some b => cases a <;> cases b <;> simp [optAdd]

theorem specBinop_add (p q : SQ NR) : specBinop .add (.unc p) (.unc q) =
    .ok (.unc ⟨p.nom + q.nom, sumGrad p.grad q.grad, none⟩) := specBinop_unc_unc rfl rfl rfl

theorem nrSqrt_mul_self {z : NR} (h : NonNeg z) : nrSqrt z * nrSqrt z = z := by
  cases z with
  | nan => simp
  | fin z => simp only [nrSqrt_fin, fin_mul]; rw [Real.mul_self_sqrt h]

/-- **C58**: `std_dev(x+y)**2 = std_dev(x)**2 + std_dev(y)**2` when `x` and `y` share no variable, for all
numbers with uncertainties (NaN included). -/
theorem C58_independent {cs : List (Cmd NR)} {x y : Arg NR} {a b : NR} {D D' : VarId → Option NR}
    {σ σ' : VarId → NR} (hx : Quantity cs x a D σ) (hy : Quantity cs y b D' σ')
    (hi : ∀ v, D v = none ∨ D' v = none) {s t : NR}
    (hs : sees cs (.stdDev x) = .val (.flt s)) (ht : sees cs (.stdDev y) = .val (.flt t)) :
    ∃ r, sees (cs ++ [.binop .add x y]) (.stdDev (next cs)) = .val (.flt r) ∧
      r * r = s * s + t * t := by
  obtain ⟨st, h⟩ := Reaches.exists cs
  obtain ⟨p, h1, -, rfl, -⟩ := h.quantity hx
  obtain ⟨q, k1, -, rfl, -⟩ := h.quantity hy
  rw [(h.stdDev h1).1] at hs
  rw [(h.stdDev k1).1] at ht
  have hs' : nrSqrt (specVariance st.vars p.grad) = s := by simpa using hs
  have ht' : nrSqrt (specVariance st.vars q.grad) = t := by simpa using ht
  refine ⟨_, stdDev_binop h (seval_of_sevalUnc h1) (seval_of_sevalUnc k1) (specBinop_add p q) rfl, ?_⟩
  rw [← hs', ← ht', nrSqrt_mul_self (nonNeg_variance _ _), nrSqrt_mul_self (nonNeg_variance _ _),
    nrSqrt_mul_self (nonNeg_variance _ _)]
  unfold specVariance
  rw [← sumVars_add']
  apply sumVars_congr
  intro v _
  unfold specVarianceTerm
  simp only [sumGrad_apply]
  rcases hi v with e | e
  · rw [e]
    cases q.grad v with
    | none => simp [optAdd]
    | some d =>
      cases st.vars[v]? with
      | none => simp [optAdd]
      | some c => simp only [optAdd, zero_eq]; cases specComponent d c.std <;> simp
  · rw [e]
    cases p.grad v with
    | none => simp [optAdd]
    | some d =>
      cases st.vars[v]? with
      | none => simp [optAdd]
      | some c => simp only [optAdd, zero_eq]; cases specComponent d c.std <;> simp

theorem coef_sumGrad {g g' : Lin NR} {v : VarId} (h : g v ≠ some nan) (h' : g' v ≠ some nan) :
    sumGrad g g' v ≠ some nan ∧ coef (sumGrad g g' v) = coef (g v) + coef (g' v) := by
  rw [sumGrad_apply]
  rcases hg : g v with _ | _ | a
  · simp [optAdd, h']
  · exact absurd hg h
  · rcases hg' : g' v with _ | _ | b
    · simp [optAdd]
    · exact absurd hg' h'
    · simp [optAdd]

theorem stdsAre_sumGrad {vars : List (SVar NR)} {g g' : Lin NR} {σ : VarId → NR}
    (h : StdsAre vars g σ) (h' : StdsAre vars g' σ) : StdsAre vars (sumGrad g g') σ := by
  intro v hv
  rw [sumGrad_apply] at hv
  by_cases hx : g v = none
  · by_cases hy : g' v = none
    · simp [hx, hy, optAdd] at hv
    · exact h' v hy
  · exact h v hx

theorem l2_triangle (f g : VarId → ℝ) (s : Finset VarId) :
    Real.sqrt (∑ v ∈ s, (f v + g v) ^ 2) ≤
      Real.sqrt (∑ v ∈ s, f v ^ 2) + Real.sqrt (∑ v ∈ s, g v ^ 2) := by
  have hf : 0 ≤ ∑ v ∈ s, f v ^ 2 := sum_nonneg (fun v _ => sq_nonneg _)
  have hg : 0 ≤ ∑ v ∈ s, g v ^ 2 := sum_nonneg (fun v _ => sq_nonneg _)
  apply Real.sqrt_le_iff.mpr
  refine ⟨add_nonneg (Real.sqrt_nonneg _) (Real.sqrt_nonneg _), ?_⟩
  have e : ∑ v ∈ s, (f v + g v) ^ 2 = (∑ v ∈ s, f v ^ 2) + (∑ v ∈ s, g v ^ 2) + 2 * ∑ v ∈ s, f v * g v := by
    rw [mul_sum, ← sum_add_distrib, ← sum_add_distrib]
    exact sum_congr rfl (fun v _ => by ring)
  have cs : ∑ v ∈ s, f v * g v ≤ Real.sqrt (∑ v ∈ s, f v ^ 2) * Real.sqrt (∑ v ∈ s, g v ^ 2) := by
    rw [← Real.sqrt_mul hf]
    exact Real.le_sqrt_of_sq_le (sum_mul_sq_le_sq_mul_sq s f g)
  rw [e, add_sq, Real.sq_sqrt hf, Real.sq_sqrt hg]
  linarith

/-- **C58**: `|std_dev(x) - std_dev(y)| <= std_dev(x+y) <= std_dev(x) + std_dev(y)`, and
`std_dev(x+y)**2 = std_dev(x)**2 + std_dev(y)**2 + 2*covariance`, for finite quantities. -/
theorem C58_triangle {cs : List (Cmd NR)} {x y : Arg NR} {a b : NR} {D D' : VarId → Option NR}
    {σ : VarId → ℝ} (hx : Quantity cs x a D (fun v => fin (σ v)))
    (hy : Quantity cs y b D' (fun v => fin (σ v)))
    (hn : ∀ v, D v ≠ some nan) (hn' : ∀ v, D' v ≠ some nan) :
    ∃ s t r k, ∃ M, sees cs (.stdDev x) = .val (.flt (fin s)) ∧
      sees cs (.stdDev y) = .val (.flt (fin t)) ∧
      sees (cs ++ [.binop .add x y]) (.stdDev (next cs)) = .val (.flt (fin r)) ∧
      sees cs (.covarianceMatrix [x, y]) = .matrix M ∧ entry M 0 1 = some (fin k) ∧
      |s - t| ≤ r ∧ r ≤ s + t ∧ r ^ 2 = s ^ 2 + t ^ 2 + 2 * k := by
  obtain ⟨st, h⟩ := Reaches.exists cs
  obtain ⟨p, h1, -, rfl, h4⟩ := h.quantity hx
  obtain ⟨q, k1, -, rfl, k4⟩ := h.quantity hy
  have ex := (h.stdDev h1).1
  have ey := (h.stdDev k1).1
  have ez := stdDev_binop h (seval_of_sevalUnc h1) (seval_of_sevalUnc k1) (specBinop_add p q) rfl
  rw [specVariance_fin hn h4] at ex
  rw [specVariance_fin hn' k4] at ey
  rw [specVariance_fin (fun v => (coef_sumGrad (hn v) (hn' v)).1) (stdsAre_sumGrad h4 k4)] at ez
  have ec : sees cs (.covarianceMatrix [x, y]) = .matrix ([p, q].map fun x => [p, q].map fun y =>
      specCov st.vars x.grad y.grad) := by
    rw [(h.read (c := .covarianceMatrix [x, y]) rfl).1]
    simp only [SState.step, evalArgs, h1, k1]
  refine ⟨_, _, _, ∑ v ∈ range st.vars.length, coef (p.grad v) * coef (q.grad v) * σ v ^ 2, _,
    ex, ey, ez, ec, ?_, ?_⟩
  · rw [← specCov_fin hn hn' h4]; rfl
  · have hc : ∀ v, coef (sumGrad p.grad q.grad v) * σ v =
        coef (p.grad v) * σ v + coef (q.grad v) * σ v := by
      intro v; rw [(coef_sumGrad (hn v) (hn' v)).2]; ring
    simp only [hc]
    have tri := fun f g => l2_triangle f g (range st.vars.length)
    refine ⟨?_, tri _ _, ?_⟩
    · rw [abs_le]
      constructor
      · have := tri (fun v => coef (p.grad v) * σ v + coef (q.grad v) * σ v)
          (fun v => - (coef (p.grad v) * σ v))
        simp only [add_neg_cancel_comm, neg_sq] at this
        linarith
      · have := tri (fun v => coef (p.grad v) * σ v + coef (q.grad v) * σ v)
          (fun v => - (coef (q.grad v) * σ v))
        simp only [add_neg_cancel_right, neg_sq] at this
        linarith
    · rw [Real.sq_sqrt (sum_nonneg (fun v _ => sq_nonneg _)),
        Real.sq_sqrt (sum_nonneg (fun v _ => sq_nonneg _)),
        Real.sq_sqrt (sum_nonneg (fun v _ => sq_nonneg _)), mul_sum, ← sum_add_distrib,
        ← sum_add_distrib]
      exact sum_congr rfl (fun v _ => by ring)

/-- The hypotheses are met by x = 3±2 and y = 5±1, which are independent. -/
example : ∃ r, sees (exCs ++ [.binop .add (.ref 0) (.ref 1)]) (.stdDev (next exCs)) = .val (.flt r) ∧
    r * r = fin (2 ^ 2 + 1 ^ 2) := by
  obtain ⟨s, t, r, k, M, h1, h2, h3, -⟩ := C58_triangle ex_x ex_y
    (by intro v; simp [Lin.single]) (by intro v; simp [Lin.single])
  obtain ⟨r', e1, e2⟩ := C58_independent ex_x ex_y
    (by intro v; by_cases h : v = 0 <;> simp [Lin.single, h]) h1 h2
  refine ⟨r', e1, ?_⟩
  have hx : sees exCs (.stdDev (.ref 0)) = .val (.flt (fin 2)) := by
    rw [(ex_reaches.read (c := .stdDev (.ref 0)) rfl).1]; rfl
  have hy : sees exCs (.stdDev (.ref 1)) = .val (.flt (fin 1)) := by
    rw [(ex_reaches.read (c := .stdDev (.ref 1)) rfl).1]; rfl
  rw [h1] at hx; rw [h2] at hy
  simp only [Out.val.injEq, PyVal.flt.injEq, fin.injEq] at hx hy
  rw [e2, hx, hy]
  simp only [fin_mul, fin_add]
  norm_num

/-- x = 3±2: the value 7 has the standard score 2. -/
example : ∃ r, sees exCs (.stdScore (.ref 0) (fin 7)) = .val (.flt (fin r)) ∧ r = (7 - 3) / 2 := by
  have hx : sees exCs (.stdDev (.ref 0)) = .val (.flt (fin 2)) := by
    rw [(ex_reaches.read (c := .stdDev (.ref 0)) rfl).1]; rfl
  obtain ⟨r, h1, h2, -⟩ := (C56_std_score ex_x hx 7).1 (by norm_num)
  exact ⟨r, h1, h2⟩

end Unc
