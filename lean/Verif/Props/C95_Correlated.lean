import Verif.Spec.RandomCov
import Verif.Props.C95_Random
import Verif.Props.C100_Resume

/-
C95, correlated numbers: the numbers that a calculation starts from have a covariance matrix (for instance, they come from
`correlated_values()`). The random variables are now the values of these numbers themselves: any random variables that have this
covariance matrix.
-/

namespace Unc

set_option autoImplicit false

open MeasureTheory ProbabilityTheory NR Matrix

variable {Ω : Type} [MeasurableSpace Ω] {P : Measure Ω} [IsProbabilityMeasure P] {n m : ℕ}

/-- Covariance matrix of affine functions of random variables. -/
theorem HasCovariance.affine {Y : Fin n → Ω → ℝ} {C : Matrix (Fin n) (Fin n) ℝ} (h : HasCovariance P Y C)
    (J : Matrix (Fin m) (Fin n) ℝ) (c : Fin m → ℝ) :
    HasCovariance P (fun a ω => c a + ∑ i, J a i * Y i ω) (J * C * Jᵀ) := by
  have hl : ∀ a, MemLp (fun ω => ∑ i, J a i * Y i ω) 2 P := fun a =>
    memLp_finset_sum _ fun i _ => (h.memLp i).const_mul (J a i)
  refine ⟨fun a => (memLp_const (c a)).add (hl a), fun a b => ?_⟩
  rw [covariance_const_add_left ((hl a).integrable (by norm_num)), covariance_const_add_right ((hl b).integrable (by norm_num)),
    covariance_fun_sum_fun_sum' (fun i _ => (h.memLp i).const_mul (J a i)) (fun i _ => (h.memLp i).const_mul (J b i))]
  simp only [covariance_const_mul_left, covariance_const_mul_right, h.cov, Matrix.mul_apply, Matrix.transpose_apply, Finset.sum_mul]
  rw [Finset.sum_comm]
  refine Finset.sum_congr rfl fun j _ => Finset.sum_congr rfl fun i _ => ?_
  ring

theorem HasCovariance.variance {Y : Fin n → Ω → ℝ} {C : Matrix (Fin n) (Fin n) ℝ} (h : HasCovariance P Y C) (i : Fin n) :
    Var[Y i; P] = C i i := by
  rw [← covariance_self (h.memLp i).aemeasurable, h.cov]

/-- **C95**, correlated numbers, all calculations: let the numbers `x i` of a program have covariance matrix `C`, and let `Y i` be any random
variables with this covariance matrix. The covariance matrix and the standard deviations of the results of a calculation on
these numbers are those of the linear approximations of the results. The derivatives `J` of the results are those seen when the calculation is
done on independent variables with the same nominal values (in `B`). -/
theorem C95_correlated_linear {A B : List (Cmd NR)} (hf : fnsOf A = fnsOf B) {x y : Fin n → ℕ} {nom : Fin n → NR}
    {X : Fin n → VarId → Option NR} {σ τ : VarId → ℝ} {u : Fin n → VarId} (hu : Function.Injective u)
    (hx : ∀ i, Quantity A (.ref (x i)) (nom i) (X i) (fun v => fin (σ v)))
    (hy : ∀ i, Quantity B (.ref (y i)) (nom i) (Lin.single (u i)) (fun v => fin (τ v)))
    (nx : ∀ i v, X i v ≠ some nan) (kx : ∀ i, ∃ v, X i v ≠ none)
    {C : Matrix (Fin n) (Fin n) ℝ} (hC : sees A (.covarianceMatrix (List.ofFn fun i => .ref (x i))) = .matrix (rows C))
    (p : List (CalcStep NR))
    (hn : ∀ k D, sees (calculation A x p) (.derivatives (calcRef A x k)) = .dict D → ∀ v, D v ≠ some nan)
    (k : Fin m → ℕ) {D : Fin m → VarId → Option NR}
    (hD : ∀ a, sees (calculation B y p) (.derivatives (calcRef B y (k a))) = .dict (D a))
    (Y : Fin n → Ω → ℝ) (hY : HasCovariance P Y C) (c : Fin m → ℝ) (W : Fin m → Ω → ℝ)
    (hW : ∀ a ω, W a ω = c a + ∑ i, coef (D a (u i)) * Y i ω) :
    sees (calculation A x p) (.covarianceMatrix (List.ofFn fun a => calcRef A x (k a))) =
      .matrix (rows fun a b => cov[W a, W b; P]) ∧
    ∀ a, sees (calculation A x p) (.stdDev (calcRef A x (k a))) = .val (.flt (fin √(Var[W a; P]))) := by
  let J : Matrix (Fin m) (Fin n) ℝ := fun a i => coef (D a (u i))
  obtain ⟨h1, h2⟩ := C100_propagation hf hu hx hy nx kx hC p hn k hD J rfl
  have hw : HasCovariance P W (J * C * Jᵀ) := by
    rw [show W = fun a ω => c a + ∑ i, J a i * Y i ω from funext fun a => funext (hW a)]
    exact hY.affine J c
  refine ⟨h1.trans ?_, fun a => (h2 a).trans ?_⟩
  · congr 2
    funext a b
    exact (hw.cov a b).symm
  · rw [hw.variance a]

/-- **C95** for `correlated_values([n_0, ...], C)`, after any history: let `Y i` be any random variables whose covariance matrix is `C`. The
covariance matrix and the standard deviations of the results of any calculation on the numbers that are returned are those of the
linear approximations of the results (as in `C95_correlated_linear`). -/
theorem C95_correlated_values {eigh : EighFn NR} (he : GoodEigh eigh) {A B : List (Cmd NR)} (hf : fnsOf A = fnsOf B) (h0 : 0 < n)
    (nom : Fin n → ℝ) {C : Matrix (Fin n) (Fin n) ℝ} (hC : C.PosSemidef)
    (tags : Option (List (Option String))) (htags : ∀ l, tags = some l → l.length = n) :
    ∃ (cmds : List (Cmd NR)) (x : Fin n → ℕ),
      correlatedValues eigh (after A).env.length (List.ofFn fun i => fin (nom i)) (rows C) tags =
        .ok (cmds, List.ofFn fun i => .ref (x i)) ∧
      ∀ {y : Fin n → ℕ} {τ : VarId → ℝ} {u : Fin n → VarId}, Function.Injective u →
        (∀ i, Quantity B (.ref (y i)) (fin (nom i)) (Lin.single (u i)) (fun v => fin (τ v))) →
        ∀ p : List (CalcStep NR),
        (∀ k D, sees (calculation (A ++ cmds) x p) (.derivatives (calcRef (A ++ cmds) x k)) = .dict D → ∀ v, D v ≠ some nan) →
        ∀ {m : ℕ} (k : Fin m → ℕ) {D : Fin m → VarId → Option NR},
        (∀ a, sees (calculation B y p) (.derivatives (calcRef B y (k a))) = .dict (D a)) →
        ∀ Y : Fin n → Ω → ℝ, HasCovariance P Y C → ∀ (c : Fin m → ℝ) (W : Fin m → Ω → ℝ),
        (∀ a ω, W a ω = c a + ∑ i, coef (D a (u i)) * Y i ω) →
        sees (calculation (A ++ cmds) x p) (.covarianceMatrix (List.ofFn fun a => calcRef (A ++ cmds) x (k a))) =
          .matrix (rows fun a b => cov[W a, W b; P]) ∧
        ∀ a, sees (calculation (A ++ cmds) x p) (.stdDev (calcRef (A ++ cmds) x (k a))) = .val (.flt (fin √(Var[W a; P]))) := by
  have hR := correlation_posSemidef hC
  obtain ⟨t, ht⟩ := tags_ofFn htags
  obtain ⟨l, U, e1, e2, e3⟩ := he n (correlationOf C) (symm_of_posSemidef hR)
  obtain ⟨cmds, z, X, σ, V, h1, h2, h3, h4, h5, st, hst, h6, -⟩ :=
    correlated_main he A h0 nom (fun i => Real.sqrt (C i i)) (symm_of_posSemidef hR) (PositivePart.of_posSemidef hR) ht
  have e4 := correlatedValuesNorm_ok (base := (after A).env.length) (nom := nom) (s := fun i => Real.sqrt (C i i)) h0 e1 ht
  rw [h1] at e4
  simp only [Except.ok.injEq, Prod.mk.injEq] at e4
  obtain ⟨ec, ez⟩ := e4
  have ez := List.ofFn_injective ez
  subst ez
  have hfA : fnsOf (A ++ cmds) = fnsOf A := by
    have := hst.correlated (n := n) (nom := nom) (σ := fun k => Real.sqrt (max (l k) 0))
      (A := fun i k => U i k * Real.sqrt (C i i)) (t := t) (fun k => Real.sqrt_nonneg _)
    rw [← ec] at this
    rw [← this.fnsOf_eq, ← hst.fnsOf_eq]
  have h5' : covM X σ V = C := by
    rw [h5]
    funext i j
    exact correlation_back hC i j
  refine ⟨cmds, fun i => (after A).env.length + n + i, by rw [correlatedValues_eq hC]; exact h1, ?_⟩
  intro y τ u hu hy p hn m k D hD Y hY c W hW
  exact C95_correlated_linear (hfA.trans hf) hu h2 hy h3 (fun i => ⟨st.vars.length, (h6 i _).2 ⟨le_rfl, by omega⟩⟩)
    (by rw [C11_covariance_matrix h2 h3 h4, h5']; rfl) p hn k hD Y hY c W hW

/-- A formula does not depend on variables that it does not contain. -/
theorem Formula.eval_update_of_count {φ : Formula} {v : VarId} (h : φ.count v = 0) (p : VarId → ℝ) (t : ℝ) :
    φ.eval (Function.update p v t) = φ.eval p := by
  induction φ with
  | var w =>
    have : w ≠ v := fun e => by simp [Formula.count, e] at h
    simp [Formula.eval, Function.update_of_ne this]
  | const c => rfl
  | pos a ih => simp only [Formula.count] at h; simp only [Formula.eval, ih h]
  | neg a ih => simp only [Formula.count] at h; simp only [Formula.eval, ih h]
  | abs a ih => simp only [Formula.count] at h; simp only [Formula.eval, ih h]
  | fn1 s a ih => simp only [Formula.count] at h; simp only [Formula.eval, ih h]
  | add a b iha ihb | sub a b iha ihb | mul a b iha ihb | div a b iha ihb | fn2 s a b iha ihb =>
    simp only [Formula.count] at h
    simp only [Formula.eval, iha (by omega), ihb (by omega)]

/-- **C95**, correlated numbers, calculations with operators whose results are affine functions (however they are calculated): let the numbers
`x i` of a program have covariance matrix `C`, and let `Y i` be any random variables with this covariance matrix. The covariance matrix and the
standard deviations of the results are exactly those of the random values of the results. The formulas `φ a` of the results, as functions
of the `n` numbers, are those of the calculation on `n` variables (in `B`). -/
theorem C95_correlated {A B : List (Cmd NR)} (hf : fnsOf A = fnsOf B) {x y : Fin n → ℕ} {nom : Fin n → NR}
    {X : Fin n → VarId → Option NR} {σ τ : VarId → ℝ}
    (hx : ∀ i, Quantity A (.ref (x i)) (nom i) (X i) (fun v => fin (σ v)))
    (hy : ∀ i : Fin n, Quantity B (.ref (y i)) (nom i) (Lin.single (i : VarId)) (fun v => fin (τ v)))
    (nx : ∀ i v, X i v ≠ some nan) (kx : ∀ i, ∃ v, X i v ≠ none)
    {C : Matrix (Fin n) (Fin n) ℝ} (hC : sees A (.covarianceMatrix (List.ofFn fun i => .ref (x i))) = .matrix (rows C))
    (p : List (CalcStep NR))
    (hn : ∀ k D, sees (calculation A x p) (.derivatives (calcRef A x k)) = .dict D → ∀ v, D v ≠ some nan)
    (hc : ∀ c ∈ calculation B y p, c.IsCalc .none)
    (hfin : ∀ (k : ℕ) (z : NR), sees (calculation B y p) (.nominal (.ref k)) = .val (.flt z) → Rounded.Fin z)
    (k : Fin m → ℕ) (φ : Fin m → Formula)
    (hk : ∀ a, (formulas .none (calculation B y p)).env[placeOf y (after B).env.length (k a)]? = some (some (φ a)))
    (hs : ∀ a, (φ a).Safe 0 0 (formulas .none (calculation B y p)).point) (ha : ∀ a, (φ a).IsAffine n)
    {D : Fin m → VarId → Option NR}
    (hD : ∀ a, sees (calculation B y p) (.derivatives (calcRef B y (k a))) = .dict (D a)) (nD : ∀ a v, D a v ≠ some nan)
    (Y : VarId → Ω → ℝ) (hY : HasCovariance P (fun i : Fin n => Y i) C) :
    sees (calculation A x p) (.covarianceMatrix (List.ofFn fun a => calcRef A x (k a))) =
      .matrix (rows fun a b => cov[(φ a).random Y, (φ b).random Y; P]) ∧
    ∀ a, sees (calculation A x p) (.stdDev (calcRef A x (k a))) = .val (.flt (fin √(Var[(φ a).random Y; P]))) := by
  choose c s hcs using ha
  refine C95_correlated_linear hf (u := fun i => (i : VarId)) (fun i j h => Fin.ext h) hx hy nx kx hC p hn k hD
    (fun i => Y i) hY c _ fun a ω => ?_
  rw [Formula.AffineWith.random (hcs a)]
  simp only [Finset.sum_range]
  refine congrArg (c a + ·) (Finset.sum_congr rfl fun i _ => congrArg (· * _) ?_)
  have hd := C84_derivatives .none _ (FnSpecs.none_right _) hc hfin _ (φ a) (hk a) (hs a) (D a) (hD a) i
  have hp : (φ a).partialAt (formulas .none (calculation B y p)).point i = s a i :=
    Formula.AffineWith.partialAt (hcs a) _ _ i.2
  rw [← hp]
  cases hv : D a i with
  | none =>
    rw [hv] at hd
    have h0 : (φ a).count i = 0 := by
      by_contra h
      exact absurd (hd.1.2 h) (by simp)
    rw [Formula.partialAt]
    simp [Formula.eval_update_of_count h0, coef]
  | some z =>
    cases z with
    | nan => exact absurd hv (nD a i)
    | fin z =>
      have h := hd.2.2 _ hv trivial
      have nφ := formulas_noFns _ _ _ (hk a)
      have e : |Rounded.val (fin z : NR) - (φ a).partialAt (formulas .none (calculation B y p)).point i| ≤ 0 :=
        h.trans (nφ.derivBound _ _).le
      exact (sub_eq_zero.1 (abs_nonpos_iff.1 e)).symm

/-! ### The hypotheses are met -/

/-- The values of x and p of `exCs` (x = 3±2, p = x*y = 15±√109), from two coins: their covariance matrix is that of x and p. -/
def exCoins (v : VarId) (ω : Bool × Bool) : ℝ := if v = 0 then 3 + 2 * coin ω.1 else 15 + 10 * coin ω.1 + 3 * coin ω.2

theorem exCoins_cov : HasCovariance coins (fun i : Fin 2 => exCoins i) !![4, 20; 20, 109] := by
  refine ⟨fun i => memLp_bounded (a := 28) Measurable.of_discrete fun ω => ?_, fun i j => ?_⟩
  · rcases ω with ⟨a, b⟩
    fin_cases i <;> cases a <;> cases b <;> simp [exCoins, coin] <;> norm_num [abs_le]
  · rw [coins_covariance, coins_integral, coins_integral, coins_integral]
    fin_cases i <;> fin_cases j <;> simp [exCoins, coin] <;> norm_num

theorem exPair_quantities (i : Fin 2) : Quantity exPair (.ref (![0, 1] i)) (fin (![3, 15] i)) (Lin.single (i : VarId))
    (fun v => fin (if v = 0 then 2 else 1)) := by
  have h0 := exPair_reaches.quantity_exists (x := .ref 0) (q := ⟨fin 3, Lin.single 0, some 0⟩) rfl
  have h1 := exPair_reaches.quantity_exists (x := .ref 1) (q := ⟨fin 15, Lin.single 1, some 1⟩) rfl
  fin_cases i
  · refine ⟨h0.nominal, h0.derivatives, fun v hv => (h0.3 v hv).trans ?_⟩
    by_cases h : v = 0
    · subst h; simp
    · exact absurd (if_neg h) hv
  · refine ⟨h1.nominal, h1.derivatives, fun v hv => (h1.3 v hv).trans ?_⟩
    by_cases h : v = 1
    · subst h; simp
    · exact absurd (if_neg h) hv

/-- `C95_correlated_linear` for x*p: its standard deviation is that of 15 x + 3 p. -/
example : sees (calculation exCs ![0, 2] exCalc) (.stdDev (calcRef exCs ![0, 2] 2)) =
    .val (.flt (fin √(Var[fun ω => 0 + (15 * exCoins 0 ω + 3 * exCoins 1 ω); coins]))) := by
  refine (C95_correlated_linear (A := exCs) (B := exPair) rfl (x := ![0, 2]) (y := ![0, 1]) (u := fun i => (i : VarId))
    (fun i j h => Fin.ext h) exCalc_quantities exPair_quantities exCalc_nan exCalc_keys exCalc_cov exCalc
    exCalc_no_nan (m := 1) (fun _ => 2) (D := fun _ => Lin.comb [(fin 15, Lin.single 0), (fin 3, Lin.single 1)]) (fun _ => by
      have hl : (after exPair).env.length = 2 := by rw [← exPair_reaches.env_length]; rfl
      have e : calcRef exPair ![0, 1] 2 = .ref 2 := by simp [calcRef, placeOf, hl]
      rw [e, (exPair_calc.read (c := .derivatives _) rfl).1]
      rfl) _ exCoins_cov (fun _ => 0) (fun _ ω => 0 + (15 * exCoins 0 ω + 3 * exCoins 1 ω)) fun a ω => ?_).2 0
  simp [Lin.comb, Lin.add, Lin.smul, Lin.single, Lin.zero, optAdd, coef]

/-- `C95_correlated_values` for the covariance matrix of x and p, in a new program. -/
example : ∃ (eigh : EighFn NR) (cmds : List (Cmd NR)) (x : Fin 2 → ℕ), GoodEigh eigh ∧
    correlatedValues eigh (after ([] : List (Cmd NR))).env.length (List.ofFn fun i => fin (![3, 15] i)) (rows !![4, 20; 20, 109]) none =
      .ok (cmds, List.ofFn fun i => .ref (x i)) ∧ (!![4, 20; 20, 109] : Matrix (Fin 2) (Fin 2) ℝ).PosSemidef ∧
    fnsOf ([] : List (Cmd NR)) = fnsOf exPair := by
  obtain ⟨eigh, he⟩ := goodEigh_exists
  have hp : (!![4, 20; 20, 109] : Matrix (Fin 2) (Fin 2) ℝ).PosSemidef := by
    have h := C11_covariance_matrix exCalc_quantities exCalc_nan (V := {0, 1}) (by
      intro i v
      fin_cases i
      · simp only [Lin.single, Fin.zero_eta, Matrix.cons_val_zero]
        split_ifs with h <;> simp [h]
      · simp only [exP, Fin.mk_one, Matrix.cons_val_one, Matrix.cons_val_zero]
        split_ifs with h h' <;> simp [*])
    rw [exCalc_cov, Out.matrix.injEq] at h
    rw [rows_injective h]
    exact (C11_positive_semidefinite _ _ _).2
  obtain ⟨cmds, x, h, -⟩ := C95_correlated_values (P := coins) (A := []) (B := exPair) he rfl (by norm_num) ![3, 15] hp none (by simp)
  exact ⟨eigh, cmds, x, he, h, hp, rfl⟩

/-- The calculation of x + p from x and p. -/
noncomputable def exSum : List (CalcStep NR) := [.binop .add (.ref 0) (.ref 1)]

theorem exSum_add (G G' : Lin NR) (i j : Option VarId) : specBinop .add (.unc ⟨fin 3, G, i⟩) (.unc ⟨fin 15, G', j⟩) =
    .ok (.unc ⟨fin 18, Lin.comb [(fin 1, G), (fin 1, G')], none⟩) :=
  specBinop_unc_unc (z := fin 18) (a := fin 1) (b := fin 1) (by simp only [BinOp.onFloats, fin_add]; norm_num) rfl rfl

theorem exSum_reaches : Reaches (calculation exCs ![0, 2] exSum) { exState with env := exState.env ++
    [some (.unc ⟨fin 18, Lin.comb [(fin 1, Lin.single 0),
      (fin 1, Lin.comb [(fin 5, Lin.single 0), (fin 3, Lin.single 1)])], none⟩)] } :=
  (ex_reaches.binop (x := .ref 0) (y := .ref 2) rfl rfl (exSum_add _ _ _ _) rfl).2

theorem exPair_sum : Reaches (calculation exPair ![0, 1] exSum) ⟨[⟨fin 3, fin 2, none⟩, ⟨fin 15, fin 1, none⟩], opDefs,
    [some (.unc ⟨fin 3, Lin.single 0, some 0⟩), some (.unc ⟨fin 15, Lin.single 1, some 1⟩),
     some (.unc ⟨fin 18, Lin.comb [(fin 1, Lin.single 0), (fin 1, Lin.single 1)], none⟩)]⟩ :=
  (exPair_reaches.binop (x := .ref 0) (y := .ref 1) rfl rfl (exSum_add _ _ _ _) rfl).2

theorem exSum_no_nan (k : ℕ) (D : VarId → Option NR)
    (h : sees (calculation exCs ![0, 2] exSum) (.derivatives (calcRef exCs ![0, 2] k)) = .dict D) (v : VarId) : D v ≠ some nan := by
  obtain ⟨q, h1, rfl⟩ := exSum_reaches.derivatives h
  have hl : (after exCs).env.length = 6 := by rw [← ex_reaches.env_length]; rfl
  match k with
  | 0 =>
    cases h1
    simp [Lin.single]
  | 1 =>
    cases h1
    simp only [Lin.comb, Lin.add, Lin.smul, Lin.single, Lin.zero]
    split_ifs <;> simp [optAdd]
  | 2 =>
    have e : calcRef exCs ![0, 2] 2 = .ref 6 := by simp [calcRef, placeOf, hl]
    rw [e] at h1
    cases h1
    simp only [Lin.comb, Lin.add, Lin.smul, Lin.single, Lin.zero]
    split_ifs <;> simp [optAdd]
  | k + 3 =>
    have e : calcRef exCs ![0, 2] (k + 3) = .ref (7 + k) := by
      simp only [calcRef, placeOf, hl]
      rw [dif_neg (by omega)]
      congr 1
      omega
    rw [e] at h1
    have := lt_of_eval (eval_of_sevalUnc h1)
    simp [exState] at this

/-- `C95_correlated` for x + p: its standard deviation is that of the sum of the random values, √(4 + 2×20 + 109). -/
example : sees (calculation exCs ![0, 2] exSum) (.stdDev (calcRef exCs ![0, 2] 2)) =
    .val (.flt (fin √(Var[fun ω => exCoins 0 ω + exCoins 1 ω; coins]))) ∧ Var[fun ω => exCoins 0 ω + exCoins 1 ω; coins] = 153 := by
  have hl : (after exPair).env.length = 2 := by rw [← exPair_reaches.env_length]; rfl
  have hcalc : calculation exPair ![0, 1] exSum = exPair ++ [.binop .add (.ref 0) (.ref 1)] := by
    simp [calculation, exSum, CalcStep.cmd, Arg.placed, placeOf]
  have b2 : specBadStd (fin 2) = false := by simp [specBadStd, PyFloat.ltb]
  have b1 : specBadStd (fin 1) = false := by simp [specBadStd, PyFloat.ltb]
  refine ⟨(C95_correlated (A := exCs) (B := exPair) rfl (x := ![0, 2]) (y := ![0, 1]) exCalc_quantities exPair_quantities exCalc_nan
    exCalc_keys exCalc_cov exSum exSum_no_nan ?_ ?_ (m := 1) (fun _ => 2) (fun _ => .add (.var 0) (.var 1)) ?_
    (fun _ => ⟨trivial, trivial⟩) (fun _ => ⟨0, fun _ => 1, fun p => ?_⟩)
    (D := fun _ => Lin.comb [(fin 1, Lin.single 0), (fin 1, Lin.single 1)]) (fun _ => ?_) (fun _ v => ?_) exCoins exCoins_cov).2 0, ?_⟩
  · intro c hc
    rw [hcalc] at hc
    simp only [exPair, List.cons_append, List.nil_append, List.mem_cons, List.not_mem_nil, or_false] at hc
    rcases hc with rfl | rfl | rfl <;> simp [Cmd.IsCalc, Arg.IsOperand]
  · intro k z h
    rw [(exPair_sum.read (c := .nominal _) rfl).1] at h
    match k with
    | 0 => cases h; trivial
    | 1 => cases h; trivial
    | 2 => cases h; trivial
    | k + 3 => simp [SState.step, Arg.seval, SState.invalid] at h
  · intro a
    have e : placeOf ![0, 1] (after exPair).env.length 2 = 2 := by simp [placeOf, hl]
    rw [hcalc, e]
    simp [formulas, exPair, FState.step, b1, b2, Arg.formula, FnSpecs.binop]
    rfl
  · simp [Formula.eval, Finset.sum_range_succ]
  · have e : calcRef exPair ![0, 1] 2 = .ref 2 := by simp [calcRef, placeOf, hl]
    rw [e, (exPair_sum.read (c := .derivatives _) rfl).1]
    rfl
  · simp only [Lin.comb, Lin.add, Lin.smul, Lin.single, Lin.zero]
    split_ifs <;> simp [optAdd]
  · rw [coins_variance, coins_integral, coins_integral]
    simp [exCoins, coin]
    norm_num

end Unc
