import Verif.Lemmas.Resume
import Verif.Props.C13_Correlated
import Verif.Props.Examples

/-
C100: a calculation only depends on the nominal values and on the covariance matrix of the numbers that it starts from. In particular,
results can be saved as their nominal values and their covariance matrix, and loaded again with `correlated_values()`.
-/

namespace Unc

set_option autoImplicit false

open NR Finset Matrix

variable {n : ℕ}

theorem resume_main {A B : List (Cmd NR)} (hf : fnsOf A = fnsOf B) {x y : Fin n → ℕ} {nom : Fin n → NR}
    {X Y : Fin n → VarId → Option NR} {σ τ : VarId → ℝ}
    (hx : ∀ i, Quantity A (.ref (x i)) (nom i) (X i) (fun v => fin (σ v)))
    (hy : ∀ i, Quantity B (.ref (y i)) (nom i) (Y i) (fun v => fin (τ v)))
    (nx : ∀ i v, X i v ≠ some nan) (ny : ∀ i v, Y i v ≠ some nan) (kx : ∀ i, ∃ v, X i v ≠ none) (p : List (CalcStep NR))
    (hn : ∀ k D, sees (calculation A x p) (.derivatives (calcRef A x k)) = .dict D → ∀ v, D v ≠ some nan) :
    ∃ s t, Reaches (calculation A x p) s ∧ Reaches (calculation B y p) t ∧
      sees A (.covarianceMatrix (List.ofFn fun i => .ref (x i))) = .matrix (rows (covM X σ (range s.vars.length))) ∧
      sees B (.covarianceMatrix (List.ofFn fun i => .ref (y i))) = .matrix (rows (covM Y τ (range t.vars.length))) ∧
      (∀ i, StdsAre s.vars (X i) fun v => fin (σ v)) ∧ (∀ i, StdsAre t.vars (Y i) fun v => fin (τ v)) ∧
      ∀ k, Option.Rel (VRel X Y) ((calcRef A x k).seval s.env) ((calcRef B y k).seval t.env) := by
  obtain ⟨s, t, h1, h2, h3, h4, h5⟩ := resume_rel hf hx hy nx ny kx p hn
  refine ⟨s, t, h1, h2, ?_, ?_, h3, h4, h5⟩
  · exact C11_covariance_matrix hx nx fun i v hv => by
      obtain ⟨cell, hc, -⟩ := h3 i v hv
      exact mem_range.2 (List.getElem?_eq_some_iff.1 hc).1
  · exact C11_covariance_matrix hy ny fun i v hv => by
      obtain ⟨cell, hc, -⟩ := h4 i v hv
      exact mem_range.2 (List.getElem?_eq_some_iff.1 hc).1

theorem evalUncs_rel {R : SQ NR → SQ NR → Prop} {e e' : List (Option (SVal NR))} {f g : ℕ → Arg NR}
    (h : ∀ k, Option.Rel R ((f k).sevalUnc e) ((g k).sevalUnc e')) (ks : List ℕ) :
    Option.Rel (List.Forall₂ R) (evalArgs (Arg.sevalUnc e) (ks.map f)) (evalArgs (Arg.sevalUnc e') (ks.map g)) := by
  induction ks with
  | nil => exact .some .nil
  | cons k ks ih =>
    simp only [List.map_cons, evalArgs]
    have h1 := h k
    generalize (f k).sevalUnc e = r at h1 ⊢
    generalize (g k).sevalUnc e' = r' at h1 ⊢
    generalize evalArgs (Arg.sevalUnc e) (ks.map f) = t at ih ⊢
    generalize evalArgs (Arg.sevalUnc e') (ks.map g) = t' at ih ⊢
    cases h1 with
    | none => exact .none
    | some h1 =>
      cases ih with
      | none => exact .none
      | some ih => exact .some (.cons h1 ih)

theorem unc_rel {X Y : Fin n → Lin NR} {e e' : List (Option (SVal NR))} {a b : Arg NR}
    (h : Option.Rel (VRel X Y) (a.seval e) (b.seval e')) :
    Option.Rel (fun p q : SQ NR => GRel X Y p.grad q.grad) (a.sevalUnc e) (b.sevalUnc e') := by
  unfold Arg.sevalUnc
  generalize a.seval e = r at h ⊢
  generalize b.seval e' = r' at h ⊢
  cases h with
  | none => exact .none
  | some h =>
    cases h with
    | plain v => exact .none
    | unc h1 h2 h3 => exact .some h3

theorem map_rel {R : SQ NR → SQ NR → Prop} {f g : SQ NR → SQ NR → NR} (h : ∀ a b a' b', R a b → R a' b' → f a a' = g b b')
    {l l' : List (SQ NR)} (hl : List.Forall₂ R l l') : (l.map fun a => l.map fun b => f a b) = l'.map fun a => l'.map fun b => g a b := by
  have row : ∀ a b, R a b → ∀ {m m' : List (SQ NR)}, List.Forall₂ R m m' → m.map (f a) = m'.map (g b) := by
    intro a b hab m m' hm
    induction hm with
    | nil => rfl
    | cons h1 _ ih => simp [h _ _ _ _ hab h1, ih]
  have : ∀ {m m' : List (SQ NR)}, List.Forall₂ R m m' → (m.map fun a => l.map fun b => f a b) = m'.map fun a => l'.map fun b => g a b := by
    intro m m' hm
    induction hm with
    | nil => rfl
    | cons h1 _ ih => simp only [List.map_cons, ih, row _ _ h1 hl]
  exact this hl

/-- **C100**: in two programs, with the same functions, let `n` numbers have the same nominal values and the same covariance matrix
(they can be calculated from completely different variables). Any calculation that starts from these numbers (operators, wrapped
functions, functions of `umath`) gives, in both programs, the same nominal values, the same standard deviations, and the same covariance
matrices of any of the numbers and results. Hypotheses: each of the numbers of the first program depends on a variable;
derivatives and standard deviations are not NaN. -/
theorem C100_same {A B : List (Cmd NR)} (hf : fnsOf A = fnsOf B) {x y : Fin n → ℕ} {nom : Fin n → NR}
    {X Y : Fin n → VarId → Option NR} {σ τ : VarId → ℝ}
    (hx : ∀ i, Quantity A (.ref (x i)) (nom i) (X i) (fun v => fin (σ v)))
    (hy : ∀ i, Quantity B (.ref (y i)) (nom i) (Y i) (fun v => fin (τ v)))
    (nx : ∀ i v, X i v ≠ some nan) (ny : ∀ i v, Y i v ≠ some nan) (kx : ∀ i, ∃ v, X i v ≠ none)
    (hC : sees A (.covarianceMatrix (List.ofFn fun i => .ref (x i))) = sees B (.covarianceMatrix (List.ofFn fun i => .ref (y i))))
    (p : List (CalcStep NR))
    (hn : ∀ k D, sees (calculation A x p) (.derivatives (calcRef A x k)) = .dict D → ∀ v, D v ≠ some nan) :
    (∀ k, sees (calculation A x p) (.nominal (calcRef A x k)) = sees (calculation B y p) (.nominal (calcRef B y k))) ∧
    (∀ k, sees (calculation A x p) (.stdDev (calcRef A x k)) = sees (calculation B y p) (.stdDev (calcRef B y k))) ∧
    ∀ ks : List ℕ, sees (calculation A x p) (.covarianceMatrix (ks.map (calcRef A x))) =
      sees (calculation B y p) (.covarianceMatrix (ks.map (calcRef B y))) := by
  obtain ⟨s, t, h1, h2, c1, c2, h3, h4, h5⟩ := resume_main hf hx hy nx ny kx p hn
  rw [c1, c2, Out.matrix.injEq] at hC
  have hC := rows_injective hC
  have cov : ∀ {a b a' b' : Lin NR}, GRel X Y a b → GRel X Y a' b' → specCov s.vars a a' = specCov t.vars b b' := by
    intro a b a' b' r r'
    obtain ⟨c, e1, e2⟩ := r.comb
    obtain ⟨c', e1', e2'⟩ := r'.comb
    rw [cov_of_comb h3 r.nanA r'.nanA r.supA e1 e1', cov_of_comb h4 r.nanB r'.nanB r.supB e2 e2', hC]
  refine ⟨fun k => ?_, fun k => ?_, fun ks => ?_⟩
  · rw [(h1.read (c := .nominal _) rfl).1, (h2.read (c := .nominal _) rfl).1]
    simp only [SState.step]
    have := h5 k
    generalize (calcRef A x k).seval s.env = r at this ⊢
    generalize (calcRef B y k).seval t.env = r' at this ⊢
    cases this with
    | none => rfl
    | some h => simp only [h.nominal]
  · have := h5 k
    cases e1 : (calcRef A x k).seval s.env with
    | none =>
      rw [e1] at this
      have e2 : (calcRef B y k).seval t.env = none := by
        generalize (calcRef B y k).seval t.env = r at this ⊢
        cases this; rfl
      rw [(h1.read (c := .stdDev _) rfl).1, (h2.read (c := .stdDev _) rfl).1]
      simp only [SState.step, e1, e2]
      rfl
    | some a =>
      rw [e1] at this
      obtain ⟨b, e2, hab⟩ : ∃ b, (calcRef B y k).seval t.env = some b ∧ VRel X Y a b := by
        generalize (calcRef B y k).seval t.env = r at this ⊢
        cases this with
        | some h => exact ⟨_, rfl, h⟩
      cases hab with
      | plain v =>
        rw [(h1.read (c := .stdDev _) rfl).1, (h2.read (c := .stdDev _) rfl).1]
        simp only [SState.step, e1, e2]
      | @unc q q' hnom hk hg =>
        rw [(h1.stdDev (q := q) (by simp only [Arg.sevalUnc, e1])).1, (h2.stdDev (q := q') (by simp only [Arg.sevalUnc, e2])).1]
        have s1 : StdsAre s.vars q.grad fun v => fin (σ v) := fun v hv => by
          obtain ⟨i, hi⟩ := hg.supA v hv
          exact h3 i v hi
        have s2 : StdsAre t.vars q'.grad fun v => fin (τ v) := fun v hv => by
          obtain ⟨i, hi⟩ := hg.supB v hv
          exact h4 i v hi
        rw [variance_eq_cov hg.nanA s1, variance_eq_cov hg.nanB s2, cov hg hg]
  · rw [(h1.read (c := .covarianceMatrix _) rfl).1, (h2.read (c := .covarianceMatrix _) rfl).1]
    simp only [SState.step]
    have := evalUncs_rel (fun k => unc_rel (h5 k)) ks
    generalize evalArgs (Arg.sevalUnc s.env) (ks.map (calcRef A x)) = r at this ⊢
    generalize evalArgs (Arg.sevalUnc t.env) (ks.map (calcRef B y)) = r' at this ⊢
    cases this with
    | none => rfl
    | some h =>
      simp only
      rw [map_rel (R := fun p q : SQ NR => GRel X Y p.grad q.grad) (f := fun a b => specCov s.vars a.grad b.grad)
        (g := fun a b => specCov t.vars a.grad b.grad) (fun a b a' b' h h' => cov h h') h]

/-- **C100**: results can be saved as their nominal values and their covariance matrix, in any program (`A`), and loaded with
`correlated_values()` in any other program that has the same functions (`B`, for instance `A` itself): any calculation on the new numbers
gives the same nominal values, standard deviations and covariance matrices as the same calculation on the original numbers. -/
theorem C100_correlated_values {eigh : EighFn NR} (he : GoodEigh eigh) {A B : List (Cmd NR)} (hf : fnsOf A = fnsOf B) (h0 : 0 < n)
    {x : Fin n → ℕ} {nom : Fin n → ℝ} {X : Fin n → VarId → Option NR} {σ : VarId → ℝ}
    (hx : ∀ i, Quantity A (.ref (x i)) (fin (nom i)) (X i) (fun v => fin (σ v)))
    (nx : ∀ i v, X i v ≠ some nan) (kx : ∀ i, ∃ v, X i v ≠ none)
    {C : List (List NR)} (hC : sees A (.covarianceMatrix (List.ofFn fun i => .ref (x i))) = .matrix C)
    (tags : Option (List (Option String))) (htags : ∀ l, tags = some l → l.length = n) :
    ∃ (cmds : List (Cmd NR)) (y : Fin n → ℕ),
      correlatedValues eigh (after B).env.length (List.ofFn fun i => fin (nom i)) C tags =
        .ok (cmds, List.ofFn fun i => .ref (y i)) ∧
      ∀ p : List (CalcStep NR),
        (∀ k D, sees (calculation A x p) (.derivatives (calcRef A x k)) = .dict D → ∀ v, D v ≠ some nan) →
        (∀ k, sees (calculation (B ++ cmds) y p) (.nominal (calcRef (B ++ cmds) y k)) =
          sees (calculation A x p) (.nominal (calcRef A x k))) ∧
        (∀ k, sees (calculation (B ++ cmds) y p) (.stdDev (calcRef (B ++ cmds) y k)) =
          sees (calculation A x p) (.stdDev (calcRef A x k))) ∧
        ∀ ks : List ℕ, sees (calculation (B ++ cmds) y p) (.covarianceMatrix (ks.map (calcRef (B ++ cmds) y))) =
          sees (calculation A x p) (.covarianceMatrix (ks.map (calcRef A x))) := by
  obtain ⟨s, hs⟩ := Reaches.exists A
  have hV : ∀ i v, X i v ≠ none → v ∈ range s.vars.length := fun i v hv => by
    obtain ⟨q, -, -, -, h4⟩ := hs.quantity (hx i)
    obtain ⟨cell, hc, -⟩ := h4 v hv
    exact mem_range.2 (List.getElem?_eq_some_iff.1 hc).1
  have hA := C11_covariance_matrix hx nx hV
  have hP := (C11_positive_semidefinite X σ (range s.vars.length)).2
  have e : C = rows (covM X σ (range s.vars.length)) := by
    rw [hA, Out.matrix.injEq] at hC
    exact hC.symm
  generalize covM X σ (range s.vars.length) = M at hP e hA
  subst e
  have hR := correlation_posSemidef hP
  obtain ⟨t, ht⟩ := tags_ofFn htags
  obtain ⟨l, U, e1, e2, e3⟩ := he n (correlationOf M) (symm_of_posSemidef hR)
  obtain ⟨cmds, z, Y, τ, V, h1, h2, h3, h4, h5, st, hst, -, st', hst', -⟩ :=
    correlated_main he B h0 nom (fun i => Real.sqrt (M i i)) (symm_of_posSemidef hR) (PositivePart.of_posSemidef hR) ht
  have e4 := correlatedValuesNorm_ok (base := (after B).env.length) (nom := nom) (s := fun i => Real.sqrt (M i i)) h0 e1 ht
  rw [h1] at e4
  simp only [Except.ok.injEq, Prod.mk.injEq] at e4
  obtain ⟨ec, ez⟩ := e4
  have ez := List.ofFn_injective ez
  subst ez
  have hfB : fnsOf (B ++ cmds) = fnsOf B := by
    have := hst.correlated (n := n) (nom := nom) (σ := fun k => Real.sqrt (max (l k) 0))
      (A := fun i k => U i k * Real.sqrt (M i i)) (t := t) (fun k => Real.sqrt_nonneg _)
    rw [← ec] at this
    rw [← this.fnsOf_eq, ← hst.fnsOf_eq]
  have h5' : covM Y τ V = M := by
    rw [h5]
    funext i j
    exact correlation_back hP i j
  refine ⟨cmds, fun i => (after B).env.length + n + i, by rw [correlatedValues_eq hP]; exact h1, fun p hn => ?_⟩
  obtain ⟨r1, r2, r3⟩ := C100_same (hf.trans hfB.symm) hx h2 nx h3 kx
    (by rw [hA, C11_covariance_matrix h2 h3 h4, h5']) p hn
  exact ⟨fun k => (r1 k).symm, fun k => (r2 k).symm, fun ks => (r3 ks).symm⟩

/-- **C100**: the law of propagation of uncertainties (for correlated numbers). Let `C` be the covariance matrix of the numbers of a program
(`A`), and let `J` be the matrix of the derivatives of the results with respect to these numbers: the derivatives seen when the
calculation is done on independent variables with the same nominal values (in `B`). The covariance matrix of the results is
`J C Jᵀ`, and their variances are its diagonal elements. -/
theorem C100_propagation {A B : List (Cmd NR)} (hf : fnsOf A = fnsOf B) {x y : Fin n → ℕ} {nom : Fin n → NR}
    {X : Fin n → VarId → Option NR} {σ τ : VarId → ℝ} {u : Fin n → VarId} (hu : Function.Injective u)
    (hx : ∀ i, Quantity A (.ref (x i)) (nom i) (X i) (fun v => fin (σ v)))
    (hy : ∀ i, Quantity B (.ref (y i)) (nom i) (Lin.single (u i)) (fun v => fin (τ v)))
    (nx : ∀ i v, X i v ≠ some nan) (kx : ∀ i, ∃ v, X i v ≠ none)
    {C : Matrix (Fin n) (Fin n) ℝ} (hC : sees A (.covarianceMatrix (List.ofFn fun i => .ref (x i))) = .matrix (rows C))
    (p : List (CalcStep NR))
    (hn : ∀ k D, sees (calculation A x p) (.derivatives (calcRef A x k)) = .dict D → ∀ v, D v ≠ some nan)
    {m : ℕ} (k : Fin m → ℕ) {D : Fin m → VarId → Option NR}
    (hD : ∀ a, sees (calculation B y p) (.derivatives (calcRef B y (k a))) = .dict (D a))
    (J : Matrix (Fin m) (Fin n) ℝ) (hJ : J = fun a i => coef (D a (u i))) :
    sees (calculation A x p) (.covarianceMatrix (List.ofFn fun a => calcRef A x (k a))) = .matrix (rows (J * C * Jᵀ)) ∧
    ∀ a, sees (calculation A x p) (.stdDev (calcRef A x (k a))) = .val (.flt (fin (Real.sqrt ((J * C * Jᵀ) a a)))) := by
  obtain ⟨s, t, h1, h2, c1, -, h3, -, h5⟩ := resume_main hf hx hy nx
    (fun i v h => by simp only [Lin.single] at h; split at h <;> cases h) kx p hn
  rw [c1, Out.matrix.injEq] at hC
  have hC := rows_injective hC
  have key : ∀ a, ∃ q, (calcRef A x (k a)).sevalUnc s.env = some q ∧ NoNan q.grad ∧
      (∀ v, q.grad v ≠ none → ∃ i, X i v ≠ none) ∧ ∀ v, coef (q.grad v) = ∑ i, J a i * coef (X i v) := by
    intro a
    obtain ⟨w, w1, w2⟩ := h2.derivatives (hD a)
    have := unc_rel (h5 (k a))
    rw [w1] at this
    generalize (calcRef A x (k a)).sevalUnc s.env = r at this ⊢
    cases this with
    | some g =>
      obtain ⟨c, g1, g2⟩ := g.comb
      refine ⟨_, rfl, g.nanA, g.supA, fun v => ?_⟩
      rw [g1]
      refine sum_congr rfl fun i _ => ?_
      have : J a i = c i := by
        rw [hJ]
        simp only [← w2]
        rw [g2, sum_eq_single i]
        · simp [Lin.single, coef]
        · intro j _ hj
          simp [Lin.single, coef, Ne.symm (hu.ne hj)]
        · simp
      rw [this]
  choose q k1 k2 k3 k4 using key
  have cov : ∀ a b, specCov s.vars (q a).grad (q b).grad = fin ((J * C * Jᵀ) a b) := by
    intro a b
    rw [cov_of_comb h3 (k2 a) (k2 b) (k3 a) (k4 a) (k4 b), hC]
    congr 1
    simp only [Matrix.mul_apply, Matrix.transpose_apply, sum_mul]
    exact sum_comm
  refine ⟨?_, fun a => ?_⟩
  · rw [(h1.read (c := .covarianceMatrix _) rfl).1]
    simp only [SState.step, evalArgs_ofFn _ _ q k1, List.map_ofFn, Out.matrix.injEq, rows, Function.comp_def, cov]
  · have s1 : StdsAre s.vars (q a).grad fun v => fin (σ v) := fun v hv => by
      obtain ⟨i, hi⟩ := k3 a v hv
      exact h3 i v hi
    rw [(h1.stdDev (k1 a)).1, variance_eq_cov (k2 a) s1, cov, nrSqrt_fin]

/-! ### The hypotheses are met -/

/-- In `exCs` (x = 3±2, y = 5±1, p = x*y): the calculation of x*p from x and p. -/
noncomputable def exCalc : List (CalcStep NR) := [.binop .mul (.ref 0) (.ref 1)]

/-- The program `a = ufloat(3, 2); b = ufloat(15, 1)`, with independent variables. -/
noncomputable def exPair : List (Cmd NR) := [.ufloat (fin 3) (fin 2) none, .ufloat (fin 15) (fin 1) none]

theorem exPair_reaches : Reaches exPair ⟨[⟨fin 3, fin 2, none⟩, ⟨fin 15, fin 1, none⟩], opDefs,
    [some (.unc ⟨fin 3, Lin.single 0, some 0⟩), some (.unc ⟨fin 15, Lin.single 1, some 1⟩)]⟩ := by
  have h0 : Reaches ([] : List (Cmd NR)) SState.init := Reaches.nil
  have b2 : specBadStd (fin 2) = false := by simp [specBadStd, PyFloat.ltb]
  have b1 : specBadStd (fin 1) = false := by simp [specBadStd, PyFloat.ltb]
  exact ((h0.ufloat (n := fin 3) none b2).2.ufloat (n := fin 15) none b1).2

theorem exCalc_mul (G G' : Lin NR) (i j : Option VarId) : specBinop .mul (.unc ⟨fin 3, G, i⟩) (.unc ⟨fin 15, G', j⟩) =
    .ok (.unc ⟨fin 45, Lin.comb [(fin 15, G), (fin 3, G')], none⟩) :=
  specBinop_unc_unc (z := fin 45) (a := fin 15) (b := fin 3) (by simp only [BinOp.onFloats, fin_mul]; norm_num) rfl rfl

theorem exCalc_reaches : Reaches (calculation exCs ![0, 2] exCalc) { exState with env := exState.env ++
    [some (.unc ⟨fin 45, Lin.comb [(fin 15, Lin.single 0),
      (fin 3, Lin.comb [(fin 5, Lin.single 0), (fin 3, Lin.single 1)])], none⟩)] } :=
  (ex_reaches.binop (x := .ref 0) (y := .ref 2) rfl rfl (exCalc_mul _ _ _ _) rfl).2

theorem exPair_calc : Reaches (calculation exPair ![0, 1] exCalc) ⟨[⟨fin 3, fin 2, none⟩, ⟨fin 15, fin 1, none⟩], opDefs,
    [some (.unc ⟨fin 3, Lin.single 0, some 0⟩), some (.unc ⟨fin 15, Lin.single 1, some 1⟩),
     some (.unc ⟨fin 45, Lin.comb [(fin 15, Lin.single 0), (fin 3, Lin.single 1)], none⟩)]⟩ :=
  (exPair_reaches.binop (x := .ref 0) (y := .ref 1) rfl rfl (exCalc_mul _ _ _ _) rfl).2

theorem exCalc_quantities (i : Fin 2) : Quantity exCs (.ref (![0, 2] i)) (fin (![3, 15] i)) (![Lin.single 0, exP] i)
    (fun v => fin (exStd v)) := by
  fin_cases i
  · exact ex_x
  · exact ex_p

theorem exCalc_nan (i : Fin 2) (v : VarId) : (![Lin.single 0, exP] : Fin 2 → VarId → Option NR) i v ≠ some nan := by
  fin_cases i
  · simp [Lin.single]
  · simp only [exP, Fin.mk_one, Matrix.cons_val_one, Matrix.cons_val_zero]
    split_ifs <;> simp

theorem exCalc_keys (i : Fin 2) : ∃ v, (![Lin.single 0, exP] : Fin 2 → VarId → Option NR) i v ≠ none :=
  ⟨0, by fin_cases i <;> simp [Lin.single, exP]⟩

theorem exCalc_no_nan (k : ℕ) (D : VarId → Option NR)
    (h : sees (calculation exCs ![0, 2] exCalc) (.derivatives (calcRef exCs ![0, 2] k)) = .dict D) (v : VarId) : D v ≠ some nan := by
  obtain ⟨q, h1, rfl⟩ := exCalc_reaches.derivatives h
  have hl : (after exCs).env.length = 6 := by rw [← ex_reaches.env_length]; rfl
  match k with
  | 0 =>
    cases h1
    simp [Lin.single]
  | 1 =>
    cases h1
    simp only [Lin.comb, Lin.add, Lin.smul, Lin.single, Lin.zero]
    split_ifs <;> simp [optAdd]
  | 2 =>
    have e : calcRef exCs ![0, 2] 2 = .ref 6 := by simp [calcRef, placeOf, hl]
    rw [e] at h1
    cases h1
    simp only [Lin.comb, Lin.add, Lin.smul, Lin.single, Lin.zero]
    split_ifs <;> simp [optAdd]
  | k + 3 =>
    have e : calcRef exCs ![0, 2] (k + 3) = .ref (7 + k) := by
      simp only [calcRef, placeOf, hl]
      rw [dif_neg (by omega)]
      congr 1
      omega
    rw [e] at h1
    have := lt_of_eval (eval_of_sevalUnc h1)
    simp [exState] at this

theorem exCalc_cov : sees exCs (.covarianceMatrix (List.ofFn fun i : Fin 2 => .ref (![0, 2] i))) =
    .matrix (rows !![4, 20; 20, 109]) := by
  rw [C11_covariance_matrix exCalc_quantities exCalc_nan (V := {0, 1}) (by
    intro i v
    fin_cases i
    · simp only [Lin.single, Fin.zero_eta, Matrix.cons_val_zero]
      split_ifs with h <;> simp [h]
    · simp only [exP, Fin.mk_one, Matrix.cons_val_one, Matrix.cons_val_zero]
      split_ifs with h h' <;> simp [*])]
  congr 1
  unfold rows
  congr 1
  funext i
  congr 1
  funext j
  fin_cases i <;> fin_cases j <;> simp [covM, exP, exStd, Lin.single, coef] <;> norm_num

/-- The variance of x*p is [15, 3] C [15, 3]ᵀ = 3681, where C is the covariance matrix of x and p = x*y, as for x*x*y:
(30×2)² + (9×1)² = 3681. -/
example : sees (calculation exCs ![0, 2] exCalc) (.stdDev (calcRef exCs ![0, 2] 2)) = .val (.flt (fin (Real.sqrt 3681))) := by
  have hy : ∀ i : Fin 2, Quantity exPair (.ref (![0, 1] i)) (fin (![3, 15] i)) (Lin.single (![0, 1] i))
      (fun v => fin (if v = 0 then 2 else 1)) := by
    have h0 := exPair_reaches.quantity_exists (x := .ref 0) (q := ⟨fin 3, Lin.single 0, some 0⟩) rfl
    have h1 := exPair_reaches.quantity_exists (x := .ref 1) (q := ⟨fin 15, Lin.single 1, some 1⟩) rfl
    intro i
    fin_cases i
    · refine ⟨h0.nominal, h0.derivatives, fun v hv => (h0.3 v hv).trans ?_⟩
      by_cases h : v = 0
      · subst h; simp
      · exact absurd (if_neg h) hv
    · refine ⟨h1.nominal, h1.derivatives, fun v hv => (h1.3 v hv).trans ?_⟩
      by_cases h : v = 1
      · subst h; simp
      · exact absurd (if_neg h) hv
  have h := (C100_propagation (A := exCs) (B := exPair) rfl (x := ![0, 2]) (y := ![0, 1]) (u := ![0, 1])
    (by intro i j; fin_cases i <;> fin_cases j <;> simp) exCalc_quantities hy exCalc_nan exCalc_keys exCalc_cov exCalc
    exCalc_no_nan (m := 1) (fun _ => 2) (D := fun _ => Lin.comb [(fin 15, Lin.single 0), (fin 3, Lin.single 1)]) (fun _ => by
      have hl : (after exPair).env.length = 2 := by rw [← exPair_reaches.env_length]; rfl
      have e : calcRef exPair ![0, 1] 2 = .ref 2 := by simp [calcRef, placeOf, hl]
      rw [e, (exPair_calc.read (c := .derivatives _) rfl).1]
      rfl) !![15, 3] (by
      funext a i
      fin_cases i <;> simp [Lin.comb, Lin.add, Lin.smul, Lin.single, Lin.zero, optAdd, coef])).2 0
  rw [h]
  norm_num [Matrix.mul_apply, Fin.sum_univ_two]

/-- x and p, saved and loaded in the same program: the standard deviation of x*p is that of the original numbers. -/
example : ∃ (eigh : EighFn NR) (cmds : List (Cmd NR)) (y : Fin 2 → ℕ),
    correlatedValues eigh (after exCs).env.length (List.ofFn fun i => fin (![3, 15] i)) (rows !![4, 20; 20, 109]) none =
      .ok (cmds, List.ofFn fun i => .ref (y i)) ∧
    sees (calculation (exCs ++ cmds) y exCalc) (.stdDev (calcRef (exCs ++ cmds) y 2)) =
      sees (calculation exCs ![0, 2] exCalc) (.stdDev (calcRef exCs ![0, 2] 2)) := by
  obtain ⟨eigh, he⟩ := goodEigh_exists
  obtain ⟨cmds, y, h1, h2⟩ := C100_correlated_values he (A := exCs) (B := exCs) rfl (by norm_num) exCalc_quantities exCalc_nan
    exCalc_keys exCalc_cov none (by intro l hl; cases hl)
  exact ⟨eigh, cmds, y, h1, (h2 exCalc exCalc_no_nan).2.1 2⟩

end Unc
