import Mathlib.Analysis.Matrix.Spectrum
import Verif.Lemmas.Correlated
import Verif.Props.C11_Covariance

/-
C13, C14: correlated values.
-/

namespace Unc

set_option autoImplicit false

open NR Matrix Finset

variable {n : ℕ}

/-- The derivatives of the correlated values, and the standard deviations of the new variables. -/
theorem correlated_quantity {cs : List (Cmd NR)} {st : SState NR} (h : Reaches cs st) {nom σ : Fin n → ℝ}
    {A : Matrix (Fin n) (Fin n) ℝ} {t : Fin n → Option String} (hσ : ∀ k, 0 ≤ σ k) (i : Fin n) :
    Quantity (cs ++ ((List.ofFn fun k => Cmd.ufloat (fin 0) (fin (σ k)) (t k)) ++
          (List.ofFn fun i => Cmd.affine (fin (nom i))
            (List.ofFn fun k : Fin n => (Arg.ref ((after cs).env.length + k), fin (A i k))))))
      (.ref ((after cs).env.length + n + i)) (fin (nom i))
      (fun v => if h : st.vars.length ≤ v ∧ v - st.vars.length < n
        then some (fin (A i ⟨v - st.vars.length, h.2⟩)) else none)
      (fun v => fin (if h : v - st.vars.length < n then σ ⟨v - st.vars.length, h⟩ else 0)) := by
  have hr := h.correlated (nom := nom) (A := A) (t := t) hσ
  have hq : (Arg.ref ((after cs).env.length + n + i)).sevalUnc ((st.env ++ List.ofFn fun k : Fin n =>
            some (SVal.unc ⟨fin 0, Lin.single (st.vars.length + k), some (st.vars.length + k)⟩)) ++
          List.ofFn fun i => some (.unc ⟨fin (nom i),
            Lin.ofDict (List.ofFn fun k : Fin n => (st.vars.length + k, fin (A i k))), none⟩)) =
      some ⟨fin (nom i), Lin.ofDict (List.ofFn fun k : Fin n => (st.vars.length + k, fin (A i k))), none⟩ := by
    simp only [Arg.sevalUnc, Arg.seval, ← h.env_length]
    rw [List.getElem?_append_right (by simp)]
    simp
  obtain ⟨e1, e2, e3⟩ := hr.quantity_exists hq
  have hg : (Lin.ofDict (List.ofFn fun k : Fin n => (st.vars.length + k.val, fin (A i k)))) =
      fun v => if h : st.vars.length ≤ v ∧ v - st.vars.length < n
        then some (fin (A i ⟨v - st.vars.length, h.2⟩)) else none := by
    funext v
    exact lookup_ofFn (fun k => fin (A i k)) st.vars.length v
  rw [hg] at e2 e3
  refine ⟨e1, e2, fun v hv => ?_⟩
  rw [e3 v hv]
  have hv' : st.vars.length ≤ v ∧ v - st.vars.length < n := by
    by_contra h'
    simp [h'] at hv
  simp only [hv'.2, dite_true]
  rw [List.getElem?_append_right hv'.1]
  simp [hv'.2]

/-- What `correlated_values_norm()` builds. -/
theorem correlated_main {eigh : EighFn NR} (he : GoodEigh eigh) (cs : List (Cmd NR)) (hn : 0 < n)
    (nom s : Fin n → ℝ) {R P : Matrix (Fin n) (Fin n) ℝ} (hR : R.IsSymm) (hP : PositivePart R P)
    {tags : Option (List (Option String))} {t : Fin n → Option String}
    (ht : tags.getD (List.replicate n none) = List.ofFn t) :
    ∃ (cmds : List (Cmd NR)) (x : Fin n → Arg NR) (D : Fin n → VarId → Option NR) (σ : VarId → ℝ) (V : Finset ℕ),
      correlatedValuesNorm eigh (after cs).env.length (List.ofFn fun i => (fin (nom i), fin (s i))) (rows R) tags =
        .ok (cmds, List.ofFn x) ∧
      (∀ i, Quantity (cs ++ cmds) (x i) (fin (nom i)) (D i) (fun v => fin (σ v))) ∧
      (∀ i v, D i v ≠ some nan) ∧ (∀ i v, D i v ≠ none → v ∈ V) ∧
      covM D σ V = (fun i j => s i * s j * P i j) ∧
      (∃ st, Reaches cs st ∧
        (∀ i v, D i v ≠ none ↔ st.vars.length ≤ v ∧ v < st.vars.length + n) ∧
        ∃ st', Reaches (cs ++ cmds) st' ∧
          st'.vars = st.vars ++ List.ofFn fun k => ⟨fin 0, fin (σ (st.vars.length + k)), t k⟩) := by
  obtain ⟨l, U, e1, e2, e3⟩ := he n R hR
  obtain ⟨st, hst⟩ := Reaches.exists cs
  have hq := fun i => correlated_quantity (n := n) hst (nom := nom)
    (σ := fun k => Real.sqrt (max (l k) 0)) (A := fun i k => U i k * s i) (t := t)
    (fun k => Real.sqrt_nonneg _) i
  have hr := hst.correlated (n := n) (nom := nom)
    (σ := fun k => Real.sqrt (max (l k) 0)) (A := fun i k => U i k * s i) (t := t)
    (fun k => Real.sqrt_nonneg _)
  refine ⟨_, _, _, _, range (st.vars.length + n), correlatedValuesNorm_ok hn e1 ht, hq, ?_, ?_, ?_,
    st, hst, ?_, _, hr, ?_⟩
  · intro i v
    split_ifs <;> simp
  · intro i v hv
    split_ifs at hv with h
    · exact mem_range.mpr (by omega)
    · exact absurd rfl hv
  · funext i j
    unfold covM
    rw [sum_new]
    · rw [hP.eq e2 e3, Matrix.mul_apply, Finset.mul_sum]
      refine sum_congr rfl (fun k _ => ?_)
      simp only [mul_diagonal, transpose_apply]
      simp [coef]
      ring
    · intro v hv
      simp [not_le.mpr hv]
  · intro i v
    split_ifs with h
    · simp; omega
    · simp; omega
  · simp

theorem tags_ofFn {tags : Option (List (Option String))} (htags : ∀ l, tags = some l → l.length = n) :
    ∃ t : Fin n → Option String, tags.getD (List.replicate n none) = List.ofFn t := by
  apply eq_ofFn
  cases tags with
  | none => simp
  | some l => exact htags l rfl

/-- **C14**: after any history, `correlated_values_norm([(n_0, s_0), ...], R, tags)`, for any symmetric
matrix R of size n > 0, returns numbers with the nominal values `n_i` and with the covariance matrix
`s_i s_j P_ij`, where P is the positive part of R. -/
theorem C14_correlated_values_norm {eigh : EighFn NR} (he : GoodEigh eigh) (cs : List (Cmd NR)) (hn : 0 < n)
    (nom s : Fin n → ℝ) {R P : Matrix (Fin n) (Fin n) ℝ} (hR : R.IsSymm) (hP : PositivePart R P)
    (tags : Option (List (Option String))) (htags : ∀ l, tags = some l → l.length = n) :
    ∃ (cmds : List (Cmd NR)) (x : Fin n → Arg NR),
      correlatedValuesNorm eigh (after cs).env.length (List.ofFn fun i => (fin (nom i), fin (s i))) (rows R) tags =
        .ok (cmds, List.ofFn x) ∧
      (∀ i, sees (cs ++ cmds) (.nominal (x i)) = .val (.flt (fin (nom i)))) ∧
      sees (cs ++ cmds) (.covarianceMatrix (List.ofFn x)) = .matrix (rows fun i j => s i * s j * P i j) := by
  obtain ⟨t, ht⟩ := tags_ofFn htags
  obtain ⟨cmds, x, D, σ, V, h1, h2, h3, h4, h5, -⟩ := correlated_main he cs hn nom s hR hP ht
  refine ⟨cmds, x, h1, fun i => (h2 i).nominal, ?_⟩
  rw [C11_covariance_matrix h2 h3 h4, h5]
  rfl

/-- **C14**: if R is positive semi-definite, with 1 on its diagonal (a correlation matrix), the numbers
that `correlated_values_norm()` returns have the nominal values `n_i`, the standard deviations
`s_i ≥ 0`, and the covariance matrix `s_i s_j R_ij`. -/
theorem C14_correlation_matrix {eigh : EighFn NR} (he : GoodEigh eigh) (cs : List (Cmd NR)) (hn : 0 < n)
    (nom s : Fin n → ℝ) (hs : ∀ i, 0 ≤ s i) {R : Matrix (Fin n) (Fin n) ℝ} (hR : R.PosSemidef)
    (hdiag : ∀ i, R i i = 1)
    (tags : Option (List (Option String))) (htags : ∀ l, tags = some l → l.length = n) :
    ∃ (cmds : List (Cmd NR)) (x : Fin n → Arg NR),
      correlatedValuesNorm eigh (after cs).env.length (List.ofFn fun i => (fin (nom i), fin (s i))) (rows R) tags =
        .ok (cmds, List.ofFn x) ∧
      (∀ i, sees (cs ++ cmds) (.nominal (x i)) = .val (.flt (fin (nom i)))) ∧
      (∀ i, sees (cs ++ cmds) (.stdDev (x i)) = .val (.flt (fin (s i)))) ∧
      sees (cs ++ cmds) (.covarianceMatrix (List.ofFn x)) = .matrix (rows fun i j => s i * s j * R i j) := by
  obtain ⟨t, ht⟩ := tags_ofFn htags
  obtain ⟨cmds, x, D, σ, V, h1, h2, h3, h4, h5, -⟩ :=
    correlated_main he cs hn nom s (symm_of_posSemidef hR) (PositivePart.of_posSemidef hR) ht
  refine ⟨cmds, x, h1, fun i => (h2 i).nominal, fun i => ?_, ?_⟩
  · obtain ⟨std, e1, e2, e3⟩ := C11_diagonal h2 h3 h4 i
    rw [h5] at e3
    simp only [hdiag i, mul_one] at e3
    rw [e1, (pow_left_inj₀ e2 (hs i) two_ne_zero).mp (by rw [e3]; ring)]
  · rw [C11_covariance_matrix h2 h3 h4, h5]
    rfl

/-- **C14**: the numbers returned depend on `n` new variables, with the given tags, on which no earlier
number depends. -/
theorem C14_new_variables {eigh : EighFn NR} (he : GoodEigh eigh) (cs : List (Cmd NR)) (hn : 0 < n)
    (nom s : Fin n → ℝ) {R P : Matrix (Fin n) (Fin n) ℝ} (hR : R.IsSymm) (hP : PositivePart R P)
    (t : Fin n → Option String) :
    ∃ (cmds : List (Cmd NR)) (x : Fin n → Arg NR) (D : Fin n → VarId → Option NR) (v : Fin n → VarId),
      correlatedValuesNorm eigh (after cs).env.length (List.ofFn fun i => (fin (nom i), fin (s i))) (rows R)
        (some (List.ofFn t)) = .ok (cmds, List.ofFn x) ∧
      Function.Injective v ∧
      (∀ i, sees (cs ++ cmds) (.derivatives (x i)) = .dict (D i) ∧ ∀ u, D i u ≠ none ↔ ∃ k, u = v k) ∧
      (∀ i k, sees (cs ++ cmds ++ [.variable (x i) (v k)]) (.tag (next (cs ++ cmds))) = .tag (t k)) ∧
      (∀ (y : Arg NR) (Dy : VarId → Option NR), sees cs (.derivatives y) = .dict Dy → ∀ k, Dy (v k) = none) := by
  obtain ⟨cmds, x, D, σ, V, h1, h2, h3, h4, -, st, hst, h6, st', hst', h7⟩ :=
    correlated_main he cs hn nom s hR hP (tags := some (List.ofFn t)) (t := t) rfl
  refine ⟨cmds, x, D, fun k => st.vars.length + k, h1, ?_, fun i => ⟨(h2 i).derivatives, fun u => ?_⟩, ?_, ?_⟩
  · intro a b hab
    simpa [Fin.ext_iff] using hab
  · rw [h6]
    constructor
    · rintro ⟨a, b⟩
      exact ⟨⟨u - st.vars.length, by omega⟩, by simp; omega⟩
    · rintro ⟨k, rfl⟩
      have := k.2
      simp
  · intro i k
    obtain ⟨q, e1, -, e3, -⟩ := hst'.quantity (h2 i)
    have hd : D i (st.vars.length + k) ≠ none := (h6 i _).mpr ⟨by omega, by have := k.2; omega⟩
    obtain ⟨d, hd⟩ := Option.ne_none_iff_exists'.mp hd
    have hc : st'.vars[st.vars.length + (k : ℕ)]? = some ⟨fin 0, fin (σ (st.vars.length + k)), t k⟩ := by
      rw [h7, List.getElem?_append_right (by omega)]
      simp
    obtain ⟨-, hr⟩ := hst'.snoc (.variable (x i) (st.vars.length + k)) rfl
    simp only [SState.step, e1, e3, hd, hc] at hr
    rw [(hr.read (c := .tag (next (cs ++ cmds))) rfl).1]
    simp [SState.step, SState.read, next, ← hst'.env_length, Arg.sevalUnc, Arg.seval, specTag, hc, PyRes.out]
  · intro y Dy hy k
    obtain ⟨q, e1, e2⟩ := hst.derivatives hy
    cases hd : Dy (st.vars.length + k) with
    | none => rfl
    | some d =>
      have := hst.wf.keys q (sevalUnc_mem e1) _ d (by rw [e2]; exact hd)
      omega

/-! ### C13 -/

/-- **C13**: after any history, `correlated_values([n_0, ...], C, tags)`, for any positive semi-definite
matrix C of size n > 0 (null variances included), returns numbers with the nominal values `n_i` whose
covariance matrix is C. -/
theorem C13_correlated_values {eigh : EighFn NR} (he : GoodEigh eigh) (cs : List (Cmd NR)) (hn : 0 < n)
    (nom : Fin n → ℝ) {C : Matrix (Fin n) (Fin n) ℝ} (hC : C.PosSemidef)
    (tags : Option (List (Option String))) (htags : ∀ l, tags = some l → l.length = n) :
    ∃ (cmds : List (Cmd NR)) (x : Fin n → Arg NR),
      correlatedValues eigh (after cs).env.length (List.ofFn fun i => fin (nom i)) (rows C) tags =
        .ok (cmds, List.ofFn x) ∧
      (∀ i, sees (cs ++ cmds) (.nominal (x i)) = .val (.flt (fin (nom i)))) ∧
      (∀ i, sees (cs ++ cmds) (.stdDev (x i)) = .val (.flt (fin (Real.sqrt (C i i))))) ∧
      sees (cs ++ cmds) (.covarianceMatrix (List.ofFn x)) = .matrix (rows C) := by
  have hR := correlation_posSemidef hC
  obtain ⟨t, ht⟩ := tags_ofFn htags
  obtain ⟨cmds, x, D, σ, V, h1, h2, h3, h4, h5, -⟩ :=
    correlated_main he cs hn nom (fun i => Real.sqrt (C i i)) (symm_of_posSemidef hR)
      (PositivePart.of_posSemidef hR) ht
  have h5' : covM D σ V = C := by
    rw [h5]
    funext i j
    exact correlation_back hC i j
  refine ⟨cmds, x, ?_, fun i => (h2 i).nominal, fun i => ?_, ?_⟩
  · rw [correlatedValues_eq hC]; exact h1
  · obtain ⟨std, e1, e2, e3⟩ := C11_diagonal h2 h3 h4 i
    rw [h5'] at e3
    rw [e1, ← e3, Real.sqrt_sq e2]
  · rw [C11_covariance_matrix h2 h3 h4, h5']
    rfl

/-! ### The hypotheses are met -/

theorem rows_injective {R R' : Matrix (Fin n) (Fin n) ℝ} (h : rows R = rows R') : R = R' := by
  unfold rows at h
  have h1 := List.ofFn_injective h
  ext i j
  have h2 := List.ofFn_injective (congrFun h1 i)
  simpa using congrFun h2 j

/-- There are eigensolvers that fulfill the assumption (spectral theorem). -/
theorem goodEigh_exists : ∃ eigh : EighFn NR, GoodEigh eigh := by
  have spectral : ∀ (n : ℕ) (R : Matrix (Fin n) (Fin n) ℝ), R.IsSymm →
      ∃ (l : Fin n → ℝ) (U : Matrix (Fin n) (Fin n) ℝ), U * Uᵀ = 1 ∧ R = U * diagonal l * Uᵀ := by
    intro n R hR
    have hH : R.IsHermitian := by
      rw [Matrix.IsHermitian, conjTranspose_eq_transpose_of_trivial]; exact hR
    refine ⟨hH.eigenvalues, hH.eigenvectorUnitary, ?_, ?_⟩
    · have := (Unitary.mem_iff.mp hH.eigenvectorUnitary.2).2
      rwa [star_eq_conjTranspose, conjTranspose_eq_transpose_of_trivial] at this
    · have := hH.spectral_theorem
      rw [Unitary.conjStarAlgAut_apply] at this
      rw [star_eq_conjTranspose, conjTranspose_eq_transpose_of_trivial] at this
      exact this
  classical
  choose l U h using spectral
  refine ⟨fun m => if hm : ∃ (n : ℕ) (R : Matrix (Fin n) (Fin n) ℝ), R.IsSymm ∧ rows R = m then
      .ok (List.ofFn fun i => fin (l _ _ hm.choose_spec.choose_spec.1 i),
        rows (U _ _ hm.choose_spec.choose_spec.1)) else .error (.other 0), ?_⟩
  intro n R hR
  have hm : ∃ (n' : ℕ) (R' : Matrix (Fin n') (Fin n') ℝ), R'.IsSymm ∧ rows R' = rows R := ⟨n, R, hR, rfl⟩
  refine ⟨l n R hR, U n R hR, ?_, h n R hR⟩
  beta_reduce
  rw [dif_pos hm]
  have key : ∀ (n' : ℕ) (R' : Matrix (Fin n') (Fin n') ℝ) (hs : R'.IsSymm) (_ : rows R' = rows R),
      (List.ofFn fun i => fin (l n' R' hs i)) = (List.ofFn fun i => fin (l n R hR i)) ∧
      rows (U n' R' hs) = rows (U n R hR) := by
    intro n' R' hs he
    have e : n' = n := by simpa [rows] using congrArg List.length he
    subst e
    cases rows_injective he
    exact ⟨rfl, rfl⟩
  obtain ⟨e1, e2⟩ := key _ _ hm.choose_spec.choose_spec.1 hm.choose_spec.choose_spec.2
  rw [e1, e2]

/-- Covariance matrix of a null variance and of two correlated numbers. -/
noncomputable def exCov : Matrix (Fin 3) (Fin 3) ℝ := !![4, 0, 2; 0, 0, 0; 2, 0, 5]

theorem exCov_posSemidef : exCov.PosSemidef := by
  have e : exCov = !![2, 0, 0; 0, 0, 0; 1, 0, 2] * (!![2, 0, 0; 0, 0, 0; 1, 0, 2] : Matrix (Fin 3) (Fin 3) ℝ)ᴴ := by
    ext i j
    fin_cases i <;> fin_cases j <;> simp [exCov, Matrix.mul_apply, Fin.sum_univ_three] <;> norm_num
  rw [e]
  exact posSemidef_self_mul_conjTranspose _

/-- `correlated_values([1, 2, 3], exCov, ["a", None, "c"])`, after the creation of other variables. -/
example : ∃ (eigh : EighFn NR) (cmds : List (Cmd NR)) (x : Fin 3 → Arg NR),
    correlatedValues eigh (after exCs).env.length (List.ofFn fun i : Fin 3 => fin ((i : ℝ) + 1)) (rows exCov)
      (some [some "a", none, some "c"]) = .ok (cmds, List.ofFn x) ∧
    sees (exCs ++ cmds) (.covarianceMatrix (List.ofFn x)) =
      .matrix [[fin 4, fin 0, fin 2], [fin 0, fin 0, fin 0], [fin 2, fin 0, fin 5]] := by
  obtain ⟨eigh, he⟩ := goodEigh_exists
  obtain ⟨cmds, x, h1, -, -, h4⟩ := C13_correlated_values he exCs (by norm_num) (fun i : Fin 3 => (i : ℝ) + 1)
    exCov_posSemidef (some [some "a", none, some "c"]) (by intro l hl; cases hl; rfl)
  refine ⟨eigh, cmds, x, h1, ?_⟩
  rw [h4]
  simp [rows, exCov, List.ofFn_succ]

/-- A symmetric matrix with a negative eigenvalue (eigenvalues 3 and -1), and its positive part. -/
theorem exNeg_positivePart : PositivePart (!![1, 2; 2, 1] : Matrix (Fin 2) (Fin 2) ℝ) !![3/2, 3/2; 3/2, 3/2] := by
  have hp : ∀ (c a b : ℝ), 0 ≤ c → (!![c*a*a, c*a*b; c*a*b, c*b*b] : Matrix (Fin 2) (Fin 2) ℝ).PosSemidef := by
    intro c a b hc
    have e : (!![c*a*a, c*a*b; c*a*b, c*b*b] : Matrix (Fin 2) (Fin 2) ℝ) =
        c • (Matrix.of (fun (i : Fin 2) (_ : Fin 1) => ![a, b] i) * (Matrix.of fun (i : Fin 2) (_ : Fin 1) => ![a, b] i)ᴴ) := by
      ext i j
      rw [Matrix.smul_apply, Matrix.mul_apply]
      fin_cases i <;> fin_cases j <;> simp <;> ring
    rw [e]
    exact (posSemidef_self_mul_conjTranspose _).smul hc
  have h1 := hp (3/2) 1 1 (by norm_num)
  have h2 := hp (1/2) 1 (-1) (by norm_num)
  norm_num at h1 h2
  refine ⟨_, h1, h2, ?_, ?_⟩
  · ext i j
    fin_cases i <;> fin_cases j <;> simp <;> norm_num
  · ext i j
    fin_cases i <;> fin_cases j <;> simp [Matrix.mul_apply]

/-- `correlated_values_norm([(1, 2), (3, 4)], [[1, 2], [2, 1]])`. -/
example : ∃ (eigh : EighFn NR) (cmds : List (Cmd NR)) (x : Fin 2 → Arg NR),
    correlatedValuesNorm eigh (after exCs).env.length [(fin 1, fin 2), (fin 3, fin 4)]
      [[fin 1, fin 2], [fin 2, fin 1]] none = .ok (cmds, List.ofFn x) ∧
    sees (exCs ++ cmds) (.covarianceMatrix (List.ofFn x)) = .matrix [[fin 6, fin 12], [fin 12, fin 24]] := by
  obtain ⟨eigh, he⟩ := goodEigh_exists
  obtain ⟨cmds, x, h1, -, h4⟩ := C14_correlated_values_norm he exCs (by norm_num) ![1, 3] ![2, 4]
    (R := !![1, 2; 2, 1]) (by ext i j; fin_cases i <;> fin_cases j <;> rfl) exNeg_positivePart none
    (by intro l hl; cases hl)
  refine ⟨eigh, cmds, x, ?_, ?_⟩
  · rw [← h1]; simp [rows, List.ofFn_succ]
  · rw [h4]
    simp [rows, List.ofFn_succ]
    norm_num

/-! ### Tags that are too few -/

/-- With fewer tags than numbers (the documentation asks for a tag for each variable, but this is not
checked), the covariance matrix is wrong: no exception is raised, and variables are missing. -/
theorem C13_fails_few_tags {eigh : EighFn NR} (he : eigh [[fin 1, fin 0], [fin 0, fin 1]] =
      .ok ([fin 1, fin 1], [[fin 1, fin 0], [fin 0, fin 1]])) :
    ∃ (cmds : List (Cmd NR)) (x y : Arg NR),
      correlatedValues eigh 0 [fin 5, fin 6] [[fin 1, fin 0], [fin 0, fin 1]] (some [some "a"]) = .ok (cmds, [x, y]) ∧
      sees cmds (.covarianceMatrix [x, y]) = .matrix [[fin 1, fin 0], [fin 0, fin 0]] := by
  have hC : (1 : Matrix (Fin 2) (Fin 2) ℝ).PosSemidef := PosSemidef.one
  have e := correlatedValues_eq (n := 2) hC (eigh := eigh) (base := 0) (nom := ![5, 6]) (tags := some [some "a"])
  have hc : correlationOf (1 : Matrix (Fin 2) (Fin 2) ℝ) = 1 := by
    ext i j
    by_cases h : i = j <;> simp [correlationOf, normOf, h, Matrix.one_apply]
  have sq1 : PyFloat.sqrt (fin 1) = .ok (fin 1) := by
    simp [PyFloat.sqrt]
  rw [hc] at e
  simp [rows, List.ofFn_succ] at e
  refine ⟨[.ufloat (fin 0) (fin 1) (some "a"), .affine (fin 5) [(.ref 0, fin 1)], .affine (fin 6) [(.ref 0, fin 0)]],
    .ref 1, .ref 2, ?_, ?_⟩
  · rw [e]
    simp [correlatedValuesNorm, he, newVariables, clampVariance_fin, sq1, scaleRows, List.range_succ]
  · have h0 : Reaches ([] : List (Cmd NR)) SState.init := Reaches.nil
    have b1 : specBadStd (fin 1) = false := by simp [specBadStd, PyFloat.ltb]
    obtain ⟨-, h1⟩ := h0.snoc (.ufloat (fin 0) (fin 1) (some "a")) rfl
    simp only [SState.step, b1, Bool.false_eq_true, if_false] at h1
    obtain ⟨-, h2⟩ := h1.snoc (.affine (fin 5) [(.ref 0, fin 1)]) rfl
    simp [SState.step, evalArgs, Arg.sevalItem, Arg.sevalUnc, Arg.seval, SState.init] at h2
    obtain ⟨-, h3⟩ := h2.snoc (.affine (fin 6) [(.ref 0, fin 0)]) rfl
    simp [SState.step, evalArgs, Arg.sevalItem, Arg.sevalUnc, Arg.seval] at h3
    rw [(h3.read (c := .covarianceMatrix [.ref 1, .ref 2]) rfl).1]
    simp [SState.step, evalArgs, Arg.sevalUnc, Arg.seval, specCov, sumVars, Lin.ofDict, List.lookup]

/-- The hypothesis of `C13_fails_few_tags`: there is such a function. -/
example : ∃ eigh : EighFn NR, eigh [[fin 1, fin 0], [fin 0, fin 1]] = .ok ([fin 1, fin 1], [[fin 1, fin 0], [fin 0, fin 1]]) :=
  ⟨fun _ => .ok ([fin 1, fin 1], [[fin 1, fin 0], [fin 0, fin 1]]), rfl⟩

end Unc
