import Verif.Lemmas.Iso2
import Verif.Lemmas.CovReal
import Verif.Spec.Matrices

/-
Correlated values: lemmas.
-/

namespace Unc

set_option autoImplicit false

open NR Matrix Finset

section
variable {F : Type} [PyMath F] [ExactLin F]

/-- State after the creation of many variables. -/
theorem Reaches.ufloats {cs : List (Cmd F)} {s : SState F} (h : Reaches cs s)
    (l : List (F × F × Option String)) (hl : ∀ p ∈ l, specBadStd p.2.1 = false) :
    Reaches (cs ++ l.map fun p => .ufloat p.1 p.2.1 p.2.2)
      { s with
        vars := s.vars ++ l.map fun p => ⟨p.1, p.2.1, p.2.2⟩
        env := s.env ++ l.mapIdx fun k p =>
          some (.unc ⟨p.1, Lin.single (s.vars.length + k), some (s.vars.length + k)⟩) } := by
  induction l generalizing cs s with
  | nil => simpa using h
  | cons p l ih =>
    obtain ⟨-, h1⟩ := h.snoc (.ufloat p.1 p.2.1 p.2.2) rfl
    simp only [SState.step, hl p (by simp), Bool.false_eq_true, if_false] at h1
    have h2 := ih h1 (fun q hq => hl q (by simp [hq]))
    simp only [List.append_assoc, List.cons_append, List.nil_append, List.length_append, List.length_cons,
      List.length_nil] at h2
    simpa [List.mapIdx_cons, Nat.add_assoc, Nat.add_comm, Nat.add_left_comm] using h2

/-- A linear combination of variables that a program builds. -/
theorem sevalItems_append {env l : List (Option (SVal F))} {items : List (Arg F × F)} {d : Derivs F}
    (h : evalArgs (Arg.sevalItem env) items = some d) :
    evalArgs (Arg.sevalItem (env ++ l)) items = some d := by
  induction items generalizing d with
  | nil => exact h
  | cons p items ih =>
    simp only [evalArgs] at h ⊢
    cases h1 : Arg.sevalItem env p with
    | none => simp [h1] at h
    | some x =>
      have h1' : Arg.sevalItem (env ++ l) p = some x := by
        unfold Arg.sevalItem at h1 ⊢
        cases h2 : p.1.sevalUnc env with
        | none => simp [h2] at h1
        | some q => rw [sevalUnc_append h2, ← h2]; exact h1
      rw [h1] at h
      cases h2 : evalArgs (Arg.sevalItem env) items with
      | none => simp [h2] at h
      | some d' =>
        rw [h2] at h
        rw [h1', ih h2]
        exact h

/-- State after the creation of many quantities with given derivatives. -/
theorem Reaches.affines {cs : List (Cmd F)} {s : SState F} (h : Reaches cs s)
    (l : List (F × List (Arg F × F) × Derivs F))
    (hl : ∀ p ∈ l, evalArgs (Arg.sevalItem s.env) p.2.1 = some p.2.2 ∧ (p.2.2.map Prod.fst).Nodup) :
    Reaches (cs ++ l.map fun p => .affine p.1 p.2.1)
      { s with env := s.env ++ l.map fun p => some (.unc ⟨p.1, Lin.ofDict p.2.2, none⟩) } := by
  induction l generalizing cs s with
  | nil => simpa using h
  | cons p l ih =>
    obtain ⟨-, h1⟩ := h.snoc (.affine p.1 p.2.1) rfl
    obtain ⟨e1, e2⟩ := hl p (by simp)
    simp only [SState.step, e1, e2, if_true] at h1
    have h2 := ih h1 (fun q hq => ⟨sevalItems_append (hl q (by simp [hq])).1, (hl q (by simp [hq])).2⟩)
    simpa using h2

end

/-! ### Positive part of a symmetric matrix -/

variable {n : ℕ}

theorem PosSemidef.mulVec_nonneg {P : Matrix (Fin n) (Fin n) ℝ} (hP : P.PosSemidef) (w : Fin n → ℝ) :
    0 ≤ w ⬝ᵥ P *ᵥ w := by
  have := hP.dotProduct_mulVec_nonneg w
  simpa using this

theorem symm_of_posSemidef {P : Matrix (Fin n) (Fin n) ℝ} (hP : P.PosSemidef) : Pᵀ = P := by
  have := hP.1
  rwa [Matrix.IsHermitian, conjTranspose_eq_transpose_of_trivial] at this

/-- The positive part acts on eigenvectors as it should. -/
theorem PositivePart.mulVec {R P : Matrix (Fin n) (Fin n) ℝ} (h : PositivePart R P) {u : Fin n → ℝ} {l : ℝ}
    (hu : R *ᵥ u = l • u) : P *ᵥ u = (max l 0) • u := by
  obtain ⟨N, hP, hN, hR, hPN⟩ := h
  have hNP : N * P = 0 := by
    have := congrArg transpose hPN
    rwa [transpose_mul, symm_of_posSemidef hP, symm_of_posSemidef hN, transpose_zero] at this
  -- the same argument for both parts
  have key : ∀ {A B : Matrix (Fin n) (Fin n) ℝ} {m : ℝ}, A.PosSemidef → A * B = 0 → (A - B) *ᵥ u = m • u →
      m ≤ 0 → A *ᵥ u = 0 := by
    intro A B m hA hAB hm h0
    have h1 : A *ᵥ (A *ᵥ u) = m • (A *ᵥ u) := by
      have := congrArg (A *ᵥ ·) hm
      simpa [sub_mulVec, mulVec_sub, mulVec_mulVec, hAB, mulVec_smul] using this
    have h2 : (A *ᵥ u) ⬝ᵥ (A *ᵥ u) = u ⬝ᵥ A *ᵥ (A *ᵥ u) := by
      rw [dotProduct_mulVec u A, ← mulVec_transpose, symm_of_posSemidef hA]
    have h3 := PosSemidef.mulVec_nonneg hA u
    rw [h1, dotProduct_smul, smul_eq_mul] at h2
    have h4 : (A *ᵥ u) ⬝ᵥ (A *ᵥ u) ≤ 0 := by rw [h2]; exact mul_nonpos_of_nonpos_of_nonneg h0 h3
    have h5 : 0 ≤ (A *ᵥ u) ⬝ᵥ (A *ᵥ u) := Finset.sum_nonneg (fun i _ => mul_self_nonneg _)
    exact dotProduct_self_eq_zero.mp (le_antisymm h4 h5)
  rcases le_total l 0 with hl | hl
  · rw [max_eq_right hl, zero_smul]
    exact key hP hPN (by rw [← hR]; exact hu) hl
  · rw [max_eq_left hl]
    have hN0 : N *ᵥ u = 0 := by
      refine key (m := -l) hN hNP ?_ (by linarith)
      rw [← neg_sub P N, ← hR, neg_mulVec, hu, neg_smul]
    have : P = R + N := by rw [hR]; simp
    rw [this, add_mulVec, hN0, hu, add_zero]

/-- The positive part in terms of a diagonalization. -/
theorem PositivePart.eq {R P U : Matrix (Fin n) (Fin n) ℝ} {l : Fin n → ℝ} (h : PositivePart R P)
    (hU : U * Uᵀ = 1) (hR : R = U * diagonal l * Uᵀ) : P = U * diagonal (fun k => max (l k) 0) * Uᵀ := by
  have hU' : Uᵀ * U = 1 := mul_eq_one_comm.mp hU
  have hRU : R * U = U * diagonal l := by rw [hR, Matrix.mul_assoc, hU', Matrix.mul_one]
  have hPU : P * U = U * diagonal (fun k => max (l k) 0) := by
    ext i k
    have hk : R *ᵥ (fun j => U j k) = l k • fun j => U j k := by
      funext i
      have := congrFun (congrFun hRU i) k
      rw [mul_diagonal] at this
      simp only [Pi.smul_apply, smul_eq_mul]
      rw [mul_comm (l k), ← this]; rfl
    have := congrFun (h.mulVec hk) i
    rw [mul_diagonal]
    simp only [Pi.smul_apply, smul_eq_mul] at this
    rw [mul_comm (U i k), ← this]; rfl
  rw [← hPU, Matrix.mul_assoc, hU, Matrix.mul_one]

end Unc

namespace Unc

set_option autoImplicit false

open NR Matrix Finset

/-! ### Result of the functions -/

variable {n : ℕ}

theorem zip_ofFn {α β : Type} (f : Fin n → α) (g : Fin n → β) :
    (List.ofFn f).zip (List.ofFn g) = List.ofFn fun i => (f i, g i) := by
  apply List.ext_getElem <;> simp

theorem eq_ofFn {α : Type} (l : List α) (h : l.length = n) : ∃ f : Fin n → α, l = List.ofFn f := by
  subst h
  exact ⟨fun i => l[i], by apply List.ext_getElem <;> simp⟩

theorem range_ofFn {α : Type} (f : ℕ → α) : (List.range n).map f = List.ofFn fun i : Fin n => f i := by
  apply List.ext_getElem <;> simp

theorem newVariables_ok {F : Type} [PyMath F] {α : Type} (l : List α) (v : α → F) (σ : α → F) (t : α → Option String)
    (h : ∀ p ∈ l, PyFloat.sqrt (v p) = .ok (σ p)) :
    newVariables (l.map fun p => (v p, t p)) = .ok (l.map fun p => .ufloat 0 (σ p) (t p)) := by
  induction l with
  | nil => rfl
  | cons p l ih =>
    simp only [List.map_cons, newVariables, h p (by simp)]
    rw [ih (fun q hq => h q (by simp [hq]))]

theorem scaleRows_ofFn (U : Matrix (Fin n) (Fin n) ℝ) (s : Fin n → ℝ) (hn : 0 < n) :
    scaleRows (rows U) (List.ofFn fun i => fin (s i)) = .ok (rows fun i k => U i k * s i) := by
  unfold scaleRows
  split
  · rename_i s0 hs
    have h1 : n = 1 := by simpa using congrArg List.length hs
    subst h1
    simp only [List.ofFn_succ, List.ofFn_zero, List.cons.injEq, and_true] at hs
    subst hs
    simp [rows]
  · rw [if_pos (by simp [rows]), rows, zip_ofFn]
    simp [rows, List.map_ofFn, Function.comp_def]

theorem clampVariance_fin (x : ℝ) : clampVariance (fin x) = fin (max x 0) := by
  unfold clampVariance
  by_cases h : x < 0
  · simp [PyFloat.ltb, h, max_eq_right h.le]
  · simp [PyFloat.ltb, h, max_eq_left (not_lt.mp h)]

/-- The commands and the result of `correlated_values_norm()`. -/
theorem correlatedValuesNorm_ok {eigh : EighFn NR} {base : ℕ} {nom s l : Fin n → ℝ}
    {R U : Matrix (Fin n) (Fin n) ℝ} {t : Fin n → Option String} {tags : Option (List (Option String))}
    (hn : 0 < n) (he : eigh (rows R) = .ok (List.ofFn fun i => fin (l i), rows U))
    (ht : tags.getD (List.replicate n none) = List.ofFn t) :
    correlatedValuesNorm eigh base (List.ofFn fun i => (fin (nom i), fin (s i))) (rows R) tags =
      .ok ((List.ofFn fun k => Cmd.ufloat (fin 0) (fin (Real.sqrt (max (l k) 0))) (t k)) ++
          (List.ofFn fun i => Cmd.affine (fin (nom i))
            (List.ofFn fun k : Fin n => (Arg.ref (base + k), fin (U i k * s i)))),
        List.ofFn fun i : Fin n => Arg.ref (base + n + i)) := by
  have hne : (List.ofFn fun i => (fin (nom i), fin (s i))).isEmpty = false := by
    cases n with
    | zero => omega
    | succ n => simp [List.ofFn_succ]
  unfold correlatedValuesNorm
  simp only [hne, Bool.false_eq_true, if_false, he, List.map_ofFn, List.length_ofFn, ht, Function.comp_def,
    clampVariance_fin, zip_ofFn, scaleRows_ofFn U s hn]
  have hv := newVariables_ok (F := NR) (List.ofFn fun k : Fin n => k) (fun k => fin (max (l k) 0))
    (fun k => fin (Real.sqrt (max (l k) 0))) t (by
      intro k _
      simp [PyFloat.sqrt, not_lt.mpr (le_max_right (l k) 0)])
  simp only [List.map_ofFn, Function.comp_def] at hv
  simp only [hv, List.length_ofFn, range_ofFn, rows, zip_ofFn, List.map_ofFn, Function.comp_def, NR.zero_eq]

/-- State after `correlated_values_norm()`. -/
theorem Reaches.correlated {cs : List (Cmd NR)} {st : SState NR} (h : Reaches cs st) {nom σ : Fin n → ℝ}
    {A : Matrix (Fin n) (Fin n) ℝ} {t : Fin n → Option String} (hσ : ∀ k, 0 ≤ σ k) :
    Reaches (cs ++ ((List.ofFn fun k => Cmd.ufloat (fin 0) (fin (σ k)) (t k)) ++
          (List.ofFn fun i => Cmd.affine (fin (nom i))
            (List.ofFn fun k : Fin n => (Arg.ref ((after cs).env.length + k), fin (A i k))))))
      { st with
        vars := st.vars ++ List.ofFn fun k => ⟨fin 0, fin (σ k), t k⟩
        env := (st.env ++ List.ofFn fun k : Fin n =>
            some (.unc ⟨fin 0, Lin.single (st.vars.length + k), some (st.vars.length + k)⟩)) ++
          List.ofFn fun i => some (.unc ⟨fin (nom i),
            Lin.ofDict (List.ofFn fun k : Fin n => (st.vars.length + k, fin (A i k))), none⟩) } := by
  have h1 := h.ufloats (List.ofFn fun k => (fin 0, fin (σ k), t k)) (by
    intro p hp
    obtain ⟨k, rfl⟩ := (List.mem_ofFn' _ _).mp hp
    simp [specBadStd, PyFloat.ltb, hσ k])
  have e : (List.ofFn fun k => ((fin 0 : NR), fin (σ k), t k)).mapIdx (fun k p =>
      some (SVal.unc ⟨p.1, Lin.single (st.vars.length + k), some (st.vars.length + k)⟩)) =
      List.ofFn fun k : Fin n =>
        some (SVal.unc ⟨fin 0, Lin.single (st.vars.length + k), some (st.vars.length + k)⟩) := by
    apply List.ext_getElem <;> simp
  rw [e] at h1
  have h2 := h1.affines (List.ofFn fun i : Fin n =>
      (fin (nom i), (List.ofFn fun k : Fin n => (Arg.ref ((after cs).env.length + k), fin (A i k))),
        List.ofFn fun k : Fin n => (st.vars.length + k.val, fin (A i k)))) (by
    intro p hp
    obtain ⟨i, rfl⟩ := (List.mem_ofFn' _ _).mp hp
    constructor
    · refine evalArgs_ofFn _ _ _ (fun k => ?_)
      simp only [Arg.sevalItem, Arg.sevalUnc, Arg.seval, ← h.env_length]
      rw [List.getElem?_append_right (by omega)]
      simp
    · simp only [List.map_ofFn, Function.comp_def]
      rw [List.nodup_ofFn]
      intro a b hab
      simpa [Fin.ext_iff] using hab)
  simpa [List.map_ofFn, Function.comp_def, List.append_assoc] using h2

theorem lookup_of_mem_nodup {α : Type} {l : List (Nat × α)} {k : Nat} {x : α} (hl : (l.map Prod.fst).Nodup)
    (h : (k, x) ∈ l) : l.lookup k = some x := by
  induction l with
  | nil => cases h
  | cons p l ih =>
    obtain ⟨a, b⟩ := p
    rw [List.lookup_cons]
    simp only [List.map_cons, List.nodup_cons] at hl
    rcases List.mem_cons.mp h with h | h
    · cases h; simp
    · have hne : k ≠ a := fun e => hl.1 (List.mem_map.mpr ⟨_, h, e⟩)
      have : (k == a) = false := by simpa using hne
      rw [this]
      exact ih hl.2 h

theorem lookup_ofFn (f : Fin n → NR) (b v : ℕ) :
    (List.ofFn fun k : Fin n => (b + k.val, f k)).lookup v =
      if h : b ≤ v ∧ v - b < n then some (f ⟨v - b, h.2⟩) else none := by
  split_ifs with h
  · apply lookup_of_mem_nodup
    · rw [List.map_ofFn, List.nodup_ofFn]
      intro x y hxy
      simpa [Fin.ext_iff] using hxy
    · rw [List.mem_ofFn']
      exact ⟨⟨v - b, h.2⟩, by simp; omega⟩
  · rw [List.lookup_eq_none_iff]
    intro p hp
    obtain ⟨k, rfl⟩ := (List.mem_ofFn' _ _).mp hp
    simp only [bne_iff_ne, ne_eq]
    intro e
    exact h ⟨by omega, by have := k.2; omega⟩

/-- A sum over the new variables. -/
theorem sum_new (b : ℕ) (g : ℕ → ℝ) (hg : ∀ v, v < b → g v = 0) :
    ∑ v ∈ range (b + n), g v = ∑ k : Fin n, g (b + k) := by
  rw [sum_range_add, sum_eq_zero (fun v hv => hg v (mem_range.mp hv)), zero_add, Fin.sum_univ_eq_sum_range (fun k => g (b + k))]

end Unc

namespace Unc

set_option autoImplicit false

open NR Matrix Finset

variable {n : ℕ}

theorem PositivePart.of_posSemidef {R : Matrix (Fin n) (Fin n) ℝ} (hR : R.PosSemidef) : PositivePart R R :=
  ⟨0, hR, PosSemidef.zero, by simp, by simp⟩

/-! ### Normalization of a covariance matrix -/

/-- The norm that `correlated_values()` uses. -/
noncomputable def normOf (x : ℝ) : ℝ := if Real.sqrt x = 0 then 1 else Real.sqrt x

/-- Correlation matrix. -/
noncomputable def correlationOf (C : Matrix (Fin n) (Fin n) ℝ) : Matrix (Fin n) (Fin n) ℝ :=
  fun i j => C i j / normOf (C j j) / normOf (C i i)

theorem normOf_ne (x : ℝ) : normOf x ≠ 0 := by
  unfold normOf
  split_ifs with h
  · exact one_ne_zero
  · exact h

theorem correlation_posSemidef {C : Matrix (Fin n) (Fin n) ℝ} (hC : C.PosSemidef) :
    (correlationOf C).PosSemidef := by
  have h := hC.mul_mul_conjTranspose_same (diagonal fun i => (normOf (C i i))⁻¹)
  have e : correlationOf C = diagonal (fun i => (normOf (C i i))⁻¹) * C *
      (diagonal fun i => (normOf (C i i))⁻¹)ᴴ := by
    ext i j
    rw [diagonal_conjTranspose, mul_diagonal, diagonal_mul]
    simp only [correlationOf, star_trivial]
    field_simp
  rw [e]; exact h

/-- A null variance implies null covariances. -/
theorem posSemidef_null {C : Matrix (Fin n) (Fin n) ℝ} (hC : C.PosSemidef) {i : Fin n} (h : C i i = 0)
    (j : Fin n) : C i j = 0 := by
  have hs := symm_of_posSemidef hC
  have key : ∀ r : ℝ, 0 ≤ C j j + 2 * r * C i j := by
    intro r
    by_cases hij : i = j
    · subst hij; rw [h]; simp
    have h1 := PosSemidef.mulVec_nonneg hC (Pi.single j 1 + Pi.single i r)
    have e : C j i = C i j := congrFun (congrFun hs i) j
    simp only [mulVec_add, add_dotProduct, dotProduct_add, mulVec_single, single_dotProduct] at h1
    simp [h, e] at h1
    nlinarith
  by_contra hne
  have := key (-(C j j + 1) / (2 * C i j))
  have e : 2 * (-(C j j + 1) / (2 * C i j)) * C i j = -(C j j + 1) := by field_simp
  rw [e] at this
  linarith

theorem correlation_back {C : Matrix (Fin n) (Fin n) ℝ} (hC : C.PosSemidef) (i j : Fin n) :
    Real.sqrt (C i i) * Real.sqrt (C j j) * correlationOf C i j = C i j := by
  have hdiag : ∀ k, 0 ≤ C k k := fun k => hC.diag_nonneg
  have hs := symm_of_posSemidef hC
  unfold correlationOf normOf
  by_cases hi : Real.sqrt (C i i) = 0
  · have := posSemidef_null hC ((Real.sqrt_eq_zero (hdiag i)).mp hi) j
    rw [hi, this]; simp
  by_cases hj : Real.sqrt (C j j) = 0
  · have := posSemidef_null hC ((Real.sqrt_eq_zero (hdiag j)).mp hj) i
    have e : C i j = C j i := congrFun (congrFun hs j) i
    rw [hj, e, this]; simp
  simp only [hi, hj, if_false]
  field_simp

theorem npDiag_rows (C : Matrix (Fin n) (Fin n) ℝ) : npDiag (rows C) = List.ofFn fun i => fin (C i i) := by
  have e : (rows C).zipIdx = List.ofFn fun i : Fin n => ((List.ofFn fun j => fin (C i j)), i.val) := by
    apply List.ext_getElem <;> simp [rows]
  unfold npDiag
  rw [e]
  have : ∀ (f : Fin n → List NR × ℕ) (g : Fin n → NR), (∀ i, (f i).1[(f i).2]? = some (g i)) →
      (List.ofFn f).filterMap (fun p => p.1[p.2]?) = List.ofFn g := by
    clear e
    intro f g h
    induction n with
    | zero => simp
    | succ n ih =>
      simp only [List.ofFn_succ]
      rw [List.filterMap_cons_some (f := fun p : List NR × ℕ => p.1[p.2]?) (h 0)]
      have := ih 0 (fun i => f i.succ) (fun i => g i.succ) (fun i => h i.succ)
      rw [this]
  apply this
  intro i
  simp

theorem correlatedValues_eq {C : Matrix (Fin n) (Fin n) ℝ} (hC : C.PosSemidef) {eigh : EighFn NR} {base : ℕ}
    {nom : Fin n → ℝ} {tags : Option (List (Option String))} :
    correlatedValues eigh base (List.ofFn fun i => fin (nom i)) (rows C) tags =
      correlatedValuesNorm eigh base (List.ofFn fun i => (fin (nom i), fin (Real.sqrt (C i i))))
        (rows (correlationOf C)) tags := by
  have hdiag : ∀ k, 0 ≤ C k k := fun k => hC.diag_nonneg
  have hsq : (rows C).all (fun row => row.length == (rows C).length) = true := by
    simp [rows]
  have hsqrt : ∀ i, npSqrt (fin (C i i)) = fin (Real.sqrt (C i i)) := by
    intro i
    simp [npSqrt, PyFloat.sqrt, not_lt.mpr (hdiag i)]
  have hnorm : ∀ x : ℝ, (if PyFloat.eqb (fin (Real.sqrt x)) (fin 0) then fin 1 else fin (Real.sqrt x)) =
      fin (normOf x) := by
    intro x
    unfold normOf
    by_cases h : Real.sqrt x = 0 <;> simp [PyFloat.eqb, h]
  have hdiv : ∀ x y : ℝ, npDiv (fin x) (fin (normOf y)) = fin (x / normOf y) := by
    intro x y
    simp [npDiv, PyFloat.truediv, normOf_ne]
  unfold correlatedValues
  rw [if_pos hsq]
  simp only [npDiag_rows, List.map_ofFn, Function.comp_def, hsqrt, NR.zero_eq, NR.one_eq, hnorm, zip_ofFn]
  simp only [rows, zip_ofFn, List.map_ofFn, Function.comp_def, hdiv]
  rfl

end Unc
