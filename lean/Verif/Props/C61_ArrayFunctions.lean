import Verif.Lemmas.Matrices
import Verif.Props.C53_Matrices

/-
C61: functions of arrays with numerical derivatives.
-/

namespace Unc

set_option autoImplicit false

open NR Matrix

variable {m n p q : ℕ}

/-- The literals 1e5 and 1e-8. -/
noncomputable def realShift : ShiftLiterals NR := ⟨fin 100000, fin (1 / 100000000)⟩

/-- The shift of a variable is a number which is not null. -/
theorem shiftVar_real (nom : NR) (σ : ℝ) : ∃ h : ℝ, h ≠ 0 ∧ shiftVar realShift nom (fin σ) = .ok (fin h) := by
  have key : ∀ x : ℝ, ∃ h : ℝ, h ≠ 0 ∧
      (if PyFloat.truthy (fin x) then (fin x) else realShift.em8 : NR) = fin h := by
    intro x
    by_cases h : x = 0
    · exact ⟨1 / 100000000, by norm_num, by simp [h, realShift, truthy_fin]⟩
    · exact ⟨x, h, by simp [h, truthy_fin]⟩
  have hdiv : PyFloat.truediv (fin σ) realShift.e5 = .ok (fin (σ / 100000)) := by
    simp [PyFloat.truediv, realShift]
  have hmax : ∃ x : ℝ, pyMax (fin (σ / 100000)) (realShift.em8 * PyFloat.abs nom) = fin x := by
    cases nom with
    | nan => exact ⟨_, rfl⟩
    | fin y =>
      simp only [pyMax, realShift, PyFloat.abs, lift1, fin_mul, PyFloat.ltb]
      by_cases hc : σ / 100000 < 1 / 100000000 * |y|
      · exact ⟨1 / 100000000 * |y|, by simp only [hc, decide_true, if_true]⟩
      · exact ⟨σ / 100000, by simp only [hc, decide_false]; rfl⟩
  obtain ⟨x, hx⟩ := hmax
  obtain ⟨h, h1, h2⟩ := key x
  exact ⟨h, h1, by simp only [shiftVar, hdiv, hx, h2]⟩

/-- The variables of an array have finite standard deviations. -/
theorem cells_finite {cs : List (Cmd NR)} {s : SState NR} (hs : Reaches cs s) {A : Fin p → Fin q → Arg NR}
    {N : Matrix (Fin p) (Fin q) ℝ} {S : Fin p → Fin q → Option (Lin NR)}
    (hA : ∀ i j, SeenAs cs (A i j) (.flt (fin (N i j)), S i j))
    (hσ : ∀ i j D v, sees cs (.derivatives (A i j)) = .dict D → D v ≠ none →
      ∃ σ : ℝ, seesKeyStd cs (A i j) v = .val (.flt (fin σ))) {v : VarId} (hv : DependsOn S v) :
    ∃ cell σ, s.vars[v]? = some cell ∧ cell.std = fin σ := by
  obtain ⟨i, j, hv⟩ := hv
  have h1 := (hA i j).2
  cases hSij : S i j with
  | none => rw [hSij] at hv; exact absurd rfl hv
  | some D =>
    rw [hSij] at h1 hv
    obtain ⟨q, e1, e2⟩ := hs.derivatives h1
    obtain ⟨σ, hσ⟩ := hσ i j D v h1 hv
    have hq := hs.quantity_exists e1
    obtain ⟨d, hd⟩ := Option.ne_none_iff_exists'.mp hv
    have hlt := hs.wf.keys q (sevalUnc_mem e1) v d (by rw [e2]; exact hd)
    refine ⟨s.vars[v], σ, List.getElem?_eq_getElem hlt, ?_⟩
    have h2 := hq.std v (by rw [e2]; exact hv)
    rw [hσ, List.getElem?_eq_getElem hlt] at h2
    simp only [Option.map_some, Option.getD_some, Out.val.injEq, PyVal.flt.injEq] at h2
    exact h2.symm

/-- The wrapped function: value, variables, and derivatives from a finite difference. -/
theorem wrapArrayFunc_main {cs : List (Cmd NR)} {A : Fin p → Fin q → Arg NR} {N : Matrix (Fin p) (Fin q) ℝ}
    {S : Fin p → Fin q → Option (Lin NR)} {dA : VarId → Matrix (Fin p) (Fin q) ℝ}
    (hA : ∀ i j, SeenAs cs (A i j) (.flt (fin (N i j)), S i j)) (hS : ∀ i j v, HasDeriv (S i j) v (dA v i j))
    (hσ : ∀ i j D v, sees cs (.derivatives (A i j)) = .dict D → D v ≠ none →
      ∃ σ : ℝ, seesKeyStd cs (A i j) v = .val (.flt (fin σ)))
    {ord : List VarId → List VarId} (hord : ∀ l, (ord l).Perm l)
    {func : List (List NR) → PyRes (List (List NR))} {f : Matrix (Fin p) (Fin q) ℝ → Matrix (Fin m) (Fin n) ℝ}
    (hf : ∀ M, func (rows M) = .ok (rows (f M))) :
    ∃ (cmds : List (Cmd NR)) (x : Fin m → Fin n → Arg NR) (h : VarId → ℝ), (∀ v, h v ≠ 0) ∧
      wrapArrayFunc realShift func ord (after cs) (arr A) = .ok (cmds, arr x) ∧
      (∀ i j, SeenAs (cs ++ cmds) (x i j) (.flt (fin (f N i j)),
        resultGrad S fun v => fin (((1 / h v) • (f (N + h v • dA v) - f N)) i j))) ∧
      IsArray (cs ++ cmds) x (f N) (fun v => (1 / h v) • (f (N + h v • dA v) - f N)) := by
  obtain ⟨s, hs⟩ := Reaches.exists cs
  obtain ⟨-, g, hr⟩ := _root_.id hs
  have hex : ∀ v, ∃ h : ℝ, h ≠ 0 ∧ (DependsOn S v → ∃ cell : VarCell NR, (after cs).w.vars[v]? = some cell ∧
      shiftVar realShift cell.nom cell.std = .ok (fin h)) := by
    intro v
    by_cases hv : DependsOn S v
    · obtain ⟨c, σ, h1, h2⟩ := cells_finite hs hA hσ hv
      rw [hr.vars] at h1
      simp only [World.svars, List.getElem?_map, Option.map_eq_some_iff] at h1
      obtain ⟨cell, h3, rfl⟩ := h1
      obtain ⟨h, h4, h5⟩ := shiftVar_real cell.nom σ
      exact ⟨h, h4, fun _ => ⟨cell, h3, by
        rw [show cell.std = fin σ from h2]; exact h5⟩⟩
    · exact ⟨1, one_ne_zero, fun h => absurd h hv⟩
  choose h hne hcell using hex
  have hval : ∃ deriv, numericalDeriv realShift func (after cs).w (rows N) = .ok (rows (f N), deriv) ∧
      ∀ v, DependsOn S v → deriv v (rows (dA v)) = .ok (rows ((1 / h v) • (f (N + h v • dA v) - f N))) := by
    refine ⟨_, by unfold numericalDeriv; rw [hf N], fun v hv => ?_⟩
    obtain ⟨cell, h1, h2⟩ := hcell v hv
    have e : npMap2 (· + ·) (rows N) (npScale (rows (dA v)) (fin (h v))) = rows (N + h v • dA v) := by
      rw [npScale_rows]
      refine (npMap2_rows (f := fun x y => x + y) (g := fun x y => x + y) (fun x y => rfl) N
        (fun i j => dA v i j * h v)).trans ?_
      congr 1; funext i j
      simp [mul_comm]
    simp only [h1, h2, e, hf]
    rw [npMap2_rows (f := fun a b => npDiv (a - b) (fin (h v))) (g := fun a b => (a - b) / h v) (fun a b => by simp [npDiv, PyFloat.truediv, hne v])]
    congr 2; funext i j
    simp only [Matrix.smul_apply, Matrix.sub_apply, smul_eq_mul]
    ring
  obtain ⟨deriv, g1, g2⟩ := hval
  obtain ⟨cmds, x, l, k1, k2, k3, -⟩ := arrayFunc_real hs hA hS hord g1 g2 (fun v hv => by simp [hv])
  exact ⟨cmds, x, h, hne, k1, k2, k3⟩

/-- **C61**: after any history, a function of an array wrapped with numerical derivatives returns the
function of the nominal values, and the result depends only on variables on which some element of the
array depends. -/
theorem C61_value {cs : List (Cmd NR)} {A : Fin p → Fin q → Arg NR} {N : Matrix (Fin p) (Fin q) ℝ}
    {dA : VarId → Matrix (Fin p) (Fin q) ℝ} (hA : IsArray cs A N dA)
    (hσ : ∀ i j D v, sees cs (.derivatives (A i j)) = .dict D → D v ≠ none →
      ∃ σ : ℝ, seesKeyStd cs (A i j) v = .val (.flt (fin σ)))
    {ord : List VarId → List VarId} (hord : ∀ l, (ord l).Perm l)
    {func : List (List NR) → PyRes (List (List NR))} {f : Matrix (Fin p) (Fin q) ℝ → Matrix (Fin m) (Fin n) ℝ}
    (hf : ∀ M, func (rows M) = .ok (rows (f M))) :
    ∃ (cmds : List (Cmd NR)) (x : Fin m → Fin n → Arg NR),
      wrapArrayFunc realShift func ord (after cs) (arr A) = .ok (cmds, arr x) ∧
      ∀ i j, sees (cs ++ cmds) (.nominal (x i j)) = .val (.flt (fin (f N i j))) ∧
        ∀ D v, sees (cs ++ cmds) (.derivatives (x i j)) = .dict D → D v ≠ none →
          ∃ i' j' D', sees cs (.derivatives (A i' j')) = .dict D' ∧ D' v ≠ none := by
  choose S hA hS using hA
  obtain ⟨cmds, x, h, -, h1, h2, -⟩ := wrapArrayFunc_main hA hS hσ hord hf
  refine ⟨cmds, x, h1, fun i j => ⟨(h2 i j).1, fun D v hD hv => ?_⟩⟩
  have hd := (h2 i j).2
  unfold resultGrad at hd
  split_ifs at hd with hdep
  · simp only [SeenAs] at hd
    rw [hD] at hd
    simp only [Out.dict.injEq] at hd
    rw [hd] at hv
    by_cases hdv : DependsOn S v
    · obtain ⟨i', j', hij⟩ := hdv
      have := (hA i' j').2
      cases hS' : S i' j' with
      | none => rw [hS'] at hij; exact absurd rfl hij
      | some D' =>
        rw [hS'] at this hij
        exact ⟨i', j', D', this, hij⟩
    · exact absurd (if_neg (fun h => hdv h.1)) hv
  · rw [hD] at hd; cases hd

/-- **C61**: in exact arithmetic, the derivatives of an affine function are exact: for
f(M) = L(M) + C with a linear function L, the derivative of the result with respect to each variable is
that of L along the derivative of the array. -/
theorem C61_affine {cs : List (Cmd NR)} {A : Fin p → Fin q → Arg NR} {N : Matrix (Fin p) (Fin q) ℝ}
    {dA : VarId → Matrix (Fin p) (Fin q) ℝ} (hA : IsArray cs A N dA)
    (hσ : ∀ i j D v, sees cs (.derivatives (A i j)) = .dict D → D v ≠ none →
      ∃ σ : ℝ, seesKeyStd cs (A i j) v = .val (.flt (fin σ)))
    {ord : List VarId → List VarId} (hord : ∀ l, (ord l).Perm l)
    {func : List (List NR) → PyRes (List (List NR))}
    (L : Matrix (Fin p) (Fin q) ℝ →ₗ[ℝ] Matrix (Fin m) (Fin n) ℝ) (C : Matrix (Fin m) (Fin n) ℝ)
    (hf : ∀ M, func (rows M) = .ok (rows (L M + C))) :
    ∃ (cmds : List (Cmd NR)) (x : Fin m → Fin n → Arg NR),
      wrapArrayFunc realShift func ord (after cs) (arr A) = .ok (cmds, arr x) ∧
      IsArray (cs ++ cmds) x (L N + C) (fun v => L (dA v)) := by
  choose S hA hS using hA
  obtain ⟨cmds, x, h, hne, h1, -, h3⟩ := wrapArrayFunc_main hA hS hσ hord (f := fun M => L M + C) hf
  refine ⟨cmds, x, h1, ?_⟩
  have e : (fun v => (1 / h v) • (L (N + h v • dA v) + C - (L N + C))) = fun v => L (dA v) := by
    funext v
    rw [map_add, map_smul]
    have : L N + h v • L (dA v) + C - (L N + C) = h v • L (dA v) := by abel
    rw [this, smul_smul, one_div_mul_cancel (hne v), one_smul]
  rw [← e]
  exact h3

/-- The transpose of the matrix `[[x, 1], [y, x]]`, as an affine function. -/
example : ∃ (func : List (List NR) → PyRes (List (List NR))) (cmds : List (Cmd NR)) (x : Fin 2 → Fin 2 → Arg NR),
    (∀ M : Matrix (Fin 2) (Fin 2) ℝ, func (rows M) = .ok (rows Mᵀ)) ∧
    wrapArrayFunc realShift func _root_.id (after matCs) (arr matA) = .ok (cmds, arr x) ∧
    IsArray (matCs ++ cmds) x !![2, 3; 1, 2]
      (fun v => if v = 0 then !![1, 0; 0, 1] else if v = 1 then !![0, 1; 0, 0] else 0) := by
  have hf : ∀ M : Matrix (Fin 2) (Fin 2) ℝ, (fun a => .ok (npT a) : List (List NR) → PyRes (List (List NR))) (rows M) =
      .ok (rows Mᵀ) := fun M => congrArg Except.ok (npT_rows M (fun h => h))
  obtain ⟨cmds, x, h1, h2⟩ := C61_affine matA_isArray (ord := _root_.id)
    (func := fun a => .ok (npT a)) (by
      intro i j D v hD hv
      obtain ⟨q, e1, e2⟩ := matCs_reaches.derivatives hD
      have hq := matCs_reaches.quantity_exists e1
      rw [hq.std v (by rw [e2]; exact hv)]
      obtain ⟨d, hd⟩ := Option.ne_none_iff_exists'.mp hv
      have hlt := matCs_reaches.wf.keys q (sevalUnc_mem e1) v d (by rw [e2]; exact hd)
      simp only [List.length_cons, List.length_nil] at hlt
      rcases (by omega : v = 0 ∨ v = 1) with rfl | rfl
      · exact ⟨1/10, rfl⟩
      · exact ⟨1/5, rfl⟩) (fun l => List.Perm.refl l)
    (transposeLinearEquiv (Fin 2) (Fin 2) ℝ ℝ).toLinearMap 0 (by
      intro M
      rw [npT_rows M (fun h => h)]
      simp)
  refine ⟨_, cmds, x, hf, h1, ?_⟩
  convert h2 using 1
  · ext i j; fin_cases i <;> fin_cases j <;> simp
  · funext v
    split_ifs <;> (ext i j; fin_cases i <;> fin_cases j <;> simp)

end Unc
