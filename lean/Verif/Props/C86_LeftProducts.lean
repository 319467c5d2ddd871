import Verif.Props.C53_Matrices

/-
C86: products on the left of a matrix of numbers with uncertainties (`x*M`, `B*M`).
-/

namespace Unc

set_option autoImplicit false

open NR Matrix

variable {m n k : ℕ}

/-- **C86**: `x*M`, for a `unumpy.matrix` M of any size and any single number `x`, with or without uncertainty
(which can be correlated with the elements of M), after any history: the nominal value is the product of the
nominal values, and the derivatives are those of the product. -/
theorem C86_scalar (cs : List (Cmd NR)) {c : Arg NR} {x : ℝ} {S : Option (Lin NR)} {dx : VarId → ℝ}
    {A : Fin m → Fin n → Arg NR} {N : Matrix (Fin m) (Fin n) ℝ} {dA : VarId → Matrix (Fin m) (Fin n) ℝ}
    (hc : SeenAs cs c (.flt (fin x), S)) (hd : ∀ v, HasDeriv S v (dx v)) (hA : IsArray cs A N dA) :
    ∃ (cmds : List (Cmd NR)) (y : Fin m → Fin n → Arg NR),
      matRmul (after cs) (arr A) (.single c) = .ok (cmds, arr y) ∧
      IsArray (cs ++ cmds) y (x • N) (fun v => dx v • N + x • dA v) :=
  matRmul_single_real hc hd hA

/-- **C86**: `B*M`, for an array or matrix B with as many columns as M has rows: the product is done in this
order, for the nominal values and for the derivatives. -/
theorem C86_array (cs : List (Cmd NR)) {B : Fin m → Fin k → Arg NR} {A : Fin k → Fin n → Arg NR}
    {M : Matrix (Fin m) (Fin k) ℝ} {N : Matrix (Fin k) (Fin n) ℝ} {dB : VarId → Matrix (Fin m) (Fin k) ℝ}
    {dA : VarId → Matrix (Fin k) (Fin n) ℝ} (hk : 0 < k) (hB : IsArray cs B M dB) (hA : IsArray cs A N dA) :
    ∃ (cmds : List (Cmd NR)) (y : Fin m → Fin n → Arg NR),
      matRmul (after cs) (arr A) (.array (arr B)) = .ok (cmds, arr y) ∧
      IsArray (cs ++ cmds) y (M * N) (fun v => dB v * N + M * dA v) :=
  matDot_real (by omega) hB hA

/-- With `x = 2.0±0.1` and `y = 3.0±0.2`, and the matrix A = [[x, 1], [y, x]]: `x*A` has the nominal value
[[4, 2], [6, 4]], and its derivative with respect to `x` is [[4, 1], [3, 4]] (`x` is correlated with `A`). -/
example : ∃ (cmds : List (Cmd NR)) (z : Fin 2 → Fin 2 → Arg NR) (dZ : VarId → Matrix (Fin 2) (Fin 2) ℝ),
    matRmul (after matCs) (arr matA) (.single (.ref 0)) = .ok (cmds, arr z) ∧
    IsArray (matCs ++ cmds) z !![4, 2; 6, 4] dZ ∧ dZ 0 = !![4, 1; 3, 4] ∧ dZ 1 = !![0, 0; 2, 0] := by
  have hx : SeenAs matCs (.ref 0) (.flt (fin 2), some (Lin.single 0)) :=
    matCs_reaches.seenAs (v := .unc ⟨fin 2, Lin.single 0, some 0⟩) rfl
  obtain ⟨cmds, z, h1, h2⟩ := C86_scalar (dx := fun v => if v = 0 then 1 else 0) matCs hx (fun v => by
    unfold HasDeriv gradOf Lin.single
    by_cases h : v = 0
    · left; simp [h, NR.one_eq]
    · right; simp [h]) matA_isArray
  have e : (2 : ℝ) • (!![2, 1; 3, 2] : Matrix (Fin 2) (Fin 2) ℝ) = !![4, 2; 6, 4] := by
    ext i j
    fin_cases i <;> fin_cases j <;> norm_num
  rw [e] at h2
  refine ⟨cmds, z, _, h1, h2, ?_, ?_⟩
  · ext i j
    fin_cases i <;> fin_cases j <;> norm_num
  · ext i j
    fin_cases i <;> fin_cases j <;> norm_num

/-- `A*A` for the same matrix. -/
example : ∃ (cmds : List (Cmd NR)) (z : Fin 2 → Fin 2 → Arg NR) (dZ : VarId → Matrix (Fin 2) (Fin 2) ℝ),
    matRmul (after matCs) (arr matA) (.array (arr matA)) = .ok (cmds, arr z) ∧
    IsArray (matCs ++ cmds) z !![7, 4; 12, 7] dZ := by
  obtain ⟨cmds, z, h1, h2⟩ := C86_array matCs (by decide) matA_isArray matA_isArray
  have e : (!![2, 1; 3, 2] * !![2, 1; 3, 2] : Matrix (Fin 2) (Fin 2) ℝ) = !![7, 4; 12, 7] := by
    ext i j
    fin_cases i <;> fin_cases j <;> norm_num [Matrix.mul_apply, Fin.sum_univ_two]
  rw [e] at h2
  exact ⟨cmds, z, _, h1, h2⟩

end Unc
