import Verif.Lemmas.NRSum
import Verif.Lemmas.Cov

/-
Covariances in exact arithmetic.
-/

namespace Unc

set_option autoImplicit false

open NR Finset

/-- Covariance of two quantities, in exact arithmetic. -/
theorem specCov_fin {vars : List (SVar NR)} {D D' : Lin NR} {σ : VarId → ℝ}
    (hnan : ∀ v, D v ≠ some nan) (hnan' : ∀ v, D' v ≠ some nan)
    (hσ : StdsAre vars D (fun v => fin (σ v))) :
    specCov vars D D' =
      fin (∑ v ∈ range vars.length, coef (D v) * coef (D' v) * σ v ^ 2) := by
  unfold specCov
  rw [← sumVars_fin]
  apply sumVars_congr
  intro v _
  cases hd : D v with
  | none => simp
  | some d =>
    obtain ⟨cell, hc, hs⟩ := hσ v (by simp [hd])
    cases d with
    | nan => exact absurd hd (hnan v)
    | fin d =>
      cases hd' : D' v with
      | none => simp
      | some d' =>
        cases d' with
        | nan => exact absurd hd' (hnan' v)
        | fin d' => simp [hc, hs, pow_two]

theorem evalArgs_ofFn {α β : Type} {m : ℕ} (ev : α → Option β) (xs : Fin m → α) (qs : Fin m → β)
    (h : ∀ i, ev (xs i) = some (qs i)) : evalArgs ev (List.ofFn xs) = some (List.ofFn qs) := by
  induction m with
  | zero => simp [evalArgs]
  | succ m ih =>
    simp only [List.ofFn_succ, evalArgs, h 0]
    rw [ih (fun i => xs i.succ) (fun i => qs i.succ) (fun i => h i.succ)]

/-- Diagonal element of the covariance matrix. -/
theorem specCov_diag_term {d σ : NR} (h : d = nan → σ ≠ fin 0) :
    d * d * (σ * σ) = specComponent d σ * specComponent d σ := by
  cases d with
  | nan =>
    unfold specComponent
    cases σ with
    | nan => simp [PyFloat.eqb, PyFloat.abs, lift1]
    | fin s =>
      have hs : s ≠ 0 := fun e => h rfl (by rw [e])
      simp [PyFloat.eqb, hs, PyFloat.abs, lift1]
  | fin d =>
    cases σ with
    | nan => simp [specComponent, PyFloat.eqb, PyFloat.abs, lift1]
    | fin s =>
      rw [specComponent_fin]
      simp only [fin_mul, abs_mul_abs_self]
      congr 1; ring

end Unc
