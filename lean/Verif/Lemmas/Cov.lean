import Verif.Lemmas.Sees

/-
Elements of covariance matrices; change of the standard deviation of a variable.
-/

namespace Unc

set_option autoImplicit false
set_option linter.unusedSectionVars false

variable {F : Type} [PyMath F] [ExactLin F]

/-- Two states that differ by the standard deviation of variable `v` only. -/
theorem specVariance_update {vars : List (SVar F)} {v : VarId} {std : F} {D : Lin F} (h : D v = none) :
    specVariance (vars.modify v (fun c => { c with std := std })) D = specVariance vars D := by
  unfold specVariance
  rw [List.length_modify]
  apply sumVars_congr
  intro u _
  unfold specVarianceTerm
  by_cases e : u = v
  · subst e; simp [h]
  · rw [List.getElem?_modify]
    simp [Ne.symm e]

theorem specErrorComponents_update {vars : List (SVar F)} {v : VarId} {std : F} {D : Lin F}
    (h : D v = none) :
    specErrorComponents (vars.modify v (fun c => { c with std := std })) D =
      specErrorComponents vars D := by
  funext u
  unfold specErrorComponents
  by_cases e : u = v
  · subst e; simp [h]
  · rw [List.getElem?_modify]
    simp [Ne.symm e]

theorem specCov_update {vars : List (SVar F)} {v : VarId} {std : F} {D D' : Lin F}
    (h : D v = none ∨ D' v = none) :
    specCov (vars.modify v (fun c => { c with std := std })) D D' = specCov vars D D' := by
  unfold specCov
  rw [List.length_modify]
  apply sumVars_congr
  intro u _
  by_cases e : u = v
  · subst e; rcases h with h | h
    · simp [h]
    · simp [h]
  · rw [List.getElem?_modify]
    simp [Ne.symm e]

theorem entry_map {α : Type} (qs : List α) (f : α → α → F) (i j : Nat) (x : F)
    (h : entry (qs.map fun a => qs.map fun b => f a b) i j = some x) :
    ∃ a b, qs[i]? = some a ∧ qs[j]? = some b ∧ x = f a b := by
  simp only [entry, List.getElem?_map] at h
  cases hi : qs[i]? with
  | none => simp [hi] at h
  | some a =>
    cases hj : qs[j]? with
    | none => simp [hi, hj] at h
    | some b =>
      simp [hi, hj] at h
      exact ⟨a, b, rfl, rfl, h.symm⟩

theorem entry_map_eq {α : Type} (qs : List α) (f : α → α → F) (i j : Nat) {a b : α}
    (hi : qs[i]? = some a) (hj : qs[j]? = some b) :
    entry (qs.map fun a => qs.map fun b => f a b) i j = some (f a b) := by
  simp [entry, List.getElem?_map, hi, hj]

theorem evalArgs_getElem {α β : Type} {ev : α → Option β} {as : List α} {bs : List β}
    (h : evalArgs ev as = some bs) (i : Nat) : (as[i]?).bind ev = bs[i]? := by
  induction as generalizing bs i with
  | nil => simp [evalArgs] at h; subst h; simp
  | cons a as ih =>
    simp only [evalArgs] at h
    cases ha : ev a with
    | none => simp [ha] at h
    | some b =>
      cases hr : evalArgs ev as with
      | none => simp [ha, hr] at h
      | some bs' =>
        simp [ha, hr] at h
        subst h
        cases i with
        | zero => simp [ha]
        | succ i => simpa using ih hr i

end Unc
