import Verif.Lemmas.RoundingCov
import Verif.Spec.FormulaCov

/-!
# Rounding errors of covariances, for derivatives that have any given error
-/

namespace Unc

set_option linter.unusedSectionVars false
set_option autoImplicit false

section floats
variable {F : Type} [PyFloat F] [Rounded F]

local notation "U" => (1 + Rounded.u F)
local notation "H" => (Rounded.η F)

/-- One term of the sum. -/
theorem covProd_majorized {a b s s2 : F} {A B Ea Eb : ℝ} (ha : Rounded.Fin a → |Rounded.val a - A| ≤ Ea)
    (hb : Rounded.Fin b → |Rounded.val b - B| ≤ Eb) (hs : PyFloat.sq s = .ok s2) (hf : Rounded.Fin (a * b * s2)) :
    Majorized (U * ((U * ((|A| + Ea) * (|B| + Eb)) + H) * (U * Rounded.val s ^ 2 + H)) + H) (Rounded.val (a * b * s2))
      (A * B * Rounded.val s ^ 2) |A * B * Rounded.val s ^ 2| := by
  have hu := Rounded.u_nonneg (F := F)
  obtain ⟨f1, f2, f3⟩ := Rounded.mul _ _ hf
  obtain ⟨f4, f5, f6⟩ := Rounded.mul _ _ f1
  obtain ⟨-, f7⟩ := Rounded.sq _ _ hs f2
  have n1 := ha f4
  have n2 := hb f5
  have w1 : Majorized (|A| + Ea) (Rounded.val a) A |A| := ⟨le_rfl, by linarith⟩
  have w2 : Majorized (|B| + Eb) (Rounded.val b) B |B| := ⟨le_rfl, by linarith⟩
  have w3 := (w1.mul w2).round hu f6
  have w4 : Majorized (U * Rounded.val s ^ 2 + H) (Rounded.val s2) (Rounded.val s ^ 2) (Rounded.val s ^ 2) :=
    ⟨by rw [abs_of_nonneg (sq_nonneg _)], by linarith⟩
  have w5 := (w3.mul w4).round hu f3
  rwa [← abs_mul, ← abs_of_nonneg (sq_nonneg (Rounded.val s)), ← abs_mul,
    abs_of_nonneg (sq_nonneg (Rounded.val s))] at w5

/-- The sum in any order, when each term is `T v` up to an error, with the absolute value `M v` at most. -/
theorem covSum_terms {std D1 D2 : VarId → Option F} (T M : VarId → ℝ) (vs : List VarId)
    (ht : ∀ v ∈ vs, ∀ a b s s2, D1 v = some a → D2 v = some b → std v = some s → PyFloat.sq s = .ok s2 →
      Rounded.Fin (a * b * s2) → Majorized (M v) (Rounded.val (a * b * s2)) (T v) |T v|)
    (acc y : F) (X A m : ℝ) (k : ℕ)
    (hacc : Rounded.Fin acc → Majorized (U ^ k * m) (Rounded.val acc) X A)
    (hy : covSum std D1 D2 vs acc = .ok y) (hf : Rounded.Fin y) :
    Rounded.Fin acc ∧
    Majorized (U ^ (k + vs.length) * (m + (vs.map M).sum)) (Rounded.val y)
      (X + (vs.map T).sum) (A + (vs.map fun v => |T v|).sum) := by
  induction vs generalizing acc X A m k with
  | nil =>
    simp only [covSum, Except.ok.injEq] at hy
    subst hy
    exact ⟨hf, by simpa using hacc hf⟩
  | cons v vs ih =>
    simp only [covSum] at hy
    split at hy
    · rename_i a b e1 e2
      split at hy
      · cases hy
      · rename_i s e3
        split at hy
        · cases hy
        · rename_i s2 e4
          have hu := Rounded.u_nonneg (F := F)
          have hU : (1 : ℝ) ≤ U := U_one
          obtain ⟨r1, r2⟩ := ih (fun v' hv' => ht v' (by simp [hv'])) (acc + a * b * s2) (X + T v) (A + |T v|)
            (m + M v) (k + 1) (fun hf' => by
              obtain ⟨f1, f2, f3⟩ := Rounded.add _ _ hf'
              have w := ht v (by simp) a b s s2 e1 e2 e3 e4 f2
              have hM0 : 0 ≤ M v := (abs_nonneg _).trans w.le
              refine ((hacc f1).add w hu f3).mono ?_
              rw [pow_succ]
              have : M v ≤ U ^ k * M v := le_mul_of_one_le_left hM0 (one_le_pow₀ hU)
              nlinarith) hy
          refine ⟨(Rounded.add _ _ r1).1, ?_⟩
          simp only [List.length_cons, List.map_cons, List.sum_cons]
          have e5 : k + (vs.length + 1) = k + 1 + vs.length := by omega
          rw [e5, ← add_assoc, ← add_assoc, ← add_assoc]
          exact r2
    · cases hy

theorem list_sum_range (φ : VarId → ℝ) (n : ℕ) (vs : List VarId) (hn : vs.Nodup) (hlt : ∀ v, v ∈ vs → v < n)
    (h0 : ∀ v, v ∉ vs → φ v = 0) : (vs.map φ).sum = ∑ v ∈ Finset.range n, φ v := by
  rw [← List.sum_toFinset _ hn]
  refine Finset.sum_subset ?_ ?_
  · intro v hm
    rw [List.mem_toFinset] at hm
    exact Finset.mem_range.mpr (hlt v hm)
  · intro v _ hm
    rw [List.mem_toFinset] at hm
    exact h0 v hm

variable (φ ψ : Formula) (n : VarId → ℝ) (vars : List (RVar F))

theorem Formula.covTerm_comm (v : VarId) : φ.covTerm ψ n vars v = ψ.covTerm φ n vars v := by
  unfold Formula.covTerm; ring

theorem Formula.covTermMax_comm (v : VarId) : φ.covTermMax ψ n vars v = ψ.covTermMax φ n vars v := by
  unfold Formula.covTermMax
  simp only [or_comm, mul_comm]

theorem Formula.cov_comm : φ.cov ψ n vars = ψ.cov φ n vars :=
  Finset.sum_congr rfl fun v _ => φ.covTerm_comm ψ n vars v

theorem Formula.covBound_comm : φ.covBound ψ n vars = ψ.covBound φ n vars := by
  unfold Formula.covBound Formula.covCount
  have e1 : ∀ v, φ.covTermMax ψ n vars v = ψ.covTermMax φ n vars v := φ.covTermMax_comm ψ n vars
  have e2 : ∀ v, φ.covTerm ψ n vars v = ψ.covTerm φ n vars v := φ.covTerm_comm ψ n vars
  simp only [e1, e2]
  simp only [Bool.and_comm]

end floats

end Unc
