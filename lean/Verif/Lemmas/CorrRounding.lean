import Verif.Spec.CorrRounding
import Mathlib.Tactic.Linarith
import Mathlib.Tactic.FieldSimp

/-
Rounding errors in correlation matrices: lemmas.
-/

set_option autoImplicit false

namespace Unc

section shape
variable {F : Type} [PyMath F]

theorem npDiag_off {mat : List (List F)} (k : Nat)
    (h : ∀ (i : Nat) (row : List F), mat[i]? = some row → ∃ x, row[i + k]? = some x) (i : Nat) :
    ((mat.zipIdx k).filterMap fun p => p.1[p.2]?)[i]? = (mat[i]?).bind (·[i + k]?) := by
  induction mat generalizing k i with
  | nil => simp
  | cons r mat ih =>
    obtain ⟨x, hx⟩ := h 0 r (by simp)
    have hx' : r[k]? = some x := by simpa using hx
    rw [List.zipIdx_cons, List.filterMap_cons]
    simp only [hx']
    cases i with
    | zero => simp [hx']
    | succ i =>
      rw [List.getElem?_cons_succ, ih (k + 1), List.getElem?_cons_succ]
      · rw [show i + (k + 1) = i + 1 + k by omega]
      · intro j row hj
        obtain ⟨y, hy⟩ := h (j + 1) row (by simpa using hj)
        exact ⟨y, by rw [← hy]; congr 1; omega⟩

theorem npDiag_entry {mat : List (List F)} (h : ∀ row ∈ mat, row.length = mat.length) (i : Nat) :
    (npDiag mat)[i]? = entry mat i i := by
  have := npDiag_off (mat := mat) 0 (fun i row hi => by
    have h1 := h row (List.mem_of_getElem? hi)
    have h2 := (List.getElem?_eq_some_iff.1 hi).1
    exact ⟨row[i]'(by omega), List.getElem?_eq_getElem _⟩) i
  simpa [npDiag, entry] using this

theorem npDiag_length {mat : List (List F)} (h : ∀ row ∈ mat, row.length = mat.length) :
    (npDiag mat).length = mat.length := by
  apply le_antisymm
  · unfold npDiag
    exact (List.length_filterMap_le _ _).trans (by simp)
  · by_contra hc
    rw [not_le] at hc
    have h1 := npDiag_entry h (npDiag mat).length
    rw [List.getElem?_eq_none (le_refl _)] at h1
    have h2 : mat[(npDiag mat).length]? = some (mat[(npDiag mat).length]'hc) := List.getElem?_eq_getElem _
    simp only [entry, h2, Option.bind_some] at h1
    have h3 := List.getElem?_eq_none_iff.1 h1.symm
    have h4 := h _ (List.mem_of_getElem? h2)
    omega

/-- Shape and elements of a correlation matrix. -/
theorem correlationMatrix_entry {M R : List (List F)} (hs : ∀ row ∈ M, row.length = M.length)
    (h : correlationMatrix M = .ok R) :
    0 < M.length ∧ R.length = M.length ∧ (∀ row ∈ R, row.length = M.length) ∧
    ∀ i j c vi vj, entry M i j = some c → entry M i i = some vi → entry M j j = some vj →
      entry R i j = some (npDiv (npDiv c (npSqrt vj)) (npSqrt vi)) := by
  unfold correlationMatrix at h
  split at h
  · cases h
  · rename_i hne
    simp only [Except.ok.injEq] at h
    subst h
    have hl := npDiag_length hs
    refine ⟨?_, by simp [hl], ?_, ?_⟩
    · cases M with
      | nil => simp at hne
      | cons => simp
    · intro row hrow
      obtain ⟨p, hp, rfl⟩ := List.mem_map.1 hrow
      have := hs _ (List.of_mem_zip hp).1
      simp [hl, this]
    · intro i j c vi vj hc hi hj
      rw [← npDiag_entry hs] at hi hj
      simp only [entry] at hc ⊢
      cases hr : M[i]? with
      | none => rw [hr] at hc; cases hc
      | some row =>
        rw [hr] at hc
        simp only [Option.bind_some] at hc
        have z1 : (M.zip ((npDiag M).map npSqrt))[i]? = some (row, npSqrt vi) :=
          List.getElem?_zip_eq_some.2 ⟨hr, by simp [hi]⟩
        have z2 : (row.zip ((npDiag M).map npSqrt))[j]? = some (c, npSqrt vj) :=
          List.getElem?_zip_eq_some.2 ⟨hc, by simp [hj]⟩
        rw [List.getElem?_map, z1]
        simp only [Option.map_some, Option.bind_some]
        rw [List.getElem?_map, z2]
        rfl

end shape

theorem corr_real {u η c a b s t q r : ℝ} (hu0 : 0 ≤ u) (hu : u < 1) (hη : 0 ≤ η) (ha : 0 < a) (hb : 0 < b)
    (hs : |s - a| ≤ u * a) (ht : |t - b| ≤ u * b)
    (hq : |q - c / t| ≤ u * |c / t| + η) (hr : |r - q / s| ≤ u * |q / s| + η) :
    |r - c / (a * b)| ≤ corrBound u η (c / (a * b)) a := by
  have s1 : (1 - u) * a ≤ s := by linarith [(abs_le.1 hs).1]
  have t1 : (1 - u) * b ≤ t := by linarith [(abs_le.1 ht).1]
  have s2 : s ≤ (1 + u) * a := by linarith [(abs_le.1 hs).2]
  have t2 : t ≤ (1 + u) * b := by linarith [(abs_le.1 ht).2]
  have hu1 : 0 < 1 - u := by linarith
  have hua : 0 < (1 - u) * a := mul_pos hu1 ha
  have hub : 0 < (1 - u) * b := mul_pos hu1 hb
  have s0 : 0 < s := by linarith
  have t0 : 0 < t := by linarith
  have hab : 0 < a * b := mul_pos ha hb
  -- the ratio of the exact and of the calculated products of the standard deviations
  set κ := a * b / (s * t) with hκ
  have hst : 0 < s * t := mul_pos s0 t0
  have hκ0 : 0 < κ := div_pos hab hst
  have hκ1 : κ ≤ 1 / (1 - u) ^ 2 := by
    rw [hκ, div_le_div_iff₀ hst (by positivity)]
    have : ((1 - u) * a) * ((1 - u) * b) ≤ s * t := mul_le_mul s1 t1 hub.le s0.le
    nlinarith
  have hκ2 : 1 / (1 + u) ^ 2 ≤ κ := by
    rw [hκ, div_le_div_iff₀ (by positivity) hst]
    have : s * t ≤ ((1 + u) * a) * ((1 + u) * b) := mul_le_mul s2 t2 t0.le (by positivity)
    nlinarith
  have hκ3 : |κ - 1| ≤ 1 / (1 - u) ^ 2 - 1 := by
    rw [abs_le]
    refine ⟨?_, by linarith⟩
    have h1 : 2 ≤ 1 / (1 - u) ^ 2 + 1 / (1 + u) ^ 2 := by
      have e : (1 - u) ^ 2 * (1 + u) ^ 2 = (1 - u ^ 2) ^ 2 := by ring
      rw [div_add_div _ _ (by positivity) (by positivity), le_div_iff₀ (by positivity), e]
      nlinarith [sq_nonneg u, sq_nonneg (u ^ 2), mul_nonneg (sq_nonneg u) (by nlinarith : (0 : ℝ) ≤ 1 - u ^ 2)]
    linarith
  set ρ := c / (a * b) with hρ
  have e1 : c / t / s = ρ * κ := by
    rw [hρ, hκ]; field_simp
  -- the divisions
  have h1 : |q / s| ≤ (1 + u) * (|ρ| * κ) + η / s := by
    have : |q| ≤ (1 + u) * |c / t| + η := by
      have := abs_sub_abs_le_abs_sub q (c / t)
      linarith
    have h2 : |c / t| / s = |ρ| * κ := by
      rw [← abs_of_pos s0, ← abs_div, e1, abs_mul, abs_of_pos hκ0]
    rw [abs_div, abs_of_pos s0, ← h2, ← mul_div_assoc, ← add_div]
    exact div_le_div_of_nonneg_right this s0.le
  have h2 : |q / s - ρ * κ| ≤ u * (|ρ| * κ) + η / s := by
    have h2 : |c / t| / s = |ρ| * κ := by
      rw [← abs_of_pos s0, ← abs_div, e1, abs_mul, abs_of_pos hκ0]
    rw [← e1, ← sub_div, abs_div, abs_of_pos s0, ← h2, ← mul_div_assoc, ← add_div]
    exact div_le_div_of_nonneg_right hq s0.le
  have h3 : |ρ * κ - ρ| = |ρ| * |κ - 1| := by rw [← abs_mul]; congr 1; ring
  have h4 : |r - ρ| ≤ |r - q / s| + |q / s - ρ * κ| + |ρ * κ - ρ| := by
    have e : r - ρ = (r - q / s) + (q / s - ρ * κ) + (ρ * κ - ρ) := by ring
    rw [e]
    exact (abs_add_le _ _).trans (by linarith [abs_add_le (r - q / s) (q / s - ρ * κ)])
  have h5 : η / s ≤ η / ((1 - u) * a) := div_le_div_of_nonneg_left hη hua s1
  have h6 : u * |q / s| ≤ u * ((1 + u) * (|ρ| * κ) + η / s) := mul_le_mul_of_nonneg_left h1 hu0
  have h7 : |ρ| * |κ - 1| ≤ |ρ| * (1 / (1 - u) ^ 2 - 1) := mul_le_mul_of_nonneg_left hκ3 (abs_nonneg _)
  have h8 : |ρ| * κ ≤ |ρ| * (1 / (1 - u) ^ 2) := mul_le_mul_of_nonneg_left hκ1 (abs_nonneg _)
  have h9 : (u * (1 + u) + u) * (|ρ| * κ) ≤ (u * (1 + u) + u) * (|ρ| * (1 / (1 - u) ^ 2)) :=
    mul_le_mul_of_nonneg_left h8 (by positivity)
  have h10 : (1 + u) * (η / s) ≤ (1 + u) * (η / ((1 - u) * a)) := mul_le_mul_of_nonneg_left h5 (by linarith)
  have e2 : corrBound u η ρ a = (u * (1 + u) + u) * (|ρ| * (1 / (1 - u) ^ 2)) + |ρ| * (1 / (1 - u) ^ 2 - 1) +
      (1 + u) * (η / ((1 - u) * a)) + η := by
    unfold corrBound
    rw [div_eq_mul_one_div ((1 + u) ^ 2)]
    ring
  rw [e2]
  linarith

section
variable {F : Type} [PyMath F] [RoundedDiv F]

theorem npDiv_rounded {a b : F} (h : Rounded.Fin (npDiv a b)) (hb : Rounded.Fin b) : Rounded.Fin a ∧
    |Rounded.val (npDiv a b) - Rounded.val a / Rounded.val b| ≤
      Rounded.u F * |Rounded.val a / Rounded.val b| + Rounded.η F := by
  unfold npDiv at h ⊢
  cases hd : PyFloat.truediv a b with
  | error e => rw [hd] at h; exact (RoundedDiv.not_fin_nan h).elim
  | ok y =>
    rw [hd] at h
    obtain ⟨h1, -, h2⟩ := RoundedDiv.div a b y hd h hb
    exact ⟨h1, h2⟩

theorem npSqrt_rounded {a : F} (h : Rounded.Fin a) (h0 : 0 ≤ Rounded.val a) : Rounded.Fin (npSqrt a) ∧
    |Rounded.val (npSqrt a) - √(Rounded.val a)| ≤ Rounded.u F * √(Rounded.val a) := by
  obtain ⟨y, h1, h2⟩ := RoundedDiv.sqrt_ok a h h0
  unfold npSqrt
  rw [h1]
  exact ⟨h2, (Rounded.sqrt a y h1 h2).2.2⟩

end

end Unc
