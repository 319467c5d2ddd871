import Verif.Spec.NumRounding
import Verif.Py.RoundedStep
import Verif.Lemmas.NumDeriv

/-
Numerical differentiation with rounding: lemmas.
-/

set_option autoImplicit false

namespace Unc

/-- Mean value inequality, around `x`. -/
theorem mvt_near {g g' : ℝ → ℝ} {x r G : ℝ} (h1 : ∀ t, |t - x| ≤ r → HasDerivAt g (g' t) t)
    (hG : ∀ t, |t - x| ≤ r → |g' t| ≤ G) {a b : ℝ} (ha : |a - x| ≤ r) (hb : |b - x| ≤ r) :
    |g a - g b| ≤ G * |a - b| := by
  have mem : ∀ {t}, t ∈ Set.Icc (x - r) (x + r) ↔ |t - x| ≤ r := by
    intro t
    rw [Set.mem_Icc, abs_le]
    constructor <;> rintro ⟨p, q⟩ <;> constructor <;> linarith
  have := (convex_Icc (x - r) (x + r)).norm_image_sub_le_of_norm_hasDerivWithin_le (f := g) (f' := g') (C := G)
    (fun t ht => (h1 t (mem.1 ht)).hasDerivWithinAt) (fun t ht => by rw [Real.norm_eq_abs]; exact hG t (mem.1 ht))
    (mem.2 hb) (mem.2 ha)
  simpa [Real.norm_eq_abs] using this

theorem quotient_real {u η A s q d h : ℝ} (hu : 0 ≤ u) (hh : 0 < h) (hs : |s - A| ≤ u * |A|)
    (hq : |q - s / 2| ≤ u * |s / 2| + η) (hd : |d - q / h| ≤ u * |q / h| + η) :
    |d - A / 2 / h| ≤ ((1 + u) ^ 3 - 1) * |A / 2 / h| + (1 + u) * η / h + η := by
  have s1 : |s| ≤ (1 + u) * |A| := by linarith [abs_sub_abs_le_abs_sub s A]
  have e2 : |s / 2| = |s| / 2 := by rw [abs_div, abs_of_pos (by norm_num : (0 : ℝ) < 2)]
  have q1 : |q| ≤ (1 + u) * (|s| / 2) + η := by
    have := abs_sub_abs_le_abs_sub q (s / 2)
    rw [e2] at this hq
    linarith
  have q2 : |q - A / 2| ≤ u * (|s| / 2) + η + u * |A| / 2 := by
    have e : q - A / 2 = (q - s / 2) + (s - A) / 2 := by ring
    rw [e]
    refine (abs_add_le _ _).trans ?_
    rw [e2] at hq
    have : |(s - A) / 2| = |s - A| / 2 := by rw [abs_div, abs_of_pos (by norm_num : (0 : ℝ) < 2)]
    rw [this]
    linarith
  have e3 : |q / h| = |q| / h := by rw [abs_div, abs_of_pos hh]
  have d1 : |d - A / 2 / h| ≤ u * (|q| / h) + η + |q - A / 2| / h := by
    have e : d - A / 2 / h = (d - q / h) + (q - A / 2) / h := by ring
    rw [e]
    refine (abs_add_le _ _).trans ?_
    rw [e3] at hd
    have : |(q - A / 2) / h| = |q - A / 2| / h := by rw [abs_div, abs_of_pos hh]
    rw [this]
    linarith
  have e4 : |A / 2 / h| = |A| / 2 / h := by
    rw [abs_div, abs_div, abs_of_pos hh, abs_of_pos (by norm_num : (0 : ℝ) < 2)]
  rw [e4]
  have i1 : u * |s| ≤ u * ((1 + u) * |A|) := mul_le_mul_of_nonneg_left s1 hu
  have i2 : u * |q| ≤ u * ((1 + u) * (|s| / 2) + η) := mul_le_mul_of_nonneg_left q1 hu
  have i3 : u * ((1 + u) * (|s| / 2)) ≤ u * ((1 + u) * ((1 + u) * |A| / 2)) := by
    apply mul_le_mul_of_nonneg_left _ hu
    apply mul_le_mul_of_nonneg_left _ (by linarith)
    linarith
  have i4 : u * |q| + |q - A / 2| ≤ ((1 + u) ^ 3 - 1) * (|A| / 2) + (1 + u) * η := by
    have : ((1 + u) ^ 3 - 1) * (|A| / 2) = u * ((1 + u) * ((1 + u) * |A| / 2)) + u * ((1 + u) * |A|) / 2 + u * |A| / 2 := by
      ring
    rw [this]
    linarith
  calc |d - A / 2 / h| ≤ u * (|q| / h) + η + |q - A / 2| / h := d1
    _ = (u * |q| + |q - A / 2|) / h + η := by ring
    _ ≤ (((1 + u) ^ 3 - 1) * (|A| / 2) + (1 + u) * η) / h + η := by
      have := div_le_div_of_nonneg_right i4 hh.le
      linarith
    _ = _ := by ring

theorem numDeriv_real {g g' g'' g''' : ℝ → ℝ} {u η x h ε G M xp xm t p m s q d : ℝ} (hu : 0 ≤ u) (hη : 0 ≤ η) (hh : 0 < h)
    (hxp : |xp - (x + h)| ≤ u * |x + h|) (ht : |t - 2 * h| ≤ u * |2 * h| + η) (hxm : |xm - (xp - t)| ≤ u * |xp - t|)
    (h1 : ∀ t, |t - x| ≤ h + shiftError u η x h → HasDerivAt g (g' t) t)
    (hG : ∀ t, |t - x| ≤ h + shiftError u η x h → |g' t| ≤ G)
    (h2 : ∀ t, |t - x| ≤ h → HasDerivAt g' (g'' t) t)
    (h3 : ∀ t, |t - x| ≤ h → HasDerivAt g'' (g''' t) t) (hM : ∀ t, |t - x| ≤ h → |g''' t| ≤ M)
    (hp : |xp - x| ≤ h + shiftError u η x h → |p - g xp| ≤ ε) (hm : |xm - x| ≤ h + shiftError u η x h → |m - g xm| ≤ ε)
    (hs : |s - (p - m)| ≤ u * |p - m|)
    (hq : |q - s / 2| ≤ u * |s / 2| + η) (hd : |d - q / h| ≤ u * |q / h| + η) :
    |d - g' x| ≤ numDerivBound u η x h ε G M (g' x) := by
  set δ := shiftError u η x h with hδ
  have w : |x + h| ≤ |x| + h := (abs_add_le _ _).trans (by rw [abs_of_pos hh])
  have w' : |x - h| ≤ |x| + h := (abs_sub _ _).trans (by rw [abs_of_pos hh])
  have d1 : |xp - (x + h)| ≤ u * (|x| + h) := hxp.trans (mul_le_mul_of_nonneg_left w hu)
  have d2 : |xp - t - (x - h)| ≤ u * (|x| + h) + 2 * u * h + η := by
    have e : xp - t - (x - h) = (xp - (x + h)) - (t - 2 * h) := by ring
    rw [e]
    refine (abs_sub _ _).trans ?_
    rw [abs_of_pos (by linarith : 0 < 2 * h)] at ht
    linarith
  have d3 : |xp - t| ≤ (|x| + h) + (u * (|x| + h) + 2 * u * h + η) := by
    have := abs_sub_abs_le_abs_sub (xp - t) (x - h)
    linarith
  have d4 : |xm - (x - h)| ≤ δ := by
    have e : xm - (x - h) = (xm - (xp - t)) + (xp - t - (x - h)) := by ring
    rw [e, hδ]
    unfold shiftError
    refine (abs_add_le _ _).trans ?_
    have := mul_le_mul_of_nonneg_left d3 hu
    linarith
  have d5 : u * (|x| + h) ≤ δ := by
    rw [hδ]
    unfold shiftError
    have : 0 ≤ |x| := abs_nonneg x
    have : 0 ≤ (1 + u) * (u * (|x| + h) + 2 * u * h + η) := by positivity
    linarith
  have δ0 : 0 ≤ δ := (abs_nonneg _).trans d4
  have n1 : |xp - x| ≤ h + δ := by
    have e : xp - x = (xp - (x + h)) + h := by ring
    rw [e]
    refine (abs_add_le _ _).trans ?_
    rw [abs_of_pos hh]
    linarith
  have n2 : |xm - x| ≤ h + δ := by
    have e : xm - x = (xm - (x - h)) - h := by ring
    rw [e]
    refine (abs_sub _ _).trans ?_
    rw [abs_of_pos hh]
    linarith
  have n3 : |x + h - x| ≤ h + δ := by rw [add_sub_cancel_left, abs_of_pos hh]; linarith
  have n4 : |x - h - x| ≤ h + δ := by rw [sub_sub_cancel_left, abs_neg, abs_of_pos hh]; linarith
  have G0 : 0 ≤ G := (abs_nonneg _).trans (hG x (by simp; linarith))
  have v1 := mvt_near h1 hG n1 n3
  have v2 := mvt_near h1 hG n2 n4
  have v3 : G * |xp - (x + h)| ≤ G * δ := mul_le_mul_of_nonneg_left (d1.trans d5) G0
  have v4 : G * |xm - (x - h)| ≤ G * δ := mul_le_mul_of_nonneg_left d4 G0
  have a1 : |(p - m) - (g (x + h) - g (x - h))| ≤ 2 * (ε + G * δ) := by
    have e : (p - m) - (g (x + h) - g (x - h)) =
      (p - g xp) + (g xp - g (x + h)) - ((m - g xm) + (g xm - g (x - h))) := by ring
    rw [e]
    refine (abs_sub _ _).trans ?_
    have := abs_add_le (p - g xp) (g xp - g (x + h))
    have := abs_add_le (m - g xm) (g xm - g (x - h))
    linarith [hp n1, hm n2]
  have c := central_bound hh (fun t ht => h1 t (by linarith)) h2 h3 hM
  set E := (ε + G * δ) / h + h ^ 2 / 6 * M with hE
  have a2 : |(p - m) / 2 / h - g' x| ≤ E := by
    have e : (p - m) / 2 / h - g' x = ((p - m) - (g (x + h) - g (x - h))) / (2 * h) +
      ((g (x + h) - g (x - h)) / 2 / h - g' x) := by field_simp; ring
    rw [e]
    refine (abs_add_le _ _).trans ?_
    rw [abs_div, abs_of_pos (by linarith : 0 < 2 * h)]
    have h5 := div_le_div_of_nonneg_right a1 (by linarith : 0 ≤ 2 * h)
    have e2 : 2 * (ε + G * δ) / (2 * h) = (ε + G * δ) / h := mul_div_mul_left _ _ (by norm_num)
    rw [e2] at h5
    linarith
  have r := quotient_real hu hh hs hq hd
  have a3 : |(p - m) / 2 / h| ≤ |g' x| + E := by linarith [abs_sub_abs_le_abs_sub ((p - m) / 2 / h) (g' x)]
  have k0 : 0 ≤ (1 + u) ^ 3 - 1 := by
    have : (1 + u) ^ 3 - 1 = u * (3 + 3 * u + u ^ 2) := by ring
    rw [this]; positivity
  have a4 := mul_le_mul_of_nonneg_left a3 k0
  have a5 : |d - g' x| ≤ |d - (p - m) / 2 / h| + |(p - m) / 2 / h - g' x| := abs_sub_le _ _ _
  unfold numDerivBound
  rw [← hδ, ← hE]
  linarith

section
variable {F : Type} [PyFloat F] [RoundedStep F]

theorem derivStep_pos {x : F} (h : Rounded.Fin (derivStep x)) : 0 < Rounded.val (derivStep x) ∧
    (Rounded.val (derivStep x) = (2 : ℝ)⁻¹ ^ 26 ∨
      |Rounded.val (derivStep x) - (2 : ℝ)⁻¹ ^ 26 * (|Rounded.val x|)| ≤
        Rounded.u F * ((2 : ℝ)⁻¹ ^ 26 * |Rounded.val x|) + Rounded.η F) := by
  unfold derivStep at h ⊢
  simp only at h ⊢
  split
  · rename_i ht
    rw [if_pos ht] at h
    obtain ⟨-, m2, m3⟩ := Rounded.mul _ _ h
    obtain ⟨-, b2⟩ := Rounded.abs x m2
    rw [b2, RoundedStep.val_step, abs_of_nonneg (by positivity : 0 ≤ (2 : ℝ)⁻¹ ^ 26 * |Rounded.val x|)] at m3
    refine ⟨lt_of_le_of_ne ?_ (Ne.symm ?_), Or.inr m3⟩
    · apply RoundedStep.mul_nonneg _ _ h
      · rw [RoundedStep.val_step]; positivity
      · rw [b2]; exact abs_nonneg _
    · apply RoundedStep.ne_zero _ h
      simpa [PyFloat.truthy] using ht
  · rw [RoundedStep.val_step]
    exact ⟨by positivity, Or.inl rfl⟩

theorem centralDiff_rounded {vp vm : PyVal F} {step d : F} (h : centralDiff vp vm step = .ok d) (hd : Rounded.Fin d)
    (hs : Rounded.Fin step) : ∃ p m s q : F, vp = .flt p ∧ vm = .flt m ∧ Rounded.Fin p ∧ Rounded.Fin m ∧
      |Rounded.val s - (Rounded.val p - Rounded.val m)| ≤ Rounded.u F * |Rounded.val p - Rounded.val m| ∧
      |Rounded.val q - Rounded.val s / 2| ≤ Rounded.u F * |Rounded.val s / 2| + Rounded.η F ∧
      |Rounded.val d - Rounded.val q / Rounded.val step| ≤
        Rounded.u F * |Rounded.val q / Rounded.val step| + Rounded.η F := by
  unfold centralDiff at h
  split at h
  · rename_i p m
    split at h
    · cases h
    · rename_i q hq
      obtain ⟨d1, -, d3⟩ := RoundedDiv.div _ _ _ h hd hs
      obtain ⟨q1, -, q3⟩ := RoundedDiv.div _ _ _ hq d1 RoundedStep.fin_two
      obtain ⟨p1, p2, p3⟩ := RoundedStep.sub _ _ q1
      rw [RoundedStep.val_two] at q3
      exact ⟨p, m, p - m, q, rfl, rfl, p1, p2, p3, q3, d3⟩
  · cases h

end

end Unc
