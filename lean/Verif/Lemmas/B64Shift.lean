import Verif.Py.RoundedOps
import Verif.Lemmas.NumRounding

/-
The points used by numerical differentiation in double precision.
-/

namespace Unc

set_option autoImplicit false

namespace B64

attribute [local irreducible] B64.round

theorem val_ge {x : B64} (hx : x.Fin) (h : 0 < val x) : (2 : ℝ)⁻¹ ^ 1074 ≤ val x := by
  obtain ⟨m, rfl⟩ := (fin_iff x).1 hx
  have hp : (0 : ℝ) < (2 : ℝ)⁻¹ ^ 1074 := by positivity
  simp only [val] at h ⊢
  have hm : 0 < m := by
    by_contra hm
    have h1 : (m : ℝ) ≤ 0 := by exact_mod_cast not_lt.1 hm
    exact absurd h (not_lt.2 (mul_nonpos_of_nonpos_of_nonneg h1 hp.le))
  have h1 : (1 : ℝ) ≤ m := by exact_mod_cast hm
  exact le_mul_of_one_le_left hp.le h1

theorem val_eq_zero {x : B64} (hx : x.Fin) (h : val x = 0) : x = fin 0 := by
  obtain ⟨m, rfl⟩ := (fin_iff x).1 hx
  have hp : (0 : ℝ) < (2 : ℝ)⁻¹ ^ 1074 := by positivity
  simp only [val, mul_eq_zero, hp.ne', or_false] at h
  have : m = 0 := by exact_mod_cast h
  rw [this]

theorem val_ne_zero {x : B64} (hx : x.Fin) (h : x ≠ fin 0) : val x ≠ 0 := fun h0 => h (val_eq_zero hx h0)

theorem eta_eq : (2 : ℝ)⁻¹ ^ 1074 = 2 * (2 : ℝ)⁻¹ ^ 1075 := by
  rw [pow_succ (2 : ℝ)⁻¹ 1074]; ring

theorem eta_le : (2 : ℝ)⁻¹ ^ 1075 ≤ (2 : ℝ)⁻¹ ^ 100 :=
  pow_le_pow_of_le_one (by norm_num) (by norm_num) (by norm_num)

/-- The step, when it is finite: `2**-26` for the numbers that are almost 0, and otherwise much smaller
than the number. -/
theorem derivStep_bound {x : B64} (hx : x.Fin) (h : (derivStep x).Fin) :
    0 < val (derivStep x) ∧
    ((val (derivStep x) = (2 : ℝ)⁻¹ ^ 26 ∧ |val x| ≤ (2 : ℝ)⁻¹ ^ 60) ∨
      (val (derivStep x) ≤ (2 : ℝ)⁻¹ ^ 24 * |val x| ∧ (2 : ℝ)⁻¹ ^ 1075 ≤ (2 : ℝ)⁻¹ ^ 25 * |val x|)) := by
  have hpos := (derivStep_pos (F := B64) h).1
  refine ⟨hpos, ?_⟩
  have habs : (PyFloat.abs x).Fin ∧ val (PyFloat.abs x) = |val x| := by
    obtain ⟨m, rfl⟩ := (fin_iff x).1 hx
    exact ⟨trivial, (Rounded.abs (F := B64) (fin m) trivial).2⟩
  have hη := eta_le
  have hη0 : (0 : ℝ) < (2 : ℝ)⁻¹ ^ 1075 := by positivity
  have hv := abs_nonneg (val x)
  have law : ∀ y : B64, PyFloat.stepSize * PyFloat.abs x = y → y.Fin →
      abs (val y - (2 : ℝ)⁻¹ ^ 26 * (|val x|)) ≤ (2 : ℝ)⁻¹ ^ 53 * ((2 : ℝ)⁻¹ ^ 26 * |val x|) + (2 : ℝ)⁻¹ ^ 1075 := by
    rintro y rfl hy
    obtain ⟨-, -, m3⟩ := Rounded.mul (F := B64) _ _ hy
    have e1 : Rounded.val (PyFloat.stepSize : B64) = (2 : ℝ)⁻¹ ^ 26 := RoundedStep.val_step
    have e2 : Rounded.val (PyFloat.abs x) = |val x| := habs.2
    rw [e1, e2, abs_of_nonneg (by positivity : 0 ≤ (2 : ℝ)⁻¹ ^ 26 * |val x|)] at m3
    exact m3
  by_cases ht : PyFloat.truthy (PyFloat.stepSize * PyFloat.abs x : B64) = true
  · have e : derivStep x = PyFloat.stepSize * PyFloat.abs x := by
      unfold derivStep
      simp only
      rw [if_pos ht]
    have h3 := law _ e.symm h
    have h4 := val_ge h hpos
    rw [eta_eq] at h4
    generalize val (derivStep x) = σ at h3 h4 ⊢
    generalize |val x| = v at h3 hv ⊢
    generalize (2 : ℝ)⁻¹ ^ 1075 = η at h3 h4 hη0 ⊢
    obtain ⟨-, h5⟩ := abs_le.1 h3
    right
    norm_num at h5 ⊢
    constructor <;> linarith
  · have e : derivStep x = PyFloat.stepSize := by
      unfold derivStep
      simp only
      rw [if_neg ht]
    left
    refine ⟨by rw [e]; exact RoundedStep.val_step (F := B64), ?_⟩
    have hz : (PyFloat.stepSize * PyFloat.abs x : B64) = fin 0 := by
      simp only [PyFloat.truthy, Bool.not_eq_true, Bool.not_eq_false'] at ht
      generalize (PyFloat.stepSize * PyFloat.abs x : B64) = s at ht
      cases s with
      | nan => cases ht
      | inf b => cases ht
      | fin m =>
        have h1 : (m == 0) = true := ht
        rw [beq_iff_eq] at h1
        rw [h1]
    have h3 := law _ hz trivial
    have e0 : val (fin 0) = 0 := by simp [val]
    rw [e0, zero_sub, abs_neg, abs_of_nonneg (by positivity : 0 ≤ (2 : ℝ)⁻¹ ^ 26 * |val x|)] at h3
    generalize |val x| = v at h3 hv ⊢
    generalize (2 : ℝ)⁻¹ ^ 1075 = η at h3 hη hη0 ⊢
    norm_num at h3 hη ⊢
    linarith

/-- The points used by numerical differentiation at a number that is not 0 are not 0 either. -/
theorem shift_ne_zero {y : B64} (hy : y ≠ fin 0) :
    y + derivStep y ≠ fin 0 ∧ y + derivStep y - PyFloat.two * derivStep y ≠ fin 0 := by
  have hη0 : (0 : ℝ) < (2 : ℝ)⁻¹ ^ 1075 := by positivity
  have hη := eta_le
  constructor
  · intro h0
    have hf : (y + derivStep y).Fin := h0 ▸ trivial
    obtain ⟨h1, h2, h3⟩ := Rounded.add (F := B64) _ _ hf
    have h4 := derivStep_bound h1 h2
    have hv : val y ≠ 0 := val_ne_zero h1 hy
    have h5 : |0 - (val y + val (derivStep y))| ≤ (2 : ℝ)⁻¹ ^ 53 * |val y + val (derivStep y)| := by
      have e0 : (0 : ℝ) = val (y + derivStep y) := by rw [h0]; simp [val]
      rw [e0]
      exact h3
    rw [zero_sub, abs_neg] at h5
    have h6 : val y + val (derivStep y) = 0 := by
      have := abs_nonneg (val y + val (derivStep y))
      rw [← abs_eq_zero]
      norm_num at h5
      linarith
    have h7 : |val y| = val (derivStep y) := by
      rw [eq_neg_of_add_eq_zero_left h6, abs_neg, abs_of_pos h4.1]
    obtain ⟨h8, h9⟩ := h4
    rcases h9 with ⟨h9, h10⟩ | ⟨h9, -⟩
    · rw [h7, h9] at h10
      norm_num at h10
    · rw [h7] at h9
      norm_num at h9
      linarith
  · intro h0
    have hf : (y + derivStep y - PyFloat.two * derivStep y).Fin := h0 ▸ trivial
    obtain ⟨h1, h2, h3⟩ := RoundedStep.sub (F := B64) _ _ hf
    obtain ⟨k1, k2, k3⟩ := Rounded.add (F := B64) _ _ h1
    obtain ⟨l1, l2, l3⟩ := Rounded.mul (F := B64) _ _ h2
    have e2 : Rounded.val (PyFloat.two : B64) = 2 := RoundedStep.val_two
    have h4 := derivStep_bound k1 k2
    have hv : val y ≠ 0 := val_ne_zero k1 hy
    have k3' : |val (y + derivStep y) - (val y + val (derivStep y))| ≤
        (2 : ℝ)⁻¹ ^ 53 * |val y + val (derivStep y)| := k3
    rw [e2] at l3
    have l3' : |val (PyFloat.two * derivStep y) - 2 * val (derivStep y)| ≤
        (2 : ℝ)⁻¹ ^ 53 * |2 * val (derivStep y)| + (2 : ℝ)⁻¹ ^ 1075 := l3
    have h5 : |0 - (val (y + derivStep y) - val (PyFloat.two * derivStep y))| ≤
        (2 : ℝ)⁻¹ ^ 53 * |val (y + derivStep y) - val (PyFloat.two * derivStep y)| := by
      have e0 : (0 : ℝ) = val (y + derivStep y - PyFloat.two * derivStep y) := by rw [h0]; simp [val]
      rw [e0]
      exact h3
    rw [zero_sub, abs_neg] at h5
    generalize val (y + derivStep y) = p at *
    generalize val (PyFloat.two * derivStep y) = t at *
    generalize val (derivStep y) = σ at *
    generalize val y = v at *
    generalize (2 : ℝ)⁻¹ ^ 1075 = η at *
    have h6 : p = t := by
      have := abs_nonneg (p - t)
      rw [← sub_eq_zero, ← abs_eq_zero]
      norm_num at h5
      linarith
    subst h6
    obtain ⟨h8, h9⟩ := h4
    have a1 := abs_add_le v σ
    rw [abs_of_pos h8] at a1
    rw [abs_of_pos (by linarith : 0 < 2 * σ)] at l3'
    have a2 : |v - σ| ≤ |p - (v + σ)| + |p - 2 * σ| := by
      have := abs_sub (p - 2 * σ) (p - (v + σ))
      have e : p - 2 * σ - (p - (v + σ)) = v - σ := by ring
      rw [e] at this
      linarith
    have a3 := abs_sub_abs_le_abs_sub v σ
    have a4 := abs_sub_abs_le_abs_sub σ v
    rw [abs_sub_comm σ v] at a4
    rw [abs_of_pos h8] at a3 a4
    have hv' := abs_pos.2 hv
    rcases h9 with ⟨h9, h10⟩ | ⟨h9, h10⟩
    · subst h9
      norm_num at k3' l3' hη h10 a1 a2 a3 a4 ⊢
      linarith
    · norm_num at k3' l3' hη h9 h10 a1 a2 a3 a4 ⊢
      linarith

/-- Numbers that are not too large are not rounded to infinities. -/
theorem round_fin_of {m : ℤ} {d : ℕ} (hd : 0 < d) (h : |(m : ℝ) / d| ≤ 3 / 2 * 2 ^ 2097) : (round m d).Fin := by
  have he := rndInt_err m d hd
  have h1 : |(rndInt m d : ℝ)| < 2 ^ 2098 := by
    have h2 := abs_sub_abs_le_abs_sub (rndInt m d : ℝ) ((m : ℝ) / d)
    have h3 : (if d = 1 then (0 : ℝ) else 1 / 2) ≤ 1 / 2 := by split <;> norm_num
    have e : (2 : ℝ) ^ 2098 = 2 * 2 ^ 2097 := by rw [pow_succ (2 : ℝ) 2097]; ring
    have h4 : (2 : ℝ) ^ 10 ≤ 2 ^ 2097 := pow_le_pow_right₀ (by norm_num) (by norm_num)
    have h5 := abs_nonneg ((m : ℝ) / d)
    rw [e]
    generalize (2 : ℝ) ^ 2097 = B at h h4 ⊢
    generalize |(m : ℝ) / d| = q at *
    generalize (if d = 1 then (0 : ℝ) else 1 / 2) = z at *
    norm_num at he h4
    linarith
  have h2 : (rndInt m d).natAbs < 2 ^ 2098 := by
    have h3 : ((rndInt m d).natAbs : ℝ) = |(rndInt m d : ℝ)| := by
      rw [← Int.cast_abs, Int.abs_eq_natAbs]; simp
    rw [← h3] at h1
    exact_mod_cast h1
  rw [fin_iff]
  refine ⟨rndInt m d, ?_⟩
  unfold round
  rw [if_pos h2]

theorem unit_mul : (2 : ℝ)⁻¹ ^ 1074 * 2 ^ 2097 = 2 ^ 1023 := by
  have : (2 : ℝ) ^ 2097 = 2 ^ 1074 * 2 ^ 1023 := by rw [← pow_add]
  rw [this, ← mul_assoc, ← mul_pow]
  norm_num

theorem le_of_unit {q : ℝ} (h : |q * (2 : ℝ)⁻¹ ^ 1074| ≤ 3 / 2 * 2 ^ 1023) : |q| ≤ 3 / 2 * 2 ^ 2097 := by
  have hp : (0 : ℝ) < (2 : ℝ)⁻¹ ^ 1074 := by positivity
  rw [abs_mul, abs_of_pos hp, ← unit_mul] at h
  have : |q| * (2 : ℝ)⁻¹ ^ 1074 ≤ 3 / 2 * 2 ^ 2097 * (2 : ℝ)⁻¹ ^ 1074 := by linarith
  exact le_of_mul_le_mul_right this hp

theorem add_fin_of {a b : B64} (ha : a.Fin) (hb : b.Fin) (h : |val a + val b| ≤ 3 / 2 * 2 ^ 1023) :
    (a + b).Fin := by
  obtain ⟨x, rfl⟩ := (fin_iff a).1 ha
  obtain ⟨y, rfl⟩ := (fin_iff b).1 hb
  show (add (fin x) (fin y)).Fin
  simp only [add]
  split
  · trivial
  · split
    · trivial
    · apply round_fin_of (by norm_num)
      simp only [val, ← add_mul] at h
      have := le_of_unit h
      push_cast
      rwa [div_one]

theorem sub_fin_of {a b : B64} (ha : a.Fin) (hb : b.Fin) (h : |val a - val b| ≤ 3 / 2 * 2 ^ 1023) :
    (a - b).Fin := by
  have hb' : (neg b).Fin ∧ val (neg b) = - val b := by
    obtain ⟨y, rfl⟩ := (fin_iff b).1 hb
    exact ⟨trivial, by simp [neg, val]⟩
  exact add_fin_of ha hb'.1 (by rw [hb'.2, ← sub_eq_add_neg]; exact h)

theorem mul_fin_of {a b : B64} (ha : a.Fin) (hb : b.Fin) (h : |val a * val b| ≤ 3 / 2 * 2 ^ 1023) :
    (a * b).Fin := by
  obtain ⟨x, rfl⟩ := (fin_iff a).1 ha
  obtain ⟨y, rfl⟩ := (fin_iff b).1 hb
  show (mul (fin x) (fin y)).Fin
  simp only [mul]
  apply round_fin_of (by positivity)
  simp only [val] at h
  have e : (x : ℝ) * (2 : ℝ)⁻¹ ^ 1074 * (y * (2 : ℝ)⁻¹ ^ 1074) =
      (((x * y : ℤ) : ℝ) / ((2 ^ 1074 : ℕ) : ℝ)) * (2 : ℝ)⁻¹ ^ 1074 := by
    rw [Nat.cast_pow, inv_pow, div_eq_mul_inv]
    push_cast
    ring
  rw [e] at h
  exact le_of_unit h

/-- The points used by numerical differentiation at a number less than `2**1023` are finite. -/
theorem shift_fin {x : B64} (hx : x.Fin) (hb : |val x| < 2 ^ 1023) :
    (derivStep x).Fin ∧ (x + derivStep x).Fin ∧ (x + derivStep x - PyFloat.two * derivStep x).Fin := by
  have hη0 : (0 : ℝ) < (2 : ℝ)⁻¹ ^ 1075 := by positivity
  have hη := eta_le
  have habs : (PyFloat.abs x).Fin ∧ val (PyFloat.abs x) = |val x| := by
    obtain ⟨m, rfl⟩ := (fin_iff x).1 hx
    exact ⟨trivial, (Rounded.abs (F := B64) (fin m) trivial).2⟩
  have hB : (2 : ℝ) ^ 10 ≤ 2 ^ 1023 := pow_le_pow_right₀ (by norm_num) (by norm_num)
  have e1 : val (PyFloat.stepSize : B64) = (2 : ℝ)⁻¹ ^ 26 := RoundedStep.val_step (F := B64)
  have e2 : val (PyFloat.two : B64) = 2 := RoundedStep.val_two (F := B64)
  have hv := abs_nonneg (val x)
  have s1 : (derivStep x).Fin := by
    unfold derivStep
    simp only
    split
    · apply mul_fin_of (a := PyFloat.stepSize) trivial habs.1
      rw [e1, habs.2, abs_of_nonneg (by positivity)]
      generalize (2 : ℝ) ^ 1023 = B at hb hB ⊢
      norm_num
      linarith
    · trivial
  obtain ⟨s2, s3⟩ := derivStep_bound hx s1
  have s4 : val (derivStep x) ≤ 1 + (2 : ℝ)⁻¹ ^ 24 * |val x| := by
    rcases s3 with ⟨h1, -⟩ | ⟨h1, -⟩
    · rw [h1]; norm_num; linarith
    · linarith
  have a1 := abs_add_le (val x) (val (derivStep x))
  rw [abs_of_pos s2] at a1
  have p1 : (x + derivStep x).Fin := by
    apply add_fin_of hx s1
    generalize (2 : ℝ) ^ 1023 = B at hb hB ⊢
    norm_num at s4 hB ⊢
    linarith
  have t1 : (PyFloat.two * derivStep x).Fin := by
    apply mul_fin_of (a := PyFloat.two) trivial s1
    rw [e2, abs_of_pos (by linarith)]
    generalize (2 : ℝ) ^ 1023 = B at hb hB ⊢
    norm_num at s4 hB ⊢
    linarith
  refine ⟨s1, p1, sub_fin_of p1 t1 ?_⟩
  have p2 : |val (x + derivStep x) - (val x + val (derivStep x))| ≤
      (2 : ℝ)⁻¹ ^ 53 * |val x + val (derivStep x)| := (Rounded.add (F := B64) _ _ p1).2.2
  have t2 : |val (PyFloat.two * derivStep x) - val PyFloat.two * val (derivStep x)| ≤
      (2 : ℝ)⁻¹ ^ 53 * |val PyFloat.two * val (derivStep x)| + (2 : ℝ)⁻¹ ^ 1075 :=
    (Rounded.mul (F := B64) _ _ t1).2.2
  rw [e2, abs_of_pos (by linarith : 0 < 2 * val (derivStep x))] at t2
  have a2 := abs_sub_abs_le_abs_sub (val (x + derivStep x)) (val x + val (derivStep x))
  have a3 := (abs_le.1 t2).2
  have a3' := (abs_le.1 t2).1
  have a4 := abs_sub (val (x + derivStep x)) (val (PyFloat.two * derivStep x))
  have a5 : |val (PyFloat.two * derivStep x)| ≤ 3 * val (derivStep x) + (2 : ℝ)⁻¹ ^ 1075 := by
    rw [abs_le]
    generalize (2 : ℝ)⁻¹ ^ 1075 = η at hη0 a3 a3' ⊢
    norm_num at a3 a3' ⊢
    constructor <;> linarith
  generalize (2 : ℝ) ^ 1023 = B at hb hB ⊢
  generalize (2 : ℝ)⁻¹ ^ 1075 = η at *
  norm_num at s4 hB hη p2 a5 ⊢
  linarith

end B64

end Unc
