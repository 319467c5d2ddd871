import Verif.Py.B64Format

/-! # Rounding of the numbers that are doubles -/

set_option autoImplicit false

namespace Unc

namespace B64

theorem rdiv_mul (c d : ℕ) (hd : 0 < d) : rdiv (d * c) d = c := by
  unfold rdiv
  rw [Nat.mul_mod_right, Nat.mul_div_cancel_left _ hd, if_pos (.inl (by omega))]

theorem rdiv_le {n d b : ℕ} (hd : 0 < d) (h : n < d * b) : rdiv n d ≤ b := by
  have : n / d < b := Nat.div_lt_of_lt_mul h
  unfold rdiv
  split_ifs <;> omega

/-- A number with at most 53 significant bits is not changed. -/
theorem rndTo_exact {k e d : ℕ} (hk : k ≤ 2 ^ 53) (hd : 0 < d) : rndTo (k * 2 ^ e * d) d = k * 2 ^ e := by
  rcases Nat.eq_zero_or_pos k with rfl | hk0
  · simp [rndTo, rdiv, eq_comm]
  unfold rndTo
  rw [Nat.mul_div_cancel _ hd]
  set m := k * 2 ^ e with hm
  have hm0 : m ≠ 0 := by positivity
  have l1 : m < 2 ^ (Nat.log2 m + 1) := Nat.lt_log2_self
  have l2 : 2 ^ Nat.log2 m ≤ m := Nat.log2_self_le hm0
  generalize Nat.log2 m = L at *
  have hdiv : 2 ^ (L + 1 - 53) ∣ m := by
    by_cases h : L + 1 - 53 ≤ e
    · exact Dvd.dvd.mul_left (pow_dvd_pow 2 h) k
    · have hLe : L = 53 + e := by
        have h1 : 2 ^ L ≤ 2 ^ (53 + e) := by
          rw [pow_add]
          exact l2.trans (Nat.mul_le_mul_right _ hk)
        have h2 : L ≤ 53 + e := (Nat.pow_le_pow_iff_right (by norm_num)).1 h1
        omega
      have hk2 : k = 2 ^ 53 := by
        refine le_antisymm hk ?_
        have : 2 ^ 53 * 2 ^ e ≤ k * 2 ^ e := by
          rw [← pow_add, ← hLe]
          exact l2
        exact Nat.le_of_mul_le_mul_right this (by positivity)
      rw [hm, hk2, ← pow_add]
      exact pow_dvd_pow 2 (by omega)
  obtain ⟨c, hc⟩ := hdiv
  have : m * d = d * 2 ^ (L + 1 - 53) * c := by rw [hc]; ring
  rw [this, rdiv_mul _ _ (by positivity)]
  rw [hc, mul_comm]

theorem rndTo_form (n d : ℕ) (hd : 0 < d) : ∃ k e, k ≤ 2 ^ 53 ∧ rndTo n d = k * 2 ^ e := by
  refine ⟨_, _, ?_, rfl⟩
  refine rdiv_le (by positivity) ?_
  have l1 : n / d < 2 ^ (Nat.log2 (n / d) + 1) := Nat.lt_log2_self
  have h1 : n < d * 2 ^ (Nat.log2 (n / d) + 1) := by
    have := Nat.lt_mul_of_div_lt l1 hd
    rwa [mul_comm] at this
  refine h1.trans_le ?_
  rw [mul_assoc, ← pow_add]
  exact Nat.mul_le_mul_left _ (Nat.pow_le_pow_right (by norm_num) (by omega))

end B64

namespace FlOps

/-- A double is not changed. -/
theorem rnd64_exact {q : ℚ} {m : ℤ} {k e : ℕ} (hq : q * 2 ^ 1074 = m) (hk : k ≤ 2 ^ 53) (hm : m.natAbs = k * 2 ^ e) : rnd64 q = q := by
  have hden : (q.den : ℚ) ≠ 0 := by exact_mod_cast q.den_pos.ne'
  have h1 : (q.num * 2 ^ 1074 : ℤ) = m * q.den := by
    have : (q.num : ℚ) * 2 ^ 1074 = m * q.den := by
      rw [← hq]
      have := Rat.num_div_den q
      rw [div_eq_iff hden] at this
      rw [this]
      ring
    exact_mod_cast this
  unfold rnd64 B64.rndInt
  rw [h1, Int.natAbs_mul, Int.natAbs_natCast, hm, B64.rndTo_exact hk q.den_pos, Int.sign_mul,
    Int.sign_eq_one_of_pos (a := (q.den : ℤ)) (by exact_mod_cast q.den_pos), mul_one, ← hm, Int.sign_mul_natAbs, ← hq]
  rw [mul_div_cancel_right₀ _ (by positivity)]

theorem rnd64_idem (q : ℚ) : rnd64 (rnd64 q) = rnd64 q := by
  obtain ⟨k, e, hk, h⟩ := B64.rndTo_form (q.num * 2 ^ 1074).natAbs q.den q.den_pos
  by_cases h0 : q.num * 2 ^ 1074 = 0
  · have : rnd64 q = 0 := by unfold rnd64 B64.rndInt; rw [h0]; simp
    rw [this, rnd64_zero]
  · refine rnd64_exact (m := B64.rndInt (q.num * 2 ^ 1074) q.den) (k := k) (e := e) ?_ hk ?_
    · unfold rnd64
      rw [div_mul_cancel₀ _ (by positivity)]
    · unfold B64.rndInt
      rw [Int.natAbs_mul, Int.natAbs_sign_of_ne_zero h0, h, one_mul, Int.natAbs_natCast]

theorem rnd64_nat {n : ℕ} (h : n ≤ 2 ^ 53) : rnd64 n = n :=
  rnd64_exact (m := (n : ℤ) * 2 ^ 1074) (k := n) (e := 1074) (by push_cast; ring) h (by rw [Int.natAbs_mul]; simp)

theorem rnd64_ten {p : ℕ} (h : p ≤ 22) : rnd64 ((10 : ℚ) ^ (p : ℤ)) = (10 : ℚ) ^ (p : ℤ) := by
  refine rnd64_exact (m := (10 : ℤ) ^ p * 2 ^ 1074) (k := 5 ^ p) (e := p + 1074) (by push_cast; rfl) ?_ ?_
  · exact (Nat.pow_le_pow_right (by norm_num) h).trans (by norm_num)
  · rw [Int.natAbs_mul, Int.natAbs_pow, Int.natAbs_pow, pow_add, ← mul_assoc, ← mul_pow]
    rfl

theorem rnd64_nonneg {q : ℚ} (h : 0 ≤ q) : 0 ≤ rnd64 q := by
  unfold rnd64 B64.rndInt
  refine div_nonneg ?_ (by positivity)
  have : 0 ≤ q.num * 2 ^ 1074 := mul_nonneg (Rat.num_nonneg.2 h) (by positivity)
  have h1 : 0 ≤ (q.num * 2 ^ 1074).sign := Int.sign_nonneg_iff.2 this
  exact_mod_cast mul_nonneg h1 (Int.natCast_nonneg _)

end FlOps

end Unc
