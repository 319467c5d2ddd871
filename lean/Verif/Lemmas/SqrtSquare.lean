import Verif.Py.D64

/-
The square root of the square of a double is its absolute value, if the square neither overflows nor underflows.
-/

namespace Unc

set_option autoImplicit false

namespace B64

theorem rdiv_scale (n d c : ℕ) (hc : 0 < c) : rdiv (n * c) (d * c) = rdiv n d := by
  unfold rdiv
  rw [Nat.mul_div_mul_right _ _ hc, Nat.mul_mod_mul_right]
  have h1 : 2 * (n % d * c) < d * c ↔ 2 * (n % d) < d := by
    rw [← mul_assoc]; exact Nat.mul_lt_mul_right hc
  have h2 : 2 * (n % d * c) = d * c ↔ 2 * (n % d) = d := by
    rw [← mul_assoc]; exact Nat.mul_left_inj hc.ne'
  simp only [h1, h2]

theorem rdiv_bounds (n d : ℕ) (hd : 0 < d) : 2 * (d * rdiv n d) ≤ 2 * n + d ∧ 2 * n ≤ 2 * (d * rdiv n d) + d := by
  have e := Nat.div_add_mod n d
  have l := Nat.mod_lt n hd
  unfold rdiv
  generalize n / d = q at *
  generalize n % d = r at *
  split
  · rename_i h; constructor <;> omega
  · rename_i h
    have : d * (q + 1) = d * q + d := by ring
    rw [this]
    constructor <;> omega

/-- The square root of the rounded square. -/
theorem rndSqrt_near {k e Q : ℕ} (hk1 : 2 ^ 52 ≤ k) (hk2 : k < 2 ^ 53) (he : 1 ≤ e) (h1 : Q ≤ k * k + 2 ^ 52)
    (h2 : Q = k * k ∨ k * k ≤ Q ∨ (2 ^ 52 < k ∧ k * k ≤ Q + 2 ^ 52)) :
    rndSqrt (Q * (2 ^ e * 2 ^ e)) = k * 2 ^ e := by
  obtain ⟨a, rfl⟩ : ∃ a, e = a + 1 := ⟨e - 1, by omega⟩
  have hA : 2 ^ (a + 1) = 2 * 2 ^ a := by rw [pow_succ]; ring
  have hA0 : 0 < 2 ^ a := Nat.two_pow_pos _
  have hlog : ∀ S, k * 2 ^ (a + 1) ≤ S ∨ (2 ^ 52 < k ∧ (k - 1) * 2 ^ (a + 1) ≤ S) → S < (k + 1) * 2 ^ (a + 1) →
      Nat.log2 S = 53 + a := by
    intro S hS hS'
    have h3 : 2 ^ (53 + a) ≤ S := by
      have e1 : 2 ^ (53 + a) = 2 ^ 52 * 2 ^ (a + 1) := by rw [← pow_add]; congr 1; omega
      rw [e1]
      rcases hS with h | ⟨h0, h⟩
      · exact (Nat.mul_le_mul_right _ hk1).trans h
      · exact (Nat.mul_le_mul_right _ (by omega)).trans h
    have h4 : S < 2 ^ (53 + a + 1) := by
      have e1 : 2 ^ (53 + a + 1) = 2 ^ 53 * 2 ^ (a + 1) := by rw [← pow_add]; rfl
      rw [e1]
      exact hS'.trans_le (Nat.mul_le_mul_right _ (by omega))
    rw [Nat.log2_eq_log_two]
    exact (Nat.log_eq_iff (.inl (by omega))).2 ⟨h3, h4⟩
  generalize hN : Q * (2 ^ (a + 1) * 2 ^ (a + 1)) = N
  have hdef : ∀ r, Nat.log2 (Nat.sqrt N) = 53 + a → Nat.sqrt N / 2 ^ (a + 1) = r → rndSqrt N =
      if N ≤ ((2 * r + 1) * 2 ^ a) ^ 2 then r * 2 ^ (a + 1) else (r + 1) * 2 ^ (a + 1) := by
    intro r e1 e2
    unfold rndSqrt
    have : 53 + a - 53 = a := by omega
    simp only [e1, this, e2]
  rw [hA] at *
  generalize 2 ^ a = A at *
  have hN4 : N = 4 * Q * A ^ 2 := by rw [← hN]; ring
  by_cases hq : k * k ≤ Q
  · have s1 : k * (2 * A) ≤ Nat.sqrt N := by
      rw [Nat.le_sqrt, hN4]
      calc k * (2 * A) * (k * (2 * A)) = 4 * (k * k) * A ^ 2 := by ring
        _ ≤ 4 * Q * A ^ 2 := Nat.mul_le_mul_right _ (by omega)
    have s2' : N < ((2 * k + 1) * A) * ((2 * k + 1) * A) := by
      rw [hN4]
      calc 4 * Q * A ^ 2 < (4 * (k * k) + 4 * k + 1) * A ^ 2 := Nat.mul_lt_mul_of_pos_right (by omega) (by positivity)
        _ = _ := by ring
    have s2 : Nat.sqrt N < (2 * k + 1) * A := Nat.sqrt_lt.2 s2'
    have s3 : Nat.sqrt N < (k + 1) * (2 * A) := s2.trans_le (by nlinarith)
    rw [hdef k (hlog _ (.inl s1) s3), if_pos (by rw [pow_two]; exact s2'.le)]
    rw [Nat.div_eq_iff (by omega)]
    constructor
    · exact s1
    · have : (k + 1) * (2 * A) = k * (2 * A) + 2 * A := by ring
      omega
  · obtain ⟨h0, h3⟩ : 2 ^ 52 < k ∧ k * k ≤ Q + 2 ^ 52 := by
      rcases h2 with h | h | h
      · exact (hq h.ge).elim
      · exact (hq h).elim
      · exact h
    obtain ⟨r, rfl⟩ : ∃ r, k = r + 1 := ⟨k - 1, by omega⟩
    have s1' : ((2 * r + 1) * A) * ((2 * r + 1) * A) < N := by
      rw [hN4]
      calc _ = (4 * (r * r) + 4 * r + 1) * A ^ 2 := by ring
        _ < 4 * Q * A ^ 2 := Nat.mul_lt_mul_of_pos_right (by nlinarith) (by positivity)
    have s1 : (2 * r + 1) * A ≤ Nat.sqrt N := Nat.le_sqrt.2 s1'.le
    have s2 : Nat.sqrt N < (r + 1) * (2 * A) := by
      rw [Nat.sqrt_lt, hN4]
      calc 4 * Q * A ^ 2 < 4 * ((r + 1) * (r + 1)) * A ^ 2 := Nat.mul_lt_mul_of_pos_right (by omega) (by positivity)
        _ = _ := by ring
    have s3 : r * (2 * A) ≤ Nat.sqrt N := le_trans (by nlinarith) s1
    have s4 : Nat.sqrt N < (r + 1 + 1) * (2 * A) := s2.trans_le (Nat.mul_le_mul_right _ (by omega))
    rw [hdef r (hlog _ (.inr ⟨h0, by simpa using s3⟩) s4), if_neg (by rw [pow_two]; omega)]
    rw [Nat.div_eq_iff (by omega)]
    constructor
    · exact s3
    · have : (r + 1) * (2 * A) = r * (2 * A) + 2 * A := by ring
      omega

/-- The rounded square of a double. -/
theorem rndTo_square {k e : ℕ} (hk1 : 2 ^ 52 ≤ k) (hk2 : k < 2 ^ 53) (he : 511 ≤ e) :
    ∃ Q, rndTo (k * 2 ^ e * (k * 2 ^ e)) (2 ^ 1074) * 2 ^ 1074 = Q * (2 ^ e * 2 ^ e) ∧ Q ≤ k * k + 2 ^ 52 ∧
      (Q = k * k ∨ k * k ≤ Q ∨ (2 ^ 52 < k ∧ k * k ≤ Q + 2 ^ 52)) := by
  have hj : ∃ j, j ≤ 1 ∧ 2 ^ (104 + j) ≤ k * k ∧ k * k < 2 ^ (105 + j) := by
    by_cases h : k * k < 2 ^ 105
    · refine ⟨0, by omega, ?_, h⟩
      calc 2 ^ 104 = 2 ^ 52 * 2 ^ 52 := by norm_num
        _ ≤ k * k := Nat.mul_le_mul hk1 hk1
    · refine ⟨1, le_rfl, by omega, ?_⟩
      calc k * k < 2 ^ 53 * 2 ^ 53 := Nat.mul_lt_mul'' hk2 hk2
        _ = 2 ^ 106 := by norm_num
  obtain ⟨j, hj1, hl, hu⟩ := hj
  obtain ⟨t, ht⟩ : ∃ t, 2 * e + 52 + j = 1074 + t := ⟨2 * e + 52 + j - 1074, by omega⟩
  have hn : k * 2 ^ e * (k * 2 ^ e) = k * k * 2 ^ (2 * e) := by rw [two_mul e, pow_add]; ring
  have hlog : Nat.log2 (k * 2 ^ e * (k * 2 ^ e) / 2 ^ 1074) + 1 - 53 = t := by
    have hL : Nat.log 2 (k * 2 ^ e * (k * 2 ^ e) / 2 ^ 1074) = t + 52 := by
      refine (Nat.log_eq_iff (.inl (by omega))).2 ⟨?_, ?_⟩
      · rw [Nat.le_div_iff_mul_le (Nat.two_pow_pos _), hn, ← pow_add]
        calc 2 ^ (t + 52 + 1074) = 2 ^ (104 + j) * 2 ^ (2 * e) := by rw [← pow_add]; congr 1; omega
          _ ≤ _ := Nat.mul_le_mul_right _ hl
      · rw [Nat.div_lt_iff_lt_mul (Nat.two_pow_pos _), hn, ← pow_add]
        calc k * k * 2 ^ (2 * e) < 2 ^ (105 + j) * 2 ^ (2 * e) := Nat.mul_lt_mul_of_pos_right hu (Nat.two_pow_pos _)
          _ = _ := by rw [← pow_add]; congr 1; omega
    rw [Nat.log2_eq_log_two, hL]; omega
  have hd : (2 : ℕ) ^ 1074 * 2 ^ t = 2 ^ (52 + j) * 2 ^ (2 * e) := by
    rw [← pow_add, ← pow_add]; congr 1; omega
  refine ⟨2 ^ (52 + j) * rdiv (k * k) (2 ^ (52 + j)), ?_, ?_, ?_⟩
  · unfold rndTo
    rw [hlog, hd, hn, rdiv_scale _ _ _ (Nat.two_pow_pos _)]
    calc rdiv (k * k) (2 ^ (52 + j)) * 2 ^ t * 2 ^ 1074 = rdiv (k * k) (2 ^ (52 + j)) * (2 ^ 1074 * 2 ^ t) := by ring
      _ = rdiv (k * k) (2 ^ (52 + j)) * (2 ^ (52 + j) * 2 ^ (2 * e)) := by rw [hd]
      _ = _ := by rw [two_mul e, pow_add 2 e e]; ring
  · have b := (rdiv_bounds (k * k) (2 ^ (52 + j)) (Nat.two_pow_pos _)).1
    have : (2 : ℕ) ^ (52 + j) ≤ 2 * 2 ^ 52 := by
      calc (2 : ℕ) ^ (52 + j) ≤ 2 ^ 53 := Nat.pow_le_pow_right (by norm_num) (by omega)
        _ = _ := by norm_num
    generalize 2 ^ (52 + j) * rdiv (k * k) (2 ^ (52 + j)) = Q at *
    generalize k * k = K at *
    omega
  · rcases hk1.eq_or_lt with h | h
    · left
      subst h
      have : j = 0 := by
        by_contra h0
        have : j = 1 := by omega
        subst this
        norm_num at hl
      subst this
      have := rdiv_mul (2 ^ 52) (2 ^ 52) (Nat.two_pow_pos _)
      rw [add_zero, this]
    · right; right
      refine ⟨h, ?_⟩
      have b := (rdiv_bounds (k * k) (2 ^ (52 + j)) (Nat.two_pow_pos _)).2
      have : (2 : ℕ) ^ (52 + j) ≤ 2 * 2 ^ 52 := by
        calc (2 : ℕ) ^ (52 + j) ≤ 2 ^ 53 := Nat.pow_le_pow_right (by norm_num) (by omega)
          _ = _ := by norm_num
      generalize 2 ^ (52 + j) * rdiv (k * k) (2 ^ (52 + j)) = Q at *
      generalize k * k = K at *
      omega

theorem sqrt_square {k e : ℕ} (hk1 : 2 ^ 52 ≤ k) (hk2 : k < 2 ^ 53) (he : 511 ≤ e) :
    rndSqrt (rndTo (k * 2 ^ e * (k * 2 ^ e)) (2 ^ 1074) * 2 ^ 1074) = k * 2 ^ e := by
  obtain ⟨Q, h1, h2, h3⟩ := rndTo_square hk1 hk2 he
  rw [h1]
  exact rndSqrt_near hk1 hk2 (by omega) h2 h3

/-- The doubles between `2^-511` and `2^511`. -/
theorem normal_form {n : ℕ} (h : rndTo n 1 = n) (h1 : 2 ^ 563 ≤ n) (h2 : n < 2 ^ 1585) :
    ∃ k e, n = k * 2 ^ e ∧ 2 ^ 52 ≤ k ∧ k < 2 ^ 53 ∧ 511 ≤ e ∧ e ≤ 1532 := by
  have hn : n ≠ 0 := by
    have : 0 < 2 ^ 563 := Nat.two_pow_pos _
    omega
  have l1 : 563 ≤ Nat.log2 n := by
    rw [Nat.log2_eq_log_two]; exact Nat.le_log_of_pow_le (by norm_num) h1
  have l2 : Nat.log2 n < 1585 := (Nat.log2_lt hn).2 h2
  have l3 : n < 2 ^ (Nat.log2 n + 1) := Nat.lt_log2_self
  have l4 : 2 ^ Nat.log2 n ≤ n := Nat.log2_self_le hn
  have hd : 2 ^ (Nat.log2 n - 52) ∣ n := by
    conv_rhs => rw [← h]
    unfold rndTo
    rw [Nat.div_one, show Nat.log2 n + 1 - 53 = Nat.log2 n - 52 by omega]
    exact Dvd.intro_left _ rfl
  clear h h1 h2 hn
  generalize Nat.log2 n = L at *
  obtain ⟨k, rfl⟩ := hd
  refine ⟨k, L - 52, mul_comm _ _, ?_, ?_, by omega, by omega⟩
  · have e : 2 ^ L = 2 ^ (L - 52) * 2 ^ 52 := by rw [← pow_add]; congr 1; omega
    rw [e] at l4
    exact Nat.le_of_mul_le_mul_left l4 (Nat.two_pow_pos _)
  · have e : 2 ^ (L + 1) = 2 ^ (L - 52) * 2 ^ 53 := by rw [← pow_add]; congr 1; omega
    rw [e] at l3
    exact Nat.lt_of_mul_lt_mul_left l3

theorem square_small {k e Q Y : ℕ} (hk2 : k < 2 ^ 53) (he : e ≤ 1532) (h : Y * 2 ^ 1074 = Q * (2 ^ e * 2 ^ e))
    (h2 : Q ≤ k * k + 2 ^ 52) : Y < 2 ^ 2098 := by
  have h3 : Q < 2 ^ 107 := by
    have : k * k < 2 ^ 53 * 2 ^ 53 := Nat.mul_lt_mul'' hk2 hk2
    norm_num at this ⊢
    omega
  have h4 : Y * 2 ^ 1074 < 2 ^ 2098 * 2 ^ 1074 := by
    rw [h]
    calc Q * (2 ^ e * 2 ^ e) < 2 ^ 107 * (2 ^ e * 2 ^ e) := Nat.mul_lt_mul_of_pos_right h3 (by positivity)
      _ = 2 ^ (107 + (e + e)) := by rw [← pow_add, ← pow_add]
      _ ≤ 2 ^ (2098 + 1074) := Nat.pow_le_pow_right (by norm_num) (by omega)
      _ = _ := pow_add _ _ _
  exact Nat.lt_of_mul_lt_mul_right h4

theorem square_ne_zero {k e Q : ℕ} (hk1 : 2 ^ 52 ≤ k) (h : Q = k * k ∨ k * k ≤ Q ∨ (2 ^ 52 < k ∧ k * k ≤ Q + 2 ^ 52)) :
    Q * (2 ^ e * 2 ^ e) ≠ 0 := by
  have : 2 ^ 52 * 2 ^ 52 ≤ k * k := Nat.mul_le_mul hk1 hk1
  have hQ : Q ≠ 0 := by
    norm_num at this h
    omega
  positivity

theorem left_ne_zero {Y A R : ℕ} (h : Y * A = R) (hR : R ≠ 0) : Y ≠ 0 := by
  rintro rfl
  rw [Nat.zero_mul] at h
  exact hR h.symm

theorem up_of_lt {n : ℕ} (h : n < 2 ^ 2098) : up n = fin n := by
  unfold up
  rw [if_pos h]

theorem sqrt_fin_pos {n : ℕ} (h : n ≠ 0) : PyFloat.sqrt (fin n) = .ok (fin (rndSqrt (n * 2 ^ 1074))) := by
  change (if (n : ℤ) < 0 then (.error .valueError : PyRes B64) else if (n : ℤ) = 0 then .ok (fin 0)
    else .ok (fin (rndSqrt ((n : ℤ).natAbs * 2 ^ 1074)))) = _
  rw [if_neg (by omega), if_neg (by exact_mod_cast h), Int.natAbs_natCast]

/-- The square root of the square of a double. -/
theorem sqrt_sq {m : ℤ} (h0 : 0 < m) (h : canon (fin m) = fin m) (h1 : 2 ^ 563 ≤ m.natAbs) (h2 : m.natAbs < 2 ^ 1585) :
    ∃ y, PyFloat.sq (fin m) = .ok y ∧ PyFloat.sqrt y = .ok (fin m) := by
  obtain ⟨k, e, hm, hk1, hk2, he1, he2⟩ := normal_form (canon_fin h).1 h1 h2
  clear h1 h2 h
  obtain ⟨Q, hQ, hq1, hq2⟩ := rndTo_square hk1 hk2 he1
  have hs := sqrt_square hk1 hk2 he1
  have hp : prod m m = rndTo (k * 2 ^ e * (k * 2 ^ e)) (2 ^ 1074) := by
    unfold prod
    rw [Int.natAbs_mul, hm]
  rw [← hp] at hs hQ
  have hlt := square_small hk2 he2 hQ hq1
  have hne : prod m m ≠ 0 := left_ne_zero hQ (square_ne_zero hk1 hq2)
  have hsq := sq_fin_up m
  have hmk : m = (k * 2 ^ e : ℕ) := by
    rw [← hm, Int.natAbs_of_nonneg h0.le]
  rw [up_of_lt hlt] at hsq
  refine ⟨_, hsq, ?_⟩
  rw [sqrt_fin_pos hne, hs, ← hmk]

end B64

namespace D64

open B64

theorem val_range {x : B64} (h1 : (2 : ℝ)⁻¹ ^ 511 ≤ B64.val x) (h2 : B64.val x < 2 ^ 511) :
    ∃ m : ℤ, x = fin m ∧ 0 < m ∧ 2 ^ 563 ≤ m.natAbs ∧ m.natAbs < 2 ^ 1585 := by
  have hp : (0 : ℝ) < 2⁻¹ ^ 511 := by positivity
  cases x with
  | nan => exact (lt_irrefl _ (hp.trans_le h1)).elim
  | inf b => exact (lt_irrefl _ (hp.trans_le h1)).elim
  | fin m =>
    unfold B64.val at h1 h2
    simp only [] at h1 h2
    have e : (2 : ℝ)⁻¹ ^ 1074 * 2 ^ 1074 = 1 := by rw [← mul_pow]; norm_num
    have hq : (0 : ℝ) < 2 ^ 1074 := by positivity
    have k1 : (2 : ℝ) ^ 563 ≤ m := by
      have := mul_le_mul_of_nonneg_right h1 hq.le
      rw [mul_assoc, e, mul_one, inv_pow] at this
      refine le_trans (le_of_eq ?_) this
      rw [show (1074 : ℕ) = 511 + 563 from rfl, pow_add, ← mul_assoc, inv_mul_cancel₀ (by positivity), _root_.one_mul]
    have k2 : (m : ℝ) < 2 ^ 1585 := by
      have := mul_lt_mul_of_pos_right h2 hq
      rw [mul_assoc, e, mul_one, ← pow_add] at this
      exact this
    have k1' : ((2 ^ 563 : ℕ) : ℤ) ≤ m := by
      have : (((2 ^ 563 : ℕ) : ℤ) : ℝ) ≤ (m : ℝ) := by rw [Int.cast_natCast, Nat.cast_pow]; exact k1
      exact_mod_cast this
    have k2' : m < ((2 ^ 1585 : ℕ) : ℤ) := by
      have : (m : ℝ) < (((2 ^ 1585 : ℕ) : ℤ) : ℝ) := by rw [Int.cast_natCast, Nat.cast_pow]; exact k2
      exact_mod_cast this
    have hp : 0 < 2 ^ 563 := Nat.two_pow_pos _
    clear h1 h2 k1 k2 e hq
    generalize 2 ^ 563 = A at *
    generalize 2 ^ 1585 = B at *
    exact ⟨m, rfl, by omega, by omega, by omega⟩

theorem sqrt_of {a s : D64} (h : PyFloat.sqrt a.x = .ok s.x) : PyFloat.sqrt a = .ok s := by
  change (PyFloat.sqrt a.x).map of = _
  rw [h]
  exact congrArg Except.ok (ext s.ok)

/-- `math.sqrt(x**2) == x` for the doubles between `2^-511` and `2^511`. -/
theorem sqrt_sq {s : D64} (h1 : (2 : ℝ)⁻¹ ^ 511 ≤ Rounded.val s) (h2 : Rounded.val s < 2 ^ 511) :
    PyFloat.eqb s 0 = false ∧ PyFloat.abs s = s ∧ ∃ y, PyFloat.sq s = .ok y ∧ PyFloat.sqrt y = .ok s := by
  obtain ⟨m, hx, h0, k1, k2⟩ := val_range h1 h2
  have hok := s.ok
  rw [hx] at hok
  obtain ⟨y, y1, y2⟩ := B64.sqrt_sq h0 hok k1 k2
  clear k1 k2 h1 h2
  refine ⟨?_, ?_, of y, ?_, ?_⟩
  · change PyFloat.eqb s.x (0 : B64) = false
    rw [hx]
    change (m == 0) = false
    rw [beq_eq_false_iff_ne]
    exact h0.ne'
  · ext1
    rw [abs_x, hx]
    change fin |m| = fin m
    rw [abs_of_pos h0]
  · change (PyFloat.sq s.x).map of = _
    rw [hx, y1]; rfl
  · have hy : canon y = y := by
      rw [sq_fin_round] at y1
      have hm := canon_round (m * m) _ two_pow_1074_pos
      generalize round (m * m) (2 ^ 1074) = p at *
      cases p <;> cases y1 <;> exact hm
    have hs : PyFloat.sqrt (of y).x = .ok s.x := by rw [of_x hy, y2, hx]
    exact sqrt_of hs

end D64

end Unc
