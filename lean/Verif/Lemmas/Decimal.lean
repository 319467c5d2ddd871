import Mathlib.Analysis.SpecialFunctions.Log.Base
import Verif.Model.Decimal
import Verif.Spec.Decimal

/-! # Lemmas about rounding and first digits -/

set_option autoImplicit false

namespace Unc

theorem rhe_near (q : ℚ) : |q - rhe q| ≤ 1 / 2 := by
  have h1 := Int.floor_le q
  have h2 := Int.lt_floor_add_one q
  unfold rhe
  simp only []
  rw [abs_le]
  split_ifs <;> push_cast <;> constructor <;> linarith

theorem rhe_int (z : ℤ) : rhe (z : ℚ) = z := by
  unfold rhe
  simp

theorem rhe_mono {a b : ℚ} (h : a ≤ b) : rhe a ≤ rhe b := by
  have hf := Int.floor_le_floor h
  have h1 := Int.floor_le a
  have h2 := Int.lt_floor_add_one a
  have h3 := Int.floor_le b
  have h4 := Int.lt_floor_add_one b
  rcases hf.lt_or_eq with hlt | heq
  · have : rhe a ≤ ⌊a⌋ + 1 := by unfold rhe; simp only []; split_ifs <;> omega
    have : ⌊b⌋ ≤ rhe b := by unfold rhe; simp only []; split_ifs <;> omega
    omega
  · unfold rhe
    simp only []
    rw [← heq] at h3 h4 ⊢
    split_ifs <;> first | omega | (exfalso; linarith)

theorem rhe_neg (q : ℚ) : rhe (-q) = -rhe q := by
  have h1 := Int.floor_le q
  have h2 := Int.lt_floor_add_one q
  by_cases hi : q = ⌊q⌋
  · have : -q = ((-⌊q⌋ : ℤ) : ℚ) := by push_cast; linarith
    rw [this, rhe_int]
    have : rhe q = ⌊q⌋ := by
      conv_lhs => rw [hi]
      exact rhe_int _
    omega
  · have hlt : (⌊q⌋ : ℚ) < q := lt_of_le_of_ne h1 (fun h => hi h.symm)
    have hfl : ⌊-q⌋ = -⌊q⌋ - 1 := by
      rw [Int.floor_eq_iff]; push_cast; constructor <;> linarith
    unfold rhe
    simp only []
    rw [hfl]
    push_cast
    split_ifs <;> first | omega | (exfalso; linarith)

theorem rhe_nonneg {q : ℚ} (h : 0 ≤ q) : 0 ≤ rhe q := by
  have := rhe_mono h
  rwa [show (0 : ℚ) = ((0 : ℤ) : ℚ) by simp, rhe_int] at this

theorem rhe_abs (q : ℚ) : rhe |q| = |rhe q| := by
  rcases le_total 0 q with h | h
  · have : 0 ≤ rhe q := rhe_nonneg h
    rw [abs_of_nonneg h, abs_of_nonneg this]
  · have : rhe q ≤ 0 := by
      have := rhe_mono h
      rwa [show (0 : ℚ) = ((0 : ℤ) : ℚ) by simp, rhe_int] at this
    rw [abs_of_nonpos h, abs_of_nonpos this, rhe_neg]

theorem rhe_ge {z : ℤ} {q : ℚ} (h : (z : ℚ) ≤ q) : z ≤ rhe q := by
  have := rhe_mono h
  rwa [rhe_int] at this

theorem rhe_le {z : ℤ} {q : ℚ} (h : q ≤ z) : rhe q ≤ z := by
  have := rhe_mono h
  rwa [rhe_int] at this

theorem ten_pos (z : ℤ) : (0 : ℚ) < (10 : ℚ) ^ z := zpow_pos (by norm_num) z

theorem ten_ne : (10 : ℚ) ≠ 0 := by norm_num

theorem ten_lt_iff {a b : ℤ} : (10 : ℚ) ^ a < (10 : ℚ) ^ b ↔ a < b :=
  zpow_lt_zpow_iff_right₀ (by norm_num)

theorem ten_le_iff {a b : ℤ} : (10 : ℚ) ^ a ≤ (10 : ℚ) ^ b ↔ a ≤ b :=
  zpow_le_zpow_iff_right₀ (by norm_num)

theorem ten_add (a b : ℤ) : (10 : ℚ) ^ (a + b) = (10 : ℚ) ^ a * (10 : ℚ) ^ b := zpow_add₀ ten_ne a b

theorem ten_sub (a b : ℤ) : (10 : ℚ) ^ (a - b) = (10 : ℚ) ^ a / (10 : ℚ) ^ b := zpow_sub₀ ten_ne a b

theorem HasExponent.unique {v : ℚ} {d e : ℤ} (h : HasExponent v d) (g : HasExponent v e) : d = e := by
  have h1 := ten_lt_iff.1 (h.1.trans_lt g.2)
  have h2 := ten_lt_iff.1 (g.1.trans_lt h.2)
  omega

theorem firstDigit_spec {v : ℚ} (h : v ≠ 0) : HasExponent v (firstDigit v) := by
  unfold firstDigit
  rw [if_neg h]
  have h0 : 0 < |v| := abs_pos.2 h
  exact ⟨by simpa using Int.zpow_log_le_self (b := 10) (by norm_num) h0,
    by simpa using Int.lt_zpow_succ_log_self (b := 10) (by norm_num) |v|⟩

theorem firstDigit_eq {v : ℚ} {d : ℤ} (h : HasExponent v d) : firstDigit v = d := by
  have hv : v ≠ 0 := by
    rintro rfl
    have := h.1
    simp only [abs_zero] at this
    exact absurd (ten_pos d) (not_lt.2 this)
  exact (firstDigit_spec hv).unique h

theorem HasExponent.scale {v : ℚ} {d : ℤ} (h : HasExponent v d) (k : ℤ) :
    HasExponent (v * (10 : ℚ) ^ k) (d + k) := by
  have hk := ten_pos k
  unfold HasExponent
  rw [abs_mul, abs_of_pos hk, ten_add, show d + k + 1 = (d + 1) + k by ring, ten_add (d + 1)]
  exact ⟨mul_le_mul_of_nonneg_right h.1 hk.le, mul_lt_mul_of_pos_right h.2 hk⟩

theorem firstDigit_scale {v : ℚ} (h : v ≠ 0) (k : ℤ) : firstDigit (v * (10 : ℚ) ^ k) = firstDigit v + k :=
  firstDigit_eq ((firstDigit_spec h).scale k)

theorem firstDigit_abs (v : ℚ) : firstDigit |v| = firstDigit v := by
  unfold firstDigit
  simp

theorem pyRound_mul (q : ℚ) (l : ℤ) : pyRound q (-l) = rhe (q / (10 : ℚ) ^ l) * (10 : ℚ) ^ l := by
  unfold pyRound
  rw [zpow_neg]
  field_simp

theorem pyRound_rounds (q : ℚ) (l : ℤ) : Rounds q l (rhe (q / (10 : ℚ) ^ l)) := by
  have h := rhe_near (q / (10 : ℚ) ^ l)
  have hp := ten_pos l
  unfold Rounds
  have : q - rhe (q / (10 : ℚ) ^ l) * (10 : ℚ) ^ l = (q / (10 : ℚ) ^ l - rhe (q / (10 : ℚ) ^ l)) * (10 : ℚ) ^ l := by
    field_simp
  rw [this, abs_mul, abs_of_pos hp]
  nlinarith

theorem pyRound_abs (q : ℚ) (n : ℤ) : pyRound |q| n = |pyRound q n| := by
  unfold pyRound
  have hp := ten_pos n
  rw [abs_div, abs_of_pos hp, show |q| * (10 : ℚ) ^ n = |q * (10 : ℚ) ^ n| by rw [abs_mul, abs_of_pos hp],
    rhe_abs]
  push_cast
  rfl

/-- The number of digits, for a positive number. -/
theorem signif_pos {v : ℚ} (h : 0 < v) {n : ℕ} (hn : 1 ≤ n) :
    (10 : ℤ) ^ (n - 1) ≤ rhe (v / (10 : ℚ) ^ signifDgtToLimit v n) ∧
      rhe (v / (10 : ℚ) ^ signifDgtToLimit v n) < (10 : ℤ) ^ n := by
  obtain ⟨k, rfl⟩ : ∃ k, n = k + 1 := ⟨n - 1, by omega⟩
  have hs := firstDigit_spec h.ne'
  set d := firstDigit v with hd
  rw [HasExponent, abs_of_pos h] at hs
  set l : ℤ := d - (k + 1 : ℕ) + 1 with hl
  have hp := ten_pos l
  have e1 : (10 : ℚ) ^ d = (10 : ℚ) ^ k * (10 : ℚ) ^ l := by
    rw [← zpow_natCast, ← ten_add]; congr 1; rw [hl]; push_cast; ring
  have e2 : (10 : ℚ) ^ (d + 1) = (10 : ℚ) ^ (k + 1) * (10 : ℚ) ^ l := by
    rw [← zpow_natCast, ← ten_add]; congr 1; rw [hl]; push_cast; ring
  have b1 : (10 : ℚ) ^ k ≤ v / (10 : ℚ) ^ l := by rw [le_div_iff₀ hp, ← e1]; exact hs.1
  have b2 : v / (10 : ℚ) ^ l < (10 : ℚ) ^ (k + 1) := by rw [div_lt_iff₀ hp, ← e2]; exact hs.2
  have r1 : (10 : ℤ) ^ k ≤ rhe (v / (10 : ℚ) ^ l) := rhe_ge (by push_cast; exact b1)
  have r2 : rhe (v / (10 : ℚ) ^ l) ≤ (10 : ℤ) ^ (k + 1) := rhe_le (by push_cast; exact b2.le)
  have hround : pyRound v (-l) = rhe (v / (10 : ℚ) ^ l) * (10 : ℚ) ^ l := pyRound_mul v l
  unfold signifDgtToLimit
  simp only [← hd, ← hl, hround]
  rcases r2.lt_or_eq with hlt | heq
  · -- no carry
    have hexp : HasExponent (rhe (v / (10 : ℚ) ^ l) * (10 : ℚ) ^ l) d := by
      have hnn : (0 : ℚ) ≤ rhe (v / (10 : ℚ) ^ l) * (10 : ℚ) ^ l := by
        have : (0 : ℤ) ≤ rhe (v / (10 : ℚ) ^ l) := le_trans (by positivity) r1
        have : (0 : ℚ) ≤ rhe (v / (10 : ℚ) ^ l) := by exact_mod_cast this
        positivity
      rw [HasExponent, abs_of_nonneg hnn, e1, e2]
      refine ⟨mul_le_mul_of_nonneg_right ?_ hp.le, mul_lt_mul_of_pos_right ?_ hp⟩
      · exact_mod_cast r1
      · exact_mod_cast hlt
    rw [firstDigit_eq hexp, if_neg (lt_irrefl _)]
    exact ⟨r1, hlt⟩
  · -- carry
    have hexp : HasExponent (rhe (v / (10 : ℚ) ^ l) * (10 : ℚ) ^ l) (d + 1) := by
      rw [heq]
      push_cast
      rw [← e2, HasExponent, abs_of_pos (ten_pos _)]
      exact ⟨le_rfl, ten_lt_iff.2 (by omega)⟩
    rw [firstDigit_eq hexp, if_pos (by omega)]
    have hn2 := rhe_near (v / (10 : ℚ) ^ l)
    rw [heq, abs_le] at hn2
    push_cast at hn2
    have e3 : v / (10 : ℚ) ^ (l + 1) = v / (10 : ℚ) ^ l / 10 := by
      rw [ten_add, zpow_one]; field_simp
    rw [e3]
    set x := v / (10 : ℚ) ^ l with hx
    have hub : rhe (x / 10) ≤ (10 : ℤ) ^ k := rhe_le (by
      push_cast; rw [pow_succ] at b2; linarith)
    have hlb : (10 : ℤ) ^ k ≤ rhe (x / 10) := by
      have hnear := rhe_near (x / 10)
      rw [abs_le] at hnear
      have : ((10 : ℤ) ^ k : ℚ) - 1 < rhe (x / 10) := by
        push_cast
        rw [pow_succ] at hn2
        linarith [hnear.2, hn2.1]
      have : ((10 : ℤ) ^ k - 1 : ℤ) < rhe (x / 10) := by
        have h' : (((10 : ℤ) ^ k - 1 : ℤ) : ℚ) < rhe (x / 10) := by push_cast at this ⊢; exact this
        exact_mod_cast h'
      omega
    refine ⟨by simpa using hlb, ?_⟩
    calc rhe (x / 10) ≤ (10 : ℤ) ^ k := hub
      _ < (10 : ℤ) ^ (k + 1) := by rw [pow_succ]; have : (0 : ℤ) < 10 ^ k := by positivity
                                   omega

theorem signif_abs (v : ℚ) (n : ℤ) : signifDgtToLimit |v| n = signifDgtToLimit v n := by
  unfold signifDgtToLimit
  simp only [firstDigit_abs, pyRound_abs]

theorem LeadingDigits.exponent {v : ℚ} {t : ℕ} {d : ℤ} (h : LeadingDigits v t d) : HasExponent v d ∧ 0 < v := by
  obtain ⟨h1, h2, h3, h4⟩ := h
  have hp := ten_pos (d - 2)
  have e1 : (10 : ℚ) ^ d = 100 * (10 : ℚ) ^ (d - 2) := by
    rw [show (100 : ℚ) = (10 : ℚ) ^ (2 : ℤ) by norm_num, ← ten_add]; congr 1; ring
  have e2 : (10 : ℚ) ^ (d + 1) = 1000 * (10 : ℚ) ^ (d - 2) := by
    rw [show (1000 : ℚ) = (10 : ℚ) ^ (3 : ℤ) by norm_num, ← ten_add]; congr 1; ring
  have c1 : (100 : ℚ) ≤ t := by exact_mod_cast h1
  have c2 : (t : ℚ) ≤ 999 := by exact_mod_cast h2
  have hv : 0 < v := lt_of_lt_of_le (by positivity) h3
  refine ⟨?_, hv⟩
  rw [HasExponent, abs_of_pos hv, e1, e2]
  constructor <;> nlinarith

/-- The Particle Data Group rule. -/
theorem pdg_eq {v : ℚ} {t : ℕ} {d : ℤ} (h : LeadingDigits v t d) :
    pdgPrecision v = if t ≤ 354 then (2, v) else if t ≤ 949 then (1, v) else (2, (10 : ℚ) ^ (d + 1)) := by
  obtain ⟨he, hv⟩ := h.exponent
  obtain ⟨h1, h2, h3, h4⟩ := h
  have hp := ten_pos (d - 2)
  have key : ∀ (e : ℤ) (f : ℚ), (10 : ℚ) ^ e = f * (10 : ℚ) ^ (d - 2) → f ≠ 0 →
      truncQ (v / (10 : ℚ) ^ e * f) = t := by
    intro e f hef hf
    have : v / (10 : ℚ) ^ e * f = v / (10 : ℚ) ^ (d - 2) := by rw [hef]; field_simp
    rw [this]
    have hnn : ¬ v / (10 : ℚ) ^ (d - 2) < 0 := not_lt.2 (by positivity)
    rw [truncQ, if_neg hnn, Int.floor_eq_iff]
    constructor
    · rw [le_div_iff₀ hp]; exact_mod_cast h3
    · rw [div_lt_iff₀ hp]; exact_mod_cast h4
  unfold pdgPrecision
  simp only [firstDigit_eq he]
  by_cases hd : 0 ≤ d
  · simp only [if_pos hd]
    rw [key (d - 2) 1 (by ring) one_ne_zero]
    have : (10 : ℚ) ^ (d - 2) * (1000 / 1) = (10 : ℚ) ^ (d + 1) := by
      rw [show (1000 / 1 : ℚ) = (10 : ℚ) ^ (3 : ℤ) by norm_num, ← ten_add]; congr 1; ring
    rw [this]
    split_ifs <;> first | rfl | omega
  · simp only [if_neg hd]
    rw [key (d + 1) 1000 (by
      rw [show (1000 : ℚ) = (10 : ℚ) ^ (3 : ℤ) by norm_num, ← ten_add]; congr 1; ring) (by norm_num)]
    have : (10 : ℚ) ^ (d + 1) * (1000 / 1000) = (10 : ℚ) ^ (d + 1) := by norm_num
    rw [this]
    split_ifs <;> first | rfl | omega

/-- Every positive number has three leading digits. -/
theorem exists_leading {v : ℚ} (h : 0 < v) : ∃ t d, LeadingDigits v t d := by
  have he := firstDigit_spec h.ne'
  set d := firstDigit v
  have hp := ten_pos (d - 2)
  have e1 : (10 : ℚ) ^ d = 100 * (10 : ℚ) ^ (d - 2) := by
    rw [show (100 : ℚ) = (10 : ℚ) ^ (2 : ℤ) by norm_num, ← ten_add]; congr 1; ring
  have e2 : (10 : ℚ) ^ (d + 1) = 1000 * (10 : ℚ) ^ (d - 2) := by
    rw [show (1000 : ℚ) = (10 : ℚ) ^ (3 : ℤ) by norm_num, ← ten_add]; congr 1; ring
  rw [HasExponent, abs_of_pos h, e1, e2] at he
  have b1 : (100 : ℚ) ≤ v / (10 : ℚ) ^ (d - 2) := by rw [le_div_iff₀ hp]; exact he.1
  have b2 : v / (10 : ℚ) ^ (d - 2) < 1000 := by rw [div_lt_iff₀ hp]; exact he.2
  have f1 : (100 : ℤ) ≤ ⌊v / (10 : ℚ) ^ (d - 2)⌋ := Int.le_floor.2 (by exact_mod_cast b1)
  have f2 : ⌊v / (10 : ℚ) ^ (d - 2)⌋ < (1000 : ℤ) := Int.floor_lt.2 (by exact_mod_cast b2)
  obtain ⟨t, ht⟩ : ∃ t : ℕ, (t : ℤ) = ⌊v / (10 : ℚ) ^ (d - 2)⌋ := ⟨_, Int.toNat_of_nonneg (by omega)⟩
  refine ⟨t, d, by omega, by omega, ?_, ?_⟩
  · have := Int.floor_le (v / (10 : ℚ) ^ (d - 2))
    rw [← ht, le_div_iff₀ hp] at this
    exact_mod_cast this
  · have := Int.lt_floor_add_one (v / (10 : ℚ) ^ (d - 2))
    rw [← ht, div_lt_iff₀ hp] at this
    exact_mod_cast this

theorem LeadingDigits.scale {v : ℚ} {t : ℕ} {d : ℤ} (h : LeadingDigits v t d) (k : ℤ) :
    LeadingDigits (v * (10 : ℚ) ^ k) t (d + k) := by
  obtain ⟨h1, h2, h3, h4⟩ := h
  have hk := ten_pos k
  refine ⟨h1, h2, ?_, ?_⟩
  · rw [show d + k - 2 = (d - 2) + k by ring, ten_add, ← mul_assoc]
    exact mul_le_mul_of_nonneg_right h3 hk.le
  · rw [show d + k - 2 = (d - 2) + k by ring, ten_add, ← mul_assoc]
    exact mul_lt_mul_of_pos_right h4 hk

end Unc
