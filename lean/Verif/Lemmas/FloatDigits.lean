import Verif.Lemmas.FormatPlan
import Verif.Spec.FloatFormat

/-! # Digits chosen with floating-point arithmetic -/

set_option autoImplicit false

namespace Unc

namespace FlOps.Sound

variable {f : FlOps}

theorem rnd_bounds (hf : f.Sound) {q : ℚ} (h1 : (10 : ℚ) ^ (-300 : ℤ) ≤ q) (h2 : q ≤ (10 : ℚ) ^ (300 : ℤ)) :
    q * (1 - 1 / 10 ^ 15) ≤ f.rnd q ∧ f.rnd q ≤ q * (1 + 1 / 10 ^ 15) ∧ 0 < f.rnd q := by
  have hq : 0 < q := (ten_pos _).trans_le h1
  have h := hf.rnd_near q (by rwa [abs_of_pos hq]) (by rwa [abs_of_pos hq])
  rw [abs_of_pos hq, abs_le] at h
  refine ⟨by linarith [h.1], by linarith [h.2], by linarith [h.1]⟩

theorem ten_bounds (hf : f.Sound) {e : ℤ} (h1 : -300 ≤ e) (h2 : e ≤ 300) :
    (10 : ℚ) ^ e * (1 - 1 / 10 ^ 15) ≤ f.ten e ∧ f.ten e ≤ (10 : ℚ) ^ e * (1 + 1 / 10 ^ 15) ∧ 0 < f.ten e := by
  have hq := ten_pos e
  have h := hf.ten_near e h1 h2
  rw [abs_le] at h
  refine ⟨by linarith [h.1], by linarith [h.2], by linarith [h.1]⟩

/-- The exponent of a number with at most 12 digits is right. -/
theorem firstDigit_units (hf : f.Sound) {m : ℤ} (hm : 1 ≤ m) (hm2 : m ≤ 10 ^ 12) {l : ℤ} (h1 : -280 ≤ l) (h2 : l ≤ 280) :
    f.firstDigit (f.rnd (m * (10 : ℚ) ^ l)) = Unc.firstDigit (m * (10 : ℚ) ^ l) := by
  have hl := ten_pos l
  have hmq : (1 : ℚ) ≤ m := by exact_mod_cast hm
  have hmq2 : (m : ℚ) ≤ 10 ^ 12 := by exact_mod_cast hm2
  set r : ℚ := m * (10 : ℚ) ^ l with hr
  have hrl : (10 : ℚ) ^ l ≤ r := by rw [hr]; nlinarith
  have hrpos : 0 < r := hl.trans_le hrl
  obtain ⟨e1, e2⟩ := firstDigit_spec hrpos.ne'
  set d := Unc.firstDigit r with hd
  rw [abs_of_pos hrpos] at e1 e2
  have hld : l ≤ d := by have := ten_lt_iff.1 (hrl.trans_lt e2); omega
  have hru : r ≤ (10 : ℚ) ^ (l + 12) := by
    rw [hr, ten_add, mul_comm]
    refine mul_le_mul_of_nonneg_left ?_ hl.le
    calc (m : ℚ) ≤ 10 ^ 12 := hmq2
      _ = (10 : ℚ) ^ (12 : ℤ) := by norm_num
  have hdl : d ≤ l + 12 := ten_le_iff.1 (e1.trans hru)
  have hr1 : (10 : ℚ) ^ (-300 : ℤ) ≤ r := le_trans (ten_le_iff.2 (by omega)) hrl
  have hr2 : r ≤ (10 : ℚ) ^ (300 : ℤ) := hru.trans (ten_le_iff.2 (by omega))
  obtain ⟨b1, b2, b3⟩ := hf.rnd_bounds hr1 hr2
  unfold FlOps.firstDigit
  rw [if_neg b3.ne', abs_of_pos b3]
  by_cases heq : r = (10 : ℚ) ^ d
  · rw [heq]
    exact hf.log_pow d (by omega) (by omega)
  · obtain ⟨k, hk⟩ : ∃ k : ℕ, d = l + k := ⟨(d - l).toNat, by omega⟩
    have hk12 : k ≤ 12 := by omega
    have ed : (10 : ℚ) ^ d = 10 ^ k * (10 : ℚ) ^ l := by rw [hk, ten_add, zpow_natCast, mul_comm]
    have ed1 : (10 : ℚ) ^ (d + 1) = 10 ^ (k + 1) * (10 : ℚ) ^ l := by
      rw [show d + 1 = l + ((k + 1 : ℕ) : ℤ) by rw [hk]; push_cast; ring, ten_add, zpow_natCast, mul_comm]
    have m1 : (10 : ℤ) ^ k < m := by
      have : (10 : ℚ) ^ k * (10 : ℚ) ^ l < m * (10 : ℚ) ^ l := by
        rw [← ed, ← hr]
        exact lt_of_le_of_ne e1 (Ne.symm heq)
      have := lt_of_mul_lt_mul_right this hl.le
      exact_mod_cast this
    have m2 : m < (10 : ℤ) ^ (k + 1) := by
      have : (m : ℚ) * (10 : ℚ) ^ l < 10 ^ (k + 1) * (10 : ℚ) ^ l := by
        rw [← ed1, ← hr]
        exact e2
      have := lt_of_mul_lt_mul_right this hl.le
      exact_mod_cast this
    have hk11 : k ≤ 11 := by
      by_contra hc
      have : k = 12 := by omega
      subst this
      omega
    have p1 : (10 : ℚ) ^ k ≤ 10 ^ 11 := pow_le_pow_right₀ (by norm_num) hk11
    have p2 : (10 : ℚ) ^ (k + 1) ≤ 10 ^ 12 := pow_le_pow_right₀ (by norm_num) (by omega)
    have p0 : (0 : ℚ) < 10 ^ k := by positivity
    have q1 : (10 : ℚ) ^ k + 1 ≤ m := by exact_mod_cast m1
    have q2 : (m : ℚ) ≤ 10 ^ (k + 1) - 1 := by
      have : m ≤ 10 ^ (k + 1) - 1 := by omega
      exact_mod_cast this
    have up : f.rnd r < (10 : ℚ) ^ (d + 1) * (1 - 2 / 10 ^ 13) := by
      refine b2.trans_lt ?_
      rw [hr, ed1, mul_right_comm, mul_right_comm _ _ (1 - 2 / 10 ^ 13 : ℚ)]
      refine mul_lt_mul_of_pos_right ?_ hl
      nlinarith
    have dn : (10 : ℚ) ^ d ≤ f.rnd r := by
      refine le_trans ?_ b1
      rw [hr, ed, mul_right_comm]
      refine mul_le_mul_of_nonneg_right ?_ hl.le
      nlinarith
    refine le_antisymm (hf.log_le _ _ (by omega) ((ten_le_iff.2 (by omega)).trans dn) up)
      (hf.log_ge _ _ (by omega) ?_ dn)
    refine up.le.trans ?_
    refine le_trans ?_ (show (10 : ℚ) ^ (d + 1) ≤ (10 : ℚ) ^ (300 : ℤ) from ten_le_iff.2 (by omega))
    have := ten_pos (d + 1)
    nlinarith

/-- First digit of a float. -/
theorem firstDigit_cases (hf : f.Sound) {v : ℚ} (h1 : (10 : ℚ) ^ (-250 : ℤ) ≤ v) (h2 : v ≤ (10 : ℚ) ^ (250 : ℤ)) :
    f.firstDigit v = Unc.firstDigit v ∨
      f.firstDigit v = Unc.firstDigit v + 1 ∧ (10 : ℚ) ^ (Unc.firstDigit v + 1) * (1 - 2 / 10 ^ 13) ≤ v := by
  have hv : 0 < v := (ten_pos _).trans_le h1
  obtain ⟨e1, e2⟩ := firstDigit_spec hv.ne'
  rw [abs_of_pos hv] at e1 e2
  set d := Unc.firstDigit v with hd
  have d1 : -250 ≤ d := by have := ten_lt_iff.1 (h1.trans_lt e2); omega
  have d2 : d ≤ 250 := ten_le_iff.1 (e1.trans h2)
  have v1 : (10 : ℚ) ^ (-300 : ℤ) ≤ v := le_trans (ten_le_iff.2 (by omega)) h1
  have v2 : v ≤ (10 : ℚ) ^ (300 : ℤ) := h2.trans (ten_le_iff.2 (by omega))
  unfold FlOps.firstDigit
  rw [if_neg hv.ne', abs_of_pos hv]
  have g1 := hf.log_ge v d (by omega) v2 e1
  have g2 : f.logFloor v ≤ d + 1 := by
    refine hf.log_le v (d + 1) (by omega) v1 (e2.trans ?_)
    rw [ten_add (d + 1)]
    have := ten_pos (d + 1)
    rw [zpow_one]
    nlinarith
  by_cases h : v < (10 : ℚ) ^ (d + 1) * (1 - 2 / 10 ^ 13)
  · left
    exact le_antisymm (hf.log_le v d (by omega) v1 h) g1
  · rcases g1.lt_or_eq with h3 | h3
    · exact .inr ⟨by omega, not_lt.1 h⟩
    · exact .inl h3.symm

/-- The position of the last digit is right for at most 12 significant digits. -/
theorem signif_eq (hf : f.Sound) {v : ℚ} (h1 : (10 : ℚ) ^ (-250 : ℤ) ≤ v) (h2 : v ≤ (10 : ℚ) ^ (250 : ℤ)) {n : ℕ}
    (hn : 1 ≤ n) (hn2 : n ≤ 12) : f.signifDgtToLimit v n = Unc.signifDgtToLimit v n := by
  obtain ⟨k, rfl⟩ : ∃ k, n = k + 1 := ⟨n - 1, by omega⟩
  have hv : 0 < v := (ten_pos _).trans_le h1
  have hc := hf.firstDigit_cases h1 h2
  obtain ⟨s1, s2⟩ := firstDigit_spec hv.ne'
  rw [abs_of_pos hv] at s1 s2
  set d := Unc.firstDigit v with hd
  have d1 : -250 ≤ d := by have := ten_lt_iff.1 (h1.trans_lt s2); omega
  have d2 : d ≤ 250 := ten_le_iff.1 (s1.trans h2)
  have step : ∀ l : ℤ, -270 ≤ l → l ≤ 270 → 1 ≤ rhe (v / (10 : ℚ) ^ l) → rhe (v / (10 : ℚ) ^ l) ≤ 10 ^ 12 →
      f.firstDigit (f.round v (-l)) = Unc.firstDigit (pyRound v (-l)) := by
    intro l a1 a2 b1 b2
    unfold FlOps.round
    rw [pyRound_mul]
    exact hf.firstDigit_units b1 b2 (by omega) (by omega)
  set l : ℤ := d - (k + 1 : ℕ) + 1 with hl
  have hp := ten_pos l
  have e1 : (10 : ℚ) ^ d = (10 : ℚ) ^ k * (10 : ℚ) ^ l := by
    rw [← zpow_natCast, ← ten_add]; congr 1; rw [hl]; push_cast; ring
  have e2 : (10 : ℚ) ^ (d + 1) = (10 : ℚ) ^ (k + 1) * (10 : ℚ) ^ l := by
    rw [← zpow_natCast, ← ten_add]; congr 1; rw [hl]; push_cast; ring
  have b1 : (10 : ℚ) ^ k ≤ v / (10 : ℚ) ^ l := by rw [le_div_iff₀ hp, ← e1]; exact s1
  have b2 : v / (10 : ℚ) ^ l < (10 : ℚ) ^ (k + 1) := by rw [div_lt_iff₀ hp, ← e2]; exact s2
  have r1 : (10 : ℤ) ^ k ≤ rhe (v / (10 : ℚ) ^ l) := rhe_ge (by push_cast; exact b1)
  have r2 : rhe (v / (10 : ℚ) ^ l) ≤ (10 : ℤ) ^ (k + 1) := rhe_le (by push_cast; exact b2.le)
  have k1 : (1 : ℤ) ≤ 10 ^ k := one_le_pow₀ (by norm_num)
  have k2 : (10 : ℤ) ^ (k + 1) ≤ 10 ^ 12 := pow_le_pow_right₀ (by norm_num) hn2
  have k2' : (10 : ℚ) ^ (k + 1) ≤ 10 ^ 12 := pow_le_pow_right₀ (by norm_num) hn2
  rcases hc with hc | ⟨hc, hnear⟩
  · unfold FlOps.signifDgtToLimit Unc.signifDgtToLimit
    simp only [hc, ← hd, ← hl]
    rw [step l (by omega) (by omega) (by omega) (by omega)]
  · have hx : (10 : ℚ) ^ (k + 1) * (1 - 2 / 10 ^ 13) ≤ v / (10 : ℚ) ^ l := by
      rw [le_div_iff₀ hp, mul_right_comm, ← e2]
      exact hnear
    have r3 : rhe (v / (10 : ℚ) ^ l) = (10 : ℤ) ^ (k + 1) := by
      refine le_antisymm r2 ?_
      have hnr := rhe_near (v / (10 : ℚ) ^ l)
      rw [abs_le] at hnr
      have : (((10 : ℤ) ^ (k + 1) - 1 : ℤ) : ℚ) < rhe (v / (10 : ℚ) ^ l) := by
        push_cast
        nlinarith
      have : (10 : ℤ) ^ (k + 1) - 1 < rhe (v / (10 : ℚ) ^ l) := by exact_mod_cast this
      omega
    have e3 : v / (10 : ℚ) ^ (l + 1) = v / (10 : ℚ) ^ l / 10 := by
      rw [ten_add, zpow_one]; field_simp
    have r4 : rhe (v / (10 : ℚ) ^ (l + 1)) = (10 : ℤ) ^ k := by
      rw [e3]
      refine le_antisymm (rhe_le ?_) ?_
      · push_cast
        rw [pow_succ] at b2
        linarith
      · have hnr := rhe_near (v / (10 : ℚ) ^ l / 10)
        rw [abs_le] at hnr
        rw [pow_succ] at hx k2'
        have : (((10 : ℤ) ^ k - 1 : ℤ) : ℚ) < rhe (v / (10 : ℚ) ^ l / 10) := by
          push_cast
          nlinarith
        have : (10 : ℤ) ^ k - 1 < rhe (v / (10 : ℚ) ^ l / 10) := by exact_mod_cast this
        omega
    have hfd : Unc.firstDigit (pyRound v (-l)) = d + 1 := by
      rw [pyRound_mul, r3]
      push_cast
      rw [← e2]
      refine firstDigit_eq ⟨?_, ?_⟩
      · rw [abs_of_pos (ten_pos _)]
      · rw [abs_of_pos (ten_pos _)]; exact ten_lt_iff.2 (by omega)
    have hfd2 : Unc.firstDigit (pyRound v (-(l + 1))) = d + 1 := by
      rw [pyRound_mul, r4]
      push_cast
      rw [show (10 : ℚ) ^ k * (10 : ℚ) ^ (l + 1) = (10 : ℚ) ^ (d + 1) by
        rw [e2, ten_add, pow_succ, zpow_one]; ring]
      refine firstDigit_eq ⟨?_, ?_⟩
      · rw [abs_of_pos (ten_pos _)]
      · rw [abs_of_pos (ten_pos _)]; exact ten_lt_iff.2 (by omega)
    unfold FlOps.signifDgtToLimit Unc.signifDgtToLimit
    simp only [hc, ← hd, ← hl]
    rw [show d + 1 - ((k + 1 : ℕ) : ℤ) + 1 = l + 1 by rw [hl]; ring]
    have k3 : (10 : ℤ) ^ k ≤ 10 ^ 12 := pow_le_pow_right₀ (by norm_num) (by omega)
    rw [step (l + 1) (by omega) (by omega) (by omega) (by omega), hfd, hfd2, if_neg (lt_irrefl _), if_pos (by omega)]

end FlOps.Sound

/-! ### Relative errors -/

/-- `q` is the positive number `b` up to a relative error `a`. -/
def Within (a q b : ℚ) : Prop := b * (1 - a) ≤ q ∧ q ≤ b * (1 + a)

theorem Within.refl {b : ℚ} : Within 0 b b := by
  unfold Within
  simp

theorem Within.mul {a q b : ℚ} (h : Within a q b) {k : ℚ} (hk : 0 < k) : Within a (q * k) (b * k) := by
  unfold Within at *
  constructor
  · rw [mul_right_comm]
    exact mul_le_mul_of_nonneg_right h.1 hk.le
  · rw [mul_right_comm]
    exact mul_le_mul_of_nonneg_right h.2 hk.le

theorem Within.abs {a q b : ℚ} (h : Within a q b) : |q - b| ≤ b * a := by
  unfold Within at h
  rw [abs_le]
  constructor <;> linarith [h.1, h.2]

theorem Within.of_abs {a q b : ℚ} (h : |q - b| ≤ b * a) : Within a q b := by
  rw [abs_le] at h
  unfold Within
  constructor <;> linarith [h.1, h.2]

theorem Within.weaken {a a' q b : ℚ} (h : Within a q b) (hb : 0 ≤ b) (ha : a ≤ a') : Within a' q b := by
  unfold Within at *
  constructor
  · refine le_trans (mul_le_mul_of_nonneg_left ?_ hb) h.1
    linarith
  · refine h.2.trans (mul_le_mul_of_nonneg_left ?_ hb)
    linarith

namespace FlOps.Sound

variable {f : FlOps}

theorem within_rnd (hf : f.Sound) {a q b : ℚ} (h : Within a q b) (h0 : 0 ≤ a) (h1 : a ≤ 1 / 100)
    (hb : (10 : ℚ) ^ (-299 : ℤ) ≤ b) (hb2 : b ≤ (10 : ℚ) ^ (299 : ℤ)) : Within (a + 2 / 10 ^ 15) (f.rnd q) b := by
  have hbp : 0 < b := (ten_pos _).trans_le hb
  obtain ⟨c1, c2⟩ := h
  have e1 : (10 : ℚ) ^ (-299 : ℤ) = (10 : ℚ) ^ (-300 : ℤ) * 10 := by
    rw [show (-299 : ℤ) = -300 + 1 by norm_num, ten_add, zpow_one]
  have e2 : (10 : ℚ) ^ (300 : ℤ) = (10 : ℚ) ^ (299 : ℤ) * 10 := by
    rw [show (300 : ℤ) = 299 + 1 by norm_num, ten_add, zpow_one]
  have t0 := ten_pos (-300)
  have q1 : (10 : ℚ) ^ (-300 : ℤ) ≤ q := by nlinarith
  have q2 : q ≤ (10 : ℚ) ^ (300 : ℤ) := by
    have h3 : b * (1 + a) ≤ b * 10 := mul_le_mul_of_nonneg_left (by linarith) hbp.le
    rw [e2]
    linarith
  obtain ⟨d1, d2, -⟩ := hf.rnd_bounds q1 q2
  constructor
  · refine le_trans ?_ d1
    have : b * (1 - a) * (1 - 1 / 10 ^ 15) ≤ q * (1 - 1 / 10 ^ 15) := mul_le_mul_of_nonneg_right c1 (by norm_num)
    refine le_trans ?_ this
    rw [mul_assoc]
    refine mul_le_mul_of_nonneg_left ?_ hbp.le
    nlinarith
  · refine d2.trans ?_
    have : q * (1 + 1 / 10 ^ 15) ≤ b * (1 + a) * (1 + 1 / 10 ^ 15) := mul_le_mul_of_nonneg_right c2 (by norm_num)
    refine this.trans ?_
    rw [mul_assoc]
    refine mul_le_mul_of_nonneg_left ?_ hbp.le
    nlinarith

theorem within_ten (hf : f.Sound) {e : ℤ} (h1 : -300 ≤ e) (h2 : e ≤ 300) : Within (1 / 10 ^ 15) (f.ten e) ((10 : ℚ) ^ e) := by
  obtain ⟨a, b, -⟩ := hf.ten_bounds h1 h2
  exact ⟨a, b⟩

theorem within_div (hf : f.Sound) {a q b : ℚ} (h : Within a q b) (hb : 0 ≤ b) (h0 : 0 ≤ a) (ha : a ≤ 1 / 100) {e : ℤ}
    (h1 : -300 ≤ e) (h2 : e ≤ 300) : Within (a + 2 / 10 ^ 15) (q * (1 / f.ten e)) (b / (10 : ℚ) ^ e) := by
  obtain ⟨t1, t2, t3⟩ := hf.ten_bounds h1 h2
  have hp := ten_pos e
  obtain ⟨c1, c2⟩ := h
  rw [mul_one_div]
  have hq : 0 ≤ q := by nlinarith
  constructor
  · rw [le_div_iff₀ t3]
    calc b / (10 : ℚ) ^ e * (1 - (a + 2 / 10 ^ 15)) * f.ten e
        ≤ b / (10 : ℚ) ^ e * (1 - (a + 2 / 10 ^ 15)) * ((10 : ℚ) ^ e * (1 + 1 / 10 ^ 15)) := by
          refine mul_le_mul_of_nonneg_left t2 (mul_nonneg (div_nonneg hb hp.le) ?_)
          linarith
      _ = b * ((1 - (a + 2 / 10 ^ 15)) * (1 + 1 / 10 ^ 15)) := by field_simp
      _ ≤ b * (1 - a) := mul_le_mul_of_nonneg_left (by nlinarith) hb
      _ ≤ q := c1
  · rw [div_le_iff₀ t3]
    calc q ≤ b * (1 + a) := c2
      _ ≤ b * ((1 + (a + 2 / 10 ^ 15)) * (1 - 1 / 10 ^ 15)) := mul_le_mul_of_nonneg_left (by nlinarith) hb
      _ = b / (10 : ℚ) ^ e * (1 + (a + 2 / 10 ^ 15)) * ((10 : ℚ) ^ e * (1 - 1 / 10 ^ 15)) := by field_simp
      _ ≤ b / (10 : ℚ) ^ e * (1 + (a + 2 / 10 ^ 15)) * f.ten e := by
          refine mul_le_mul_of_nonneg_left t1 (mul_nonneg (div_nonneg hb hp.le) ?_)
          linarith

/-- The calculation of `digits` in `PDG_precision`, and of the power of ten. -/
theorem pdg_within (hf : f.Sound) {S : ℚ} {e : ℤ} (h1 : -245 ≤ e) (h2 : e ≤ 245) (hS : (10 : ℚ) ^ e ≤ 2 * S)
    (hS2 : S ≤ (10 : ℚ) ^ (e + 1)) :
    Within (6 / 10 ^ 15) (f.rnd (f.rnd (S / f.ten (if 0 ≤ e then ((e - 2, 1) : ℤ × ℚ) else (e + 1, 1000)).1) *
        (if 0 ≤ e then ((e - 2, 1) : ℤ × ℚ) else (e + 1, 1000)).2)) (S / (10 : ℚ) ^ (e - 2)) ∧
      Within (4 / 10 ^ 15) (f.rnd (f.ten (if 0 ≤ e then ((e - 2, 1) : ℤ × ℚ) else (e + 1, 1000)).1 *
        (1000 / (if 0 ≤ e then ((e - 2, 1) : ℤ × ℚ) else (e + 1, 1000)).2))) ((10 : ℚ) ^ (e + 1)) := by
  have hS0 : 0 < S := by linarith [ten_pos e]
  have key : ∀ (E : ℤ) (F : ℚ), 1 ≤ F → F ≤ 1000 → (10 : ℚ) ^ E = F * (10 : ℚ) ^ (e - 2) → -300 ≤ E → E ≤ 300 →
      Within (6 / 10 ^ 15) (f.rnd (f.rnd (S / f.ten E) * F)) (S / (10 : ℚ) ^ (e - 2)) ∧
      Within (4 / 10 ^ 15) (f.rnd (f.ten E * (1000 / F))) ((10 : ℚ) ^ (e + 1)) := by
    intro E F hF1 hF2 hEF hE1 hE2
    have hF : 0 < F := by linarith
    have hp := ten_pos (e - 2)
    have ee : (10 : ℚ) ^ e = 100 * (10 : ℚ) ^ (e - 2) := by
      rw [show (100 : ℚ) = (10 : ℚ) ^ (2 : ℤ) by norm_num, ← ten_add]; congr 1; ring
    have ee1 : (10 : ℚ) ^ (e + 1) = 1000 * (10 : ℚ) ^ (e - 2) := by
      rw [show (1000 : ℚ) = (10 : ℚ) ^ (3 : ℤ) by norm_num, ← ten_add]; congr 1; ring
    have big1 : (10 : ℚ) ^ (-299 : ℤ) ≤ 1 / 1000 := by
      rw [show (1 / 1000 : ℚ) = (10 : ℚ) ^ (-3 : ℤ) by norm_num]
      exact ten_le_iff.2 (by norm_num)
    have big2 : (1000 : ℚ) ≤ (10 : ℚ) ^ (299 : ℤ) := by
      rw [show (1000 : ℚ) = (10 : ℚ) ^ (3 : ℤ) by norm_num]
      exact ten_le_iff.2 (by norm_num)
    have y1 : (50 : ℚ) ≤ S / (10 : ℚ) ^ (e - 2) := by rw [le_div_iff₀ hp]; linarith
    have y2 : S / (10 : ℚ) ^ (e - 2) ≤ 1000 := by rw [div_le_iff₀ hp]; linarith
    have yE : S / (10 : ℚ) ^ E = S / (10 : ℚ) ^ (e - 2) / F := by rw [hEF]; field_simp
    have z1 : 1 / 1000 ≤ S / (10 : ℚ) ^ E := by
      rw [yE, le_div_iff₀ hF]; linarith
    have z2 : S / (10 : ℚ) ^ E ≤ 1000 := by
      rw [yE, div_le_iff₀ hF]; nlinarith
    constructor
    · have w1 := hf.within_div (Within.refl (b := S)) hS0.le le_rfl (by norm_num) hE1 hE2
      rw [mul_one_div] at w1
      have w2 := hf.within_rnd w1 (by norm_num) (by norm_num) (big1.trans z1) (z2.trans big2)
      have w3 := w2.mul hF
      rw [yE, div_mul_cancel₀ _ hF.ne'] at w3
      have w4 := hf.within_rnd w3 (by norm_num) (by norm_num) (by linarith) (y2.trans big2)
      exact w4.weaken (by positivity) (by norm_num)
    · have w1 := (hf.within_ten hE1 hE2).mul (k := 1000 / F) (by positivity)
      rw [show (10 : ℚ) ^ E * (1000 / F) = (10 : ℚ) ^ (e + 1) by rw [hEF, ee1]; field_simp] at w1
      have w2 := hf.within_rnd w1 (by norm_num) (by norm_num) (ten_le_iff.2 (by omega)) (ten_le_iff.2 (by omega))
      exact w2.weaken (ten_pos _).le (by norm_num)
  by_cases he : 0 ≤ e
  · simp only [if_pos he]
    exact key (e - 2) 1 le_rfl (by norm_num) (by ring) (by omega) (by omega)
  · simp only [if_neg he]
    refine key (e + 1) 1000 (by norm_num) le_rfl ?_ (by omega) (by omega)
    rw [show (1000 : ℚ) = (10 : ℚ) ^ (3 : ℤ) by norm_num, ← ten_add]; congr 1; ring

/-- The rules of the Particle Data Group are applied to a number that is the uncertainty up to a very small relative error. -/
theorem pdg_cases (hf : f.Sound) {S : ℚ} (h1 : (10 : ℚ) ^ (-240 : ℤ) ≤ S) (h2 : S ≤ (10 : ℚ) ^ (240 : ℤ)) :
    ∃ (v : ℚ) (t : ℕ) (d : ℤ) (P : ℚ), |v - S| ≤ S * (3 / 10 ^ 13) ∧ LeadingDigits v t d ∧ Within (4 / 10 ^ 15) P ((10 : ℚ) ^ (d + 1)) ∧
      f.pdgPrecision S = if t ≤ 354 then (2, S) else if t ≤ 949 then (1, S) else (2, P) := by
  have hS : 0 < S := (ten_pos _).trans_le h1
  have hc := hf.firstDigit_cases (le_trans (ten_le_iff.2 (by norm_num)) h1) (h2.trans (ten_le_iff.2 (by norm_num)))
  obtain ⟨s1, s2⟩ := firstDigit_spec hS.ne'
  rw [abs_of_pos hS] at s1 s2
  set d := Unc.firstDigit S with hd
  have d1 : -240 ≤ d := by have := ten_lt_iff.1 (h1.trans_lt s2); omega
  have d2 : d ≤ 240 := ten_le_iff.1 (s1.trans h2)
  have tr : ∀ {Y : ℚ} {t : ℕ}, (t : ℚ) ≤ Y → Y < t + 1 → truncQ Y = t := by
    intro Y t a b
    have : (0 : ℚ) ≤ t := Nat.cast_nonneg t
    rw [truncQ, if_neg (by linarith), Int.floor_eq_iff]
    exact ⟨by exact_mod_cast a, by exact_mod_cast b⟩
  unfold FlOps.pdgPrecision
  simp only []
  rcases hc with hc | ⟨hc, hnear⟩
  · rw [hc]
    obtain ⟨wY, wP⟩ := hf.pdg_within (S := S) (e := d) (by omega) (by omega) (by linarith) s2.le
    generalize f.rnd (f.rnd (S / f.ten (if 0 ≤ d then ((d - 2, 1) : ℤ × ℚ) else (d + 1, 1000)).1) *
        (if 0 ≤ d then ((d - 2, 1) : ℤ × ℚ) else (d + 1, 1000)).2) = Y at wY ⊢
    generalize f.rnd (f.ten (if 0 ≤ d then ((d - 2, 1) : ℤ × ℚ) else (d + 1, 1000)).1 *
        (1000 / (if 0 ≤ d then ((d - 2, 1) : ℤ × ℚ) else (d + 1, 1000)).2)) = P at wP ⊢
    have hp := ten_pos (d - 2)
    have ee : (10 : ℚ) ^ d = 100 * (10 : ℚ) ^ (d - 2) := by
      rw [show (100 : ℚ) = (10 : ℚ) ^ (2 : ℤ) by norm_num, ← ten_add]; congr 1; ring
    have ee1 : (10 : ℚ) ^ (d + 1) = 1000 * (10 : ℚ) ^ (d - 2) := by
      rw [show (1000 : ℚ) = (10 : ℚ) ^ (3 : ℤ) by norm_num, ← ten_add]; congr 1; ring
    have y1 : (100 : ℚ) ≤ S / (10 : ℚ) ^ (d - 2) := by rw [le_div_iff₀ hp]; linarith
    have y2 : S / (10 : ℚ) ^ (d - 2) < 1000 := by rw [div_lt_iff₀ hp]; linarith
    obtain ⟨t0, dd, hld⟩ := exists_leading hS
    obtain rfl : d = dd := (firstDigit_eq hld.exponent.1)
    obtain ⟨l1, l2, l3, l4⟩ := hld
    obtain ⟨Y1, Y2⟩ := wY
    by_cases c1 : Y < 100
    · -- slightly below 100
      have ht : t0 ≤ 354 := by
        have : (t0 : ℚ) < 101 := by
          have : S / (10 : ℚ) ^ (d - 2) < 101 := by nlinarith
          rw [div_lt_iff₀ hp] at this
          have := lt_of_mul_lt_mul_right (l3.trans_lt this) hp.le
          exact this
        have : t0 < 101 := by exact_mod_cast this
        omega
      have h99 : truncQ Y = (99 : ℕ) := tr (by push_cast; linarith) (by push_cast; linarith)
      refine ⟨S, t0, d, P, by simp; positivity, ⟨l1, l2, l3, l4⟩, wP, ?_⟩
      rw [if_pos ht, h99, if_pos (by norm_num)]
    · by_cases c2 : Y < 1000
      · obtain ⟨t, ht⟩ : ∃ t : ℕ, (t : ℤ) = ⌊Y⌋ := ⟨_, Int.toNat_of_nonneg (Int.le_floor.2 (by push_cast; linarith))⟩
        have f1 := Int.floor_le Y
        have f2 := Int.lt_floor_add_one Y
        rw [← ht] at f1 f2
        have f3 : (100 : ℤ) ≤ ⌊Y⌋ := Int.le_floor.2 (by push_cast; linarith)
        have f4 : ⌊Y⌋ < (1000 : ℤ) := Int.floor_lt.2 (by push_cast; linarith)
        rw [tr (by exact_mod_cast f1) (by exact_mod_cast f2)]
        refine ⟨Y * (10 : ℚ) ^ (d - 2), t, d, P, ?_, ⟨by omega, by omega, ?_, ?_⟩, wP, ?_⟩
        · have hSy : S = S / (10 : ℚ) ^ (d - 2) * (10 : ℚ) ^ (d - 2) := by field_simp
          have hab : |Y - S / (10 : ℚ) ^ (d - 2)| ≤ S / (10 : ℚ) ^ (d - 2) * (6 / 10 ^ 15) := Within.abs ⟨Y1, Y2⟩
          have : |Y * (10 : ℚ) ^ (d - 2) - S| = |Y - S / (10 : ℚ) ^ (d - 2)| * (10 : ℚ) ^ (d - 2) := by
            conv_lhs => rw [hSy, ← sub_mul, abs_mul, abs_of_pos hp]
          rw [this]
          calc |Y - S / (10 : ℚ) ^ (d - 2)| * (10 : ℚ) ^ (d - 2) ≤ S / (10 : ℚ) ^ (d - 2) * (6 / 10 ^ 15) * (10 : ℚ) ^ (d - 2) :=
                mul_le_mul_of_nonneg_right hab hp.le
            _ = S * (6 / 10 ^ 15) := by field_simp
            _ ≤ S * (3 / 10 ^ 13) := by linarith
        · exact mul_le_mul_of_nonneg_right (by exact_mod_cast f1) hp.le
        · exact mul_lt_mul_of_pos_right (by exact_mod_cast f2) hp
        · split_ifs <;> first | rfl | omega
      · -- slightly above 1000
        have ht : 950 ≤ t0 := by
          have : (950 : ℚ) < t0 + 1 := by
            have : (950 : ℚ) < S / (10 : ℚ) ^ (d - 2) := by nlinarith
            rw [lt_div_iff₀ hp] at this
            exact lt_of_mul_lt_mul_right (this.trans l4) hp.le
          have : 950 < t0 + 1 := by exact_mod_cast this
          omega
        have h1000 : truncQ Y = (1000 : ℕ) := tr (by push_cast; linarith) (by push_cast; linarith)
        refine ⟨S, t0, d, P, by simp; positivity, ⟨l1, l2, l3, l4⟩, wP, ?_⟩
        rw [if_neg (show ¬ t0 ≤ 354 by omega), if_neg (show ¬ t0 ≤ 949 by omega), h1000, if_neg (by norm_num), if_neg (by norm_num)]
  · rw [hc]
    have e1 : (10 : ℚ) ^ (d + 1) = 10 * (10 : ℚ) ^ d := by rw [ten_add, zpow_one, mul_comm]
    obtain ⟨wY, wP⟩ := hf.pdg_within (S := S) (e := d + 1) (by omega) (by omega) (by linarith [ten_pos (d + 1)])
      (s2.le.trans (ten_le_iff.2 (by omega)))
    generalize f.rnd (f.rnd (S / f.ten (if 0 ≤ d + 1 then ((d + 1 - 2, 1) : ℤ × ℚ) else (d + 1 + 1, 1000)).1) *
        (if 0 ≤ d + 1 then ((d + 1 - 2, 1) : ℤ × ℚ) else (d + 1 + 1, 1000)).2) = Y at wY ⊢
    generalize f.rnd (f.ten (if 0 ≤ d + 1 then ((d + 1 - 2, 1) : ℤ × ℚ) else (d + 1 + 1, 1000)).1 *
        (1000 / (if 0 ≤ d + 1 then ((d + 1 - 2, 1) : ℤ × ℚ) else (d + 1 + 1, 1000)).2)) = P at wP ⊢
    have hp := ten_pos (d + 1 - 2)
    have ee : (10 : ℚ) ^ (d + 1) = 100 * (10 : ℚ) ^ (d + 1 - 2) := by
      rw [show (100 : ℚ) = (10 : ℚ) ^ (2 : ℤ) by norm_num, ← ten_add]; congr 1; ring
    have y2 : S / (10 : ℚ) ^ (d + 1 - 2) < 100 := by rw [div_lt_iff₀ hp]; linarith
    have hY : truncQ Y ≤ 354 := by
      have hYu : Y < 101 := by
        have := wY.2
        nlinarith
      unfold truncQ
      split_ifs with h0
      · have : ⌈Y⌉ ≤ (0 : ℤ) := Int.ceil_le.2 (by push_cast; linarith)
        omega
      · have : ⌊Y⌋ < (101 : ℤ) := Int.floor_lt.2 (by push_cast; linarith)
        omega
    refine ⟨(10 : ℚ) ^ (d + 1), 100, d + 1, P, ?_, ⟨le_rfl, by norm_num, ?_, ?_⟩, wP, ?_⟩
    · rw [abs_le]
      constructor <;> nlinarith
    · rw [ee]; norm_num
    · rw [ee]; push_cast; linarith
    · rw [if_pos hY, if_pos (by norm_num)]

theorem within_mul_ten (hf : f.Sound) {a q b : ℚ} (h : Within a q b) (hb : 0 ≤ b) (h0 : 0 ≤ a) (ha : a ≤ 1 / 100) {e : ℤ}
    (h1 : -300 ≤ e) (h2 : e ≤ 300) : Within (a + 2 / 10 ^ 15) (q * f.ten e) (b * (10 : ℚ) ^ e) := by
  obtain ⟨t1, t2, t3⟩ := hf.ten_bounds h1 h2
  have hp := ten_pos e
  obtain ⟨c1, c2⟩ := h
  have hq : 0 ≤ q := by nlinarith
  constructor
  · calc b * (10 : ℚ) ^ e * (1 - (a + 2 / 10 ^ 15)) ≤ b * (10 : ℚ) ^ e * ((1 - a) * (1 - 1 / 10 ^ 15)) :=
          mul_le_mul_of_nonneg_left (by nlinarith) (mul_nonneg hb hp.le)
      _ = b * (1 - a) * ((10 : ℚ) ^ e * (1 - 1 / 10 ^ 15)) := by ring
      _ ≤ q * ((10 : ℚ) ^ e * (1 - 1 / 10 ^ 15)) := mul_le_mul_of_nonneg_right c1 (mul_nonneg hp.le (by norm_num))
      _ ≤ q * f.ten e := mul_le_mul_of_nonneg_left t1 hq
  · calc q * f.ten e ≤ q * ((10 : ℚ) ^ e * (1 + 1 / 10 ^ 15)) := mul_le_mul_of_nonneg_left t2 hq
      _ ≤ b * (1 + a) * ((10 : ℚ) ^ e * (1 + 1 / 10 ^ 15)) := mul_le_mul_of_nonneg_right c2 (mul_nonneg hp.le (by norm_num))
      _ = b * (10 : ℚ) ^ e * ((1 + a) * (1 + 1 / 10 ^ 15)) := by ring
      _ ≤ b * (10 : ℚ) ^ e * (1 + (a + 2 / 10 ^ 15)) :=
          mul_le_mul_of_nonneg_left (by nlinarith) (mul_nonneg hb hp.le)

end FlOps.Sound

end Unc
