import Verif.Spec.General
import Verif.Lemmas.FormatSpecial
import Verif.Lemmas.ParsePm

/-!
# Numbers printed by Python's general formats and `repr`
-/

set_option autoImplicit false

namespace Unc

/-- The exponent printed by Python. -/
def ETail (x : Str) (e : Option ℤ) : Prop :=
  (e = none ∧ x = []) ∨ ∃ c n, (c = 'e' ∨ c = 'E') ∧ e = some n ∧ x = c :: expDigits n

theorem ETail.opt {x : Str} {e : Option ℤ} (h : ETail x e) : OptExp x e := by
  rcases h with ⟨rfl, rfl⟩ | ⟨c, n, rfl | rfl, rfl, rfl⟩
  · rfl
  · exact .e _ _ (plainInt_expDigits n)
  · exact .E _ _ (plainInt_expDigits n)

/-- The parts of a printed number are worth `v`. -/
def PartsVal (ip rest : Str) (v : ℚ) : Prop :=
  AllD ip ∧ ip ≠ [] ∧ ∃ (fp x : Str) (e : Option ℤ), rest = (if fp.length = 0 then [] else '.' :: fp) ++ x ∧ AllD fp ∧ ETail x e ∧
    v = digitsVal (ip ++ fp) / (10 : ℚ) ^ fp.length * (10 : ℚ) ^ e.getD 0

theorem plainDigits_val {ds : Str} (hd : AllD ds) (hne : ds ≠ []) (x : ℤ) (dot0 : Bool) :
    PartsVal (plainDigits ds x dot0).1 (plainDigits ds x dot0).2 (digitsVal ds * (10 : ℚ) ^ (x + 1 - ds.length)) := by
  have hten : (10 : ℚ) ≠ 0 := by norm_num
  unfold plainDigits
  split
  · rename_i hx
    obtain ⟨n, rfl⟩ := Int.eq_ofNat_of_zero_le hx
    have hn : ((n : ℤ).toNat) = n := by simp
    simp only [Int.ofNat_eq_natCast, hn]
    have htake : AllD (ds.take (n + 1)) := fun c hc => hd c (List.mem_of_mem_take hc)
    have hdrop : AllD (ds.drop (n + 1)) := fun c hc => hd c (List.mem_of_mem_drop hc)
    by_cases hl : ds.length ≤ n + 1
    · have h1 : ds.drop (n + 1) = [] := List.drop_eq_nil_of_le hl
      have h2 : ds.take (n + 1) = ds := List.take_of_length_le hl
      rw [h1, h2, if_pos rfl]
      refine ⟨hd.append (AllD.replicate _), by simp [hne], ?_⟩
      have hv : (digitsVal (ds ++ List.replicate (n + 1 - ds.length) '0') : ℚ) =
          digitsVal ds * (10 : ℚ) ^ ((n : ℤ) + 1 - ds.length) := by
        rw [digitsVal_append, digitsVal_zeros, List.length_replicate]
        push_cast
        rw [add_zero, ← zpow_natCast]
        congr 2
        omega
      cases dot0 with
      | false =>
        refine ⟨[], [], none, by simp, AllD.nil, .inl ⟨rfl, rfl⟩, ?_⟩
        simp [hv]
      | true =>
        refine ⟨['0'], [], none, by simp, AllD.replicate 1, .inl ⟨rfl, rfl⟩, ?_⟩
        rw [digitsVal_append, digitsVal_single]
        simp only [show digitVal '0' = 0 from rfl, List.length_singleton, pow_one, Nat.cast_add, Nat.cast_mul, hv]
        simp
    · have hlen : (ds.drop (n + 1)).length = ds.length - (n + 1) := List.length_drop
      have h1 : ds.drop (n + 1) ≠ [] := by
        intro h
        rw [h] at hlen
        simp at hlen
        omega
      rw [if_neg h1]
      have h2 : n + 1 - ds.length = 0 := by omega
      rw [h2, List.replicate_zero, List.append_nil]
      refine ⟨htake, by simp [hne], ds.drop (n + 1), [], none, ?_, hdrop, .inl ⟨rfl, rfl⟩, ?_⟩
      · rw [if_neg (by rw [hlen]; omega)]; simp
      · rw [List.take_append_drop, hlen]
        simp only [Option.getD_none, zpow_zero, mul_one]
        rw [div_eq_mul_inv, ← zpow_natCast, ← zpow_neg]
        congr 2
        omega
  · rename_i hx
    refine ⟨AllD.replicate 1, by simp, List.replicate ((-x).toNat - 1) '0' ++ ds, [], none, ?_, (AllD.replicate _).append hd, .inl ⟨rfl, rfl⟩, ?_⟩
    · rw [if_neg]
      · simp
      · simp [hne]
    · have : digitsVal (['0'] ++ (List.replicate ((-x).toNat - 1) '0' ++ ds)) = digitsVal ds := by
        rw [show (['0'] : Str) = List.replicate 1 '0' from rfl, digitsVal_zeros_append, digitsVal_zeros_append]
      rw [this]
      simp only [Option.getD_none, zpow_zero, mul_one, List.length_append, List.length_replicate]
      rw [div_eq_mul_inv, ← zpow_natCast, ← zpow_neg]
      congr 2
      push_cast
      omega

theorem expNotation_val {ds : Str} (hd : AllD ds) (hne : ds ≠ []) (x : ℤ) {c : Char} (hc : c = 'e' ∨ c = 'E') :
    PartsVal (expNotation ds x c).1 (expNotation ds x c).2 (digitsVal ds * (10 : ℚ) ^ (x + 1 - ds.length)) := by
  unfold expNotation
  have htake : AllD (ds.take 1) := fun c hc => hd c (List.mem_of_mem_take hc)
  have hdrop : AllD (ds.drop 1) := fun c hc => hd c (List.mem_of_mem_drop hc)
  have hlen : (ds.drop 1).length = ds.length - 1 := List.length_drop
  have hpos : 0 < ds.length := List.length_pos_of_ne_nil hne
  refine ⟨htake, by simp [hne], ds.drop 1, c :: expDigits x, some x, ?_, hdrop, .inr ⟨c, x, hc, rfl, rfl⟩, ?_⟩
  · have : (ds.drop 1 = []) ↔ (ds.drop 1).length = 0 := List.length_eq_zero_iff.symm
    by_cases h : ds.drop 1 = []
    · rw [if_pos h, if_pos (this.mp h)]
    · rw [if_neg h, if_neg (fun hh => h (this.mpr hh))]
  · rw [List.take_append_drop, hlen]
    simp only [Option.getD_some]
    rw [div_eq_mul_inv, ← zpow_natCast, ← zpow_neg, mul_assoc, ← zpow_add₀ ten_ne]
    congr 2
    omega

theorem dropTrailingZeros_spec {ds : Str} (hd : AllD ds) (hne : ds ≠ []) :
    AllD (dropTrailingZeros ds) ∧ dropTrailingZeros ds ≠ [] ∧ ∃ k, ds = dropTrailingZeros ds ++ List.replicate k '0' := by
  cases ds with
  | nil => exact absurd rfl hne
  | cons c s =>
    unfold dropTrailingZeros
    have hsplit : ∃ k, s = (s.reverse.dropWhile (· == '0')).reverse ++ List.replicate k '0' := by
      have h1 := List.takeWhile_append_dropWhile (p := (· == '0')) (l := s.reverse)
      have h2 : s.reverse.takeWhile (· == '0') = List.replicate (s.reverse.takeWhile (· == '0')).length '0' := by
        apply List.eq_replicate_of_mem
        intro b hb
        have hall := List.all_takeWhile (p := (· == '0')) (l := s.reverse)
        have := List.all_eq_true.mp hall b hb
        simpa using this
      refine ⟨(s.reverse.takeWhile (· == '0')).length, ?_⟩
      have h3 := congrArg List.reverse h1
      rw [List.reverse_append, List.reverse_reverse] at h3
      conv_lhs => rw [← h3]
      rw [h2]
      simp
    obtain ⟨k, hk⟩ := hsplit
    refine ⟨?_, by simp, k, ?_⟩
    · intro d hdm
      apply hd d
      rcases List.mem_cons.mp hdm with rfl | h
      · exact List.mem_cons_self
      · refine List.mem_cons_of_mem _ ?_
        rw [hk]
        exact List.mem_append_left _ h
    · rw [List.cons_append, ← hk]

theorem dropTrailingZeros_val {ds : Str} (hd : AllD ds) (hne : ds ≠ []) (x : ℤ) :
    (digitsVal (dropTrailingZeros ds) : ℚ) * (10 : ℚ) ^ (x + 1 - (dropTrailingZeros ds).length) =
      digitsVal ds * (10 : ℚ) ^ (x + 1 - ds.length) := by
  obtain ⟨-, -, k, hk⟩ := dropTrailingZeros_spec hd hne
  generalize dropTrailingZeros ds = t at hk ⊢
  rw [hk, digitsVal_append, digitsVal_zeros]
  simp only [List.length_append, List.length_replicate]
  push_cast
  rw [add_zero, mul_assoc, ← zpow_natCast, ← zpow_add₀ ten_ne]
  congr 2
  omega

/-- Rounding to significant digits. -/
theorem sigDigits_spec {a : ℚ} (ha : 0 < a) {p : ℕ} (hp : 0 < p) :
    (sigDigits a p).1 < 10 ^ p ∧
      ∃ m : ℕ, ((sigDigits a p).1 : ℚ) * (10 : ℚ) ^ ((sigDigits a p).2 + 1 - p) = m * (10 : ℚ) ^ (firstDigit a - p + 1) ∧
        |a - m * (10 : ℚ) ^ (firstDigit a - p + 1)| ≤ (10 : ℚ) ^ (firstDigit a - p + 1) / 2 := by
  have hx := firstDigit_spec ha.ne'
  set x := firstDigit a with hxd
  have hu := ten_pos (x - p + 1)
  set u := (10 : ℚ) ^ (x - p + 1) with hud
  have hn0 : 0 ≤ rhe (a / u) := rhe_nonneg (by positivity)
  have hnear := rhe_near (a / u)
  have habs : ((rhe (a / u)).natAbs : ℚ) = (rhe (a / u) : ℚ) := by
    have : ((rhe (a / u)).natAbs : ℤ) = rhe (a / u) := Int.natAbs_of_nonneg hn0
    have h2 := congrArg (Int.cast : ℤ → ℚ) this
    rwa [Int.cast_natCast] at h2
  have hle : rhe (a / u) ≤ ((10 ^ p : ℕ) : ℤ) := by
    apply rhe_le
    rw [div_le_iff₀ hu]
    have h2 := hx.2
    rw [abs_of_pos ha] at h2
    have : ((((10 ^ p : ℕ) : ℤ)) : ℚ) * u = (10 : ℚ) ^ (x + 1) := by
      push_cast
      rw [hud, ← zpow_natCast, ← zpow_add₀ ten_ne]
      congr 1
      ring
    rw [this]
    exact h2.le
  have hle' : (rhe (a / u)).natAbs ≤ 10 ^ p := by omega
  have herr : |a - (rhe (a / u)).natAbs * u| ≤ u / 2 := by
    rw [habs]
    have : a - (rhe (a / u) : ℚ) * u = (a / u - rhe (a / u)) * u := by field_simp
    rw [this, abs_mul, abs_of_pos hu]
    nlinarith [abs_nonneg (a / u - rhe (a / u))]
  have hdef : sigDigits a p = if (rhe (a / u)).natAbs = 10 ^ p then (10 ^ (p - 1), x + 1) else ((rhe (a / u)).natAbs, x) := by
    unfold sigDigits
    rw [if_neg ha.ne']
  rw [hdef]
  split
  · rename_i he
    refine ⟨Nat.pow_lt_pow_right (by norm_num) (by omega), 10 ^ p, ?_, by rw [he] at herr; exact_mod_cast herr⟩
    simp only [hud]
    push_cast
    rw [← zpow_natCast, ← zpow_natCast, ← zpow_add₀ ten_ne, ← zpow_add₀ ten_ne]
    congr 1
    omega
  · rename_i he
    refine ⟨by simp only; omega, (rhe (a / u)).natAbs, ?_, herr⟩
    simp only [hud]
    congr 2
    ring

/-- The type `g`, for a number that is not negative. -/
theorem finiteParts_g {a : ℚ} (ha : 0 ≤ a) {c : Char} (hc : c = 'g' ∨ c = 'G') :
    ∃ v, PartsVal (finiteParts a (some c) none).1 (finiteParts a (some c) none).2 v ∧ RoundedTo 6 a v := by
  have hform : finiteParts a (some c) none =
      if -4 ≤ (sigDigits a 6).2 ∧ (sigDigits a 6).2 < (6 : ℕ) then
        plainDigits (dropTrailingZeros (padDigits 6 (sigDigits a 6).1)) (sigDigits a 6).2 false
      else expNotation (dropTrailingZeros (padDigits 6 (sigDigits a 6).1)) (sigDigits a 6).2 (if c = 'G' then 'E' else 'e') := by
    rcases hc with rfl | rfl <;> (unfold finiteParts; rfl)
  have hpd := padDigits_digits 6 (sigDigits a 6).1
  have hpl := padDigits_length 6 (sigDigits a 6).1
  have hpn : padDigits 6 (sigDigits a 6).1 ≠ [] := by
    intro h; rw [h] at hpl; simp at hpl
  obtain ⟨d1, d2, -⟩ := dropTrailingZeros_spec hpd hpn
  have hval := dropTrailingZeros_val hpd hpn (sigDigits a 6).2
  refine ⟨(digitsVal (dropTrailingZeros (padDigits 6 (sigDigits a 6).1)) : ℚ) *
      (10 : ℚ) ^ ((sigDigits a 6).2 + 1 - (dropTrailingZeros (padDigits 6 (sigDigits a 6).1)).length), ?_, ?_⟩
  · rw [hform]
    split
    · exact plainDigits_val d1 d2 _ _
    · exact expNotation_val d1 d2 _ (by split <;> simp)
  · rw [hval, digitsVal_padDigits, hpl]
    rcases ha.eq_or_lt with rfl | ha
    · left
      simp [sigDigits]
    · right
      obtain ⟨h1, m, h2, h3⟩ := sigDigits_spec ha (p := 6) (by norm_num)
      rw [Nat.mod_eq_of_lt h1]
      refine ⟨firstDigit a, firstDigit_spec ha.ne', ?_, m, ?_⟩
      · rw [h2]; exact h3
      · rw [h2]; push_cast; rfl

/-! ### `repr` -/

theorem isInt_mono {q : ℚ} {i j : ℕ} (hij : i ≤ j) (h : (q * (10 : ℚ) ^ i).den = 1) : (q * (10 : ℚ) ^ j).den = 1 := by
  obtain ⟨k, rfl⟩ := Nat.exists_eq_add_of_le hij
  have h1 : ((q * (10 : ℚ) ^ i).num : ℚ) = q * (10 : ℚ) ^ i := Rat.coe_int_num_of_den_eq_one h
  have : q * (10 : ℚ) ^ (i + k) = (((q * (10 : ℚ) ^ i).num * 10 ^ k : ℤ) : ℚ) := by
    push_cast
    rw [h1, pow_add]
    ring
  rw [this]
  exact Rat.den_intCast _

theorem decimalsNeeded_ok {q : ℚ} {n : ℕ} (h : (q * (10 : ℚ) ^ n).den = 1) : (q * (10 : ℚ) ^ decimalsNeeded q n).den = 1 := by
  cases n with
  | zero => exact h
  | succ n =>
    simp only [decimalsNeeded]
    split
    · rename_i h'; exact h'
    · exact h

theorem den_log {q : ℚ} (h : IsDecimal q) : (q * (10 : ℚ) ^ (Nat.log 2 q.den + 1)).den = 1 := by
  obtain ⟨m, k, hq⟩ := h
  have hdvd : q.den ∣ 10 ^ k := by
    have : q = Rat.divInt m ((10 ^ k : ℕ) : ℤ) := by
      rw [hq, Rat.divInt_eq_div]
      push_cast
      rfl
    have h2 := Rat.den_dvd m ((10 ^ k : ℕ) : ℤ)
    rw [← this] at h2
    exact_mod_cast h2
  rw [show (10 : ℕ) = 2 * 5 from rfl, Nat.mul_pow] at hdvd
  obtain ⟨d1, d2, h1, h2, h3⟩ := Nat.dvd_mul.mp hdvd
  obtain ⟨a, -, rfl⟩ := (Nat.dvd_prime_pow Nat.prime_two).mp h1
  obtain ⟨b, -, rfl⟩ := (Nat.dvd_prime_pow Nat.prime_five).mp h2
  set L := Nat.log 2 q.den + 1 with hL
  have hlt : q.den < 2 ^ L := Nat.lt_pow_succ_log_self (by norm_num) _
  have ha : a ≤ L := by
    have : 2 ^ a < 2 ^ L := lt_of_le_of_lt (by rw [← h3]; exact Nat.le_mul_of_pos_right _ (by positivity)) hlt
    exact ((Nat.pow_lt_pow_iff_right (by norm_num)).mp this).le
  have hb : b ≤ L := by
    have : 2 ^ b < 2 ^ L := by
      refine lt_of_le_of_lt (Nat.pow_le_pow_left (by norm_num : 2 ≤ 5) b) (lt_of_le_of_lt ?_ hlt)
      rw [← h3]
      exact Nat.le_mul_of_pos_left _ (by positivity)
    exact ((Nat.pow_lt_pow_iff_right (by norm_num)).mp this).le
  have hden : q.den ∣ 10 ^ L := by
    rw [← h3, show (10 : ℕ) = 2 * 5 from rfl, Nat.mul_pow]
    exact Nat.mul_dvd_mul (Nat.pow_dvd_pow 2 ha) (Nat.pow_dvd_pow 5 hb)
  obtain ⟨c, hc⟩ := hden
  have : q * (10 : ℚ) ^ L = ((q.num * c : ℤ) : ℚ) := by
    have h10 : (10 : ℚ) ^ L = (q.den : ℚ) * c := by exact_mod_cast hc
    rw [h10]
    have := Rat.mul_den_eq_num q
    push_cast
    rw [← mul_assoc, this]
  rw [this]
  exact Rat.den_intCast _

theorem natStr_length {n : ℕ} (h : 0 < n) : HasExponent (n : ℚ) ((natStr n).length - 1) := by
  induction n using Nat.strongRecOn with
  | ind n ih =>
    by_cases hn : n < 10
    · rw [natStr_lt hn]
      simp only [List.length_singleton]
      unfold HasExponent
      have h1 : (1 : ℚ) ≤ n := by exact_mod_cast h
      have h2 : (n : ℚ) < 10 := by exact_mod_cast hn
      rw [abs_of_nonneg (by positivity)]
      norm_num
      exact ⟨h, hn⟩
    · have hg : 10 ≤ n := by omega
      rw [natStr_ge hg]
      have := ih (n / 10) (by omega) (by omega)
      simp only [List.length_append, List.length_singleton]
      unfold HasExponent at this ⊢
      rw [abs_of_nonneg (by positivity)] at this ⊢
      set L := (natStr (n / 10)).length
      have hL : 0 < L := List.length_pos_of_ne_nil (natStr_ne _)
      obtain ⟨L', hL'⟩ : ∃ L', L = L' + 1 := ⟨L - 1, by omega⟩
      rw [hL'] at this ⊢
      have e1 : (((L' + 1 : ℕ) : ℤ) - 1) = (L' : ℕ) := by push_cast; ring
      have e2 : (((L' + 1 + 1 : ℕ) : ℤ) - 1) = ((L' + 1 : ℕ) : ℤ) := by push_cast; ring
      rw [e1] at this
      rw [e2]
      have e3 : ((L' : ℤ) + 1) = ((L' + 1 : ℕ) : ℤ) := by push_cast; ring
      have e4 : (((L' + 1 : ℕ) : ℤ) + 1) = ((L' + 2 : ℕ) : ℤ) := by push_cast; ring
      rw [e3, zpow_natCast, zpow_natCast] at this
      rw [e4, zpow_natCast, zpow_natCast]
      have t1 : 10 ^ L' ≤ n / 10 := by exact_mod_cast this.1
      have t2 : n / 10 < 10 ^ (L' + 1) := by exact_mod_cast this.2
      have u1 : 10 ^ (L' + 1) ≤ n := by rw [pow_succ]; omega
      have u2 : n < 10 ^ (L' + 2) := by
        rw [show L' + 2 = (L' + 1) + 1 from rfl, pow_succ]; omega
      exact ⟨by exact_mod_cast u1, by exact_mod_cast u2⟩

theorem reprDigits_spec {a : ℚ} (ha : 0 ≤ a) (hdec : IsDecimal a) :
    AllD (reprDigits a).1 ∧ (reprDigits a).1 ≠ [] ∧
      (digitsVal (reprDigits a).1 : ℚ) * (10 : ℚ) ^ ((reprDigits a).2 + 1 - (reprDigits a).1.length) = a := by
  unfold reprDigits
  rcases ha.eq_or_lt with rfl | ha
  · rw [if_pos rfl]
    exact ⟨AllD.replicate 1, by simp, by simp [digitsVal_single, show digitVal '0' = 0 from rfl]⟩
  · rw [if_neg ha.ne']
    simp only
    set k := decimalsNeeded a (Nat.log 2 a.den + 1) with hk
    have hden : (a * (10 : ℚ) ^ k).den = 1 := decimalsNeeded_ok (den_log hdec)
    rw [if_pos hden]
    simp only
    set n := (a * (10 : ℚ) ^ k).num.natAbs with hn
    have hnum : ((a * (10 : ℚ) ^ k).num : ℚ) = a * (10 : ℚ) ^ k := Rat.coe_int_num_of_den_eq_one hden
    have hpos : 0 < (a * (10 : ℚ) ^ k).num := Rat.num_pos.mpr (by positivity)
    have hnq : (n : ℚ) = a * (10 : ℚ) ^ k := by
      rw [← hnum]
      have : (n : ℤ) = (a * (10 : ℚ) ^ k).num := Int.natAbs_of_nonneg hpos.le
      exact_mod_cast this
    have hn0 : 0 < n := by omega
    obtain ⟨d1, d2, -⟩ := dropTrailingZeros_spec (natStr_digits n) (natStr_ne n)
    refine ⟨d1, d2, ?_⟩
    rw [dropTrailingZeros_val (natStr_digits n) (natStr_ne n), digitsVal_natStr, hnq]
    have hlen := natStr_length hn0
    rw [hnq, ← zpow_natCast] at hlen
    have h2 := (firstDigit_spec ha.ne').scale (k : ℤ)
    have h3 := hlen.unique h2
    rw [mul_assoc, ← zpow_natCast, ← zpow_add₀ ten_ne]
    have : (k : ℤ) + (firstDigit a + 1 - ((natStr n).length : ℤ)) = 0 := by omega
    rw [this, zpow_zero, mul_one]

/-- No type and no precision: `repr`. -/
theorem finiteParts_repr {a : ℚ} (ha : 0 ≤ a) (hdec : IsDecimal a) :
    PartsVal (finiteParts a none none).1 (finiteParts a none none).2 a := by
  obtain ⟨h1, h2, h3⟩ := reprDigits_spec ha hdec
  have hform : finiteParts a none none =
      if -4 ≤ (reprDigits a).2 ∧ (reprDigits a).2 < 16 then plainDigits (reprDigits a).1 (reprDigits a).2 true
      else expNotation (reprDigits a).1 (reprDigits a).2 'e' := rfl
  rw [hform]
  split
  · have := plainDigits_val h1 h2 (reprDigits a).2 true
    rwa [h3] at this
  · have := expNotation_val h1 h2 (reprDigits a).2 (c := 'e') (.inl rfl)
    rwa [h3] at this

/-! ### Complete numbers -/

theorem fixed_of_parts {ip rest : Str} {v : ℚ} (h : PartsVal ip rest v) (neg : Bool) (sign : Option Char) (comma : Bool) (w : ℤ) :
    ∃ (m x : Str) (p : ℕ) (r : ℚ) (e : Option ℤ), signStr neg sign ++ groupDigits ip comma w ++ rest = m ++ x ∧
      Fixed m p r ∧ OptExp x e ∧ (if neg then -v else v) = r * (10 : ℚ) ^ e.getD 0 := by
  obtain ⟨hd, hne, fp, x, e, rfl, hfp, hx, hv⟩ := h
  obtain ⟨⟨k, g1⟩, g2, -, g4, -⟩ := groupDigits_spec hd hne comma w
  refine ⟨signStr neg sign ++ groupDigits ip comma w ++ (if fp.length = 0 then [] else '.' :: fp), x, fp.length,
    signVal (signStr neg sign) * (digitsVal (ip ++ fp) / 10 ^ fp.length), e, by simp, ?_, hx.opt, ?_⟩
  · refine ⟨signStr neg sign, groupDigits ip comma w, fp, rfl, signStr_cases _ _, g2, g4, hfp, rfl, ?_⟩
    rw [g1, List.append_assoc, digitsVal_zeros_append]
  · rw [hv]
    unfold signVal
    cases neg
    · rw [if_neg (by simp), if_neg (by rw [signStr_minus]; simp)]; ring
    · rw [if_pos rfl, if_pos (by rw [signStr_minus])]; ring

theorem formatWith_general {q : ℚ} {f : FloatSpec} {v : ℚ}
    (h : PartsVal (finiteParts |q| f.type f.prec).1 (finiteParts |q| f.type f.prec).2 v) :
    General (formatWith (.fin q) f) (if q < 0 then -v else v) := by
  have hne := h.2.1
  unfold formatWith numberParts
  simp only
  cases f.zero with
  | true =>
    simp only [if_true, if_neg hne]
    obtain ⟨m, x, p, r, e, h1, h2, h3, h4⟩ := fixed_of_parts h (decide (q < 0)) f.sign f.comma
      ((f.width : ℤ) - (signStr (decide (q < 0)) f.sign).length - (finiteParts |q| f.type f.prec).2.length)
    exact ⟨0, m, x, p, r, e, by simpa using h1, h2, h3, by simpa using h4⟩
  | false =>
    simp only [Bool.false_eq_true, if_false, if_neg hne]
    obtain ⟨m, x, p, r, e, h1, h2, h3, h4⟩ := fixed_of_parts h (decide (q < 0)) f.sign f.comma 0
    refine ⟨_, m, x, p, r, e, by rw [← h1], h2, h3, by simpa using h4⟩

/-! ### The specifications without precision -/

/-- The characters of the types of the formats of floats. -/
def typeChar (c : Char) : Bool := c ∈ "eEfFgG%".toList

theorem parsePrecType_noDot {s : Str} (hd : '.' ∉ s) {r : Option ℕ × Option Char} (h : parsePrecType s = some r) :
    r.1 = none ∧ s = r.2.toList ∧ ∀ c ∈ r.2, typeChar c = true := by
  cases s with
  | nil =>
    change some (none, none) = some r at h
    simp only [Option.some.injEq] at h
    rw [← h]
    exact ⟨rfl, rfl, by simp⟩
  | cons c t =>
  have hform : parsePrecType (c :: t) = if t = [] then (if c ∈ "eEfFgG%".toList then some (none, some c) else none) else none := by
    unfold parsePrecType
    split
    · rename_i heq
      exact absurd (by rw [heq]; exact List.mem_cons_self) hd
    · cases t <;> rfl
  rw [hform] at h
  cases t with
  | nil =>
    rw [if_pos rfl] at h
    split at h
    · rename_i hc
      injection h with h
      rw [← h]
      refine ⟨rfl, rfl, ?_⟩
      intro d hd
      injection hd with hd
      rw [← hd]
      exact decide_eq_true hc
    · cases h
  | cons d t =>
    rw [if_neg (by simp)] at h
    cases h

/-- The three optional parts at the beginning of a specification. -/
def signOf : Str → Option Char × Str
  | c :: t => if c ∈ "+- ".toList then (some c, t) else (none, c :: t)
  | [] => (none, [])
def zeroOf : Str → Bool × Str
  | '0' :: t => (true, t)
  | t => (false, t)
def commaOf : Str → Bool × Str
  | ',' :: t => (true, t)
  | t => (false, t)

theorem parseFloatSpec_eq (s : Str) : parseFloatSpec s =
    (parsePrecType (commaOf ((zeroOf (signOf s).2).2.dropWhile isDigit)).2).bind fun r =>
      some { sign := (signOf s).1, zero := (zeroOf (signOf s).2).1, width := digitsVal ((zeroOf (signOf s).2).2.takeWhile isDigit),
             comma := (commaOf ((zeroOf (signOf s).2).2.dropWhile isDigit)).1, prec := r.1, type := r.2 } := rfl

theorem signOf_pre (s : Str) : ∃ a, s = a ++ (signOf s).2 ∧ ∀ c ∈ a, typeChar c = false := by
  cases s with
  | nil => exact ⟨[], rfl, by simp⟩
  | cons c t =>
    rw [signOf]
    split
    · rename_i hc
      refine ⟨[c], rfl, ?_⟩
      intro d hd
      rw [List.mem_singleton.mp hd]
      have : ∀ c ∈ "+- ".toList, typeChar c = false := by decide
      exact this c hc
    · exact ⟨[], rfl, by simp⟩

theorem zeroOf_pre (s : Str) : ∃ a, s = a ++ (zeroOf s).2 ∧ ∀ c ∈ a, typeChar c = false := by
  unfold zeroOf
  split
  · exact ⟨['0'], rfl, by decide⟩
  · exact ⟨[], rfl, by simp⟩

theorem commaOf_pre (s : Str) : ∃ a, s = a ++ (commaOf s).2 ∧ ∀ c ∈ a, typeChar c = false := by
  unfold commaOf
  split
  · exact ⟨[','], rfl, by decide⟩
  · exact ⟨[], rfl, by simp⟩

theorem typeChar_digit {c : Char} (h : isDigit c = true) : typeChar c = false := by
  have : ∀ c ∈ "eEfFgG%".toList, isDigit c = false := by decide
  by_contra hc
  have hc' : typeChar c = true := by simpa using hc
  rw [this c (of_decide_eq_true hc')] at h
  cases h

/-- How Python reads a specification without a point. -/
theorem parseFloatSpec_noDot {s : Str} (hd : '.' ∉ s) {f : FloatSpec} (h : parseFloatSpec s = some f) :
    f.prec = none ∧ f.type.toList = s.filter typeChar := by
  rw [parseFloatSpec_eq] at h
  obtain ⟨a1, e1, g1⟩ := signOf_pre s
  obtain ⟨a2, e2, g2⟩ := zeroOf_pre (signOf s).2
  obtain ⟨a4, e4, g4⟩ := commaOf_pre ((zeroOf (signOf s).2).2.dropWhile isDigit)
  have e3 := List.takeWhile_append_dropWhile (p := isDigit) (l := (zeroOf (signOf s).2).2)
  have g3 : ∀ c ∈ (zeroOf (signOf s).2).2.takeWhile isDigit, typeChar c = false := by
    intro c hc
    exact typeChar_digit (List.all_eq_true.mp (List.all_takeWhile (p := isDigit) (l := (zeroOf (signOf s).2).2)) c hc)
  generalize hs1 : signOf s = r1 at *
  generalize hs2 : zeroOf r1.2 = r2 at *
  generalize hs4 : commaOf (r2.2.dropWhile isDigit) = r4 at *
  cases hr : parsePrecType r4.2 with
  | none => rw [hr] at h; cases h
  | some r =>
    rw [hr] at h
    simp only [Option.bind_some, Option.some.injEq] at h
    have hs : s = (a1 ++ a2 ++ r2.2.takeWhile isDigit ++ a4) ++ r4.2 := by
      rw [List.append_assoc, ← e4, List.append_assoc, e3, List.append_assoc, ← e2, ← e1]
    have hd4 : '.' ∉ r4.2 := fun hh => hd (by rw [hs]; exact List.mem_append_right _ hh)
    obtain ⟨q1, q2, q3⟩ := parsePrecType_noDot hd4 hr
    rw [← h]
    refine ⟨q1, ?_⟩
    have hnil : ∀ l : Str, (∀ c ∈ l, typeChar c = false) → l.filter typeChar = [] := by
      intro l hl
      rw [List.filter_eq_nil_iff]
      intro c hc
      rw [hl c hc]
      simp
    rw [hs]
    simp only [List.filter_append, hnil _ g1, hnil _ g2, hnil _ g3, hnil _ g4, List.nil_append]
    rw [q2, List.filter_eq_self.mpr]
    intro c hc
    exact q3 c (by simpa using hc)

theorem specPrefix_chars {sign : Option Char} (hs : ∀ c ∈ sign, c ∈ "+- ".toList) (z : Option ℕ) (comma : Bool) :
    ∀ c ∈ specPrefix sign z comma, c ≠ '.' ∧ typeChar c = false := by
  intro c hc
  unfold specPrefix at hc
  simp only [List.mem_append] at hc
  rcases hc with (hc | hc) | hc
  · have hm : c ∈ sign := by simpa using hc
    have : ∀ c ∈ "+- ".toList, c ≠ '.' ∧ typeChar c = false := by decide
    exact this c (hs c hm)
  · cases z with
    | none => simp at hc
    | some w =>
      rcases List.mem_cons.mp hc with rfl | hc
      · decide
      · have := natStr_digits w c hc
        exact ⟨by rintro rfl; revert this; decide, typeChar_digit this⟩
  · cases comma with
    | false => simp at hc
    | true =>
      simp only [if_true, List.mem_singleton] at hc
      rw [hc]; decide

/-- The main value printed with a general type. -/
theorem pyFormat_general {p : FmtParts} (hv : p.Valid) (ht : p.type = [] ∨ p.type = ['g'] ∨ p.type = ['G'])
    {sign : Option Char} (hs : ∀ c ∈ sign, c ∈ "+- ".toList) {z : Option ℕ} {comma : Bool} {x : FNum} {N : Str}
    (h : pyFormat x (specPrefix sign z comma ++ gSuffix p) = .ok N) :
    ∃ f : FloatSpec, f.prec = none ∧ f.type.toList = p.type ∧ N = formatWith x f := by
  unfold pyFormat at h
  have hA : ∀ c ∈ specPrefix sign z comma ++ p.prec.getD [], c ≠ '.' ∧ typeChar c = false := by
    intro c hc
    rcases List.mem_append.mp hc with hc | hc
    · exact specPrefix_chars hs z comma c hc
    · cases hp : p.prec with
      | none => rw [hp] at hc; simp at hc
      | some d =>
        rw [hp] at hc
        have := (hv.prec d hp).2 c hc
        exact ⟨by rintro rfl; revert this; decide, typeChar_digit this⟩
  unfold gSuffix at h
  rw [← List.append_assoc] at h
  generalize specPrefix sign z comma ++ p.prec.getD [] = A at h hA
  split at h
  · rename_i f hf
    injection h with h
    have hnd : '.' ∉ A ++ p.type := by
      intro hh
      rcases List.mem_append.mp hh with hh | hh
      · exact (hA _ hh).1 rfl
      · rcases ht with h' | h' | h' <;> rw [h'] at hh <;> revert hh <;> decide
    obtain ⟨h1, h2⟩ := parseFloatSpec_noDot hnd hf
    refine ⟨f, h1, ?_, h.symm⟩
    rw [h2, List.filter_append, List.filter_eq_nil_iff.mpr (fun c hc => by rw [(hA c hc).2]; simp), List.nil_append]
    rcases ht with h' | h' | h' <;> rw [h'] <;> decide
  · cases h

/-! ### Scaling -/

theorem RoundedTo.scale {n : ℕ} {x v : ℚ} (h : RoundedTo n x v) (k : ℤ) : RoundedTo n (x * (10 : ℚ) ^ k) (v * (10 : ℚ) ^ k) := by
  rcases h with ⟨rfl, rfl⟩ | ⟨d, h1, h2, m, h3⟩
  · left; simp
  · right
    have hk := ten_pos k
    have hu : (10 : ℚ) ^ (d + k - n + 1) = (10 : ℚ) ^ (d - n + 1) * (10 : ℚ) ^ k := by
      rw [← zpow_add₀ ten_ne]; congr 1; ring
    refine ⟨d + k, h1.scale k, ?_, m, ?_⟩
    · rw [← sub_mul, abs_mul, abs_of_pos hk, hu]
      nlinarith
    · rw [h3, hu]; ring

theorem RoundedTo.neg {n : ℕ} {x v : ℚ} (h : RoundedTo n x v) : RoundedTo n (-x) (-v) := by
  rcases h with ⟨rfl, rfl⟩ | ⟨d, h1, h2, m, h3⟩
  · left; simp
  · right
    refine ⟨d, ?_, ?_, -m, ?_⟩
    · unfold HasExponent at h1 ⊢
      rwa [abs_neg]
    · rw [show -x - -v = -(x - v) by ring, abs_neg]; exact h2
    · rw [h3]; push_cast; ring

theorem IsDecimal.scale {x : ℚ} (h : IsDecimal x) (k : ℤ) : IsDecimal (x * (10 : ℚ) ^ k) := by
  obtain ⟨m, j, rfl⟩ := h
  rcases Int.le_total 0 k with hk | hk
  · obtain ⟨n, rfl⟩ := Int.eq_ofNat_of_zero_le hk
    refine ⟨m * 10 ^ n, j, ?_⟩
    push_cast
    rw [zpow_natCast]
    ring
  · obtain ⟨n, hn⟩ := Int.eq_ofNat_of_zero_le (Int.neg_nonneg.mpr hk)
    refine ⟨m, j + n, ?_⟩
    rw [show k = -(n : ℤ) by omega, zpow_neg, zpow_natCast, pow_add]
    field_simp

theorem IsDecimal.abs {x : ℚ} (h : IsDecimal x) : IsDecimal |x| := by
  obtain ⟨m, j, rfl⟩ := h
  refine ⟨|m|, j, ?_⟩
  rw [abs_div, abs_of_pos (by positivity : (0 : ℚ) < 10 ^ j)]
  push_cast
  rfl

theorem formatWith_g {q : ℚ} {f : FloatSpec} (hp : f.prec = none) {c : Char} (hc : c = 'g' ∨ c = 'G') (ht : f.type = some c) :
    ∃ v, General (formatWith (.fin q) f) v ∧ RoundedTo 6 q v := by
  obtain ⟨v, h1, h2⟩ := finiteParts_g (abs_nonneg q) hc
  rw [← ht, ← hp] at h1
  refine ⟨_, formatWith_general h1, ?_⟩
  split
  · rename_i hq
    rw [abs_of_neg hq] at h2
    simpa using h2.neg
  · rename_i hq
    rwa [abs_of_nonneg (not_lt.mp hq)] at h2

theorem formatWith_repr {q : ℚ} (hq : IsDecimal q) {f : FloatSpec} (hp : f.prec = none) (ht : f.type = none) :
    General (formatWith (.fin q) f) q := by
  have h1 := finiteParts_repr (abs_nonneg q) hq.abs
  have h2 := formatWith_general (q := q) (f := f) (v := |q|) (by rw [hp, ht]; exact h1)
  have : (if q < 0 then -|q| else |q|) = q := by
    split
    · rename_i h; rw [abs_of_neg h]; ring
    · rename_i h; exact abs_of_nonneg (not_lt.mp h)
  rwa [this] at h2

/-! ### Reading back -/

theorem parts_read {ip rest : Str} {v : ℚ} (h : PartsVal ip rest v) (neg : Bool) :
    pyFloat ((if neg then ['-'] else []) ++ ip ++ rest) = some (.fin (if neg then -v else v)) := by
  obtain ⟨hd, hne, fp, x, e, rfl, hfp, hx, hv⟩ := h
  have hsg : (if neg then ['-'] else ([] : Str)) = [] ∨ (if neg then ['-'] else ([] : Str)) = ['+'] ∨
      (if neg then ['-'] else ([] : Str)) = ['-'] := by cases neg <;> simp
  have hdec : decPart (if fp.length = 0 then none else some fp) = if fp.length = 0 then [] else '.' :: fp := by
    split <;> rfl
  have hdig : decDigits (if fp.length = 0 then none else some fp) = fp := by
    split
    · rename_i h
      exact (List.length_eq_zero_iff.mp h).symm
    · rfl
  have hpe : parseExp x = some (e.getD 0) ∧ (∀ c, x.head? = some c → c = 'e' ∨ c = 'E') ∧ ∀ c ∈ x, isNumChar c = true := by
    rcases hx with ⟨rfl, rfl⟩ | ⟨c, n, hc, rfl, rfl⟩
    · exact ⟨rfl, by simp, by simp⟩
    · have hpi := plainInt_expDigits n
      obtain ⟨neg', ds', h1, h2, h3, h4⟩ := hpi.sign
      obtain ⟨sg, ds, i1, i2, i3, i4, -⟩ := hpi
      refine ⟨?_, ?_, ?_⟩
      · rw [parseExp_of hc h1 h2 h3, ← h4]; rfl
      · intro c' hc'
        injection hc' with hc'
        exact hc' ▸ hc
      · intro c' hc'
        rcases List.mem_cons.mp hc' with rfl | hc'
        · rcases hc with rfl | rfl <;> decide
        · rw [i4] at hc'
          rcases List.mem_append.mp hc' with h | h
          · rcases i1 with rfl | rfl | rfl
            · simp at h
            · rw [List.mem_singleton.mp h]; decide
            · rw [List.mem_singleton.mp h]; decide
          · exact digit_numChar (i2 c' h)
  obtain ⟨p1, p2, p3⟩ := hpe
  have := pyFloat_decimal (a := []) (b := []) (sg := if neg then ['-'] else []) (ip := ip)
    (d := if fp.length = 0 then none else some fp) (ex := x) (e := e.getD 0) (by simp) (by simp) hsg hd (by rw [hdig]; exact hfp)
    (by rw [hdig]; simp [hne]) p1 p2 p3
  rw [hdec, hdig] at this
  have hval : (digitsVal (ip ++ fp) : ℚ) * (10 : ℚ) ^ (e.getD 0 - (fp.length : ℤ)) = v := by
    rw [hv, zpow_sub₀ ten_ne, zpow_natCast]
    ring
  rw [hval] at this
  rw [show (if neg then ['-'] else []) ++ ip ++ ((if fp.length = 0 then [] else '.' :: fp) ++ x) =
    [] ++ ((if neg then ['-'] else []) ++ (ip ++ (if fp.length = 0 then [] else '.' :: fp) ++ x)) ++ [] by simp, this]
  cases neg <;> simp

theorem reprFloat_eq (q : ℚ) : reprFloat (.fin q) = (if decide (q < 0) then ['-'] else []) ++ (finiteParts |q| none none).1 ++ (finiteParts |q| none none).2 := by
  unfold reprFloat formatWith numberParts
  have hs : signStr (decide (q < 0)) none = if decide (q < 0) then ['-'] else [] := by
    unfold signStr; split <;> rfl
  have hg : ∀ ds : Str, (if ds = [] then [] else groupDigits ds false 0) = ds := by
    intro ds
    split
    · rename_i h; exact h.symm
    · simp [groupDigits]
  simp only [hs, hg, Bool.false_eq_true, if_false, Nat.zero_sub, List.replicate_zero, List.nil_append]

/-- `float(repr(q)) == q` -/
theorem reprFloat_read {q : ℚ} (hq : IsDecimal q) : pyFloat (reprFloat (.fin q)) = some (.fin q) := by
  rw [reprFloat_eq, parts_read (finiteParts_repr (abs_nonneg q) hq.abs)]
  congr 2
  split
  · rename_i h; rw [abs_of_neg (by simpa using h)]; ring
  · rename_i h; exact abs_of_nonneg (not_lt.mp (by simpa using h))

theorem reprDigits_digits (a : ℚ) : AllD (reprDigits a).1 := by
  unfold reprDigits
  split
  · exact AllD.replicate 1
  · simp only
    split
    · exact (dropTrailingZeros_spec (natStr_digits _) (natStr_ne _)).1
    · exact (dropTrailingZeros_spec (natStr_digits _) (natStr_ne _)).1

theorem reprFloat_chars (q : ℚ) : ∀ c ∈ reprFloat (.fin q), isDigit c = true ∨ c ∈ ".+-e".toList := by
  have hex : ∀ n, ∀ c ∈ expDigits n, isDigit c = true ∨ c ∈ ".+-e".toList := by
    intro n c hc
    obtain ⟨sg, ds, i1, i2, i3, i4, -⟩ := plainInt_expDigits n
    rw [i4] at hc
    rcases List.mem_append.mp hc with h | h
    · rcases i1 with rfl | rfl | rfl
      · simp at h
      · rw [List.mem_singleton.mp h]; right; decide
      · rw [List.mem_singleton.mp h]; right; decide
    · exact .inl (i2 c h)
  have hds := reprDigits_digits |q|
  have hz : ∀ n, ∀ c ∈ List.replicate n '0', isDigit c = true := fun n => AllD.replicate n
  intro c hc
  rw [reprFloat_eq] at hc
  have hform : finiteParts |q| none none =
      if -4 ≤ (reprDigits |q|).2 ∧ (reprDigits |q|).2 < 16 then plainDigits (reprDigits |q|).1 (reprDigits |q|).2 true
      else expNotation (reprDigits |q|).1 (reprDigits |q|).2 'e' := rfl
  rw [hform, List.append_assoc] at hc
  rcases List.mem_append.mp hc with hc | hc
  · split at hc
    · rw [List.mem_singleton.mp hc]; right; decide
    · simp at hc
  · generalize reprDigits |q| = r at hc hds
    split at hc
    · unfold plainDigits at hc
      split at hc
      · simp only [List.mem_append] at hc
        rcases hc with (hc | hc) | hc
        · exact .inl (hds c (List.mem_of_mem_take hc))
        · exact .inl (hz _ c hc)
        · split at hc
          · simp only [if_true] at hc
            revert hc
            have : ∀ c ∈ ".0".toList, isDigit c = true ∨ c ∈ ".+-e".toList := by decide
            exact this c
          · rcases List.mem_cons.mp hc with rfl | hc
            · right; decide
            · exact .inl (hds c (List.mem_of_mem_drop hc))
      · simp only [List.mem_append, List.mem_cons] at hc
        rcases hc with (rfl | hc) | rfl | hc | hc
        · left; decide
        · simp at hc
        · right; decide
        · exact .inl (hz _ c hc)
        · exact .inl (hds c hc)
    · unfold expNotation at hc
      simp only [List.mem_append, List.mem_cons] at hc
      rcases hc with hc | hc | rfl | hc
      · exact .inl (hds c (List.mem_of_mem_take hc))
      · split at hc
        · simp at hc
        · rcases List.mem_cons.mp hc with rfl | hc
          · right; decide
          · exact .inl (hds c (List.mem_of_mem_drop hc))
      · right; decide
      · exact hex _ c hc

end Unc
