import Verif.Lemmas.FormatPlan

/-!
# Printing again the numbers that were printed
-/

set_option autoImplicit false

namespace Unc

/-! ### Texts that only depend on rounded values -/

theorem rhe_of_pyRound {q q' : ℚ} {prec : ℕ} (h : pyRound q prec = pyRound q' prec) :
    rhe (q * (10 : ℚ) ^ prec) = rhe (q' * (10 : ℚ) ^ prec) := by
  have h1 := pyRound_idem q prec
  rw [h, pyRound_idem] at h1
  exact_mod_cast h1.symm

theorem fixedStr_congr {q q' : ℚ} {prec : ℕ} (h : pyRound q prec = pyRound q' prec) (hn : q < 0 ↔ q' < 0) (sign : Option Char)
    (zero : Option ℕ) (comma : Bool) {t : Char} (ht : t = 'f' ∨ t = 'F') :
    fixedStr q sign zero comma prec t = fixedStr q' sign zero comma prec t := by
  have hr : rhe (|q| * (10 : ℚ) ^ prec) = rhe (|q'| * (10 : ℚ) ^ prec) := by
    have hp : (0 : ℚ) ≤ (10 : ℚ) ^ prec := by positivity
    rw [← abs_of_nonneg hp, ← abs_mul, ← abs_mul, rhe_abs, rhe_abs, rhe_of_pyRound h]
  have hN : numberParts (.fin q) (some t) (some prec) = numberParts (.fin q') (some t) (some prec) := by
    unfold numberParts finiteParts
    simp only [ht, if_true, Option.getD_some, hr, hn]
  unfold fixedStr formatWith
  simp only [hN]

theorem shortText_congr {u u' : ℚ} {prec : ℕ} (h : pyRound u prec = pyRound u' prec) : shortText u prec = shortText u' prec := by
  unfold shortText
  rw [h]

theorem formatNum_congr {p : FmtParts} (hv : p.Valid) {q u q' u' : ℚ} (hu : u ≠ 0) (hu' : u' ≠ 0) {t : Char} (ht : t = 'f' ∨ t = 'F')
    (e : Option ℤ) {prec : ℕ} (options : Str) (hq : pyRound q prec = pyRound q' prec) (hqn : q < 0 ↔ q' < 0)
    (huq : pyRound u prec = pyRound u' prec) (hun : u < 0 ↔ u' < 0) :
    formatNum (.fin q) (.fin u) e p prec t options = formatNum (.fin q') (.fin u') e p prec t options := by
  have h1 := fun s z c => fixedStr_congr hq hqn s z c ht
  have h2 := fun s z c => fixedStr_congr huq hun s z c ht
  unfold formatNum
  split_ifs
  · rw [formatShorthand_fin hv hu ht, formatShorthand_fin hv hu' ht]
    unfold ShortOverflow shortStr
    simp only [h1, huq, shortText_congr huq]
  · rw [formatPm_fin hv hu ht, formatPm_fin hv hu' ht]
    simp only [h1, h2]

/-! ### The plan of the second printing -/

theorem digitsLimit_of_limit {p : FmtParts} (hv : p.Valid) {pres : Option Char} {X S : ℚ} (hS : 0 < S) {l : ℤ} {S' : ℚ}
    (h : Limit p pres X S l S') : ∃ n, digitsLimit p pres (.fin X) (.fin S) = .ok (some l, .fin S', n) := by
  unfold digitsLimit
  simp only [realValues, List.singleton_append, List.length_cons, List.length_nil, zero_add, Nat.reduceAdd, and_true]
  cases h with
  | digits d hd hu hpos =>
    obtain ⟨hne, -⟩ := hv.prec d hd
    simp only [hd, Option.getD_some, hne, hu, ne_eq, not_false_eq_true, or_true, decide_true, if_pos hS.ne', if_true,
      if_neg (show ¬ digitsVal d = 0 by omega)]
    exact ⟨0, rfl⟩
  | pdg hd =>
    simp only [hd, Option.getD_none, true_or, decide_true, ne_eq, not_true_eq_false, if_false, if_pos hS.ne']
    exact ⟨0, rfl⟩
  | fixed d hd hu hf =>
    obtain ⟨hne, -⟩ := hv.prec d hd
    simp only [hd, hu, Option.getD_some, hne, false_or, ne_eq, not_true_eq_false, decide_false]
    unfold digitsLimit.floatLimit
    simp only [ne_eq, hne, not_false_eq_true, if_true, if_pos hf]
    exact ⟨_, rfl⟩
  | float d hd hu hf n hn =>
    obtain ⟨hne, -⟩ := hv.prec d hd
    simp only [hd, hu, Option.getD_some, hne, false_or, ne_eq, not_true_eq_false, decide_false]
    unfold digitsLimit.floatLimit
    simp only [ne_eq, hne, not_false_eq_true, if_true, if_neg hf, expRefValue]
    rw [hn]
    exact ⟨_, rfl⟩

/-- The plan, when the position of the last digit is known. -/
theorem formatPlan_of_limit {p : FmtParts} (hv : p.Valid) {x s : ℚ} (hs : 0 < s) {l : ℤ} {S' : ℚ}
    (h : Limit p (presOf p) (x * scaleOf p) (s * scaleOf p) l S') :
    formatPlan p (.fin x) (.fin s) =
      (match commonExponent (presOf p) [|x * scaleOf p|, s * scaleOf p] (some l) with
      | none => .ok ⟨.fin (x * scaleOf p), .fin S', none, (0 - l).toNat,
          if presOf p = some 'E' ∨ presOf p = some 'F' ∨ presOf p = some 'G' then 'F' else 'f',
          if p.type = ['%'] then '%' :: p.options else p.options⟩
      | some e => (mantissaFactor e).bind fun _ => .ok ⟨.fin (x * scaleOf p / (10 : ℚ) ^ e), .fin (S' / (10 : ℚ) ^ e), some e, (e - l).toNat,
          if presOf p = some 'E' ∨ presOf p = some 'F' ∨ presOf p = some 'G' then 'F' else 'f',
          if p.type = ['%'] then '%' :: p.options else p.options⟩) := by
  have hS : 0 < s * scaleOf p := mul_pos hs (scaleOf_pos p)
  have e1 : (if p.type = ['%'] then (FNum.fin x).scale 100 else FNum.fin x) = .fin (x * scaleOf p) := by
    unfold scaleOf; split_ifs <;> simp [FNum.scale]
  have e2 : (if p.type = ['%'] then (FNum.fin s).scale 100 else FNum.fin s) = .fin (s * scaleOf p) := by
    unfold scaleOf; split_ifs <;> simp [FNum.scale]
  have e3 : (if p.type = ['%'] then some 'f' else p.type.head?) = presOf p := rfl
  have hpos : 0 < S' := h.pos hS
  have htr : (FNum.fin S').truthy = true := by simp [FNum.truthy, hpos.ne']
  have hreal : realValues (.fin (x * scaleOf p)) (.fin (s * scaleOf p)) = [|x * scaleOf p|, s * scaleOf p] := rfl
  obtain ⟨n, hn⟩ := digitsLimit_of_limit hv hS h
  unfold formatPlan
  simp only [e1, e2, e3, hn, hreal]
  show (Except.bind (.ok _) _ : PyRes Plan) = _
  unfold Except.bind
  simp only []
  cases hE : commonExponent (presOf p) [|x * scaleOf p|, s * scaleOf p] (some l) with
  | none =>
    simp only []
    show (.ok _ : PyRes Plan) = _
    congr 2
    simp [htr]
    omega
  | some e =>
    simp only []
    cases hm : mantissaFactor e with
    | error err => rfl
    | ok f =>
      obtain ⟨-, rfl⟩ := mantissaFactor_inv hm
      show (.ok _ : PyRes Plan) = .ok _
      congr 2
      · simp [FNum.scale, div_eq_mul_inv]
      · simp [FNum.scale, div_eq_mul_inv]
      · simp [htr]
        omega

/-- Two numbers for which the same digits are printed. -/
theorem formatU_congr {spec : Str} {p : FmtParts} (hp : parseSpec spec = some p) {x s x' s' : ℚ} (hs : 0 < s) (hs' : 0 < s') {l l' : ℤ}
    {S S' : ℚ} (h : Limit p (presOf p) (x * scaleOf p) (s * scaleOf p) l S)
    (h' : Limit p (presOf p) (x' * scaleOf p) (s' * scaleOf p) l' S') {E : Option ℤ}
    (hE : commonExponent (presOf p) [|x * scaleOf p|, s * scaleOf p] (some l) = E)
    (hE' : commonExponent (presOf p) [|x' * scaleOf p|, s' * scaleOf p] (some l') = E) {prec : ℕ}
    (hprec : (E.getD 0 - l).toNat = prec) (hprec' : (E.getD 0 - l').toNat = prec)
    (hx : pyRound (x * scaleOf p / (10 : ℚ) ^ E.getD 0) prec = pyRound (x' * scaleOf p / (10 : ℚ) ^ E.getD 0) prec) (hn : x < 0 ↔ x' < 0)
    (hS : pyRound (S / (10 : ℚ) ^ E.getD 0) prec = pyRound (S' / (10 : ℚ) ^ E.getD 0) prec) :
    formatU (.fin x) (.fin s) spec = formatU (.fin x') (.fin s') spec := by
  have hv := (parseSpec_sound hp).1
  have hsc := scaleOf_pos p
  have h1 := h.pos (mul_pos hs hsc)
  have h1' := h'.pos (mul_pos hs' hsc)
  have hE0 := ten_pos (E.getD 0)
  have ht : (if presOf p = some 'E' ∨ presOf p = some 'F' ∨ presOf p = some 'G' then 'F' else 'f') = 'f' ∨
      (if presOf p = some 'E' ∨ presOf p = some 'F' ∨ presOf p = some 'G' then 'F' else 'f') = 'F' := by
    split_ifs <;> simp
  have hneg : x * scaleOf p / (10 : ℚ) ^ E.getD 0 < 0 ↔ x' * scaleOf p / (10 : ℚ) ^ E.getD 0 < 0 := by
    rw [div_lt_iff₀ hE0, div_lt_iff₀ hE0, zero_mul]
    constructor
    · intro h
      exact mul_neg_of_neg_of_pos (hn.1 (by by_contra hc; exact absurd h (not_lt.2 (mul_nonneg (not_lt.1 hc) hsc.le)))) hsc
    · intro h
      exact mul_neg_of_neg_of_pos (hn.2 (by by_contra hc; exact absurd h (not_lt.2 (mul_nonneg (not_lt.1 hc) hsc.le)))) hsc
  have hpos : S / (10 : ℚ) ^ E.getD 0 < 0 ↔ S' / (10 : ℚ) ^ E.getD 0 < 0 := by
    exact ⟨fun h => absurd (div_pos h1 hE0) h.not_gt, fun h => absurd (div_pos h1' hE0) h.not_gt⟩
  have key := formatNum_congr hv (div_pos h1 hE0).ne' (div_pos h1' hE0).ne' ht E
    (if p.type = ['%'] then '%' :: p.options else p.options) hx hneg hS hpos
  unfold formatU
  rw [hp]
  simp only [formatPlan_of_limit hv hs h, formatPlan_of_limit hv hs' h', hE, hE']
  cases E with
  | none =>
    simp only [Option.getD_none, zpow_zero, div_one] at key hprec hprec'
    simp only [hprec, hprec']
    exact key
  | some e =>
    simp only [Option.getD_some] at key hprec hprec'
    cases hm : mantissaFactor e with
    | error err => simp only [hm]; rfl
    | ok f =>
      simp only [hm, hprec, hprec']
      exact key

/-! ### The digits of the second printing -/

theorem signif_exact {m l : ℤ} {n : ℕ} (h1 : (10 : ℤ) ^ (n - 1) ≤ m) (h2 : m < (10 : ℤ) ^ n) (hn : 1 ≤ n) :
    signifDgtToLimit ((m : ℚ) * (10 : ℚ) ^ l) n = l := by
  have hp := ten_pos l
  have hm : (0 : ℤ) < m := lt_of_lt_of_le (by positivity) h1
  have hm' : (0 : ℚ) < m := by exact_mod_cast hm
  have hfd : firstDigit ((m : ℚ) * (10 : ℚ) ^ l) = l + n - 1 := by
    refine firstDigit_eq ?_
    unfold HasExponent
    rw [abs_of_pos (mul_pos hm' hp), show l + (n : ℤ) - 1 + 1 = n + l by ring, show l + (n : ℤ) - 1 = ((n - 1 : ℕ) : ℤ) + l by omega,
      ten_add, ten_add, zpow_natCast, zpow_natCast]
    have a1 : (10 : ℚ) ^ (n - 1) ≤ m := by exact_mod_cast h1
    have a2 : (m : ℚ) < (10 : ℚ) ^ n := by exact_mod_cast h2
    exact ⟨mul_le_mul_of_nonneg_right a1 hp.le, mul_lt_mul_of_pos_right a2 hp⟩
  have hl : l + (n : ℤ) - 1 - n + 1 = l := by ring
  have hr : pyRound ((m : ℚ) * (10 : ℚ) ^ l) (-l) = (m : ℚ) * (10 : ℚ) ^ l := by
    rw [pyRound_mul, mul_div_assoc, div_self hp.ne', mul_one, rhe_int]
  unfold signifDgtToLimit
  simp only [hfd, hl, hr, lt_irrefl, if_false]

/-- The number of digits chosen by the rules of the Particle Data Group for a displayed uncertainty. -/
theorem pdg_again {S : ℚ} (hS : 0 < S) {l : ℤ} {S' U : ℚ} (hl : signifDgtToLimit (pdgPrecision S).2 (pdgPrecision S).1 = l)
    (hS' : (pdgPrecision S).2 = S') (hU : U = rhe (S' / (10 : ℚ) ^ l) * (10 : ℚ) ^ l) :
    (pdgPrecision U).2 = U ∧ signifDgtToLimit U (pdgPrecision U).1 = l := by
  obtain ⟨t, d, h⟩ := exists_leading hS
  have hpos := pdg_pos hS
  have hn : 1 ≤ (pdgPrecision S).1 := by rw [pdg_eq h]; split_ifs <;> simp
  obtain ⟨b1, b2⟩ := signif_pos hpos hn
  rw [hl, hS'] at b1 b2
  set m := rhe (S' / (10 : ℚ) ^ l) with hm
  have e3 : (10 : ℚ) ^ l = 100 * (10 : ℚ) ^ (l - 2) := by
    rw [show (100 : ℚ) = (10 : ℚ) ^ (2 : ℤ) by norm_num, ← ten_add]; congr 1; ring
  have e4 : (10 : ℚ) ^ l = 10 * (10 : ℚ) ^ (l - 1) := by
    rw [show (10 : ℚ) * (10 : ℚ) ^ (l - 1) = (10 : ℚ) ^ (1 : ℤ) * (10 : ℚ) ^ (l - 1) by norm_num, ← ten_add]; congr 1; ring
  -- leading digits of the displayed uncertainty
  have two : 10 ≤ m → m < 100 → LeadingDigits U (10 * m.toNat) (l + 1) := by
    intro c1 c2
    have hc : ((m.toNat : ℕ) : ℚ) = m := by
      have : ((m.toNat : ℤ) : ℚ) = m := by rw [Int.toNat_of_nonneg (by omega)]
      exact_mod_cast this
    have hq := ten_pos (l - 1)
    refine ⟨by omega, by omega, ?_, ?_⟩
    · rw [hU, show l + 1 - 2 = l - 1 by ring, e4]
      push_cast
      rw [hc]
      linarith
    · rw [hU, show l + 1 - 2 = l - 1 by ring, e4]
      push_cast
      rw [hc]
      linarith
  have one : 1 ≤ m → m < 10 → LeadingDigits U (100 * m.toNat) l := by
    intro c1 c2
    have hc : ((m.toNat : ℕ) : ℚ) = m := by
      have : ((m.toNat : ℤ) : ℚ) = m := by rw [Int.toNat_of_nonneg (by omega)]
      exact_mod_cast this
    have hq := ten_pos (l - 2)
    refine ⟨by omega, by omega, ?_, ?_⟩
    · rw [hU, e3]
      push_cast
      rw [hc]
      linarith
    · rw [hU, e3]
      push_cast
      rw [hc]
      linarith
  have hlead : S' = S → t * (10 : ℚ) ^ (d - 2) ≤ S' ∧ S' < (t + 1) * (10 : ℚ) ^ (d - 2) := by
    rintro rfl
    exact ⟨h.2.2.1, h.2.2.2⟩
  have hS'pos : 0 < S' := hS' ▸ hpos
  have hnear := rhe_near (S' / (10 : ℚ) ^ l)
  rw [← hm, abs_le, sub_le_iff_le_add, neg_le_sub_iff_le_add] at hnear
  obtain ⟨n1, n2⟩ := hnear
  have hpl := ten_pos l
  rw [div_le_iff₀ hpl] at n2
  rw [← sub_le_iff_le_add, le_div_iff₀ hpl] at n1
  by_cases h1 : t ≤ 354
  · have e : pdgPrecision S = (2, S) := by rw [pdg_eq h, if_pos h1]
    rw [e] at b1 b2 hl hS'
    subst hS'
    simp only [Nat.add_one_sub_one, pow_one] at b1 b2 hl
    norm_num at b1 b2
    obtain ⟨l1, l2⟩ := hlead rfl
    have ht1 : (100 : ℚ) ≤ t := by exact_mod_cast h.1
    have ht2 : (t : ℚ) ≤ 354 := by exact_mod_cast h1
    have hd := ten_pos (d - 2)
    -- the last displayed digit
    have hld : l = d - 1 := by
      have : signifDgtToLimit S ((2 : ℕ) : ℤ) = d - 1 := by
        unfold signifDgtToLimit
        have hfd : firstDigit S = d := firstDigit_eq h.exponent.1
        have hfd2 : firstDigit (pyRound S (-(d - ((2 : ℕ) : ℤ) + 1))) = d := by
          refine firstDigit_eq ?_
          have hr := pyRound_rounds S (d - ((2 : ℕ) : ℤ) + 1)
          rw [pyRound_mul]
          have e5 : (10 : ℚ) ^ (d - ((2 : ℕ) : ℤ) + 1) = 10 * (10 : ℚ) ^ (d - 2) := by
            rw [show (10 : ℚ) * (10 : ℚ) ^ (d - 2) = (10 : ℚ) ^ (1 : ℤ) * (10 : ℚ) ^ (d - 2) by norm_num, ← ten_add]
            congr 1; push_cast; ring
          have e6 : (10 : ℚ) ^ d = 100 * (10 : ℚ) ^ (d - 2) := by
            rw [show (100 : ℚ) = (10 : ℚ) ^ (2 : ℤ) by norm_num, ← ten_add]; congr 1; ring
          have e7 : (10 : ℚ) ^ (d + 1) = 1000 * (10 : ℚ) ^ (d - 2) := by
            rw [show (1000 : ℚ) = (10 : ℚ) ^ (3 : ℤ) by norm_num, ← ten_add]; congr 1; ring
          have c1 : (10 : ℤ) ≤ rhe (S / (10 : ℚ) ^ (d - ((2 : ℕ) : ℤ) + 1)) := by
            refine rhe_ge ?_
            rw [le_div_iff₀ (ten_pos _), e5]
            push_cast
            nlinarith
          have c2 : rhe (S / (10 : ℚ) ^ (d - ((2 : ℕ) : ℤ) + 1)) ≤ 36 := by
            refine rhe_le ?_
            rw [div_le_iff₀ (ten_pos _), e5]
            push_cast
            nlinarith
          have c1' : (10 : ℚ) ≤ (rhe (S / (10 : ℚ) ^ (d - ((2 : ℕ) : ℤ) + 1)) : ℚ) := by exact_mod_cast c1
          have c2' : (rhe (S / (10 : ℚ) ^ (d - ((2 : ℕ) : ℤ) + 1)) : ℚ) ≤ 36 := by exact_mod_cast c2
          unfold HasExponent
          rw [abs_of_nonneg (mul_nonneg (by linarith) (ten_pos _).le), e6, e7]
          generalize (rhe (S / (10 : ℚ) ^ (d - ((2 : ℕ) : ℤ) + 1)) : ℚ) = r at *
          rw [e5]
          constructor <;> nlinarith
        simp only [hfd, hfd2, lt_irrefl, if_false]
        push_cast
        ring
      rw [← this, ← hl]
    have e8 : (10 : ℚ) ^ l = 10 * (10 : ℚ) ^ (d - 2) := by
      rw [hld, show (10 : ℚ) * (10 : ℚ) ^ (d - 2) = (10 : ℚ) ^ (1 : ℤ) * (10 : ℚ) ^ (d - 2) by norm_num, ← ten_add]
      congr 1; ring
    have hm35 : m ≤ 35 := by
      by_contra hc
      have hc' : (36 : ℚ) ≤ m := by exact_mod_cast (show (36 : ℤ) ≤ m by omega)
      rw [e8] at n1
      nlinarith
    have hlU := two b1 (by omega)
    have hpU : pdgPrecision U = (2, U) := by rw [pdg_eq hlU, if_pos (by omega)]
    rw [hpU]
    refine ⟨rfl, ?_⟩
    rw [hU]
    exact signif_exact (n := 2) (by norm_num; omega) (by norm_num; omega) (by norm_num)
  · by_cases h2 : t ≤ 949
    · have e : pdgPrecision S = (1, S) := by rw [pdg_eq h, if_neg h1, if_pos h2]
      rw [e] at b1 b2 hl hS'
      subst hS'
      simp only [Nat.sub_self, pow_zero, pow_one] at b1 b2 hl
      obtain ⟨l1, l2⟩ := hlead rfl
      have ht1 : (355 : ℚ) ≤ t := by exact_mod_cast (show 355 ≤ t by omega)
      have ht2 : (t : ℚ) ≤ 949 := by exact_mod_cast h2
      have hd := ten_pos (d - 2)
      have e6 : (10 : ℚ) ^ d = 100 * (10 : ℚ) ^ (d - 2) := by
        rw [show (100 : ℚ) = (10 : ℚ) ^ (2 : ℤ) by norm_num, ← ten_add]; congr 1; ring
      have e7 : (10 : ℚ) ^ (d + 1) = 1000 * (10 : ℚ) ^ (d - 2) := by
        rw [show (1000 : ℚ) = (10 : ℚ) ^ (3 : ℤ) by norm_num, ← ten_add]; congr 1; ring
      have hld : l = d := by
        have : signifDgtToLimit S ((1 : ℕ) : ℤ) = d := by
          unfold signifDgtToLimit
          have hfd : firstDigit S = d := firstDigit_eq h.exponent.1
          have hdd : d - ((1 : ℕ) : ℤ) + 1 = d := by push_cast; ring
          have hfd2 : firstDigit (pyRound S (-d)) = d := by
            refine firstDigit_eq ?_
            rw [pyRound_mul]
            have c1 : (3 : ℤ) ≤ rhe (S / (10 : ℚ) ^ d) := by
              refine rhe_ge ?_
              rw [le_div_iff₀ (ten_pos _), e6]
              push_cast
              nlinarith
            have c2 : rhe (S / (10 : ℚ) ^ d) ≤ 9 := by
              by_contra hc
              have hc' : (10 : ℚ) ≤ (rhe (S / (10 : ℚ) ^ d) : ℚ) := by exact_mod_cast (show (10 : ℤ) ≤ rhe (S / (10 : ℚ) ^ d) by omega)
              have hr := rhe_near (S / (10 : ℚ) ^ d)
              rw [abs_le, neg_le_sub_iff_le_add] at hr
              have hr1 := hr.1
              rw [← sub_le_iff_le_add, le_div_iff₀ (ten_pos d), e6] at hr1
              rw [e6] at hc'
              nlinarith
            have c1' : (3 : ℚ) ≤ (rhe (S / (10 : ℚ) ^ d) : ℚ) := by exact_mod_cast c1
            have c2' : (rhe (S / (10 : ℚ) ^ d) : ℚ) ≤ 9 := by exact_mod_cast c2
            unfold HasExponent
            rw [abs_of_nonneg (mul_nonneg (by linarith) (ten_pos _).le)]
            generalize (rhe (S / (10 : ℚ) ^ d) : ℚ) = r at *
            rw [e6, e7]
            constructor <;> nlinarith
          simp only [hfd, hdd, hfd2, lt_irrefl, if_false]
        rw [← this, ← hl]
      have hm4 : 4 ≤ m := by
        by_contra hc
        have hc' : (m : ℚ) ≤ 3 := by exact_mod_cast (show m ≤ 3 by omega)
        rw [hld, e6] at n2
        nlinarith
      have hlU := one b1 (by omega)
      have hpU : pdgPrecision U = (1, U) := by rw [pdg_eq hlU, if_neg (by omega), if_pos (by omega)]
      rw [hpU]
      refine ⟨rfl, ?_⟩
      rw [hU]
      exact signif_exact (n := 1) (by norm_num; omega) (by norm_num; omega) (by norm_num)
    · obtain ⟨l', m', hl', hm', -, -, hh⟩ := C37_pdg_displayed S t d h
      obtain ⟨rfl, rfl⟩ := hh (by omega)
      obtain rfl : l' = l := by rw [← hl, hl']
      rw [hS', pyRound_mul, ← hm, ← hU] at hm'
      have hm10 : m = 10 := by
        have := hU.symm.trans hm'
        have := mul_right_cancel₀ hpl.ne' this
        exact_mod_cast this
      have hlU := two (by omega) (by omega)
      have hpU : pdgPrecision U = (2, U) := by rw [pdg_eq hlU, if_pos (by omega)]
      rw [hpU]
      refine ⟨rfl, ?_⟩
      rw [hU]
      exact signif_exact (n := 2) (by norm_num; omega) (by norm_num; omega) (by norm_num)

/-- All the digits before the decimal point are displayed: the number of significant digits can only be larger. -/
theorem signif_round {S : ℚ} (hS : 0 < S) {n : ℕ} (h : 0 < signifDgtToLimit S n) (hn : 1 ≤ n) :
    0 ≤ signifDgtToLimit ((rhe S : ℤ) : ℚ) n := by
  have hb : ∀ v : ℚ, firstDigit v - n + 1 ≤ signifDgtToLimit v n ∧ signifDgtToLimit v n ≤ firstDigit v - n + 2 := by
    intro v
    unfold signifDgtToLimit
    simp only []
    split_ifs <;> omega
  have h1 := (hb S).2
  have h2 := (hb ((rhe S : ℤ) : ℚ)).1
  have he := firstDigit_spec hS.ne'
  rw [HasExponent, abs_of_pos hS] at he
  have hd : 0 ≤ firstDigit S := by omega
  obtain ⟨k, hk⟩ : ∃ k : ℕ, (k : ℤ) = firstDigit S := ⟨_, Int.toNat_of_nonneg hd⟩
  rw [← hk, zpow_natCast] at he
  have h3 : (10 : ℤ) ^ k ≤ rhe S := rhe_ge (by push_cast; exact he.1)
  have h4 : (10 : ℚ) ^ (k : ℤ) ≤ ((rhe S : ℤ) : ℚ) := by rw [zpow_natCast]; exact_mod_cast h3
  have hpos : (0 : ℚ) < ((rhe S : ℤ) : ℚ) := lt_of_lt_of_le (ten_pos _) h4
  have h5 := firstDigit_spec hpos.ne'
  rw [HasExponent, abs_of_pos hpos] at h5
  have h6 := ten_lt_iff.1 (lt_of_le_of_lt h4 h5.2)
  omega

/-- The rules of the Particle Data Group, when all the digits before the decimal point are displayed. -/
theorem pdg_round_again {S : ℚ} (hS : 0 < S) (hl : 0 < signifDgtToLimit (pdgPrecision S).2 (pdgPrecision S).1) {U : ℚ}
    (hU : U = ((rhe (pdgPrecision S).2 : ℤ) : ℚ)) (h95 : ∀ k : ℕ, U ≠ 95 * 10 ^ k) :
    (pdgPrecision U).2 = U ∧ 0 ≤ signifDgtToLimit U (pdgPrecision U).1 := by
  obtain ⟨t, d, h⟩ := exists_leading hS
  have hb : ∀ (v : ℚ) (n : ℕ), firstDigit v - n + 1 ≤ signifDgtToLimit v n ∧ signifDgtToLimit v n ≤ firstDigit v - n + 2 := by
    intro v n
    unfold signifDgtToLimit
    simp only []
    split_ifs <;> omega
  by_cases h2 : t ≤ 949
  · have e : (pdgPrecision S).2 = S := by
      rw [pdg_eq h, if_pos h2]
      split_ifs <;> rfl
    rw [e] at hl hU
    have hfd : firstDigit S = d := firstDigit_eq h.exponent.1
    have hd : 1 ≤ d := by
      by_cases h1 : t ≤ 354
      · have e' : (pdgPrecision S).1 = 2 := by rw [pdg_eq h, if_pos h1]
        rw [e'] at hl
        have := (hb S 2).2
        omega
      · -- one digit
        by_contra hc
        have e' : (pdgPrecision S).1 = 1 := by rw [pdg_eq h, if_neg h1, if_pos h2]
        rw [e'] at hl
        have h3 := (hb S 1).2
        have hd0 : d = 0 := by omega
        obtain ⟨-, b2⟩ := signif_pos hS (n := 1) le_rfl
        have hl1 : signifDgtToLimit S ((1 : ℕ) : ℤ) = 1 := by push_cast at *; omega
        have b1 := (signif_pos hS (n := 1) le_rfl).1
        rw [hl1] at b1
        have hlt := h.2.2.2
        rw [hd0] at hlt
        have ht2 : (t : ℚ) ≤ 949 := by exact_mod_cast h2
        have hS95 : S < 19 / 2 := by
          have : (10 : ℚ) ^ ((0 : ℤ) - 2) = 1 / 100 := by norm_num
          rw [this] at hlt
          linarith
        -- not rounded up to 10
        have hsig : signifDgtToLimit S ((1 : ℕ) : ℤ) = 0 := by
          unfold signifDgtToLimit
          have hdd : d - ((1 : ℕ) : ℤ) + 1 = 0 := by push_cast; omega
          have hr : firstDigit (pyRound S (-0)) ≤ 0 := by
            rw [pyRound_mul]
            have c1 : rhe (S / (10 : ℚ) ^ (0 : ℤ)) ≤ 9 := by
              rw [zpow_zero, div_one]
              by_contra hc
              have hc' : (10 : ℚ) ≤ (rhe S : ℚ) := by exact_mod_cast (show (10 : ℤ) ≤ rhe S by omega)
              have hr := rhe_near S
              rw [abs_le] at hr
              linarith [hr.1]
            have c0 : 0 ≤ rhe (S / (10 : ℚ) ^ (0 : ℤ)) := rhe_nonneg (div_nonneg hS.le (ten_pos _).le)
            rw [zpow_zero, mul_one]
            rw [zpow_zero] at c0 c1
            generalize rhe (S / (1 : ℚ)) = r at *
            by_cases hr0 : r = 0
            · rw [hr0]; simp [firstDigit]
            · have hpos : (0 : ℚ) < (r : ℚ) := by exact_mod_cast (show 0 < r by omega)
              have h5 := (firstDigit_spec hpos.ne').1
              rw [abs_of_pos hpos] at h5
              have h6 : (r : ℚ) < (10 : ℚ) ^ (1 : ℤ) := by
                have : (r : ℚ) ≤ 9 := by exact_mod_cast c1
                rw [zpow_one]
                linarith
              have := ten_lt_iff.1 (lt_of_le_of_lt h5 h6)
              omega
          simp only [hfd, hdd]
          rw [if_neg]
          omega
        omega
    obtain ⟨k, hk⟩ : ∃ k : ℕ, d = k + 1 := ⟨(d - 1).toNat, by omega⟩
    have e1 : (10 : ℚ) ^ d = 100 * (10 : ℚ) ^ (d - 2) := by
      rw [show (100 : ℚ) = (10 : ℚ) ^ (2 : ℤ) by norm_num, ← ten_add]; congr 1; ring
    have e2 : (10 : ℚ) ^ d = 10 * (10 : ℚ) ^ k := by
      rw [hk, ten_add, zpow_natCast, zpow_one]; ring
    have ht1 : (100 : ℚ) ≤ t := by exact_mod_cast h.1
    have ht2 : (t : ℚ) ≤ 949 := by exact_mod_cast h2
    have hd2 := ten_pos (d - 2)
    -- bounds for the displayed uncertainty
    have b1 : (10 : ℚ) ^ d ≤ U := by
      have : (10 : ℤ) ^ (k + 1) ≤ rhe S := by
        refine rhe_ge ?_
        push_cast
        rw [pow_succ]
        have := h.2.2.1
        nlinarith
      have h' : (((10 : ℤ) ^ (k + 1) : ℤ) : ℚ) ≤ ((rhe S : ℤ) : ℚ) := by exact_mod_cast this
      rw [hU, e2]
      push_cast at h'
      rw [pow_succ] at h'
      linarith
    have b2 : U < 95 * 10 ^ k := by
      refine lt_of_le_of_ne ?_ (h95 k)
      have : rhe S ≤ 95 * (10 : ℤ) ^ k := by
        refine rhe_le ?_
        push_cast
        have := h.2.2.2
        nlinarith
      rw [hU]
      exact_mod_cast this
    have hUpos : 0 < U := lt_of_lt_of_le (ten_pos d) b1
    obtain ⟨t', d', h'⟩ := exists_leading hUpos
    have hfU : firstDigit U = d := by
      refine firstDigit_eq ?_
      rw [HasExponent, abs_of_pos hUpos, ten_add, zpow_one]
      refine ⟨b1, ?_⟩
      have : (0 : ℚ) < 10 ^ k := by positivity
      rw [e2]
      linarith
    obtain rfl : d' = d := by rw [← firstDigit_eq h'.exponent.1, hfU]
    have ht' : t' ≤ 949 := by
      by_contra hc
      have hc' : (950 : ℚ) ≤ t' := by exact_mod_cast (show 950 ≤ t' by omega)
      have h3 := h'.2.2.1
      have h4 : 95 * (10 : ℚ) ^ k = 950 * (10 : ℚ) ^ (d' - 2) := by linarith
      nlinarith
    have e3 : (pdgPrecision U).2 = U := by
      rw [pdg_eq h', if_pos ht']
      split_ifs <;> rfl
    refine ⟨e3, ?_⟩
    have h5 := (hb U (pdgPrecision U).1).1
    have h6 : (pdgPrecision U).1 ≤ 2 := by rw [pdg_eq h']; split_ifs <;> simp
    omega
  · have e : pdgPrecision S = (2, (10 : ℚ) ^ (d + 1)) := by rw [pdg_eq h, if_neg (by omega), if_neg h2]
    rw [e] at hl hU
    simp only [] at hl hU
    have hex : (10 : ℚ) ^ (d + 1) = ((10 : ℤ) : ℚ) * (10 : ℚ) ^ d := by
      rw [ten_add, zpow_one]; push_cast; ring
    have hl' : signifDgtToLimit ((10 : ℚ) ^ (d + 1)) ((2 : ℕ) : ℤ) = d := by
      rw [hex]
      exact signif_exact (n := 2) (by norm_num) (by norm_num) (by norm_num)
    have hd : 0 < d := by
      rw [← hl']
      exact hl
    obtain ⟨k, hk⟩ : ∃ k : ℕ, (k : ℤ) = d + 1 := ⟨_, Int.toNat_of_nonneg (by omega)⟩
    have hU' : U = (10 : ℚ) ^ (d + 1) := by
      rw [hU, ← hk, zpow_natCast, show ((10 : ℚ) ^ k) = (((10 : ℤ) ^ k : ℤ) : ℚ) by push_cast; rfl, rhe_int]
    have hlead : LeadingDigits U 100 (d + 1) := by
      have e3 : (10 : ℚ) ^ (d + 1) = 100 * (10 : ℚ) ^ (d + 1 - 2) := by
        rw [show (100 : ℚ) = (10 : ℚ) ^ (2 : ℤ) by norm_num, ← ten_add]; congr 1; ring
      have hp := ten_pos (d + 1 - 2)
      refine ⟨by norm_num, by norm_num, ?_, ?_⟩ <;> rw [hU', e3] <;> push_cast <;> linarith
    rw [pdg_eq hlead, if_pos (by norm_num)]
    refine ⟨rfl, ?_⟩
    simp only []
    rw [hU', hl']
    exact hd.le

/-- The displayed numbers have the same last displayed digit and exponent as the original ones. -/
theorem Limit.again {p : FmtParts} {X S : ℚ} {l : ℤ} {S' : ℚ} (h : Limit p (presOf p) X S l S') (hS : 0 < S) {E : Option ℤ}
    (hE : commonExponent (presOf p) [|X|, S] (some l) = E) {X' U : ℚ} (hX' : X' = (shownOf X E l).value)
    (hU : U = (shownOf S' E l).value) (hU0 : U ≠ 0)
    (h95 : p.prec = none → presOf p = some 'f' ∨ presOf p = some 'F' → ∀ k : ℕ, U ≠ 95 * 10 ^ k) :
    0 < U ∧ ∃ l', Limit p (presOf p) X' U l' U ∧ commonExponent (presOf p) [|X'|, U] (some l') = E ∧
      (E.getD 0 - l').toNat = (E.getD 0 - l).toNat := by
  have hpos := h.pos hS
  have hU0' : 0 < U := by
    refine lt_of_le_of_ne ?_ hU0.symm
    rw [hU, shownOf_value]
    have : 0 < (shownOf S' E l).unit := ten_pos _
    have h1 : 0 ≤ rhe (S' / (shownOf S' E l).unit) := rhe_nonneg (div_nonneg hpos.le this.le)
    have h2 : (0 : ℚ) ≤ (rhe (S' / (shownOf S' E l).unit) : ℚ) := by exact_mod_cast h1
    exact mul_nonneg h2 this.le
  refine ⟨hU0', ?_⟩
  have hpl := ten_pos l
  by_cases hlE : l ≤ E.getD 0
  · have hmax := shown_max h hS hlE
    rw [← hX', ← hU] at hmax
    have hU1 : U = rhe (S' / (10 : ℚ) ^ l) * (10 : ℚ) ^ l := by rw [hU, shownOf_value, shownOf_unit _ hlE]
    have hL : Limit p (presOf p) X' U l U := by
      cases h with
      | digits d hd hu hn =>
        have hs := signif_pos hS hn
        have e := signif_exact (l := signifDgtToLimit S (digitsVal d)) hs.1 hs.2 hn
        rw [← hU1] at e
        have := Limit.digits (p := p) (pres := presOf p) (X := X') (S := U) d hd hu hn
        rwa [e] at this
      | pdg hd =>
        obtain ⟨h1, h2⟩ := pdg_again hS rfl rfl hU1
        have := Limit.pdg (p := p) (pres := presOf p) (X := X') (S := U) hd
        rw [h1] at this
        rwa [h2] at this
      | fixed d hd hu hf => exact .fixed d hd hu hf
      | float d hd hu hf n hn =>
        have hmp : 0 < max |X| S := lt_of_lt_of_le hS (le_max_right _ _)
        have hn1 : 1 ≤ n := by rw [hn]; split_ifs <;> omega
        have hs := signif_pos hmp hn1
        have e := signif_exact (l := signifDgtToLimit (max |X| S) n) hs.1 hs.2 hn1
        rw [← hmax] at e
        have := Limit.float (p := p) (pres := presOf p) (X := X') (S := U) d hd hu hf n hn
        rwa [e] at this
    refine ⟨l, hL, ?_, rfl⟩
    have hr : pyRound (max |X'| U) (-l) = pyRound (max |X| S) (-l) := by
      rw [pyRound_mul, pyRound_mul, hmax, mul_div_assoc, div_self hpl.ne', mul_one, rhe_int]
    rw [← hE]
    unfold commonExponent
    simp only [expRefValue, hr]
  · obtain ⟨hf, hE0, hz⟩ := no_unit h hS hE.symm hlE
    subst hE0
    simp only [Option.getD_none] at hlE hz ⊢
    have hunit : ∀ q : ℚ, (shownOf q none l).value = ((rhe q : ℤ) : ℚ) := by
      intro q
      rw [shownOf_value]
      have : (shownOf q none l).unit = 1 := by
        unfold Shown.unit shownOf
        simp only [Option.getD_none, hz]
        norm_num
      rw [this, div_one, mul_one]
    rw [hunit] at hU
    cases h with
    | digits d hd hu hn =>
      have h0 := signif_round hS (by omega) hn
      rw [← hU] at h0
      exact ⟨_, .digits d hd hu hn, commonExponent_f hf _ _, by omega⟩
    | pdg hd =>
      obtain ⟨h1, h2⟩ := pdg_round_again hS (by omega) hU (h95 hd hf)
      have := Limit.pdg (p := p) (pres := presOf p) (X := X') (S := U) hd
      rw [h1] at this
      exact ⟨_, this, commonExponent_f hf _ _, by omega⟩
    | fixed d hd hu hf => omega
    | float d hd hu hf' n hn => exact absurd hf hf'

/-- Printing again the numbers that were printed. -/
theorem reprint_of {x s : ℚ} (hs : 0 < s) {spec : Str} {p : FmtParts} (hp : parseSpec spec = some p) {l : ℤ} {S' : ℚ}
    (hl : Limit p (presOf p) (x * scaleOf p) (s * scaleOf p) l S') {E : Option ℤ}
    (hE : commonExponent (presOf p) [|x * scaleOf p|, s * scaleOf p] (some l) = E)
    (hu : (shownOf S' E l).value ≠ 0) (hn : (shownOf (x * scaleOf p) E l).value = 0 → 0 ≤ x)
    (h95 : p.prec = none → presOf p = some 'f' ∨ presOf p = some 'F' → ∀ k : ℕ, (shownOf S' E l).value ≠ 95 * 10 ^ k) :
    formatU (.fin ((shownOf (x * scaleOf p) E l).value / scaleOf p)) (.fin ((shownOf S' E l).value / scaleOf p)) spec =
      formatU (.fin x) (.fin s) spec := by
  have hsc := scaleOf_pos p
  have hS := mul_pos hs hsc
  obtain ⟨hU, l', hl', hE', hprec⟩ := hl.again hS hE rfl rfl hu h95
  have e1 : (shownOf (x * scaleOf p) E l).value / scaleOf p * scaleOf p = (shownOf (x * scaleOf p) E l).value := div_mul_cancel₀ _ hsc.ne'
  have e2 : (shownOf S' E l).value / scaleOf p * scaleOf p = (shownOf S' E l).value := div_mul_cancel₀ _ hsc.ne'
  have hround : ∀ q : ℚ, pyRound (q / (10 : ℚ) ^ E.getD 0) ((E.getD 0 - l).toNat : ℕ) =
      pyRound ((shownOf q E l).value / (10 : ℚ) ^ E.getD 0) ((E.getD 0 - l).toNat : ℕ) := by
    intro q
    rw [round_scaled, round_scaled, shownOf_value]
    have hun : (shownOf q E l).unit = (10 : ℚ) ^ (E.getD 0 - ((E.getD 0 - l).toNat : ℕ)) := rfl
    have hu0 : (shownOf q E l).unit ≠ 0 := (ten_pos _).ne'
    rw [← hun, mul_div_assoc, div_self hu0, mul_one, rhe_int]
  refine (formatU_congr hp hs (div_pos hU hsc) hl (by rw [e1, e2]; exact hl') hE (by rw [e1, e2]; exact hE') rfl hprec
    (by rw [e1]; exact hround _) ?_ (hround _)).symm
  · have hup : 0 < (shownOf (x * scaleOf p) E l).unit := ten_pos _
    constructor
    · intro hx
      refine div_neg_of_neg_of_pos (lt_of_le_of_ne ?_ (fun hc => absurd hx (not_lt.2 (hn hc)))) hsc
      rw [shownOf_value]
      have h1 : rhe (x * scaleOf p / (shownOf (x * scaleOf p) E l).unit) ≤ 0 := by
        refine rhe_le ?_
        push_cast
        exact div_nonpos_of_nonpos_of_nonneg (mul_nonpos_of_nonpos_of_nonneg hx.le hsc.le) hup.le
      exact mul_nonpos_of_nonpos_of_nonneg (by exact_mod_cast h1) hup.le
    · intro hx
      by_contra hc
      have h1 : 0 ≤ rhe (x * scaleOf p / (shownOf (x * scaleOf p) E l).unit) :=
        rhe_nonneg (div_nonneg (mul_nonneg (not_lt.1 hc) hsc.le) hup.le)
      refine absurd hx (not_lt.2 (div_nonneg ?_ hsc.le))
      rw [shownOf_value]
      exact mul_nonneg (by exact_mod_cast h1) hup.le

/-- Printing again the numbers that were printed. -/
theorem reprint {x s : ℚ} (hs : 0 < s) {spec out : Str} (h : formatU (.fin x) (.fin s) spec = .ok out) :
    ∃ p n u, parseSpec spec = some p ∧ p.Valid ∧ Faithful x s out n u (decide (p.type = ['%'])) ∧
      (u.value ≠ 0 → (n.value = 0 → 0 ≤ x) →
        (p.prec = none → presOf p = some 'f' ∨ presOf p = some 'F' → ∀ k : ℕ, u.value ≠ 95 * 10 ^ k) →
        formatU (.fin (n.value / scaleOf p)) (.fin (u.value / scaleOf p)) spec = .ok out) := by
  obtain ⟨p, hp, hv, l, S', E, hl, hE, -, hF⟩ := format_displays hs h
  exact ⟨p, _, _, hp, hv, hF, fun hu hn h95 => (reprint_of hs hp hl hE.symm hu hn h95).trans h⟩

end Unc
