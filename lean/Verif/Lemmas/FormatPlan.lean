import Verif.Lemmas.FormatNum
import Verif.Props.C35_Digits

/-!
# Digits and exponent chosen by `__format__` for finite values and a non-zero uncertainty
-/

set_option autoImplicit false

namespace Unc

/-- How the position of the last displayed digit is chosen: explicit number of digits for the uncertainty, rules of the
Particle Data Group, or precision for floats. -/
inductive Limit (p : FmtParts) (pres : Option Char) (X S : ℚ) : ℤ → ℚ → Prop
  | digits (d : Str) (hd : p.prec = some d) (hu : p.uncertPrec ≠ []) (hpos : 1 ≤ digitsVal d) :
      Limit p pres X S (signifDgtToLimit S (digitsVal d)) S
  | pdg (hd : p.prec = none) : Limit p pres X S (signifDgtToLimit (pdgPrecision S).2 (pdgPrecision S).1) (pdgPrecision S).2
  | fixed (d : Str) (hd : p.prec = some d) (hu : p.uncertPrec = []) (hf : pres = some 'f' ∨ pres = some 'F') :
      Limit p pres X S (-(digitsVal d : ℤ)) S
  | float (d : Str) (hd : p.prec = some d) (hu : p.uncertPrec = []) (hf : ¬ (pres = some 'f' ∨ pres = some 'F')) (n : ℕ)
      (hn : n = if pres = some 'e' ∨ pres = some 'E' then digitsVal d + 1 else if digitsVal d = 0 then 1 else digitsVal d) :
      Limit p pres X S (signifDgtToLimit (max |X| S) n) S

theorem digitsLimit_fin {p : FmtParts} (hv : p.Valid) {pres : Option Char} {X S : ℚ} (hS : 0 < S)
    {r : Option ℤ × FNum × ℕ} (h : digitsLimit p pres (.fin X) (.fin S) = .ok r) :
    ∃ l S', r.1 = some l ∧ r.2.1 = .fin S' ∧ Limit p pres X S l S' := by
  unfold digitsLimit at h
  simp only [realValues, List.singleton_append, List.length_cons, List.length_nil, zero_add, Nat.reduceAdd, and_true] at h
  cases hp : p.prec with
  | none =>
    simp only [hp, Option.getD_none, true_or, decide_true, ne_eq, not_true_eq_false, if_false, if_pos hS.ne'] at h
    injection h with h
    rw [← h]
    exact ⟨_, _, rfl, rfl, .pdg hp⟩
  | some d =>
    obtain ⟨hne, -⟩ := hv.prec d hp
    simp only [hp, Option.getD_some, hne, false_or] at h
    by_cases hu : p.uncertPrec = []
    · simp only [hu, ne_eq, not_true_eq_false, decide_false] at h
      unfold digitsLimit.floatLimit at h
      simp only [ne_eq, hne, not_false_eq_true, if_true, expRefValue] at h
      by_cases hf : pres = some 'f' ∨ pres = some 'F'
      · rw [if_pos hf] at h
        injection h with h
        rw [← h]
        exact ⟨_, _, rfl, rfl, .fixed d hp hu hf⟩
      · rw [if_neg hf] at h
        injection h with h
        rw [← h]
        exact ⟨_, _, rfl, rfl, .float d hp hu hf _ rfl⟩
    · simp only [hu, ne_eq, not_false_eq_true, decide_true, if_pos hS.ne', hne, if_true] at h
      by_cases h0 : digitsVal d = 0
      · rw [if_pos h0] at h
        cases h
      · rw [if_neg h0] at h
        injection h with h
        rw [← h]
        exact ⟨_, _, rfl, rfl, .digits d hp hu (by omega)⟩

theorem pdg_pos {S : ℚ} (hS : 0 < S) : 0 < (pdgPrecision S).2 := by
  obtain ⟨t, d, h⟩ := exists_leading hS
  rw [pdg_eq h]
  split_ifs
  · exact hS
  · exact hS
  · exact ten_pos _

theorem Limit.pos {p : FmtParts} {pres : Option Char} {X S : ℚ} {l : ℤ} {S' : ℚ} (h : Limit p pres X S l S') (hS : 0 < S) :
    0 < S' := by
  cases h with
  | digits => exact hS
  | pdg => exact pdg_pos hS
  | fixed => exact hS
  | float => exact hS

/-- The presentation type. -/
def presOf (p : FmtParts) : Option Char := if p.type = ['%'] then some 'f' else p.type.head?

/-- The factor of the percentages. -/
def scaleOf (p : FmtParts) : ℚ := if p.type = ['%'] then 100 else 1

theorem pow10_inv {e : ℤ} {f : ℚ} (h : pow10 e = .ok f) : e ≤ 308 ∧ f = (10 : ℚ) ^ e := by
  unfold pow10 at h
  split_ifs at h with h1
  injection h with h
  exact ⟨by omega, h.symm⟩

theorem mantissaFactor_inv {e : ℤ} {f : ℚ} (h : mantissaFactor e = .ok f) : e ≤ 308 ∧ f = (10 : ℚ) ^ e := by
  unfold mantissaFactor at h
  split_ifs at h
  exact pow10_inv h

theorem formatPlan_fin {p : FmtParts} (hv : p.Valid) {x s : ℚ} (hs : 0 < s) {plan : Plan}
    (h : formatPlan p (.fin x) (.fin s) = .ok plan) :
    ∃ l S', Limit p (presOf p) (x * scaleOf p) (s * scaleOf p) l S' ∧ 0 < S' ∧
      plan.commonExp = commonExponent (presOf p) [|x * scaleOf p|, s * scaleOf p] (some l) ∧
      (∀ e ∈ plan.commonExp, e ≤ 308) ∧
      plan.nomMain = .fin (x * scaleOf p / (10 : ℚ) ^ plan.commonExp.getD 0) ∧
      plan.errorMain = .fin (S' / (10 : ℚ) ^ plan.commonExp.getD 0) ∧
      plan.prec = (plan.commonExp.getD 0 - l).toNat ∧
      (plan.mainPresType = 'f' ∨ plan.mainPresType = 'F') ∧
      plan.options = (if p.type = ['%'] then '%' :: p.options else p.options) := by
  have hsc : 0 < scaleOf p := by unfold scaleOf; split_ifs <;> norm_num
  have hS : 0 < s * scaleOf p := mul_pos hs hsc
  unfold formatPlan at h
  have e1 : (if p.type = ['%'] then (FNum.fin x).scale 100 else FNum.fin x) = .fin (x * scaleOf p) := by
    unfold scaleOf; split_ifs <;> simp [FNum.scale]
  have e2 : (if p.type = ['%'] then (FNum.fin s).scale 100 else FNum.fin s) = .fin (s * scaleOf p) := by
    unfold scaleOf; split_ifs <;> simp [FNum.scale]
  have e3 : (if p.type = ['%'] then some 'f' else p.type.head?) = presOf p := rfl
  simp only [e1, e2, e3] at h
  obtain ⟨⟨lo, S1, pr⟩, hr, h⟩ := bind_ok h
  obtain ⟨l, S', rfl, rfl, hl⟩ := digitsLimit_fin hv hS hr
  have hpos : 0 < S' := hl.pos hS
  have htr : (FNum.fin S').truthy = true := by simp [FNum.truthy, hpos.ne']
  have hreal : realValues (.fin (x * scaleOf p)) (.fin (s * scaleOf p)) = [|x * scaleOf p|, s * scaleOf p] := rfl
  simp only [hreal] at h
  generalize hE : commonExponent (presOf p) [|x * scaleOf p|, s * scaleOf p] (some l) = E at h
  have hm : ∀ c : Prop, [Decidable c] → ((if c then 'F' else 'f') = 'f' ∨ (if c then 'F' else 'f') = 'F') := by
    intro c _
    split_ifs <;> simp
  refine ⟨l, S', hl, hpos, ?_⟩
  cases E with
  | none =>
    injection h with h
    rw [← h]
    refine ⟨hE.symm, by simp, by simp, by simp, ?_, hm _, rfl⟩
    simp only [htr]
    simp
    omega
  | some e =>
    obtain ⟨f, hf, h⟩ := bind_ok h
    obtain ⟨he, rfl⟩ := mantissaFactor_inv hf
    injection h with h
    rw [← h]
    refine ⟨hE.symm, by simpa using he, ?_, ?_, ?_, hm _, rfl⟩
    · simp [FNum.scale, div_eq_mul_inv]
    · simp [FNum.scale, div_eq_mul_inv]
    · simp only [htr]
      simp
      omega

/-! ### Rounding -/

theorem round_scaled (q : ℚ) (a : ℤ) (b : ℕ) :
    pyRound (q / (10 : ℚ) ^ a) b = rhe (q / (10 : ℚ) ^ (a - b)) * (10 : ℚ) ^ (-(b : ℤ)) := by
  unfold pyRound
  rw [div_eq_mul_inv (rhe _ : ℚ), ← zpow_neg, ten_sub]
  congr 3
  have := (ten_pos a).ne'
  have := (ten_pos (b : ℤ)).ne'
  field_simp

theorem ten_mul_cancel (q : ℚ) (a : ℤ) (b : ℤ) : q * (10 : ℚ) ^ (-b) * (10 : ℚ) ^ a = q * (10 : ℚ) ^ (a - b) := by
  rw [mul_assoc, ← ten_add]
  congr 2
  ring

theorem rhe_max (a b : ℚ) : rhe (max a b) = max (rhe a) (rhe b) := by
  rcases le_total a b with h | h
  · rw [max_eq_right h, max_eq_right (rhe_mono h)]
  · rw [max_eq_left h, max_eq_left (rhe_mono h)]

theorem rhe_half : rhe (19 / 2) = 10 := by decide +kernel

/-- The rules of the Particle Data Group do not change the displayed digits. -/
theorem pdg_round {S : ℚ} (hS : 0 < S) :
    rhe ((pdgPrecision S).2 / (10 : ℚ) ^ signifDgtToLimit (pdgPrecision S).2 (pdgPrecision S).1) =
      rhe (S / (10 : ℚ) ^ signifDgtToLimit (pdgPrecision S).2 (pdgPrecision S).1) ∧
    1 ≤ rhe (S / (10 : ℚ) ^ signifDgtToLimit (pdgPrecision S).2 (pdgPrecision S).1) := by
  obtain ⟨t, d, h⟩ := exists_leading hS
  have hpos := pdg_pos hS
  have hn : 1 ≤ (pdgPrecision S).1 := by rw [pdg_eq h]; split_ifs <;> simp
  have h1 : 1 ≤ rhe ((pdgPrecision S).2 / (10 : ℚ) ^ signifDgtToLimit (pdgPrecision S).2 (pdgPrecision S).1) := by
    have := (signif_pos hpos hn).1
    have h2 : (1 : ℤ) ≤ 10 ^ ((pdgPrecision S).1 - 1) := one_le_pow₀ (by norm_num)
    omega
  suffices hs : rhe ((pdgPrecision S).2 / (10 : ℚ) ^ signifDgtToLimit (pdgPrecision S).2 (pdgPrecision S).1) =
      rhe (S / (10 : ℚ) ^ signifDgtToLimit (pdgPrecision S).2 (pdgPrecision S).1) from ⟨hs, hs ▸ h1⟩
  by_cases h9 : 950 ≤ t
  · obtain ⟨l, m, hl, hm, -, -, hh⟩ := C37_pdg_displayed S t d h
    obtain ⟨rfl, rfl⟩ := hh h9
    rw [hl]
    have e2 : (pdgPrecision S).2 = (10 : ℚ) ^ (l + 1) := by
      rw [pdg_eq h, if_neg (by omega), if_neg (by omega)]
    rw [e2, ten_add, mul_comm, mul_div_assoc, div_self (ten_pos l).ne']
    have e3 : rhe ((10 : ℚ) ^ (1 : ℤ) * 1) = 10 := by
      rw [show ((10 : ℚ) ^ (1 : ℤ) * 1) = ((10 : ℤ) : ℚ) by norm_num, rhe_int]
    rw [e3]
    have hp := ten_pos (l - 2)
    have hl2 : (10 : ℚ) ^ l = 100 * (10 : ℚ) ^ (l - 2) := by
      rw [show (100 : ℚ) = (10 : ℚ) ^ (2 : ℤ) by norm_num, ← ten_add]; congr 1; ring
    have hle : (19 / 2 : ℚ) ≤ S / (10 : ℚ) ^ l := by
      rw [le_div_iff₀ (ten_pos l), hl2]
      have h3 := h.2.2.1
      have h4 : (950 : ℚ) ≤ t := by exact_mod_cast h9
      nlinarith
    have hge : S / (10 : ℚ) ^ l ≤ ((10 : ℤ) : ℚ) := by
      rw [div_le_iff₀ (ten_pos l), hl2]
      have h3 := h.2.2.2
      have h4 : (t : ℚ) ≤ 999 := by exact_mod_cast h.2.1
      push_cast
      nlinarith
    have a1 := rhe_mono hle
    rw [rhe_half] at a1
    have a2 := rhe_le hge
    omega
  · have e2 : (pdgPrecision S).2 = S := by
      rw [pdg_eq h]
      split_ifs
      · rfl
      · rfl
      · omega
    rw [e2]

theorem Limit.same {p : FmtParts} {pres : Option Char} {X S : ℚ} {l : ℤ} {S' : ℚ} (h : Limit p pres X S l S') (hS : 0 < S) :
    rhe (S' / (10 : ℚ) ^ l) = rhe (S / (10 : ℚ) ^ l) ∧ SameOrPdg S S' := by
  cases h with
  | digits => exact ⟨rfl, .inl rfl⟩
  | pdg =>
    refine ⟨(pdg_round hS).1, ?_⟩
    obtain ⟨t, d, h⟩ := exists_leading hS
    rw [pdg_eq h]
    split_ifs with h1 h2
    · exact .inl rfl
    · exact .inl rfl
    · exact .inr ⟨t, d, h, by omega, rfl⟩
  | fixed => exact ⟨rfl, .inl rfl⟩
  | float => exact ⟨rfl, .inl rfl⟩

/-- The largest displayed value is not zero, unless a number of decimals is imposed. -/
theorem Limit.ref_pos {p : FmtParts} {pres : Option Char} {X S : ℚ} {l : ℤ} {S' : ℚ} (h : Limit p pres X S l S') (hS : 0 < S)
    (hf : ¬ (pres = some 'f' ∨ pres = some 'F')) : 1 ≤ rhe (max |X| S / (10 : ℚ) ^ l) := by
  have mono : ∀ l : ℤ, rhe (S / (10 : ℚ) ^ l) ≤ rhe (max |X| S / (10 : ℚ) ^ l) := fun l =>
    rhe_mono (div_le_div_of_nonneg_right (le_max_right _ _) (ten_pos l).le)
  have one : ∀ {v : ℚ} {n : ℕ}, 0 < v → 1 ≤ n → 1 ≤ rhe (v / (10 : ℚ) ^ signifDgtToLimit v n) := by
    intro v n hv hn
    have := (signif_pos hv hn).1
    have h2 : (1 : ℤ) ≤ 10 ^ (n - 1) := one_le_pow₀ (by norm_num)
    omega
  cases h with
  | digits d hd hu hpos => exact (one hS hpos).trans (mono _)
  | pdg => exact (pdg_round hS).2.trans (mono _)
  | fixed d hd hu hf' => exact absurd hf' hf
  | float d hd hu hf' n hn =>
    refine one (lt_of_lt_of_le hS (le_max_right _ _)) ?_
    rw [hn]
    split_ifs <;> omega

/-- The reference value for the exponent, rounded. -/
theorem ref_exponent {v : ℚ} {l : ℤ} (h : 1 ≤ rhe (v / (10 : ℚ) ^ l)) :
    HasExponent (rhe (v / (10 : ℚ) ^ l) * (10 : ℚ) ^ l) (firstDigit (pyRound v (-l))) ∧ l ≤ firstDigit (pyRound v (-l)) := by
  have h1 : (1 : ℚ) ≤ (rhe (v / (10 : ℚ) ^ l) : ℚ) := by exact_mod_cast h
  have hl := ten_pos l
  have hpos : 0 < pyRound v (-l) := by
    rw [pyRound_mul]
    positivity
  have hs := firstDigit_spec hpos.ne'
  rw [← pyRound_mul]
  refine ⟨hs, ?_⟩
  have h2 : rhe (v / (10 : ℚ) ^ l) * (10 : ℚ) ^ l < (10 : ℚ) ^ (firstDigit (pyRound v (-l)) + 1) := by
    have h2 := hs.2
    rw [abs_of_pos hpos] at h2
    rwa [← pyRound_mul]
  have h3 : (10 : ℚ) ^ l < (10 : ℚ) ^ (firstDigit (pyRound v (-l)) + 1) := by
    refine lt_of_le_of_lt ?_ h2
    nlinarith
  have := ten_lt_iff.1 h3
  omega

/-- Everything about a successful formatting of finite values with a non-zero uncertainty. -/
theorem format_fin {x s : ℚ} (hs : 0 < s) {spec out : Str} (h : formatU (.fin x) (.fin s) spec = .ok out) :
    ∃ p, parseSpec spec = some p ∧ p.Valid ∧ ∃ l S' E t,
      Limit p (presOf p) (x * scaleOf p) (s * scaleOf p) l S' ∧ 0 < S' ∧ (t = 'f' ∨ t = 'F') ∧
      E = commonExponent (presOf p) [|x * scaleOf p|, s * scaleOf p] (some l) ∧ (∀ e ∈ E, e ≤ 308) ∧
      formatNum (.fin (x * scaleOf p / (10 : ℚ) ^ E.getD 0)) (.fin (S' / (10 : ℚ) ^ E.getD 0)) E p (E.getD 0 - l).toNat t
        (if p.type = ['%'] then '%' :: p.options else p.options) = .ok out := by
  unfold formatU at h
  cases hp : parseSpec spec with
  | none => rw [hp] at h; cases h
  | some p =>
    rw [hp] at h
    have hv := (parseSpec_sound hp).1
    refine ⟨p, rfl, hv, ?_⟩
    obtain ⟨plan, h1, h2⟩ := bind_ok h
    obtain ⟨l, S', hl, hpos, e1, e2, e3, e4, e5, e6, e7⟩ := formatPlan_fin hv hs h1
    rw [e3, e4, e5, e7] at h2
    exact ⟨l, S', plan.commonExp, plan.mainPresType, hl, hpos, e6, e1, e2, h2⟩

theorem percent_mem {p : FmtParts} (hv : p.Valid) :
    '%' ∈ (if p.type = ['%'] then '%' :: p.options else p.options) ↔ p.type = ['%'] := by
  constructor
  · intro h
    by_contra hne
    rw [if_neg hne] at h
    exact absurd (hv.options _ h) (by decide)
  · intro h
    rw [if_pos h]
    simp

/-- The numbers shown. -/
def shownOf (q : ℚ) (E : Option ℤ) (l : ℤ) : Shown :=
  ⟨(E.getD 0 - l).toNat, pyRound (q / (10 : ℚ) ^ E.getD 0) (E.getD 0 - l).toNat, E⟩

theorem shownOf_value (q : ℚ) (E : Option ℤ) (l : ℤ) :
    (shownOf q E l).value = rhe (q / (shownOf q E l).unit) * (shownOf q E l).unit := by
  unfold Shown.value Shown.unit shownOf
  simp only [round_scaled, ten_mul_cancel]

theorem shownOf_near (q : ℚ) (E : Option ℤ) (l : ℤ) : (shownOf q E l).Near q := by
  unfold Shown.Near
  rw [shownOf_value]
  unfold Shown.unit
  exact pyRound_rounds q _

theorem format_displays {x s : ℚ} (hs : 0 < s) {spec out : Str} (h : formatU (.fin x) (.fin s) spec = .ok out) :
    ∃ p, parseSpec spec = some p ∧ p.Valid ∧ ∃ l S' E,
      Limit p (presOf p) (x * scaleOf p) (s * scaleOf p) l S' ∧
      E = commonExponent (presOf p) [|x * scaleOf p|, s * scaleOf p] (some l) ∧ (∀ e ∈ E, e ≤ 308) ∧
      Faithful x s out (shownOf (x * scaleOf p) E l) (shownOf S' E l) (decide (p.type = ['%'])) := by
  obtain ⟨p, hp, hv, l, S', E, t, hl, hpos, ht, hE, h308, h⟩ := format_fin hs h
  have hsc : 0 < scaleOf p := by unfold scaleOf; split_ifs <;> norm_num
  have hS : 0 < s * scaleOf p := mul_pos hs hsc
  refine ⟨p, hp, hv, l, S', E, hl, hE, h308, ?_⟩
  have hfac : percentFactor (decide (p.type = ['%'])) = scaleOf p := by
    unfold percentFactor scaleOf
    simp
  have hpe : '%' ∈ (if p.type = ['%'] then '%' :: p.options else p.options) → E = none := by
    intro h
    have h' := (percent_mem hv).1 h
    rw [hE]
    unfold commonExponent presOf
    rw [if_pos h', if_pos (.inl rfl)]
  have hu : 0 < S' / (10 : ℚ) ^ E.getD 0 := div_pos hpos (ten_pos _)
  refine ⟨?_, ?_, S', ?_, shownOf_near _ _ _⟩
  · have hd : decide ('%' ∈ (if p.type = ['%'] then '%' :: p.options else p.options)) = decide (p.type = ['%']) := by
      rw [decide_eq_decide]
      exact percent_mem hv
    rw [← hd]
    unfold formatNum at h
    by_cases hS' : 'S' ∈ (if p.type = ['%'] then '%' :: p.options else p.options)
    · rw [if_pos hS'] at h
      exact formatShorthand_displays hv hu ht h
    · rw [if_neg hS'] at h
      exact formatPm_displays hv hu.ne' ht hpe h
  · rw [hfac]
    exact shownOf_near _ _ _
  · rw [hfac]
    exact (hl.same hS).2

theorem shownOf_unit (q : ℚ) {E : Option ℤ} {l : ℤ} (h : l ≤ E.getD 0) : (shownOf q E l).unit = (10 : ℚ) ^ l := by
  unfold Shown.unit shownOf
  simp only []
  congr 1
  omega

/-- The common exponent. -/
theorem exponent_cases {pres : Option Char} {X S : ℚ} {l : ℤ} (hf : ¬ (pres = some 'f' ∨ pres = some 'F'))
    (hr : 1 ≤ rhe (max |X| S / (10 : ℚ) ^ l)) :
    commonExponent pres [|X|, S] (some l) =
        (if (pres = some 'e' ∨ pres = some 'E') ∨ firstDigit (pyRound (max |X| S) (-l)) < -4 ∨ 0 < l
          then some (firstDigit (pyRound (max |X| S) (-l))) else none) ∧
      l ≤ (commonExponent pres [|X|, S] (some l)).getD 0 := by
  have hle := (ref_exponent hr).2
  have h : commonExponent pres [|X|, S] (some l) =
        (if (pres = some 'e' ∨ pres = some 'E') ∨ firstDigit (pyRound (max |X| S) (-l)) < -4 ∨ 0 < l
          then some (firstDigit (pyRound (max |X| S) (-l))) else none) := by
    unfold commonExponent
    rw [if_neg hf]
    simp only [expRefValue]
    by_cases he : pres = some 'e' ∨ pres = some 'E'
    · rw [if_pos he, if_pos (.inl he)]
    · rw [if_neg he]
      by_cases hg : -4 ≤ firstDigit (pyRound (max |X| S) (-l)) ∧
          firstDigit (pyRound (max |X| S) (-l)) < firstDigit (pyRound (max |X| S) (-l)) - l + 1
      · rw [if_pos hg, if_neg]
        rintro (h | h | h)
        · exact he h
        · omega
        · omega
      · rw [if_neg hg, if_pos]
        right
        omega
  refine ⟨h, ?_⟩
  rw [h]
  split_ifs with h1
  · exact hle
  · simp only [Option.getD_none]
    push_neg at h1
    exact h1.2.2

/-- The larger of the two numbers shown. -/
theorem shown_max {p : FmtParts} {pres : Option Char} {X S : ℚ} {l : ℤ} {S' : ℚ} (h : Limit p pres X S l S') (hS : 0 < S)
    {E : Option ℤ} (hE : l ≤ E.getD 0) :
    max |(shownOf X E l).value| (shownOf S' E l).value = rhe (max |X| S / (10 : ℚ) ^ l) * (10 : ℚ) ^ l := by
  have hp := ten_pos l
  rw [shownOf_value, shownOf_value, shownOf_unit _ hE, shownOf_unit _ hE, (h.same hS).1, abs_mul, abs_of_pos hp,
    ← max_mul_of_nonneg _ _ hp.le, ← max_div_div_right hp.le, rhe_max, show |X| / (10 : ℚ) ^ l = |X / (10 : ℚ) ^ l| by
    rw [abs_div, abs_of_pos hp], rhe_abs]
  push_cast
  rfl

theorem commonExponent_f {pres : Option Char} (hf : pres = some 'f' ∨ pres = some 'F') (reals : List ℚ) (l : Option ℤ) :
    commonExponent pres reals l = none := by
  unfold commonExponent
  rw [if_pos hf]

theorem scaleOf_pos (p : FmtParts) : 0 < scaleOf p := by unfold scaleOf; split_ifs <;> norm_num

theorem scaleOf_factor (p : FmtParts) : percentFactor (decide (p.type = ['%'])) = scaleOf p := by
  unfold percentFactor scaleOf
  simp

theorem presOf_f (p : FmtParts) :
    (presOf p = some 'f' ∨ presOf p = some 'F') ↔ (p.type = ['%'] ∨ p.type.head? = some 'f' ∨ p.type.head? = some 'F') := by
  unfold presOf
  split_ifs with h <;> simp [h]

/-- With a format that can have an exponent, or if the last digit is not before the decimal point, the last printed
digit is the one that was chosen. -/
theorem unit_of_limit {p : FmtParts} {X S : ℚ} {l : ℤ} {S' : ℚ} (hl : Limit p (presOf p) X S l S') (hS : 0 < S)
    {E : Option ℤ} (hE : E = commonExponent (presOf p) [|X|, S] (some l))
    (h : ¬ (presOf p = some 'f' ∨ presOf p = some 'F') ∨ l ≤ 0) : l ≤ E.getD 0 := by
  by_cases hf : presOf p = some 'f' ∨ presOf p = some 'F'
  · rw [hE, commonExponent_f hf]
    exact h.resolve_left (fun h => h hf)
  · rw [hE]
    exact (exponent_cases hf (hl.ref_pos hS hf)).2

/-- Otherwise, all the digits before the decimal point are shown. -/
theorem no_unit {p : FmtParts} {X S : ℚ} {l : ℤ} {S' : ℚ} (hl : Limit p (presOf p) X S l S') (hS : 0 < S)
    {E : Option ℤ} (hE : E = commonExponent (presOf p) [|X|, S] (some l)) (h : ¬ l ≤ E.getD 0) :
    (presOf p = some 'f' ∨ presOf p = some 'F') ∧ E = none ∧ (E.getD 0 - l).toNat = 0 := by
  by_cases hf : presOf p = some 'f' ∨ presOf p = some 'F'
  · have h0 : E = none := by rw [hE, commonExponent_f hf]
    refine ⟨hf, h0, ?_⟩
    rw [h0] at h ⊢
    simp at h ⊢
    omega
  · exact absurd (unit_of_limit hl hS hE (.inl hf)) h

/-- The integer number of units of a number shown at the chosen digit. -/
theorem shownOf_units (q : ℚ) {E : Option ℤ} {l : ℤ} (h : l ≤ E.getD 0) :
    (shownOf q E l).value = (rhe (q / (10 : ℚ) ^ l) : ℤ) * (shownOf q E l).unit := by
  rw [shownOf_value, shownOf_unit _ h]

theorem signif_hasDigits {v : ℚ} (hv : 0 < v) {n : ℕ} (hn : 1 ≤ n) :
    HasDigits (rhe (v / (10 : ℚ) ^ signifDgtToLimit v n)) n := by
  have h := signif_pos hv hn
  have h0 : (0 : ℤ) ≤ 10 ^ (n - 1) := by positivity
  have h1 : ((rhe (v / (10 : ℚ) ^ signifDgtToLimit v n)).natAbs : ℤ) = rhe (v / (10 : ℚ) ^ signifDgtToLimit v n) :=
    Int.natAbs_of_nonneg (h0.trans h.1)
  constructor
  · have := h.1
    rw [← h1] at this
    exact_mod_cast this
  · have := h.2
    rw [← h1] at this
    exact_mod_cast this

/-- Number of decimals of the mantissas. -/
theorem places_of_digits {v : ℚ} {l : ℤ} {n : ℕ} (hd : HasDigits (rhe (v / (10 : ℚ) ^ l)) n)
    (hr : 1 ≤ rhe (v / (10 : ℚ) ^ l)) : firstDigit (pyRound v (-l)) = l + n - 1 := by
  have hn : 1 ≤ n := by
    by_contra h
    have : n = 0 := by omega
    subst this
    have := hd.2
    simp at this
    omega
  obtain ⟨h1, h2⟩ := hd
  have hcast : ((rhe (v / (10 : ℚ) ^ l)).natAbs : ℤ) = rhe (v / (10 : ℚ) ^ l) := Int.natAbs_of_nonneg (by omega)
  have h1' : (10 : ℤ) ^ (n - 1) ≤ rhe (v / (10 : ℚ) ^ l) := by rw [← hcast]; exact_mod_cast h1
  have h2' : rhe (v / (10 : ℚ) ^ l) < (10 : ℤ) ^ n := by rw [← hcast]; exact_mod_cast h2
  have a1 : (10 : ℚ) ^ ((n : ℤ) - 1) ≤ (rhe (v / (10 : ℚ) ^ l) : ℚ) := by
    have : (((10 : ℤ) ^ (n - 1) : ℤ) : ℚ) ≤ (rhe (v / (10 : ℚ) ^ l) : ℚ) := by exact_mod_cast h1'
    push_cast at this
    rw [show ((n : ℤ) - 1) = ((n - 1 : ℕ) : ℤ) by omega, zpow_natCast]
    exact this
  have a2 : (rhe (v / (10 : ℚ) ^ l) : ℚ) < (10 : ℚ) ^ (n : ℤ) := by
    have : (rhe (v / (10 : ℚ) ^ l) : ℚ) < (((10 : ℤ) ^ n : ℤ) : ℚ) := by exact_mod_cast h2'
    push_cast at this
    rw [zpow_natCast]
    exact this
  refine (ref_exponent hr).1.unique ?_
  have hp := ten_pos l
  have h0 : (0 : ℚ) ≤ (rhe (v / (10 : ℚ) ^ l) : ℚ) := by exact_mod_cast (show (0 : ℤ) ≤ rhe (v / (10 : ℚ) ^ l) by omega)
  unfold HasExponent
  rw [abs_of_nonneg (mul_nonneg h0 hp.le), show l + (n : ℤ) - 1 + 1 = n + l by ring,
    show l + (n : ℤ) - 1 = (n - 1) + l by ring, ten_add, ten_add]
  exact ⟨mul_le_mul_of_nonneg_right a1 hp.le, mul_lt_mul_of_pos_right a2 hp⟩

/-- When all the digits before the decimal point are shown, there are at least as many as asked for. -/
theorem at_least {v : ℚ} {l : ℤ} (hl : 0 < l) {k : ℕ} (h : (10 : ℤ) ^ k ≤ rhe (v / (10 : ℚ) ^ l)) :
    (10 : ℚ) ^ k ≤ (rhe v : ℚ) := by
  have h7 : (10 : ℚ) ≤ (10 : ℚ) ^ l := by
    calc (10 : ℚ) = (10 : ℚ) ^ (1 : ℤ) := by norm_num
      _ ≤ (10 : ℚ) ^ l := ten_le_iff.2 (by omega)
  have hk : (1 : ℚ) ≤ (10 : ℚ) ^ k := one_le_pow₀ (by norm_num)
  have h5 : (10 : ℚ) ^ k - 1 / 2 ≤ v / (10 : ℚ) ^ l := by
    have := rhe_near (v / (10 : ℚ) ^ l)
    rw [abs_le] at this
    have h6 : (((10 : ℤ) ^ k : ℤ) : ℚ) ≤ (rhe (v / (10 : ℚ) ^ l) : ℚ) := by exact_mod_cast h
    push_cast at h6
    linarith [this.1]
  rw [le_div_iff₀ (ten_pos l)] at h5
  have h8 : (10 : ℚ) ^ k ≤ v := by nlinarith
  have h9 : (10 : ℤ) ^ k ≤ rhe v := rhe_ge (by push_cast; exact h8)
  exact_mod_cast h9

theorem type_f {p : FmtParts} (hv : p.Valid) (h1 : presOf p = some 'f' ∨ presOf p = some 'F') :
    p.type = ['f'] ∨ p.type = ['F'] ∨ p.type = ['%'] := by
  rw [presOf_f] at h1
  rcases hv.type with h | ⟨c, hc, h⟩
  · rw [h] at h1; simp at h1
  · rw [h] at h1 ⊢
    revert h1
    fin_cases hc <;> simp

end Unc
