import Verif.Lemmas.FloatFormat
import Verif.Lemmas.Layout

/-! # The calculations of `__format__` with floating-point arithmetic -/

set_option autoImplicit false

namespace Unc

/-- The position of the last digit, and the standard deviation shown. -/
inductive LimitFl (f : FlOps) (p : FmtParts) (pres : Option Char) (X S : ℚ) : ℤ → ℚ → Prop
  | digits (d : Str) (hd : p.prec = some d) (hu : p.uncertPrec ≠ []) (hpos : 1 ≤ digitsVal d) :
      LimitFl f p pres X S (f.signifDgtToLimit S (digitsVal d)) S
  | pdg (hd : p.prec = none) :
      LimitFl f p pres X S (f.signifDgtToLimit (f.pdgPrecision S).2 (f.pdgPrecision S).1) (f.pdgPrecision S).2
  | fixed (d : Str) (hd : p.prec = some d) (hu : p.uncertPrec = []) (hf : pres = some 'f' ∨ pres = some 'F') :
      LimitFl f p pres X S (-(digitsVal d : ℤ)) S
  | float (d : Str) (hd : p.prec = some d) (hu : p.uncertPrec = []) (hf : ¬ (pres = some 'f' ∨ pres = some 'F')) (n : ℕ)
      (hn : n = if pres = some 'e' ∨ pres = some 'E' then digitsVal d + 1 else if digitsVal d = 0 then 1 else digitsVal d) :
      LimitFl f p pres X S (f.signifDgtToLimit (max |X| S) n) S

namespace FlOps

variable {f : FlOps}

theorem digitsLimit_fin {p : FmtParts} (hv : p.Valid) {pres : Option Char} {X S : ℚ} (hS : 0 < S)
    {r : Option ℤ × FNum × ℕ} (h : f.digitsLimit p pres (.fin X) (.fin S) = .ok r) :
    ∃ l S', r.1 = some l ∧ r.2.1 = .fin S' ∧ LimitFl f p pres X S l S' := by
  unfold FlOps.digitsLimit at h
  simp only [realValues, List.singleton_append, List.length_cons, List.length_nil, zero_add, Nat.reduceAdd, and_true] at h
  cases hp : p.prec with
  | none =>
    simp only [hp, Option.getD_none, true_or, decide_true, ne_eq, not_true_eq_false, if_false, if_pos hS.ne'] at h
    injection h with h
    rw [← h]
    exact ⟨_, _, rfl, rfl, .pdg hp⟩
  | some d =>
    obtain ⟨hne, -⟩ := hv.prec d hp
    simp only [hp, Option.getD_some, hne, false_or] at h
    by_cases hu : p.uncertPrec = []
    · simp only [hu, ne_eq, not_true_eq_false, decide_false] at h
      unfold FlOps.digitsLimit.floatLimit at h
      simp only [ne_eq, hne, not_false_eq_true, if_true, expRefValue] at h
      by_cases hf : pres = some 'f' ∨ pres = some 'F'
      · rw [if_pos hf] at h
        injection h with h
        rw [← h]
        exact ⟨_, _, rfl, rfl, .fixed d hp hu hf⟩
      · rw [if_neg hf] at h
        injection h with h
        rw [← h]
        exact ⟨_, _, rfl, rfl, .float d hp hu hf _ rfl⟩
    · simp only [hu, ne_eq, not_false_eq_true, decide_true, if_pos hS.ne', hne, if_true] at h
      by_cases h0 : digitsVal d = 0
      · rw [if_pos h0] at h
        cases h
      · rw [if_neg h0] at h
        injection h with h
        rw [← h]
        exact ⟨_, _, rfl, rfl, .digits d hp hu (by omega)⟩

/-- The value, or the percentage. -/
def scaled (f : FlOps) (p : FmtParts) (x : ℚ) : ℚ := if p.type = ['%'] then f.rnd (x * 100) else x

/-- The mantissa. -/
def mant (f : FlOps) (E : Option ℤ) (q : ℚ) : ℚ := match E with | some e => f.rnd (q * (1 / f.ten e)) | none => q

theorem mainType_pres {p : FmtParts} (hv : p.Valid) :
    (if presOf p = some 'E' ∨ presOf p = some 'F' ∨ presOf p = some 'G' then 'F' else 'f') = mainType p := by
  unfold mainType upperCase presOf
  rcases hv.type with h | ⟨c, hc, h⟩
  · rw [h]; rfl
  · rw [h]
    clear h
    revert c
    decide

theorem formatPlan_fin {p : FmtParts} (hv : p.Valid) {x s : ℚ} (hS : 0 < f.scaled p s)
    (hpos : ∀ l S', LimitFl f p (presOf p) (f.scaled p x) (f.scaled p s) l S' → 0 < S') {plan : Plan}
    (h : f.formatPlan p (.fin x) (.fin s) = .ok plan) :
    ∃ l S', LimitFl f p (presOf p) (f.scaled p x) (f.scaled p s) l S' ∧
      plan.commonExp = f.commonExponent (presOf p) [|f.scaled p x|, f.scaled p s] (some l) ∧
      plan.nomMain = .fin (f.mant plan.commonExp (f.scaled p x)) ∧
      plan.errorMain = .fin (f.mant plan.commonExp S') ∧
      plan.prec = (plan.commonExp.getD 0 - l).toNat ∧
      plan.mainPresType = mainType p ∧
      plan.options = (if p.type = ['%'] then '%' :: p.options else p.options) := by
  unfold FlOps.formatPlan at h
  have e1 : (if p.type = ['%'] then f.scale (.fin x) 100 else FNum.fin x) = .fin (f.scaled p x) := by
    unfold scaled; split_ifs <;> rfl
  have e2 : (if p.type = ['%'] then f.scale (.fin s) 100 else FNum.fin s) = .fin (f.scaled p s) := by
    unfold scaled; split_ifs <;> rfl
  have e3 : (if p.type = ['%'] then some 'f' else p.type.head?) = presOf p := rfl
  simp only [e1, e2, e3] at h
  obtain ⟨⟨lo, S1, pr⟩, hr, h⟩ := bind_ok h
  obtain ⟨l, S', rfl, rfl, hl⟩ := f.digitsLimit_fin hv hS hr
  have hpos' : 0 < S' := hpos _ _ hl
  have htr : (FNum.fin S').truthy = true := by simp [FNum.truthy, hpos'.ne']
  have hreal : realValues (.fin (f.scaled p x)) (.fin (f.scaled p s)) = [|f.scaled p x|, f.scaled p s] := rfl
  simp only [hreal] at h
  generalize hE : f.commonExponent (presOf p) [|f.scaled p x|, f.scaled p s] (some l) = E at h
  have hm := mainType_pres hv
  unfold presOf at hm
  refine ⟨l, S', hl, ?_⟩
  cases E with
  | none =>
    injection h with h
    rw [← h]
    refine ⟨hE.symm, rfl, rfl, ?_, hm, rfl⟩
    simp only [htr]
    simp
    omega
  | some e =>
    obtain ⟨g, hg, h⟩ := bind_ok h
    have hg' : g = f.ten e := by
      unfold FlOps.mantissaFactor at hg
      split_ifs at hg
      injection hg with hg
      exact hg.symm
    subst hg'
    injection h with h
    rw [← h]
    refine ⟨hE.symm, rfl, rfl, ?_, hm, rfl⟩
    simp only [htr]
    simp
    omega

theorem format_fin {x s : ℚ} {spec out : Str}
    (h : f.formatU (.fin x) (.fin s) spec = .ok out) (hS : ∀ p : FmtParts, 0 < f.scaled p s)
    (hpos : ∀ (p : FmtParts) l S', LimitFl f p (presOf p) (f.scaled p x) (f.scaled p s) l S' → 0 < S') :
    ∃ p, parseSpec spec = some p ∧ p.Valid ∧ ∃ l S' E t,
      LimitFl f p (presOf p) (f.scaled p x) (f.scaled p s) l S' ∧ t = mainType p ∧
      E = f.commonExponent (presOf p) [|f.scaled p x|, f.scaled p s] (some l) ∧
      f.formatNum (.fin (f.mant E (f.scaled p x))) (.fin (f.mant E S')) E p (E.getD 0 - l).toNat t
        (if p.type = ['%'] then '%' :: p.options else p.options) = .ok out := by
  unfold FlOps.formatU at h
  cases hp : parseSpec spec with
  | none => rw [hp] at h; cases h
  | some p =>
    rw [hp] at h
    have hv := (parseSpec_sound hp).1
    refine ⟨p, rfl, hv, ?_⟩
    obtain ⟨plan, h1, h2⟩ := bind_ok h
    obtain ⟨l, S', hl, e1, e3, e4, e5, e6, e7⟩ := f.formatPlan_fin hv (hS p) (hpos p) h1
    rw [e3, e4, e5, e7] at h2
    exact ⟨l, S', plan.commonExp, plan.mainPresType, hl, e6, e1, h2⟩

namespace Sound

/-! ### Ranges -/

theorem firstDigit_range (hf : f.Sound) {v : ℚ} {a b : ℤ} (ha : -250 ≤ a) (hb : b ≤ 250) (h1 : (10 : ℚ) ^ a ≤ v)
    (h2 : v ≤ (10 : ℚ) ^ b) : a ≤ f.firstDigit v ∧ f.firstDigit v ≤ b + 1 := by
  have hv : 0 < v := (ten_pos a).trans_le h1
  have hfd : f.firstDigit v = f.logFloor v := by
    unfold FlOps.firstDigit
    rw [if_neg hv.ne', abs_of_pos hv]
  constructor
  · rw [hfd]
    exact hf.log_ge v a (by omega) (h2.trans (ten_le_iff.2 (by omega))) h1
  · have hs := (firstDigit_spec hv.ne').1
    rw [abs_of_pos hv] at hs
    have := ten_le_iff.1 (hs.trans h2)
    rcases hf.firstDigit_cases ((ten_le_iff.2 (by omega)).trans h1) (h2.trans (ten_le_iff.2 (by omega))) with h | ⟨h, -⟩ <;> omega

theorem signif_ge (hf : f.Sound) {v : ℚ} {a b : ℤ} (ha : -250 ≤ a) (hb : b ≤ 250) (h1 : (10 : ℚ) ^ a ≤ v)
    (h2 : v ≤ (10 : ℚ) ^ b) (n : ℕ) : a - n + 1 ≤ f.signifDgtToLimit v n := by
  have h := (hf.firstDigit_range ha hb h1 h2).1
  unfold FlOps.signifDgtToLimit
  simp only []
  split_ifs <;> omega

/-- A power of ten times a factor of two. -/
theorem round_range (hf : f.Sound) {v : ℚ} {a b : ℤ} (ha : -240 ≤ a) (hb : b ≤ 240) (h1 : (10 : ℚ) ^ a ≤ v)
    (h2 : v ≤ (10 : ℚ) ^ b) (l : ℤ) :
    f.firstDigit (f.round v (-l)) = 0 ∨ a - 1 ≤ f.firstDigit (f.round v (-l)) ∧ f.firstDigit (f.round v (-l)) ≤ b + 2 := by
  have hv : 0 < v := (ten_pos a).trans_le h1
  have hm : 0 ≤ rhe (v / (10 : ℚ) ^ l) := rhe_nonneg (div_nonneg hv.le (ten_pos l).le)
  unfold FlOps.round
  rcases hm.eq_or_lt with hm | hm
  · left
    rw [pyRound_mul, ← hm, Int.cast_zero, zero_mul, hf.rnd_zero]
    unfold FlOps.firstDigit
    rw [if_pos rfl]
  · right
    obtain ⟨r1, r2⟩ := round_bounds hm
    generalize pyRound v (-l) = r at r1 r2
    have w := hf.rnd_bounds (q := r)
      ((ten_half (show (-300 : ℤ) < a by omega)).trans ((div_le_div_of_nonneg_right h1 (by norm_num)).trans r1))
      (r2.trans ((mul_le_mul_of_nonneg_left h2 (by norm_num)).trans (ten_double (by omega))))
    obtain ⟨w1, w2, w3⟩ := w
    generalize f.rnd r = ρ at w1 w2 w3
    have hb1 : (10 : ℚ) ^ (b + 1) = (10 : ℚ) ^ b * 10 := by rw [ten_add, zpow_one]
    have ha1 : (10 : ℚ) ^ a = (10 : ℚ) ^ (a - 1) * 10 := by
      rw [← zpow_add_one₀ (by norm_num : (10 : ℚ) ≠ 0), sub_add_cancel]
    have hap := ten_pos (a - 1)
    have hbp := ten_pos b
    rw [ha1] at h1
    have k1 : (10 : ℚ) ^ (a - 1) ≤ ρ := by
      generalize (10 : ℚ) ^ (a - 1) = A at *
      nlinarith
    have k2 : ρ ≤ (10 : ℚ) ^ (b + 1) := by
      rw [hb1]
      generalize (10 : ℚ) ^ b = B at *
      nlinarith
    have := hf.firstDigit_range (a := a - 1) (b := b + 1) (by omega) (by omega) k1 k2
    omega

theorem exponent_range (hf : f.Sound) {pres : Option Char} {X S : ℚ} {a b : ℤ} (ha : -240 ≤ a) (hb : b ≤ 240) (ha0 : a ≤ 1)
    (hb0 : -2 ≤ b) (h1 : (10 : ℚ) ^ a ≤ max |X| S) (h2 : max |X| S ≤ (10 : ℚ) ^ b) {l : ℤ} {E : Option ℤ}
    (hE : E = f.commonExponent pres [|X|, S] (some l)) : ∀ e ∈ E, a - 1 ≤ e ∧ e ≤ b + 2 := by
  intro e he
  have hr : e = f.firstDigit (f.round (max |X| S) (-l)) := by
    rw [hE] at he
    unfold FlOps.commonExponent at he
    simp only [expRefValue] at he
    split_ifs at he <;> simp at he <;> exact he.symm
  have := hf.round_range ha hb h1 h2 l
  rw [← hr] at this
  omega

/-- The mantissa, up to rounding errors. -/
theorem mant_near (hf : f.Sound) {q : ℚ} {E : Option ℤ} (hE : ∀ e ∈ E, -115 ≤ e ∧ e ≤ 115)
    (hq : q = 0 ∨ (10 : ℚ) ^ (-105 : ℤ) ≤ |q| ∧ |q| ≤ (10 : ℚ) ^ (105 : ℤ)) :
    |f.mant E q * (10 : ℚ) ^ E.getD 0 - q| ≤ |q| * (4 / 10 ^ 15) := by
  cases E with
  | none =>
    simp only [mant, Option.getD_none, zpow_zero, mul_one, sub_self, abs_zero]
    positivity
  | some e =>
    obtain ⟨e1, e2⟩ := hE e rfl
    simp only [mant, Option.getD_some]
    rcases hq with rfl | ⟨h1, h2⟩
    · rw [zero_mul, hf.rnd_zero]
      simp
    · have hp := ten_pos e
      have hq0 : 0 < |q| := (ten_pos _).trans_le h1
      have hb1 : (10 : ℚ) ^ (-299 : ℤ) ≤ |q| / (10 : ℚ) ^ e := by
        rw [le_div_iff₀ hp, ← ten_add]
        exact (ten_le_iff.2 (by omega)).trans h1
      have hb2 : |q| / (10 : ℚ) ^ e ≤ (10 : ℚ) ^ (299 : ℤ) := by
        rw [div_le_iff₀ hp, ← ten_add]
        exact h2.trans (ten_le_iff.2 (by omega))
      have w := hf.within_div (Within.refl (b := |q|)) hq0.le le_rfl (by norm_num) (e := e) (by omega) (by omega)
      obtain ⟨-, -, ht⟩ := hf.ten_bounds (e := e) (by omega) (by omega)
      have habs : |q * (1 / f.ten e)| = |q| * (1 / f.ten e) := by
        rw [abs_mul q, abs_of_pos (show 0 < 1 / f.ten e by positivity)]
      have w1 := w.1
      have w2 := w.2
      have n1 := hf.rnd_near (q * (1 / f.ten e))
        (by
          rw [habs]
          refine le_trans ?_ w1
          calc (10 : ℚ) ^ (-300 : ℤ) ≤ (10 : ℚ) ^ (-299 : ℤ) / 2 := ten_half (by norm_num)
            _ ≤ |q| / (10 : ℚ) ^ e / 2 := div_le_div_of_nonneg_right hb1 (by norm_num)
            _ ≤ _ := by
              have : 0 ≤ |q| / (10 : ℚ) ^ e := by positivity
              nlinarith)
        (by
          rw [habs]
          refine w2.trans ?_
          calc |q| / (10 : ℚ) ^ e * (1 + (0 + 2 / 10 ^ 15)) ≤ 2 * (|q| / (10 : ℚ) ^ e) := by
                have : 0 ≤ |q| / (10 : ℚ) ^ e := by positivity
                nlinarith
            _ ≤ 2 * (10 : ℚ) ^ (299 : ℤ) := mul_le_mul_of_nonneg_left hb2 (by norm_num)
            _ ≤ _ := ten_double (by norm_num))
      rw [habs] at n1
      have n2 : |q * (1 / f.ten e) - q / (10 : ℚ) ^ e| ≤ |q| / (10 : ℚ) ^ e * (2 / 10 ^ 15) := by
        have hw := w.abs
        have g1 : |q| * (1 / f.ten e) - |q| / (10 : ℚ) ^ e = |q| * (1 / f.ten e - 1 / (10 : ℚ) ^ e) := by ring
        have g2 : q * (1 / f.ten e) - q / (10 : ℚ) ^ e = q * (1 / f.ten e - 1 / (10 : ℚ) ^ e) := by ring
        rw [g1, abs_mul, abs_abs, zero_add] at hw
        rw [g2, abs_mul]
        exact hw
      have n3 : |f.rnd (q * (1 / f.ten e)) - q / (10 : ℚ) ^ e| ≤ |q| / (10 : ℚ) ^ e * (4 / 10 ^ 15) := by
        have h0 : 0 ≤ |q| / (10 : ℚ) ^ e := by positivity
        refine (abs_sub_le _ _ _).trans ((add_le_add n1 n2).trans ?_)
        nlinarith
      have h4 : f.rnd (q * (1 / f.ten e)) * (10 : ℚ) ^ e - q = (f.rnd (q * (1 / f.ten e)) - q / (10 : ℚ) ^ e) * (10 : ℚ) ^ e := by
        field_simp
      rw [h4, abs_mul, abs_of_pos hp]
      calc _ ≤ |q| / (10 : ℚ) ^ e * (4 / 10 ^ 15) * (10 : ℚ) ^ e := mul_le_mul_of_nonneg_right n3 hp.le
        _ = _ := by field_simp

theorem scaled_near (hf : f.Sound) (p : FmtParts) {x : ℚ} (hx : InRange x) :
    |f.scaled p x - x * scaleOf p| ≤ |x * scaleOf p| / 10 ^ 15 ∧
      (f.scaled p x = 0 ∨ (10 : ℚ) ^ (-100 : ℤ) ≤ |f.scaled p x| ∧ |f.scaled p x| ≤ (10 : ℚ) ^ (103 : ℤ)) ∧
      (0 < x → 0 < f.scaled p x) := by
  unfold scaled scaleOf
  split_ifs with hp
  · rcases hx with rfl | ⟨h1, h2⟩
    · rw [zero_mul, hf.rnd_zero]
      simp
    · have h100 : |x * 100| = |x| * 100 := by rw [abs_mul, abs_of_pos (by norm_num : (0 : ℚ) < 100)]
      have hx0 : 0 < |x| := (ten_pos _).trans_le h1
      have e3 : (10 : ℚ) ^ (103 : ℤ) = (10 : ℚ) ^ (100 : ℤ) * 1000 := by
        rw [show (103 : ℤ) = 100 + 3 by norm_num, ten_add]; norm_num
      have n := hf.rnd_near (x * 100)
        (by
          rw [h100]
          exact (ten_le_iff.2 (by norm_num : (-300 : ℤ) ≤ -100)).trans (h1.trans (by linarith)))
        (by
          rw [h100]
          refine le_trans ?_ (ten_le_iff.2 (by norm_num : (103 : ℤ) ≤ 300))
          rw [e3]
          generalize (10 : ℚ) ^ (100 : ℤ) = B at *
          linarith)
      refine ⟨n, .inr ?_, fun h0 => ?_⟩
      · rw [h100] at n
        rw [e3]
        generalize (10 : ℚ) ^ (100 : ℤ) = B at *
        generalize (10 : ℚ) ^ (-100 : ℤ) = A at *
        have a1 := abs_sub_abs_le_abs_sub (f.rnd (x * 100)) (x * 100)
        have a2 := abs_sub_abs_le_abs_sub (x * 100) (f.rnd (x * 100))
        rw [abs_sub_comm (x * 100)] at a2
        rw [h100] at a1 a2
        constructor <;> linarith
      · rw [h100, abs_of_pos h0, abs_le] at n
        linarith [n.1]
  · rw [mul_one, sub_self, abs_zero]
    refine ⟨by positivity, ?_, id⟩
    rcases hx with rfl | ⟨h1, h2⟩
    · exact .inl rfl
    · exact .inr ⟨h1, h2.trans (ten_le_iff.2 (by norm_num))⟩

theorem _root_.Unc.LimitFl.shown (hf : f.Sound) {p : FmtParts} {pres : Option Char} {X S S0 : ℚ} {l : ℤ} {S' : ℚ}
    (h : LimitFl f p pres X S l S') (hS0 : 0 < S0) (hn : |S - S0| ≤ S0 / 10 ^ 15)
    (h1 : (10 : ℚ) ^ (-100 : ℤ) ≤ S) (h2 : S ≤ (10 : ℚ) ^ (103 : ℤ)) :
    (10 : ℚ) ^ (-101 : ℤ) ≤ S' ∧ S' ≤ (10 : ℚ) ^ (104 : ℤ) ∧ ∃ T, SameOrPdgFl S0 T ∧ 0 < T ∧ |S' - T| ≤ T * (4 / 10 ^ 15) := by
  have hS : 0 < S := (ten_pos _).trans_le h1
  have same : (10 : ℚ) ^ (-101 : ℤ) ≤ S ∧ S ≤ (10 : ℚ) ^ (104 : ℤ) ∧ ∃ T, SameOrPdgFl S0 T ∧ 0 < T ∧ |S - T| ≤ T * (4 / 10 ^ 15) :=
    ⟨(ten_le_iff.2 (by norm_num)).trans h1, h2.trans (ten_le_iff.2 (by norm_num)), S0, .inl rfl, hS0, by linarith⟩
  cases h with
  | digits => exact same
  | fixed => exact same
  | float => exact same
  | pdg hd =>
    obtain ⟨v, t, d, P, hv, hl, hP, he⟩ := hf.pdg_cases ((ten_le_iff.2 (by norm_num)).trans h1) (h2.trans (ten_le_iff.2 (by norm_num)))
    rw [he]
    by_cases t1 : t ≤ 354
    · rw [if_pos t1]; exact same
    · rw [if_neg t1]
      by_cases t2 : t ≤ 949
      · rw [if_pos t2]; exact same
      · rw [if_neg t2]
        simp only []
        have hT := ten_pos (d + 1)
        obtain ⟨l1, l2, l3, l4⟩ := hl
        have hd2 : (10 : ℚ) ^ (d + 1) = (10 : ℚ) ^ (d - 2) * 1000 := by
          rw [show d + 1 = d - 2 + 3 by ring, ten_add]; norm_num
        have hd3 := ten_pos (d - 2)
        have ht1 : (950 : ℚ) ≤ t := by exact_mod_cast (by omega : 950 ≤ t)
        have ht2 : (t : ℚ) ≤ 999 := by exact_mod_cast l2
        have hv2 : |v - S0| ≤ S0 / 10 ^ 12 := by
          rw [abs_le] at hv hn ⊢
          constructor <;> linarith [hv.1, hv.2, hn.1, hn.2]
        have p1 := hP.1
        have p2 := hP.2
        have q1 : S / 2 ≤ P ∧ P ≤ 2 * S := by
          rw [hd2] at p1 p2
          generalize (10 : ℚ) ^ (d - 2) = D at *
          rw [abs_le] at hv
          have : (t : ℚ) * D ≤ v := l3
          have g1 : 950 * D ≤ t * D := mul_le_mul_of_nonneg_right ht1 hd3.le
          have g2 : ((t : ℚ) + 1) * D ≤ 1000 * D := mul_le_mul_of_nonneg_right (by linarith) hd3.le
          constructor <;> linarith [hv.1, hv.2]
        refine ⟨?_, ?_, (10 : ℚ) ^ (d + 1), .inr ⟨t, d, v, hv2, ⟨l1, l2, l3, l4⟩, by omega, rfl⟩, hT, hP.abs⟩
        · exact (ten_half (by norm_num)).trans ((div_le_div_of_nonneg_right h1 (by norm_num)).trans q1.1)
        · exact q1.2.trans ((mul_le_mul_of_nonneg_left h2 (by norm_num)).trans (ten_double (by norm_num)))

/-- Half a unit of the last digit, up to rounding errors. -/
theorem near_of (q Q m r : ℚ) (E : Option ℤ) (prec : ℕ) (hq : |q - Q| ≤ |Q| * (4 / 10 ^ 15))
    (hm : |m * (10 : ℚ) ^ E.getD 0 - q| ≤ |q| * (4 / 10 ^ 15))
    (hr : |r - m| ≤ ((10 : ℚ) ^ prec)⁻¹ / 2 + |m| * (3 / 10 ^ 14)) : Shown.NearFl ⟨prec, r, E⟩ Q := by
  unfold Shown.NearFl Shown.value Shown.unit
  simp only []
  have hp := ten_pos (E.getD 0)
  have hu : (10 : ℚ) ^ (E.getD 0 - (prec : ℤ)) = ((10 : ℚ) ^ prec)⁻¹ * (10 : ℚ) ^ E.getD 0 := by
    rw [ten_sub, zpow_natCast]
    field_simp
  rw [hu]
  generalize (10 : ℚ) ^ E.getD 0 = T at *
  generalize ((10 : ℚ) ^ prec)⁻¹ = U at *
  have h1 : |r * T - m * T| ≤ U * T / 2 + |m * T| * (3 / 10 ^ 14) := by
    rw [← sub_mul, abs_mul, abs_of_pos hp, abs_mul, abs_of_pos hp]
    have := mul_le_mul_of_nonneg_right hr hp.le
    linarith
  have h2 : |q| ≤ |Q| * (1 + 4 / 10 ^ 15) := by
    have := abs_sub_abs_le_abs_sub q Q
    linarith
  have h3 : |m * T| ≤ |q| * (1 + 4 / 10 ^ 15) := by
    have := abs_sub_abs_le_abs_sub (m * T) q
    linarith
  have h4 : |Q - r * T| ≤ |q - Q| + |m * T - q| + |r * T - m * T| := by
    have e : Q - r * T = -(q - Q) - (m * T - q) - (r * T - m * T) := by ring
    rw [e]
    have a1 := abs_sub (-(q - Q) - (m * T - q)) (r * T - m * T)
    have a2 := abs_sub (-(q - Q)) (m * T - q)
    rw [abs_neg] at a2
    linarith
  have h5 := abs_nonneg Q
  nlinarith

end Sound

end FlOps

end Unc
