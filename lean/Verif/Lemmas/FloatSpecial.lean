import Verif.Lemmas.FloatLayout
import Verif.Lemmas.SpecialFields

/-! # Special values, with floating-point arithmetic -/

set_option autoImplicit false

namespace Unc

namespace FlOps

variable {f : FlOps}

/-- The value, or the percentage. -/
def scaledN (f : FlOps) (p : FmtParts) (x : FNum) : FNum := if p.type = ['%'] then f.scale x 100 else x

/-- The mantissa. -/
def mantN (f : FlOps) (E : Option ℤ) (x : FNum) : FNum := match E with | some e => f.scale x (1 / f.ten e) | none => x

theorem scaledN_fin (p : FmtParts) (x : ℚ) : f.scaledN p (.fin x) = .fin (f.scaled p x) := by
  unfold scaledN scaled; split_ifs <;> rfl

theorem mantN_fin (E : Option ℤ) (x : ℚ) : f.mantN E (.fin x) = .fin (f.mant E x) := by
  cases E <;> rfl

theorem scaledN_special (p : FmtParts) {x : FNum} (h : x.isInfinite = true) : f.scaledN p x = x := by
  unfold scaledN scale
  cases x with
  | fin q => cases h
  | inf b => simp
  | nan => simp

theorem mantN_special (E : Option ℤ) {x : FNum} (h : x.isInfinite = true) : f.mantN E x = x := by
  unfold mantN scale
  cases x with
  | fin q => cases h
  | inf b => cases E <;> rfl
  | nan => cases E <;> rfl

theorem scaledN_isInfinite (p : FmtParts) (x : FNum) : (f.scaledN p x).isInfinite = x.isInfinite := by
  unfold scaledN scale
  split_ifs
  · cases x <;> rfl
  · rfl

theorem mantN_isInfinite (E : Option ℤ) (x : FNum) : (f.mantN E x).isInfinite = x.isInfinite := by
  unfold mantN scale
  cases E <;> cases x <;> rfl

theorem Sound.scaledN_zero (hf : f.Sound) (p : FmtParts) : f.scaledN p (.fin 0) = .fin 0 := by
  unfold scaledN scale
  simp [hf.rnd_zero]

theorem Sound.mantN_zero (hf : f.Sound) (E : Option ℤ) : f.mantN E (.fin 0) = .fin 0 := by
  unfold mantN scale
  cases E <;> simp [hf.rnd_zero]

/-- A special uncertainty is not changed by the calculations. -/
theorem Sound.special_kept (hf : f.Sound) {s : FNum} (hs : specialError s = true) (p : FmtParts) (E : Option ℤ) :
    f.scaledN p s = s ∧ f.mantN E s = s := by
  rcases (specialError_iff s).2 hs with h | rfl
  · rw [FNum.notFinite_iff] at h
    exact ⟨f.scaledN_special p h, f.mantN_special E h⟩
  · exact ⟨hf.scaledN_zero p, hf.mantN_zero E⟩

/-- The calculations of `__format__`, whatever the values. -/
theorem formatPlan_ok {p : FmtParts} (hv : p.Valid) {x s : FNum} {plan : Plan} (h : f.formatPlan p x s = .ok plan) :
    ∃ lo S' pr, f.digitsLimit p (presOf p) (f.scaledN p x) (f.scaledN p s) = .ok (lo, S', pr) ∧
      plan.commonExp = f.commonExponent (presOf p) (realValues (f.scaledN p x) (f.scaledN p s)) lo ∧
      plan.nomMain = f.mantN plan.commonExp (f.scaledN p x) ∧
      plan.errorMain = f.mantN plan.commonExp S' ∧
      (∀ l, lo = some l → plan.prec = (max (plan.commonExp.getD 0 - l) (if presOf p = none ∧ !S'.truthy then 1 else 0)).toNat) ∧
      (lo = none → plan.prec = pr) ∧
      plan.mainPresType = mainType p ∧ plan.options = optionsOf p := by
  unfold FlOps.formatPlan at h
  have e0 : ∀ y : FNum, (if p.type = ['%'] then f.scale y 100 else y) = f.scaledN p y := fun y => rfl
  have e3 : (if p.type = ['%'] then some 'f' else p.type.head?) = presOf p := rfl
  simp only [e0, e3] at h
  obtain ⟨⟨lo, S', pr⟩, hr, h⟩ := bind_ok h
  simp only [] at h
  have hm := mainType_pres hv
  refine ⟨lo, S', pr, hr, ?_⟩
  generalize hE : f.commonExponent (presOf p) (realValues (f.scaledN p x) (f.scaledN p s)) lo = E at h
  cases E with
  | none =>
    injection h with h
    rw [← h]
    refine ⟨rfl, rfl, rfl, ?_, ?_, hm, rfl⟩
    · rintro l rfl
      simp
    · rintro rfl
      rfl
  | some e =>
    cases lo with
    | none =>
      exfalso
      have hno : ∀ (pres : Option Char) (reals : List ℚ), f.commonExponent pres reals none = none := by
        intro pres reals
        unfold FlOps.commonExponent
        by_cases hc : pres = some 'f' ∨ pres = some 'F'
        · rw [if_pos hc]
        · rw [if_neg hc]
          cases expRefValue reals <;> rfl
      rw [hno] at hE
      cases hE
    | some l =>
      obtain ⟨g, hg, h⟩ := bind_ok h
      have hg' : g = f.ten e := by
        unfold FlOps.mantissaFactor at hg
        split_ifs at hg
        injection hg with hg
        exact hg.symm
      subst hg'
      injection h with h
      rw [← h]
      refine ⟨rfl, rfl, rfl, ?_, by simp, hm, rfl⟩
      rintro l' hl
      obtain rfl := Option.some.inj hl
      simp

theorem format_ok {x s : FNum} {spec out : Str} (h : f.formatU x s spec = .ok out) :
    ∃ p plan, parseSpec spec = some p ∧ p.Valid ∧ f.formatPlan p x s = .ok plan ∧
      f.formatNum plan.nomMain plan.errorMain plan.commonExp p plan.prec (mainType p) (optionsOf p) = .ok out := by
  unfold FlOps.formatU at h
  cases hp : parseSpec spec with
  | none => rw [hp] at h; cases h
  | some p =>
    rw [hp] at h
    obtain ⟨plan, h1, h2⟩ := bind_ok h
    have hv := (parseSpec_sound hp).1
    obtain ⟨_, _, _, -, -, -, -, -, -, e1, e2⟩ := f.formatPlan_ok hv h1
    rw [e1, e2] at h2
    exact ⟨p, plan, rfl, hv, h1, h2⟩

/-- The shorthand notation, whatever the values. -/
theorem formatShorthand_ok {p : FmtParts} (hv : p.Valid) {nom err : FNum} {e : Option ℤ} {prec : ℕ} {t : Char} {options out : Str}
    (h : f.formatShorthand nom err e p prec t options = .ok out) :
    ∃ (z : Option ℕ) (Ns U : Str), ((p.width = [] ∨ p.zero = []) → z = none) ∧
      (p.width ≠ [] → p.zero ≠ [] →
        z = some (digitsVal p.width - ('(' :: (U ++ ')' :: (expStr e t options ++ percentStr options))).length)) ∧
      pyFormat nom (specPrefix p.sign.head? z (p.comma ≠ []) ++ fmtSuffixN err p prec t) = .ok Ns ∧
      f.uncertStr err prec t options = .ok U ∧
      Padded p (latexNom options nom Ns ++ '(' :: (U ++ ')' :: (expStr e t options ++ percentStr options))) out := by
  unfold FlOps.formatShorthand at h
  simp only [] at h
  obtain ⟨U, hU, h⟩ := bind_ok h
  obtain ⟨Ns, hN, h⟩ := bind_ok h
  have ha : ∀ s : Str, s ++ ('(' :: U ++ ')' :: expStr e t options ++ percentStr options) =
      s ++ '(' :: (U ++ ')' :: (expStr e t options ++ percentStr options)) := by simp
  rw [ha] at h
  have pad : Padded p (latexNom options nom Ns ++ '(' :: (U ++ ')' :: (expStr e t options ++ percentStr options))) out := by
    by_cases hw : p.width = []
    · rw [if_neg (by simpa using hw)] at h
      injection h with h
      exact .inl ⟨hw, h.symm⟩
    · rw [if_pos hw] at h
      exact .inr ⟨hw, h⟩
  by_cases hwz : p.zero ≠ [] ∧ p.width ≠ []
  · rw [if_pos hwz, prefix_zero hv hwz.1] at hN
    exact ⟨_, Ns, U, fun h => by rcases h with h | h <;> simp [h] at hwz, fun _ _ => by simp, hN, hU, pad⟩
  · rw [if_neg hwz, prefix_plain hv] at hN
    exact ⟨none, Ns, U, fun _ => rfl, fun h1 h2 => absurd ⟨h2, h1⟩ hwz, hN, hU, pad⟩

/-- The text of a special uncertainty in the shorthand notation does not come from arithmetic. -/
theorem uncertStr_of_special {err : FNum} (h : specialError err = true) (prec : ℕ) (t : Char) (options : Str) :
    f.uncertStr err prec t options = Unc.uncertStr err prec t options := by
  rcases (specialError_iff err).2 h with h | rfl
  · rw [FNum.notFinite_iff] at h
    cases err with
    | fin q => cases h
    | inf b => rfl
    | nan => rfl
  · simp [FlOps.uncertStr, Unc.uncertStr]

theorem digitsLimit_special {p : FmtParts} {pres : Option Char} {nom std : FNum} (hs : specialError std = true)
    {r : Option ℤ × FNum × ℕ} (h : f.digitsLimit p pres nom std = .ok r) :
    r.2.1 = std ∧ digitsLimit.floatLimit f pres std (p.prec.getD []) (realValues nom std) = .ok r := by
  have hfl : digitsLimit.floatLimit f pres std (p.prec.getD []) (realValues nom std) = .ok r := by
    unfold FlOps.digitsLimit at h
    simp only [] at h
    split at h
    · rename_i s h1
      by_cases h2 : s = 0
      · rw [if_neg (by simpa using h2)] at h
        exact h
      · exfalso
        revert hs
        simp [specialError, FNum.truthy, FNum.isInfinite, h2]
    · exact h
  refine ⟨?_, hfl⟩
  unfold digitsLimit.floatLimit at hfl
  simp only [] at hfl
  split_ifs at hfl
  all_goals first
    | (injection hfl with hfl; rw [← hfl])
    | (split at hfl <;> (injection hfl with hfl; rw [← hfl]))

/-- The precision, for numbers that do not control it by their uncertainty. -/
def _root_.Unc.FmtParts.withPrec (p : FmtParts) (pres : Option Char) : FmtParts :=
  if p.prec = none then { p with prec := some (if pres = none then "12".toList else "6".toList) } else p

theorem withPrec_digits {p : FmtParts} (hv : p.Valid) (pres : Option Char) : ∃ d, (p.withPrec pres).prec = some d ∧
    digitsVal d = (if p.prec.getD [] ≠ [] then digitsVal (p.prec.getD []) else if pres = none then 12 else 6) ∧
    (p.withPrec pres).uncertPrec = p.uncertPrec := by
  unfold FmtParts.withPrec
  cases hp : p.prec with
  | none =>
    rw [if_pos rfl]
    refine ⟨_, rfl, ?_, rfl⟩
    split_ifs <;> simp_all
    · decide +kernel
    · decide +kernel
  | some d =>
    obtain ⟨hne, -⟩ := hv.prec d hp
    rw [if_neg (by simp)]
    exact ⟨d, hp, by simp [hne], rfl⟩

theorem floatLimit_cases {p : FmtParts} (hv : p.Valid) {pres : Option Char} {std : FNum} {reals : List ℚ} {X S : ℚ}
    (hr : expRefValue reals = some (max |X| S)) {r : Option ℤ × FNum × ℕ}
    (h : digitsLimit.floatLimit f pres std (p.prec.getD []) reals = .ok r) :
    ∃ l, r.1 = some l ∧ r.2.1 = std ∧
      l = if pres = some 'f' ∨ pres = some 'F' then -((if p.prec.getD [] ≠ [] then digitsVal (p.prec.getD []) else 6 : ℕ) : ℤ)
        else f.signifDgtToLimit (max |X| S) (floatDigits p pres) := by
  unfold digitsLimit.floatLimit at h
  simp only [hr] at h
  by_cases hf : pres = some 'f' ∨ pres = some 'F'
  · rw [if_pos hf] at h
    have hn : pres ≠ none := by rintro rfl; simp at hf
    injection h with h
    rw [← h]
    refine ⟨_, rfl, rfl, ?_⟩
    rw [if_pos hf]
    simp only [if_neg hn]
  · rw [if_neg hf] at h
    injection h with h
    rw [← h]
    refine ⟨_, rfl, rfl, ?_⟩
    rw [if_neg hf]
    rfl

/-- The specification that applies when only the uncertainty is a number. -/
def _root_.Unc.FmtParts.alone (p : FmtParts) (pres : Option Char) : FmtParts := if p.uncertPrec = [] then p.withPrec pres else p

theorem commonExponent_ref {pres : Option Char} {reals reals' : List ℚ} (h : expRefValue reals = expRefValue reals') (l : Option ℤ) :
    f.commonExponent pres reals l = f.commonExponent pres reals' l := by
  unfold FlOps.commonExponent
  rw [h]

theorem realValues_nonfin {x : FNum} (hx : x.isInfinite = true) (S : ℚ) : realValues x (.fin S) = [S] := by
  cases x with
  | fin q => simp [FNum.isInfinite] at hx
  | inf b => rfl
  | nan => rfl

theorem expRef_nonfin {x : FNum} (hx : x.isInfinite = true) {S : ℚ} (hS : 0 < S) :
    expRefValue (realValues x (.fin S)) = some (max |0| S) := by
  rw [realValues_nonfin hx]
  simp [expRefValue, hS.le]

/-- The choice of the digits for a nominal value that is infinite or NaN. -/
theorem digitsLimit_nonfin {p : FmtParts} (hv : p.Valid) {pres : Option Char} {x : FNum} (hx : x.isInfinite = true) {S : ℚ}
    (hS : 0 < S) {r : Option ℤ × FNum × ℕ} (h : f.digitsLimit p pres x (.fin S) = .ok r) :
    ∃ l S', r.1 = some l ∧ r.2.1 = .fin S' ∧ LimitFl f (p.alone pres) pres 0 S l S' := by
  have hexp := expRef_nonfin hx hS
  unfold FlOps.digitsLimit at h
  simp only [realValues_nonfin hx, List.length_cons, List.length_nil] at h
  unfold FmtParts.alone
  by_cases hu : p.uncertPrec = []
  · rw [if_pos hu]
    simp only [hu, ne_eq, not_true_eq_false, or_false, zero_add, OfNat.one_ne_ofNat, and_false, decide_false] at h
    rw [realValues_nonfin hx] at hexp
    obtain ⟨l, h1, h2, h3⟩ := f.floatLimit_cases hv hexp h
    obtain ⟨d, hd, hdv, hun⟩ := withPrec_digits hv pres
    refine ⟨l, S, h1, h2, ?_⟩
    rw [h3]
    by_cases hf : pres = some 'f' ∨ pres = some 'F'
    · have hn : pres ≠ none := by rintro rfl; simp at hf
      rw [if_pos hf]
      simp only [if_neg hn] at hdv
      rw [← hdv]
      exact .fixed d hd (by rw [hun, hu]) hf
    · rw [if_neg hf]
      refine .float d hd (by rw [hun, hu]) hf _ ?_
      rw [hdv]
      rfl
  · rw [if_neg hu]
    simp only [hu, ne_eq, not_false_eq_true, or_true, decide_true, if_pos hS.ne'] at h
    cases hp : p.prec with
    | none =>
      simp only [hp, Option.getD_none, not_true_eq_false, if_false] at h
      injection h with h
      rw [← h]
      exact ⟨_, _, rfl, rfl, .pdg hp⟩
    | some d =>
      obtain ⟨hne, -⟩ := hv.prec d hp
      simp only [hp, Option.getD_some, hne, not_false_eq_true, if_true] at h
      by_cases h0 : digitsVal d = 0
      · rw [if_pos h0] at h
        cases h
      · rw [if_neg h0] at h
        injection h with h
        rw [← h]
        exact ⟨_, _, rfl, rfl, .digits d hp hu (by omega)⟩

namespace Sound

/-- The percentage of a number of the range. -/
theorem scaled_range (hf : f.Sound) (p : FmtParts) {s : ℚ} (hs : 0 < s) (hsr : InRange s) :
    0 < f.scaled p s ∧ (10 : ℚ) ^ (-100 : ℤ) ≤ f.scaled p s ∧ f.scaled p s ≤ (10 : ℚ) ^ (103 : ℤ) ∧ 0 < s * scaleOf p ∧
      |f.scaled p s - s * scaleOf p| ≤ s * scaleOf p / 10 ^ 15 := by
  obtain ⟨h1, h2, h3⟩ := hf.scaled_near p hsr
  have h0 := h3 hs
  have hp : 0 < s * scaleOf p := mul_pos hs (scaleOf_pos p)
  rw [abs_of_pos hp] at h1
  rcases h2 with h2 | ⟨a, b⟩
  · exact absurd h2 h0.ne'
  · rw [abs_of_pos h0] at a b
    exact ⟨h0, a, b, hp, h1⟩

theorem mant_pos (hf : f.Sound) {E : Option ℤ} (hE : ∀ e ∈ E, -115 ≤ e ∧ e ≤ 115) {q : ℚ} (h1 : (10 : ℚ) ^ (-105 : ℤ) ≤ q)
    (h2 : q ≤ (10 : ℚ) ^ (105 : ℤ)) : 0 < f.mant E q := by
  have hq : 0 < q := (ten_pos _).trans_le h1
  have h := hf.mant_near (q := q) hE (.inr (by rw [abs_of_pos hq]; exact ⟨h1, h2⟩))
  rw [abs_of_pos hq, abs_le] at h
  have hp := ten_pos (E.getD 0)
  have : 0 < f.mant E q * (10 : ℚ) ^ E.getD 0 := by linarith [h.1]
  exact pos_of_mul_pos_left this hp.le

/-- The common exponent stays in the range. -/
theorem exponent_small (hf : f.Sound) {pres : Option Char} {X S : ℚ} {l : ℤ} {E : Option ℤ}
    (hE : E = f.commonExponent pres [|X|, S] (some l)) (h1 : (10 : ℚ) ^ (-100 : ℤ) ≤ max |X| S)
    (h2 : max |X| S ≤ (10 : ℚ) ^ (103 : ℤ)) : ∀ e ∈ E, -115 ≤ e ∧ e ≤ 115 := by
  intro e he
  have := hf.exponent_range (a := -100) (b := 103) (by norm_num) (by norm_num) (by norm_num) (by norm_num) h1 h2 hE e he
  omega

/-- The calculations, when the nominal value is infinite or NaN and the uncertainty is a positive number. -/
theorem plan_nonfin (hf : f.Sound) {p : FmtParts} (hv : p.Valid) {x : FNum} (hx : x.isInfinite = true) {s : ℚ} (hs : 0 < s)
    (hsr : InRange s) {plan : Plan} (h : f.formatPlan p x (.fin s) = .ok plan) :
    ∃ l S' T, LimitFl f (p.alone (presOf p)) (presOf p) 0 (f.scaled p s) l S' ∧
      plan.commonExp = f.commonExponent (presOf p) [|0|, f.scaled p s] (some l) ∧ (∀ e ∈ plan.commonExp, -115 ≤ e ∧ e ≤ 115) ∧
      plan.nomMain = x ∧ plan.errorMain = .fin (f.mant plan.commonExp S') ∧ 0 < f.mant plan.commonExp S' ∧
      plan.prec = (plan.commonExp.getD 0 - l).toNat ∧
      (10 : ℚ) ^ (-101 : ℤ) ≤ S' ∧ S' ≤ (10 : ℚ) ^ (104 : ℤ) ∧ SameOrPdgFl (s * scaleOf p) T ∧ 0 < T ∧ |S' - T| ≤ T * (4 / 10 ^ 15) := by
  obtain ⟨r0, r1, r2, r3, r4⟩ := hf.scaled_range p hs hsr
  obtain ⟨lo, So, pr, hl, hE, hnom, herr, hprec, -, -, -⟩ := f.formatPlan_ok hv h
  rw [scaledN_fin, f.scaledN_special p hx] at hl hE
  rw [f.scaledN_special p hx, f.mantN_special _ hx] at hnom
  obtain ⟨l, S', h1, h2, hlim⟩ := f.digitsLimit_nonfin hv hx r0 hl
  simp only [] at h1 h2
  subst h1 h2
  rw [commonExponent_ref (reals' := [|0|, f.scaled p s]) (by rw [expRef_nonfin hx r0]; rfl)] at hE
  obtain ⟨b1, b2, T, t1, t2, t3⟩ := hlim.shown hf r3 r4 r1 r2
  have hmax : max |0| (f.scaled p s) = f.scaled p s := by rw [abs_zero]; exact max_eq_right r0.le
  have hEr := hf.exponent_small hE (by rw [hmax]; exact r1) (by rw [hmax]; exact r2)
  have hpos := hf.mant_pos hEr ((ten_le_iff.2 (by norm_num)).trans b1) (b2.trans (ten_le_iff.2 (by norm_num)))
  refine ⟨l, S', T, hlim, hE, hEr, hnom, by rw [herr, mantN_fin], hpos, ?_, b1, b2, t1, t2, t3⟩
  rw [hprec _ rfl]
  have : (FNum.fin S').truthy = true := by simp [FNum.truthy, ((ten_pos _).trans_le b1).ne']
  simp only [this, Bool.not_true, Bool.false_eq_true, and_false, if_false]
  omega

/-- The calculations, when the uncertainty is zero, infinite or NaN. -/
theorem plan_special (hf : f.Sound) {p : FmtParts} (hv : p.Valid) {x s : FNum} (hs : specialError s = true) {plan : Plan}
    (h : f.formatPlan p x s = .ok plan) :
    plan.nomMain = f.mantN plan.commonExp (f.scaledN p x) ∧ plan.errorMain = s ∧
    ∀ q, x = .fin q → ∃ l,
      l = (if presOf p = some 'f' ∨ presOf p = some 'F' then -((if p.prec.getD [] ≠ [] then digitsVal (p.prec.getD []) else 6 : ℕ) : ℤ)
        else f.signifDgtToLimit (max |f.scaled p q| 0) (floatDigits p (presOf p))) ∧
      plan.commonExp = f.commonExponent (presOf p) [|f.scaled p q|, 0] (some l) ∧
      plan.nomMain = .fin (f.mant plan.commonExp (f.scaled p q)) ∧
      (presOf p ≠ none → plan.prec = (plan.commonExp.getD 0 - l).toNat) := by
  obtain ⟨lo, So, pr, hl, hE, hnom, herr, hprec, -, -, -⟩ := f.formatPlan_ok hv h
  rw [(hf.special_kept hs p none).1] at hl hE
  obtain ⟨hstd, hfl⟩ := f.digitsLimit_special hs hl
  simp only [] at hstd
  subst hstd
  rw [(hf.special_kept hs p _).2] at herr
  refine ⟨hnom, herr, ?_⟩
  rintro q rfl
  rw [scaledN_fin] at hfl hE hnom
  have hexp : expRefValue (realValues (.fin (f.scaled p q)) So) = some (max |f.scaled p q| 0) := by
    rw [expRef_abs hs, max_eq_left (abs_nonneg _)]
  obtain ⟨l, h1, -, h3⟩ := f.floatLimit_cases hv hexp hfl
  simp only [] at h1
  subst h1
  rw [commonExponent_ref (reals' := [|f.scaled p q|, 0]) (by rw [hexp]; rfl)] at hE
  refine ⟨l, h3, hE, by rw [hnom, mantN_fin], fun hne => ?_⟩
  rw [hprec _ rfl]
  simp only [hne, false_and, if_false]
  omega

end Sound

end FlOps

end Unc
