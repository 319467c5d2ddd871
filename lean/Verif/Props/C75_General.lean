import Verif.Lemmas.General
import Verif.Props.C43_Special
import Verif.Props.C49_Repr

/-!
# The numbers shown next to a special value, in the general formats (C75)

With the types `g`, `G` and without type, a number that is next to a NaN, zero or infinite one is not printed with a fixed
number of decimals: it is printed with the general format of Python.
-/

set_option autoImplicit false

namespace Unc

theorem nomMain_special {p : FmtParts} {x : ℚ} {s : FNum} (hs : specialError s = true) {plan : Plan}
    (h : formatPlan p (.fin x) s = .ok plan) (ht : p.type ≠ ['%']) :
    plan.nomMain = .fin (x / (10 : ℚ) ^ plan.commonExp.getD 0) ∧ specialError plan.errorMain = true := by
  obtain ⟨lo, S', pr, hl, hE, -, hnom, herr, -⟩ := formatPlan_ok h
  have hone : ∀ y : FNum, y.scale 1 = y := by intro y; cases y <;> simp [FNum.scale]
  have hsc : scaleOf p = 1 := by unfold scaleOf; rw [if_neg ht]
  rw [hsc, hone, hone] at hl
  rw [hsc, hone] at hnom
  obtain ⟨rfl, -⟩ := digitsLimit_special hs hl
  refine ⟨by rw [hnom]; simp [FNum.scale, div_eq_mul_inv], ?_⟩
  rw [herr, specialError_scale (by have := ten_pos (plan.commonExp.getD 0); positivity)]
  exact hs

theorem special_error {s : FNum} (hs : s = .fin 0 ∨ s = .nan ∨ ∃ b, s = .inf b) : specialError s = true := by
  rcases hs with rfl | rfl | ⟨b, rfl⟩
  · decide +kernel
  · rfl
  · cases b <;> rfl

theorem type_of_list {T : Option Char} {c : Char} (h : T.toList = [c]) : T = some c := by
  cases T with
  | none => simp at h
  | some d => simpa using h

theorem nominal_general {x : ℚ} {s : FNum} (hs : s = .fin 0 ∨ s = .nan ∨ ∃ b, s = .inf b) {spec out : Str} {p : FmtParts}
    (hp : parseSpec spec = some p) (ht : p.type = [] ∨ p.type = ['g'] ∨ p.type = ['G']) (h : formatU (.fin x) s spec = .ok out) :
    ∃ (N X : Str) (E : Option ℤ) (f : FloatSpec), NominalText out N X ∧ OptExp X E ∧ f.prec = none ∧ f.type.toList = p.type ∧
      N = formatWith (.fin (x / (10 : ℚ) ^ E.getD 0)) f := by
  obtain ⟨p', plan, hp', hv, hplan, z, N, X, -, hNT, hX, hN⟩ := format_nominal h
  obtain rfl : p = p' := by rw [hp] at hp'; injection hp'
  have hnp : p.type ≠ ['%'] := by rcases ht with h | h | h <;> rw [h] <;> decide
  obtain ⟨h1, h2⟩ := nomMain_special (special_error hs) hplan hnp
  have hsx : fmtSuffixN plan.errorMain p plan.prec plan.mainPresType = gSuffix p := by
    simp [fmtSuffixN, h2, (pres_g ht).2.2]
  rw [hsx, h1] at hN
  have hsign : ∀ c ∈ p.sign.head?, c ∈ "+- ".toList := by
    intro c hc
    rcases hv.sign with h | ⟨d, hd, h⟩
    · rw [h] at hc; simp at hc
    · rw [h] at hc
      simp only [List.head?_cons, Option.mem_def, Option.some.injEq] at hc
      subst hc
      revert hd
      simp only [List.mem_cons, List.not_mem_nil, or_false]
      rintro (rfl | rfl | rfl) <;> decide
  obtain ⟨f, f1, f2, f3⟩ := pyFormat_general hv ht hsign hN
  exact ⟨N, X, plan.commonExp, f, hNT, hX, f1, f2, f3⟩

/-- **C75**, formats `g` and `G`, uncertainty zero, infinite or NaN: the nominal value printed is the nominal value rounded
to 6 significant digits (whatever the precision of the format). -/
theorem C75_nominal_g (x : ℚ) (s : FNum) (hs : s = .fin 0 ∨ s = .nan ∨ ∃ b, s = .inf b) (spec out : Str) (p : FmtParts)
    (hp : parseSpec spec = some p) (ht : p.type = ['g'] ∨ p.type = ['G']) (h : formatU (.fin x) s spec = .ok out) :
    ∃ (N X : Str) (v : ℚ) (E : Option ℤ), NominalText out N X ∧ General N v ∧ OptExp X E ∧
      RoundedTo 6 x (v * (10 : ℚ) ^ E.getD 0) := by
  obtain ⟨N, X, E, f, h1, h2, h3, h4, rfl⟩ := nominal_general hs hp (.inr ht) h
  obtain ⟨c, hc, hpc⟩ : ∃ c, (c = 'g' ∨ c = 'G') ∧ p.type = [c] := by
    rcases ht with h | h
    · exact ⟨'g', .inl rfl, h⟩
    · exact ⟨'G', .inr rfl, h⟩
  rw [hpc] at h4
  obtain ⟨v, g1, g2⟩ := formatWith_g (q := x / (10 : ℚ) ^ E.getD 0) h3 hc (type_of_list h4)
  refine ⟨_, X, v, E, h1, g1, h2, ?_⟩
  have := g2.scale (E.getD 0)
  rwa [div_mul_cancel₀ _ (ten_pos _).ne'] at this

/-- **C75**, without type, uncertainty zero, infinite or NaN: the nominal value printed is exactly the nominal value, for
all the numbers with finitely many decimals. -/
theorem C75_nominal_repr (x : ℚ) (hx : IsDecimal x) (s : FNum) (hs : s = .fin 0 ∨ s = .nan ∨ ∃ b, s = .inf b) (spec out : Str)
    (p : FmtParts) (hp : parseSpec spec = some p) (ht : p.type = []) (h : formatU (.fin x) s spec = .ok out) :
    ∃ (N X : Str) (v : ℚ) (E : Option ℤ), NominalText out N X ∧ General N v ∧ OptExp X E ∧ x = v * (10 : ℚ) ^ E.getD 0 := by
  obtain ⟨N, X, E, f, h1, h2, h3, h4, rfl⟩ := nominal_general hs hp (.inl ht) h
  rw [ht] at h4
  have hd : IsDecimal (x / (10 : ℚ) ^ E.getD 0) := by
    have := hx.scale (-E.getD 0)
    rwa [zpow_neg, ← div_eq_mul_inv] at this
  have g := formatWith_repr hd h3 (by simpa using h4)
  exact ⟨_, X, _, E, h1, g, h2, (div_mul_cancel₀ _ (ten_pos _).ne').symm⟩

/-- `0.001234567` next to a NaN is printed with 6 digits, the last one being rounded; the rounding can change the exponent. -/
example : formatU (.fin (1234567 / 1000000000)) .nan "g".toList = .ok "0.00123457+/-nan".toList := by decide +kernel
example : formatU (.fin (99999999 / 100)) .nan "g".toList = .ok "(1+/-nan)e+06".toList := by decide +kernel
example : formatU (.fin (99999999 / 100000)) (.fin 0) "G".toList = .ok "1000+/-0".toList := by decide +kernel
example : formatU (.fin (1234567 / 1000000000)) (.inf false) [] = .ok "0.001234567+/-inf".toList := by decide +kernel
example : formatU (.fin (-123456789012345)) .nan [] = .ok "(-1.23456789012345+/-nan)e+14".toList := by decide +kernel
example : IsDecimal (1234567 / 1000000000) := ⟨1234567, 9, by norm_num⟩

/-! ### The uncertainty next to a nominal value that is infinite or NaN -/

theorem uncertainty_general {x : FNum} (hx : x = .nan ∨ ∃ b, x = .inf b) {s : ℚ} (hs : 0 < s) {spec out : Str} {p : FmtParts}
    (hp : parseSpec spec = some p) (ht : p.type = [] ∨ p.type = ['g'] ∨ p.type = ['G']) (hS : 'S' ∉ p.options)
    (h : formatU x (.fin s) spec = .ok out) :
    ∃ (U X : Str) (E : Option ℤ) (f : FloatSpec) (s' : ℚ), UncertaintyText out U X ∧ OptExp X E ∧ SameOrPdg s s' ∧
      f.prec = none ∧ f.type.toList = p.type ∧ U = formatWith (.fin (s' / (10 : ℚ) ^ E.getD 0)) f := by
  have hx' : x.isInfinite = true := by
    rcases hx with rfl | ⟨b, rfl⟩ <;> rfl
  obtain ⟨p', plan, hp', hv, hplan, hU⟩ := format_uncertainty h
  obtain rfl : p = p' := by rw [hp] at hp'; injection hp'
  obtain ⟨q1, q2, q3⟩ := pres_g ht
  obtain ⟨l, S', hsame, hS', hrr, hr, hd, hE, hle, herr, hni, hprec, hty⟩ := formatPlan_nonfin hv hx' hs hplan q2
  have hu : 0 < S' / (10 : ℚ) ^ plan.commonExp.getD 0 := div_pos hS' (ten_pos _)
  obtain ⟨z, U, X, -, hUT, hX, hU⟩ := hU _ hu.ne' herr
  rw [if_neg hS] at hU
  have hsx : fmtSuffixE plan.nomMain plan.errorMain p plan.prec plan.mainPresType = gSuffix p := by
    have : plan.errorMain.truthy = true := by rw [herr]; simp [FNum.truthy, hu.ne']
    simp [fmtSuffixE, q3, this, hni]
  rw [hsx, herr] at hU
  obtain ⟨f, f1, f2, f3⟩ := pyFormat_general hv ht (by simp) hU
  exact ⟨U, X, plan.commonExp, f, S', hUT, hX, hsame, f1, f2, f3⟩

/-- **C75**, formats `g` and `G`, nominal value infinite or NaN: the uncertainty printed is the uncertainty (after the rule of
the Particle Data Group, if it is used) rounded to 6 significant digits. -/
theorem C75_uncertainty_g (x : FNum) (hx : x = .nan ∨ ∃ b, x = .inf b) (s : ℚ) (hs : 0 < s) (spec out : Str) (p : FmtParts)
    (hp : parseSpec spec = some p) (ht : p.type = ['g'] ∨ p.type = ['G']) (hS : 'S' ∉ p.options)
    (h : formatU x (.fin s) spec = .ok out) :
    ∃ (U X : Str) (v s' : ℚ) (E : Option ℤ), UncertaintyText out U X ∧ General U v ∧ OptExp X E ∧ SameOrPdg s s' ∧
      RoundedTo 6 s' (v * (10 : ℚ) ^ E.getD 0) := by
  obtain ⟨U, X, E, f, s', h1, h2, h5, h3, h4, rfl⟩ := uncertainty_general hx hs hp (.inr ht) hS h
  obtain ⟨c, hc, hpc⟩ : ∃ c, (c = 'g' ∨ c = 'G') ∧ p.type = [c] := by
    rcases ht with h | h
    · exact ⟨'g', .inl rfl, h⟩
    · exact ⟨'G', .inr rfl, h⟩
  rw [hpc] at h4
  obtain ⟨v, g1, g2⟩ := formatWith_g (q := s' / (10 : ℚ) ^ E.getD 0) h3 hc (type_of_list h4)
  refine ⟨_, X, v, s', E, h1, g1, h2, h5, ?_⟩
  have := g2.scale (E.getD 0)
  rwa [div_mul_cancel₀ _ (ten_pos _).ne'] at this

/-- **C75**, without type, nominal value infinite or NaN. -/
theorem C75_uncertainty_repr (x : FNum) (hx : x = .nan ∨ ∃ b, x = .inf b) (s : ℚ) (hs : 0 < s) (hd : IsDecimal s) (spec out : Str)
    (p : FmtParts) (hp : parseSpec spec = some p) (ht : p.type = []) (hS : 'S' ∉ p.options)
    (h : formatU x (.fin s) spec = .ok out) :
    ∃ (U X : Str) (v : ℚ) (E : Option ℤ), UncertaintyText out U X ∧ General U v ∧ OptExp X E ∧
      SameOrPdg s (v * (10 : ℚ) ^ E.getD 0) := by
  obtain ⟨U, X, E, f, s', h1, h2, h5, h3, h4, rfl⟩ := uncertainty_general hx hs hp (.inl ht) hS h
  rw [ht] at h4
  have hd' : IsDecimal s' := by
    rcases h5 with rfl | ⟨t, d, -, -, rfl⟩
    · exact hd
    · have h1 : IsDecimal 1 := ⟨1, 0, by norm_num⟩
      have := h1.scale (d + 1)
      rwa [one_mul] at this
  have hd2 : IsDecimal (s' / (10 : ℚ) ^ E.getD 0) := by
    have := hd'.scale (-E.getD 0)
    rwa [zpow_neg, ← div_eq_mul_inv] at this
  have g := formatWith_repr hd2 h3 (by simpa using h4)
  exact ⟨_, X, _, E, h1, g, h2, by rw [div_mul_cancel₀ _ (ten_pos _).ne']; exact h5⟩

/-- **C75**, shorthand notation, nominal value infinite or NaN. -/
theorem C75_uncertainty_shorthand (x : FNum) (hx : x = .nan ∨ ∃ b, x = .inf b) (s : ℚ) (hs : 0 < s) (spec out : Str) (p : FmtParts)
    (hp : parseSpec spec = some p) (ht : p.type = [] ∨ p.type = ['g'] ∨ p.type = ['G']) (hS : 'S' ∈ p.options)
    (h : formatU x (.fin s) spec = .ok out) :
    ∃ (U X : Str) (u : Shown) (s' : ℚ), UncertaintyText out U X ∧ Bracket u.places U u ∧ OptExp X u.exp ∧ SameOrPdg s s' ∧ u.Near s' := by
  have hx' : x.isInfinite = true := by
    rcases hx with rfl | ⟨b, rfl⟩ <;> rfl
  obtain ⟨p', plan, hp', hv, hplan, hU⟩ := format_uncertainty h
  obtain rfl : p = p' := by rw [hp] at hp'; injection hp'
  obtain ⟨q1, q2, q3⟩ := pres_g ht
  obtain ⟨l, S', hsame, hS', hrr, hr, hd, hE, hle, herr, hni, hprec, hty⟩ := formatPlan_nonfin hv hx' hs hplan q2
  have hu : 0 < S' / (10 : ℚ) ^ plan.commonExp.getD 0 := div_pos hS' (ten_pos _)
  obtain ⟨z, U, X, -, hUT, hX, hU⟩ := hU _ hu.ne' herr
  rw [if_pos hS] at hU
  refine ⟨U, X, shownOf S' plan.commonExp l, S', hUT, ?_, hX, hsame, shownOf_near _ _ _⟩
  rw [hU, hprec]
  exact shortText_bracket hu.le _ _

example : formatU .nan (.fin (1234567 / 1000)) "g".toList = .ok "nan+/-1234.57".toList := by decide +kernel
example : formatU .nan (.fin (1234567 / 1000)) [] = .ok "nan+/-1234.567".toList := by decide +kernel
example : formatU .nan (.fin (1234567 / 1000)) "S".toList = .ok "nan(1234.56700000)".toList := by decide +kernel

/-! ### `repr` (C49) -/

/-- What the round trip of `repr` needs is true of all the numbers with finitely many decimals (hence of all the finite floats),
with the infinities and NaN. -/
theorem C49_repr_decimals (v : FNum) (h : ∀ q, v = .fin q → IsDecimal q) : ReprOk reprFloat v := by
  cases v with
  | fin q =>
    refine ⟨reprFloat_read (h q rfl), ?_, ?_⟩
    · intro c hc
      rcases reprFloat_chars q c hc with h | h
      · have : ∀ c, isDigit c = true → c ∈ "0123456789".toList := by
          intro c hc
          unfold isDigit at hc
          have h1 : 48 ≤ c.toNat ∧ c.toNat ≤ 57 := by simpa [Char.isDigit] using hc
          obtain ⟨n, hn⟩ : ∃ n, c.toNat = n := ⟨_, rfl⟩
          have hcn : c = Char.ofNat n := by rw [← hn]; exact (Char.ofNat_toNat c).symm
          rw [hn] at h1
          have : ∀ n, 48 ≤ n → n ≤ 57 → Char.ofNat n ∈ "0123456789".toList := by decide
          rw [hcn]
          exact this n h1.1 h1.2
        have := this c h
        revert this
        have hsub : ∀ c ∈ "0123456789".toList, c ∈ "0123456789.+-einfa".toList := by decide
        exact hsub c
      · have hsub : ∀ c ∈ ".+-e".toList, c ∈ "0123456789.+-einfa".toList := by decide
        exact hsub c h
    · show FNum.scale (.fin q) 1 = .fin q
      simp [FNum.scale]
  | inf b => cases b <;> exact ⟨by decide +kernel, by decide +kernel, by decide +kernel⟩
  | nan => exact ⟨by decide +kernel, by decide +kernel, by decide +kernel⟩

/-- **C49**, for all the numbers with finitely many decimals: the round trip of `repr`. -/
theorem C49_repr_round_trip_decimals (x s : FNum) (hx : ∀ q, x = .fin q → IsDecimal q) (hs : ∀ q, s = .fin q → IsDecimal q ∧ 0 ≤ q) :
    (ufloatFromstr (reprU reprFloat FNum.truthy x s) : PyRes (FNum × FNum)) = .ok (x, s) := by
  refine C49_repr_round_trip reprFloat FNum.truthy x s (.fin 0) (C49_repr_decimals x hx)
    (fun _ => C49_repr_decimals s (fun q hq => (hs q hq).1)) ?_ (by decide +kernel) (by decide +kernel) ?_
  · intro h
    cases s with
    | fin q => simp [FNum.truthy] at h; rw [h]
    | inf b => cases h
    | nan => cases h
  · cases s with
    | fin q =>
      have := (hs q rfl).2
      show (FNum.isNeg (.fin q) && !FNum.isInfinite (.fin q)) = false
      simp [FNum.isNeg, this]
    | inf b => cases b <;> rfl
    | nan => rfl

/-- The float nearest to 0.1 has 55 decimals. -/
example : IsDecimal (3602879701896397 / 2 ^ 55) := ⟨3602879701896397 * 5 ^ 55, 55, by norm_num⟩

end Unc
