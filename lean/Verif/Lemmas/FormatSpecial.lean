import Verif.Lemmas.FormatPlan

/-!
# The strings made by `format_num`, whatever the values
-/

set_option autoImplicit false

namespace Unc

/-- `A` is `s` in its field. -/
def Padded (p : FmtParts) (s A : Str) : Prop :=
  (p.width = [] ∧ A = s) ∨ (p.width ≠ [] ∧ robustAlign s p.fill (effectiveAlign p) p.width = .ok A)

theorem Padded.rep {p : FmtParts} {s A : Str} (h : Padded p s A) : ∃ c i j, A = List.replicate i c ++ s ++ List.replicate j c := by
  rcases h with ⟨-, rfl⟩ | ⟨-, h⟩
  · exact ⟨' ', 0, 0, by simp⟩
  · obtain ⟨⟨i, j, h⟩, -⟩ := robustAlign_ok h
    exact ⟨_, i, j, h⟩

theorem ite_bind_ok {α β : Type} {c : Prop} [Decidable c] {m : PyRes α} {a : α} {k : α → PyRes β} {out : β}
    (h : (if c then m >>= k else pure a >>= k) = .ok out) : ∃ A, (if c then m else pure a) = .ok A ∧ k A = .ok out := by
  by_cases hc : c
  · rw [if_pos hc] at h ⊢
    exact bind_ok h
  · rw [if_neg hc] at h ⊢
    exact ⟨a, rfl, h⟩

/-- The ± notation, whatever the values. -/
theorem formatPm_ok {p : FmtParts} (hv : p.Valid) {nom err : FNum} {e : Option ℤ} {prec : ℕ} {t : Char} {options out : Str}
    (h : formatPm nom err e p prec t options = .ok out) :
    ∃ (z z' : Option ℕ) (Ns Es A B : Str), ((p.width = [] ∨ p.zero = []) → z = none ∧ z' = none) ∧
      (p.width ≠ [] → p.zero ≠ [] →
        z = some (digitsVal p.width - if nom.isInfinite then 0 else (expStr e t options).length) ∧
        z' = some (digitsVal p.width - if specialError err then 0 else (expStr e t options).length)) ∧
      pyFormat nom (specPrefix p.sign.head? z (p.comma ≠ []) ++ fmtSuffixN err p prec t) = .ok Ns ∧
      pyFormat err (specPrefix none z' (p.comma ≠ []) ++ fmtSuffixE nom err p prec t) = .ok Es ∧
      Padded p (latexNom options nom Ns ++ if p.width ≠ [] ∧ nom.isInfinite = false then expStr e t options else []) A ∧
      Padded p (latexErr options err Es ++ if p.width ≠ [] ∧ specialError err = false then expStr e t options else []) B ∧
      out = wrapPm e p t options A B := by
  unfold formatPm at h
  simp only [] at h
  obtain ⟨Ns, hN, h⟩ := bind_ok h
  obtain ⟨Es, hE, h⟩ := bind_ok h
  obtain ⟨A, hA, h⟩ := ite_bind_ok h
  obtain ⟨B, hB, h⟩ := ite_bind_ok h
  have fin : out = wrapPm e p t options A B := by
    unfold wrapPm
    by_cases h1 : p.width = [] ∧ e.isSome
    · rw [if_pos (by simp [h1])] at h
      rw [if_pos h1]
      injection h with h
      exact h.symm
    · rw [if_neg (by simpa using h1)] at h
      rw [if_neg h1]
      by_cases h2 : percentStr options ≠ []
      · rw [if_pos h2] at h
        rw [if_pos h2]
        injection h with h
        exact h.symm
      · rw [if_neg h2] at h
        rw [if_neg h2]
        by_cases h3 : 'p' ∈ options
        · rw [if_pos h3] at h
          rw [if_pos h3]
          injection h with h
          exact h.symm
        · rw [if_neg h3] at h
          rw [if_neg h3]
          injection h with h
          exact h.symm
  have e1 : ∀ {b : Bool} {s x : Str}, (if (!decide (p.width = []) && !b) = true then s ++ x else s) =
      s ++ if p.width ≠ [] ∧ b = false then x else [] := by
    intro b s x
    by_cases hw : p.width = []
    · simp [hw]
    · cases b
      · simp [hw]
      · simp
  have pad : ∀ {s A : Str}, (if p.width ≠ [] then robustAlign s p.fill (effectiveAlign p) p.width else pure s : PyRes Str) = .ok A →
      Padded p s A := by
    intro s A h
    by_cases hw : p.width = []
    · rw [if_neg (by simpa using hw)] at h
      injection h with h
      exact .inl ⟨hw, h.symm⟩
    · rw [if_pos hw] at h
      exact .inr ⟨hw, h⟩
  rw [e1] at hA hB
  by_cases hwz : p.width ≠ [] ∧ p.zero ≠ []
  · rw [if_pos hwz] at hN hE
    simp only [] at hN hE
    rw [prefix_zero hv hwz.2] at hN
    rw [prefix_zero_err hv hwz.2] at hE
    refine ⟨_, _, Ns, Es, A, B, fun h => by rcases h with h | h <;> simp [h] at hwz, fun h1 _ => ⟨?_, ?_⟩, hN, hE, pad hA, pad hB, fin⟩
    · cases nom.isInfinite <;> simp [h1]
    · cases specialError err <;> simp [h1]
  · rw [if_neg hwz] at hN hE
    simp only [] at hN hE
    rw [prefix_plain hv] at hN
    refine ⟨none, none, Ns, Es, A, B, fun _ => ⟨rfl, rfl⟩, fun h1 h2 => absurd ⟨h1, h2⟩ hwz, hN, ?_, pad hA, pad hB, fin⟩
    rw [← prefix_comma hv]
    exact hE

/-- The shorthand notation, whatever the values. -/
theorem formatShorthand_ok {p : FmtParts} (hv : p.Valid) {nom err : FNum} {e : Option ℤ} {prec : ℕ} {t : Char} {options out : Str}
    (h : formatShorthand nom err e p prec t options = .ok out) :
    ∃ (z : Option ℕ) (Ns U : Str), ((p.width = [] ∨ p.zero = []) → z = none) ∧
      (p.width ≠ [] → p.zero ≠ [] →
        z = some (digitsVal p.width - ('(' :: (U ++ ')' :: (expStr e t options ++ percentStr options))).length)) ∧
      pyFormat nom (specPrefix p.sign.head? z (p.comma ≠ []) ++ fmtSuffixN err p prec t) = .ok Ns ∧
      uncertStr err prec t options = .ok U ∧
      Padded p (latexNom options nom Ns ++ '(' :: (U ++ ')' :: (expStr e t options ++ percentStr options))) out := by
  unfold formatShorthand at h
  simp only [] at h
  obtain ⟨U, hU, h⟩ := bind_ok h
  obtain ⟨Ns, hN, h⟩ := bind_ok h
  have ha : ∀ s : Str, s ++ ('(' :: U ++ ')' :: expStr e t options ++ percentStr options) =
      s ++ '(' :: (U ++ ')' :: (expStr e t options ++ percentStr options)) := by simp
  rw [ha] at h
  have pad : Padded p (latexNom options nom Ns ++ '(' :: (U ++ ')' :: (expStr e t options ++ percentStr options))) out := by
    by_cases hw : p.width = []
    · rw [if_neg (by simpa using hw)] at h
      injection h with h
      exact .inl ⟨hw, h.symm⟩
    · rw [if_pos hw] at h
      exact .inr ⟨hw, h⟩
  by_cases hwz : p.zero ≠ [] ∧ p.width ≠ []
  · rw [if_pos hwz, prefix_zero hv hwz.1] at hN
    exact ⟨_, Ns, U, fun h => by rcases h with h | h <;> simp [h] at hwz, fun _ _ => by simp, hN, hU, pad⟩
  · rw [if_neg hwz, prefix_plain hv] at hN
    exact ⟨none, Ns, U, fun _ => rfl, fun h1 h2 => absurd ⟨h2, h1⟩ hwz, hN, hU, pad⟩

/-! ### Zero -/

/-- The number zero without decimals. -/
theorem fixedStr_zero (zero : Option ℕ) (comma : Bool) {t : Char} (ht : t = 'f' ∨ t = 'F') :
    (∀ c ∈ fixedStr 0 none zero comma 0 t, c = '0' ∨ c = ',') ∧ '0' ∈ fixedStr 0 none zero comma 0 t ∧
      (zero = none → fixedStr 0 none zero comma 0 t = ['0']) := by
  obtain ⟨w, h, -⟩ := fixedStr_eq 0 none zero comma 0 ht
  have hr : (rhe (|(0 : ℚ)| * (10 : ℚ) ^ 0)).natAbs / 10 ^ 0 = 0 := by
    rw [abs_zero, zero_mul, show (0 : ℚ) = ((0 : ℤ) : ℚ) by norm_num, rhe_int]
    rfl
  have hs : signStr (decide ((0 : ℚ) < 0)) none = [] := by simp [signStr]
  rw [hr, hs] at h
  simp only [if_true, List.append_nil, List.nil_append] at h
  have hn : natStr 0 = ['0'] := by decide
  rw [hn] at h
  have h0 : AllD ['0'] := AllD.replicate 1
  obtain ⟨⟨k, h1⟩, h2, -, h4, -⟩ := groupDigits_spec h0 (by simp) comma w
  rw [← h] at h1 h2 h4
  have key : ∀ c ∈ fixedStr 0 none zero comma 0 t, isDigit c = true → c = '0' := by
    intro c hc hd
    have : c ∈ (fixedStr 0 none zero comma 0 t).filter isDigit := List.mem_filter.2 ⟨hc, hd⟩
    rw [h1] at this
    rcases List.mem_append.1 this with h | h
    · exact List.eq_of_mem_replicate h
    · simpa using h
  refine ⟨?_, ?_, ?_⟩
  · intro c hc
    rcases h2 c hc with hd | hd
    · exact .inl (key c hc hd)
    · exact .inr hd
  · obtain ⟨c, hc, hd⟩ := h4
    have := key c hc hd
    rwa [this] at hc
  · rintro rfl
    have hp : finiteParts |(0 : ℚ)| (some t) (some 0) = (['0'], []) := by
      unfold finiteParts
      simp only [Option.getD_some, if_pos ht]
      decide +kernel
    unfold fixedStr formatWith numberParts
    simp only [hp, hs]
    cases comma <;> rfl

/-! ### Choice of the digits, whatever the values -/

theorem digitsLimit_special {p : FmtParts} {pres : Option Char} {nom std : FNum} (hs : specialError std = true)
    {r : Option ℤ × FNum × ℕ} (h : digitsLimit p pres nom std = .ok r) :
    r.2.1 = std ∧ digitsLimit.floatLimit pres std (p.prec.getD []) (realValues nom std) = .ok r := by
  have hfl : digitsLimit.floatLimit pres std (p.prec.getD []) (realValues nom std) = .ok r := by
    unfold digitsLimit at h
    simp only [] at h
    split at h
    · rename_i s h1
      by_cases h2 : s = 0
      · rw [if_neg (by simpa using h2)] at h
        exact h
      · exfalso
        revert hs
        simp [specialError, FNum.truthy, FNum.isInfinite, h2]
    · exact h
  refine ⟨?_, hfl⟩
  unfold digitsLimit.floatLimit at hfl
  simp only [] at hfl
  split_ifs at hfl
  all_goals first
    | (injection hfl with hfl; rw [← hfl])
    | (split at hfl <;> (injection hfl with hfl; rw [← hfl]))


theorem specialError_scale {std : FNum} {k : ℚ} (hk : 0 < k) : specialError (std.scale k) = specialError std := by
  cases std with
  | fin q => simp [specialError, FNum.truthy, FNum.isInfinite, FNum.scale, hk.ne']
  | inf b => cases b <;> simp [specialError, FNum.truthy, FNum.isInfinite, FNum.scale]
  | nan => rfl

/-- The calculations of `__format__`, whatever the values. -/
theorem formatPlan_ok {p : FmtParts} {x s : FNum} {plan : Plan} (h : formatPlan p x s = .ok plan) :
    ∃ lo S' pr, digitsLimit p (presOf p) (x.scale (scaleOf p)) (s.scale (scaleOf p)) = .ok (lo, S', pr) ∧
      plan.commonExp = commonExponent (presOf p) (realValues (x.scale (scaleOf p)) (s.scale (scaleOf p))) lo ∧
      (∀ e ∈ plan.commonExp, e ≤ 308) ∧
      plan.nomMain = (x.scale (scaleOf p)).scale (1 / (10 : ℚ) ^ plan.commonExp.getD 0) ∧
      plan.errorMain = S'.scale (1 / (10 : ℚ) ^ plan.commonExp.getD 0) ∧
      (∀ l, lo = some l → plan.prec = (max (plan.commonExp.getD 0 - l) (if presOf p = none ∧ !S'.truthy then 1 else 0)).toNat) ∧
      (plan.mainPresType = 'f' ∨ plan.mainPresType = 'F') ∧
      plan.options = (if p.type = ['%'] then '%' :: p.options else p.options) := by
  have hone : ∀ y : FNum, y.scale 1 = y := by intro y; cases y <;> simp [FNum.scale]
  have e0 : ∀ y : FNum, (if p.type = ['%'] then y.scale 100 else y) = y.scale (scaleOf p) := by
    intro y
    unfold scaleOf
    split_ifs
    · rfl
    · rw [hone]
  unfold formatPlan at h
  have e3 : (if p.type = ['%'] then some 'f' else p.type.head?) = presOf p := rfl
  simp only [e0, e3] at h
  obtain ⟨⟨lo, S', pr⟩, hr, h⟩ := bind_ok h
  simp only [] at h
  have hm : ∀ c : Prop, [Decidable c] → ((if c then 'F' else 'f') = 'f' ∨ (if c then 'F' else 'f') = 'F') := by
    intro c _
    split_ifs <;> simp
  refine ⟨lo, S', pr, hr, ?_⟩
  generalize hE : commonExponent (presOf p) (realValues (x.scale (scaleOf p)) (s.scale (scaleOf p))) lo = E at h
  have hs1 : ∀ y : FNum, y.scale (1 / (10 : ℚ) ^ (0 : ℤ)) = y := by intro y; rw [zpow_zero, div_one, hone]
  cases E with
  | none =>
    injection h with h
    rw [← h]
    refine ⟨rfl, by simp, (hs1 _).symm, (hs1 _).symm, ?_, hm _, rfl⟩
    rintro l rfl
    simp
  | some e =>
    cases lo with
    | none =>
      exfalso
      have hno : ∀ (pres : Option Char) (reals : List ℚ), commonExponent pres reals none = none := by
        intro pres reals
        unfold commonExponent
        by_cases hc : pres = some 'f' ∨ pres = some 'F'
        · rw [if_pos hc]
        · rw [if_neg hc]
          cases expRefValue reals <;> rfl
      rw [hno] at hE
      cases hE
    | some l =>
      obtain ⟨f, hf, h⟩ := bind_ok h
      obtain ⟨he, rfl⟩ := mantissaFactor_inv hf
      injection h with h
      rw [← h]
      refine ⟨rfl, by simpa using he, rfl, rfl, ?_, hm _, rfl⟩
      rintro l' hl
      obtain rfl := Option.some.inj hl
      simp

/-- A successful formatting, whatever the values. -/
theorem format_ok {x s : FNum} {spec out : Str} (h : formatU x s spec = .ok out) :
    ∃ p plan, parseSpec spec = some p ∧ p.Valid ∧ formatPlan p x s = .ok plan ∧
      formatNum plan.nomMain plan.errorMain plan.commonExp p plan.prec plan.mainPresType plan.options = .ok out := by
  unfold formatU at h
  cases hp : parseSpec spec with
  | none => rw [hp] at h; cases h
  | some p =>
    rw [hp] at h
    obtain ⟨plan, h1, h2⟩ := bind_ok h
    exact ⟨p, plan, rfl, (parseSpec_sound hp).1, h1, h2⟩

theorem percentStr_sign (options : Str) : percentStr options = [] ∨ PercentSign (percentStr options) := by
  rcases percentStr_cases options with ⟨-, h, -⟩ | ⟨-, h⟩
  · exact .inr h
  · exact .inl h

/-- Position of the nominal value. -/
theorem wrapPm_nominal {p : FmtParts} {e : Option ℤ} {t : Char} {options N B A : Str} (hpe : '%' ∈ options → e = none)
    (hA : Padded p (N ++ if p.width ≠ [] then expStr e t options else []) A) :
    NominalText (wrapPm e p t options A B) N (expStr e t options) := by
  have hg := group_grouping options
  have hpm := pmSym_pmSymbol options
  have key : (¬ (p.width = [] ∧ e.isSome)) → ∃ c i j, A = List.replicate i c ++ (N ++ expStr e t options) ++ List.replicate j c := by
    intro h
    obtain ⟨c, i, j, h1⟩ := hA.rep
    refine ⟨c, i, j, ?_⟩
    rw [h1]
    by_cases hw : p.width = []
    · rw [if_neg (by simpa using hw)]
      have : e = none := by
        cases e with
        | none => rfl
        | some k => exact absurd ⟨hw, rfl⟩ h
      rw [this]
      rfl
    · rw [if_pos hw]
  unfold wrapPm
  by_cases h1 : p.width = [] ∧ e.isSome
  · rw [if_pos h1]
    have hnp : '%' ∉ options := fun h => by have := hpe h; rw [this] at h1; simp at h1
    have hps : percentStr options = [] := by simp [percentStr, hnp]
    rw [hps, List.append_nil]
    rcases hA with ⟨-, rfl⟩ | ⟨h, -⟩
    · rw [if_neg (by simp [h1.1]), List.append_nil]
      exact .factored _ _ _ _ _ _ hg hpm
    · exact absurd h1.1 h
  · rw [if_neg h1]
    obtain ⟨c, i, j, rfl⟩ := key h1
    split_ifs with h2 h3
    · exact .grouped _ _ _ _ _ _ _ _ _ _ hg hpm (percentStr_sign options)
    · have := NominalText.grouped _ N (expStr e t options) _ B _ [] c i j hg hpm (.inl rfl)
      rwa [List.append_nil] at this
    · exact .plain _ _ _ _ _ _ _ hpm

/-- Position of the uncertainty. -/
theorem wrapPm_uncertainty {p : FmtParts} {e : Option ℤ} {t : Char} {options U B A : Str} (hpe : '%' ∈ options → e = none)
    (hB : Padded p (U ++ if p.width ≠ [] then expStr e t options else []) B) :
    UncertaintyText (wrapPm e p t options A B) U (expStr e t options) := by
  have hg := group_grouping options
  have hpm := pmSym_pmSymbol options
  have key : (¬ (p.width = [] ∧ e.isSome)) → ∃ c i j, B = List.replicate i c ++ (U ++ expStr e t options) ++ List.replicate j c := by
    intro h
    obtain ⟨c, i, j, h1⟩ := hB.rep
    refine ⟨c, i, j, ?_⟩
    rw [h1]
    by_cases hw : p.width = []
    · rw [if_neg (by simpa using hw)]
      have : e = none := by
        cases e with
        | none => rfl
        | some k => exact absurd ⟨hw, rfl⟩ h
      rw [this]
      rfl
    · rw [if_pos hw]
  unfold wrapPm
  by_cases h1 : p.width = [] ∧ e.isSome
  · rw [if_pos h1]
    have hnp : '%' ∉ options := fun h => by have := hpe h; rw [this] at h1; simp at h1
    have hps : percentStr options = [] := by simp [percentStr, hnp]
    rw [hps, List.append_nil]
    rcases hB with ⟨-, rfl⟩ | ⟨h, -⟩
    · rw [if_neg (by simp [h1.1]), List.append_nil]
      exact .factored _ _ _ _ _ _ hg hpm
    · exact absurd h1.1 h
  · rw [if_neg h1]
    obtain ⟨c, i, j, rfl⟩ := key h1
    split_ifs with h2 h3
    · exact .grouped _ _ _ _ _ _ _ _ _ _ hg hpm (percentStr_sign options)
    · have := UncertaintyText.grouped _ A _ U (expStr e t options) _ [] c i j hg hpm (.inl rfl)
      rwa [List.append_nil] at this
    · exact .plain _ _ _ _ _ _ _ hpm

/-- The nominal value printed, when it is finite. -/
theorem format_nominal {x : ℚ} {s : FNum} {spec out : Str} (h : formatU (.fin x) s spec = .ok out) :
    ∃ p plan, parseSpec spec = some p ∧ p.Valid ∧ formatPlan p (.fin x) s = .ok plan ∧ ∃ (z : Option ℕ) (N X : Str),
      ((p.width = [] ∨ p.zero = []) → z = none) ∧ NominalText out N X ∧ OptExp X plan.commonExp ∧
      pyFormat plan.nomMain (specPrefix p.sign.head? z (p.comma ≠ []) ++ fmtSuffixN plan.errorMain p plan.prec plan.mainPresType) = .ok N := by
  obtain ⟨p, plan, hp, hv, hplan, hf⟩ := format_ok h
  obtain ⟨lo, S', pr, -, hE, -, hnom, -, -, ht, hop⟩ := formatPlan_ok hplan
  have hpe : '%' ∈ plan.options → plan.commonExp = none := by
    intro h
    rw [hop] at h
    rw [hE]
    refine commonExponent_f (.inl ?_) _ _
    unfold presOf
    rw [if_pos ((percent_mem hv).1 h)]
  have hlat : ∀ s, latexNom plan.options plan.nomMain s = s := by
    intro s
    rw [hnom]
    simp [latexNom, FNum.scale]
  have hinf : plan.nomMain.isInfinite = false := by rw [hnom]; rfl
  have hx := expStr_opt plan.commonExp ht plan.options
  refine ⟨p, plan, hp, hv, hplan, ?_⟩
  unfold formatNum at hf
  by_cases hS : 'S' ∈ plan.options
  · rw [if_pos hS] at hf
    obtain ⟨z, Ns, U, hz, -, hN, -, hpad⟩ := formatShorthand_ok hv hf
    rw [hlat] at hpad
    obtain ⟨c, i, j, rfl⟩ := hpad.rep
    exact ⟨z, Ns, _, hz, .shorthand _ _ _ _ _ _ _ (percentStr_sign _), hx, hN⟩
  · rw [if_neg hS] at hf
    obtain ⟨z, z', Ns, Es, A, B, hz, -, hN, -, hA, -, rfl⟩ := formatPm_ok hv hf
    rw [hlat] at hA
    simp only [hinf, and_true] at hA
    exact ⟨z, Ns, _, fun h => (hz h).1, wrapPm_nominal hpe hA, hx, hN⟩

theorem wrapPm_bare {p : FmtParts} {e : Option ℤ} {t : Char} {options U B A : Str} (hB : Padded p U B) :
    BareUncertainty (wrapPm e p t options A B) U := by
  have hg := group_grouping options
  have hpm := pmSym_pmSymbol options
  obtain ⟨c, i, j, rfl⟩ := hB.rep
  unfold wrapPm
  split_ifs
  · have := BareUncertainty.grouped _ A _ U _ (expStr e t options ++ percentStr options) c i j hg hpm
    rwa [← List.append_assoc] at this
  · exact .grouped _ _ _ _ _ _ _ _ _ hg hpm
  · have := BareUncertainty.grouped _ A _ U _ [] c i j hg hpm
    rwa [List.append_nil] at this
  · exact .plain _ _ _ _ _ _ hpm

theorem expRef_abs {x : ℚ} {s : FNum} (hs : specialError s = true) : expRefValue (realValues (.fin x) s) = some |x| := by
  cases s with
  | fin q =>
    have : q = 0 := by
      by_contra h
      revert hs
      simp [specialError, FNum.truthy, FNum.isInfinite, h]
    subst this
    simp [realValues, expRefValue, max_eq_left (abs_nonneg x)]
  | inf b => simp [realValues, expRefValue]
  | nan => simp [realValues, expRefValue]

/-- The number of significant digits, when the uncertainty does not define it. -/
def floatDigits (p : FmtParts) (pres : Option Char) : ℕ :=
  let prec := if p.prec.getD [] ≠ [] then digitsVal (p.prec.getD []) else if pres = none then 12 else 6
  if pres = some 'e' ∨ pres = some 'E' then prec + 1 else if prec = 0 then 1 else prec

theorem floatDigits_pos (p : FmtParts) (pres : Option Char) : 1 ≤ floatDigits p pres := by
  unfold floatDigits
  simp only []
  split_ifs <;> omega

theorem floatLimit_eq {p : FmtParts} {pres : Option Char} {std : FNum} {reals : List ℚ} {v : ℚ} (hv : expRefValue reals = some v)
    (hf : ¬ (pres = some 'f' ∨ pres = some 'F')) {r : Option ℤ × FNum × ℕ}
    (h : digitsLimit.floatLimit pres std (p.prec.getD []) reals = .ok r) :
    r.1 = some (signifDgtToLimit v (floatDigits p pres)) ∧ r.2.1 = std := by
  unfold digitsLimit.floatLimit at h
  simp only [if_neg hf, hv] at h
  injection h with h
  rw [← h]
  exact ⟨rfl, rfl⟩

theorem exponent_of_ref {pres : Option Char} {reals : List ℚ} {v : ℚ} (hv : expRefValue reals = some v) {l : ℤ}
    (hf : ¬ (pres = some 'f' ∨ pres = some 'F')) (hr : 1 ≤ rhe (v / (10 : ℚ) ^ l)) :
    commonExponent pres reals (some l) =
        (if (pres = some 'e' ∨ pres = some 'E') ∨ firstDigit (pyRound v (-l)) < -4 ∨ 0 < l
          then some (firstDigit (pyRound v (-l))) else none) ∧
      l ≤ (commonExponent pres reals (some l)).getD 0 := by
  have hle := (ref_exponent hr).2
  have h : commonExponent pres reals (some l) =
        (if (pres = some 'e' ∨ pres = some 'E') ∨ firstDigit (pyRound v (-l)) < -4 ∨ 0 < l
          then some (firstDigit (pyRound v (-l))) else none) := by
    unfold commonExponent
    rw [if_neg hf, hv]
    simp only []
    by_cases he : pres = some 'e' ∨ pres = some 'E'
    · rw [if_pos he, if_pos (.inl he)]
    · rw [if_neg he]
      by_cases hg : -4 ≤ firstDigit (pyRound v (-l)) ∧ firstDigit (pyRound v (-l)) < firstDigit (pyRound v (-l)) - l + 1
      · rw [if_pos hg, if_neg]
        rintro (h | h | h)
        · exact he h
        · omega
        · omega
      · rw [if_neg hg, if_pos]
        right
        omega
  refine ⟨h, ?_⟩
  rw [h]
  split_ifs with h1
  · exact hle
  · simp only [Option.getD_none]
    push_neg at h1
    exact h1.2.2

/-- The plan for a finite, non-zero nominal value and an uncertainty that is zero, infinite or NaN. -/
theorem formatPlan_special {p : FmtParts} {x : ℚ} (hx : x ≠ 0) {s : FNum} (hs : specialError s = true) {plan : Plan}
    (h : formatPlan p (.fin x) s = .ok plan) (hf : ¬ (presOf p = some 'f' ∨ presOf p = some 'F')) :
    ∃ l : ℤ, HasDigits (rhe (|x| / (10 : ℚ) ^ l)) (floatDigits p (presOf p)) ∧ 1 ≤ rhe (|x| / (10 : ℚ) ^ l) ∧
      plan.commonExp = (if (presOf p = some 'e' ∨ presOf p = some 'E') ∨ firstDigit (pyRound |x| (-l)) < -4 ∨ 0 < l
          then some (firstDigit (pyRound |x| (-l))) else none) ∧
      l ≤ plan.commonExp.getD 0 ∧
      plan.nomMain = .fin (x / (10 : ℚ) ^ plan.commonExp.getD 0) ∧ specialError plan.errorMain = true ∧
      (presOf p ≠ none → plan.prec = (plan.commonExp.getD 0 - l).toNat) ∧
      (plan.mainPresType = 'f' ∨ plan.mainPresType = 'F') := by
  obtain ⟨lo, S', pr, hl, hE, -, hnom, herr, hprec, ht, -⟩ := formatPlan_ok h
  have hone : ∀ y : FNum, y.scale 1 = y := by intro y; cases y <;> simp [FNum.scale]
  have hsc : scaleOf p = 1 := by
    unfold scaleOf
    rw [if_neg]
    intro h
    exact hf (by unfold presOf; rw [if_pos h]; exact .inl rfl)
  rw [hsc, hone, hone] at hl hE
  rw [hsc, hone] at hnom
  obtain ⟨rfl, hfl⟩ := digitsLimit_special hs hl
  obtain ⟨h1, h2⟩ := floatLimit_eq (expRef_abs hs) hf hfl
  simp only [] at h1 h2
  subst h1
  refine ⟨signifDgtToLimit |x| (floatDigits p (presOf p)), ?_⟩
  have hd := signif_hasDigits (abs_pos.2 hx) (floatDigits_pos p (presOf p))
  have hr : 1 ≤ rhe (|x| / (10 : ℚ) ^ signifDgtToLimit |x| (floatDigits p (presOf p))) := by
    have := (signif_pos (abs_pos.2 hx) (floatDigits_pos p (presOf p))).1
    have h2 : (1 : ℤ) ≤ 10 ^ (floatDigits p (presOf p) - 1) := one_le_pow₀ (by norm_num)
    omega
  obtain ⟨e1, e2⟩ := exponent_of_ref (expRef_abs (x := x) hs) hf hr
  rw [← hE] at e1 e2
  refine ⟨hd, hr, e1, e2, ?_, ?_, ?_, ht⟩
  · rw [hnom]
    simp [FNum.scale, div_eq_mul_inv]
  · rw [herr, specialError_scale (by have := ten_pos (plan.commonExp.getD 0); positivity)]
    exact hs
  · intro hne
    rw [hprec _ rfl]
    simp only [hne, false_and, if_false]
    omega

/-- The choice of the digits for a nominal value that is infinite or NaN. -/
theorem digitsLimit_nonfin {p : FmtParts} (hv : p.Valid) {pres : Option Char} {x : FNum} (hx : x.isInfinite = true) {S : ℚ}
    (hS : 0 < S) (hf : ¬ (pres = some 'f' ∨ pres = some 'F')) {r : Option ℤ × FNum × ℕ}
    (h : digitsLimit p pres x (.fin S) = .ok r) :
    ∃ l S', r.1 = some l ∧ r.2.1 = .fin S' ∧ SameOrPdg S S' ∧ 0 < S' ∧
      rhe (S' / (10 : ℚ) ^ l) = rhe (S / (10 : ℚ) ^ l) ∧ 1 ≤ rhe (S / (10 : ℚ) ^ l) ∧
      (if p.prec = none ∧ p.uncertPrec ≠ [] then PdgDigits S (rhe (S / (10 : ℚ) ^ l)) l
        else (p.uncertPrec = [] ∨ ¬ (pres = some 'e' ∨ pres = some 'E')) →
          HasDigits (rhe (S / (10 : ℚ) ^ l)) (floatDigits p pres)) := by
  have hreals : realValues x (.fin S) = [S] := by
    cases x with
    | fin q => simp [FNum.isInfinite] at hx
    | inf b => rfl
    | nan => rfl
  have one : ∀ {n : ℕ}, 1 ≤ n → 1 ≤ rhe (S / (10 : ℚ) ^ signifDgtToLimit S n) := by
    intro n hn
    have := (signif_pos hS hn).1
    have h2 : (1 : ℤ) ≤ 10 ^ (n - 1) := one_le_pow₀ (by norm_num)
    omega
  unfold digitsLimit at h
  simp only [hreals, List.length_cons, List.length_nil] at h
  by_cases hu : p.uncertPrec = []
  · simp only [hu, ne_eq, not_true_eq_false, or_false, zero_add, OfNat.one_ne_ofNat, and_false, decide_false] at h
    obtain ⟨h1, h2⟩ := floatLimit_eq (v := S) rfl hf h
    refine ⟨_, S, h1, h2, .inl rfl, hS, rfl, one (floatDigits_pos _ _), ?_⟩
    rw [if_neg (by simp [hu])]
    exact fun _ => signif_hasDigits hS (floatDigits_pos _ _)
  · simp only [hu, ne_eq, not_false_eq_true, or_true, decide_true, if_pos hS.ne'] at h
    cases hp : p.prec with
    | none =>
      simp only [hp, Option.getD_none, not_true_eq_false, if_false] at h
      injection h with h
      rw [← h]
      have hpr := pdg_round hS
      refine ⟨_, _, rfl, rfl, ?_, pdg_pos hS, hpr.1, hpr.2, ?_⟩
      · exact ((Limit.pdg hp : Limit p pres 0 S _ _).same hS).2
      · rw [if_pos ⟨rfl, hu⟩]
        obtain ⟨t, k, hk⟩ := exists_leading hS
        obtain ⟨l', m, hl', hm, c1, c2, c3⟩ := C37_pdg_displayed _ t k hk
        have hm' : m = rhe (S / (10 : ℚ) ^ l') := by
          rw [pyRound_mul] at hm
          have := mul_right_cancel₀ (ten_pos l').ne' hm
          rw [hl'] at hpr
          rw [← hpr.1]
          exact_mod_cast this.symm
        rw [hl', ← hm']
        exact ⟨t, k, hk, c1, c2, c3⟩
    | some d =>
      obtain ⟨hne, -⟩ := hv.prec d hp
      simp only [hp, Option.getD_some, hne, not_false_eq_true, if_true] at h
      by_cases h0 : digitsVal d = 0
      · rw [if_pos h0] at h
        cases h
      · rw [if_neg h0] at h
        injection h with h
        rw [← h]
        refine ⟨_, S, rfl, rfl, .inl rfl, hS, rfl, one (by omega), ?_⟩
        rw [if_neg (by simp)]
        intro h
        have h' := h.resolve_left hu
        have : floatDigits p pres = digitsVal d := by
          unfold floatDigits
          simp [hp, hne, h', h0]
        rw [this]
        exact signif_hasDigits hS (by omega)

/-- The plan for a nominal value that is infinite or NaN and a finite, non-zero uncertainty. -/
theorem formatPlan_nonfin {p : FmtParts} (hv : p.Valid) {x : FNum} (hx : x.isInfinite = true) {s : ℚ} (hs : 0 < s) {plan : Plan}
    (h : formatPlan p x (.fin s) = .ok plan) (hf : ¬ (presOf p = some 'f' ∨ presOf p = some 'F')) :
    ∃ (l : ℤ) (S' : ℚ), SameOrPdg s S' ∧ 0 < S' ∧ rhe (S' / (10 : ℚ) ^ l) = rhe (s / (10 : ℚ) ^ l) ∧
      1 ≤ rhe (s / (10 : ℚ) ^ l) ∧
      (if p.prec = none ∧ p.uncertPrec ≠ [] then PdgDigits s (rhe (s / (10 : ℚ) ^ l)) l
        else (p.uncertPrec = [] ∨ ¬ (presOf p = some 'e' ∨ presOf p = some 'E')) →
          HasDigits (rhe (s / (10 : ℚ) ^ l)) (floatDigits p (presOf p))) ∧
      plan.commonExp = (if (presOf p = some 'e' ∨ presOf p = some 'E') ∨ firstDigit (pyRound s (-l)) < -4 ∨ 0 < l
          then some (firstDigit (pyRound s (-l))) else none) ∧
      l ≤ plan.commonExp.getD 0 ∧
      plan.errorMain = .fin (S' / (10 : ℚ) ^ plan.commonExp.getD 0) ∧ plan.nomMain.isInfinite = true ∧
      plan.prec = (plan.commonExp.getD 0 - l).toNat ∧
      (plan.mainPresType = 'f' ∨ plan.mainPresType = 'F') := by
  obtain ⟨lo, So, pr, hl, hE, -, hnom, herr, hprec, ht, -⟩ := formatPlan_ok h
  have hone : ∀ y : FNum, y.scale 1 = y := by intro y; cases y <;> simp [FNum.scale]
  have hsc : scaleOf p = 1 := by
    unfold scaleOf
    rw [if_neg]
    intro h
    exact hf (by unfold presOf; rw [if_pos h]; exact .inl rfl)
  rw [hsc, hone, hone] at hl hE
  rw [hsc, hone] at hnom
  obtain ⟨l, S', h1, h2, h3, h4, h5, h6, h7⟩ := digitsLimit_nonfin hv hx hs hf hl
  simp only [] at h1 h2
  subst h1 h2
  have hreals : realValues x (.fin s) = [s] := by
    cases x with
    | fin q => simp [FNum.isInfinite] at hx
    | inf b => rfl
    | nan => rfl
  rw [hreals] at hE
  obtain ⟨e1, e2⟩ := exponent_of_ref (reals := [s]) (v := s) rfl hf h6
  rw [← hE] at e1 e2
  refine ⟨l, S', h3, h4, h5, h6, h7, e1, e2, ?_, ?_, ?_, ht⟩
  · rw [herr]
    simp [FNum.scale, div_eq_mul_inv]
  · rw [hnom]
    have := ten_pos (plan.commonExp.getD 0)
    cases x with
    | fin q => simp [FNum.isInfinite] at hx
    | inf b => rfl
    | nan => rfl
  · rw [hprec _ rfl]
    have : (FNum.fin S').truthy = true := by simp [FNum.truthy, h4.ne']
    simp only [this, Bool.not_true, Bool.false_eq_true, and_false, if_false]
    omega

/-- The uncertainty printed, when it is finite and not zero. -/
theorem format_uncertainty {x : FNum} {s : ℚ} {spec out : Str} (h : formatU x (.fin s) spec = .ok out) :
    ∃ p plan, parseSpec spec = some p ∧ p.Valid ∧ formatPlan p x (.fin s) = .ok plan ∧
      ∀ u : ℚ, u ≠ 0 → plan.errorMain = .fin u → ∃ (z : Option ℕ) (U X : Str),
      ((p.width = [] ∨ p.zero = []) → z = none) ∧ UncertaintyText out U X ∧ OptExp X plan.commonExp ∧
      (if 'S' ∈ p.options then U = shortText u plan.prec else
        pyFormat plan.errorMain (specPrefix none z (p.comma ≠ []) ++ fmtSuffixE plan.nomMain plan.errorMain p plan.prec plan.mainPresType) = .ok U) := by
  obtain ⟨p, plan, hp, hv, hplan, hf⟩ := format_ok h
  obtain ⟨lo, S', pr, -, hE, -, -, -, -, ht, hop⟩ := formatPlan_ok hplan
  have hpe : '%' ∈ plan.options → plan.commonExp = none := by
    intro h
    rw [hop] at h
    rw [hE]
    refine commonExponent_f (.inl ?_) _ _
    unfold presOf
    rw [if_pos ((percent_mem hv).1 h)]
  have hSo : 'S' ∈ plan.options ↔ 'S' ∈ p.options := by
    rw [hop]
    split_ifs <;> simp
  refine ⟨p, plan, hp, hv, hplan, ?_⟩
  intro u hu he
  have hlat : ∀ s, latexErr plan.options plan.errorMain s = s := by
    intro s
    rw [he]
    simp [latexErr]
  have hsp : specialError plan.errorMain = false := by rw [he]; simp [specialError, FNum.truthy, FNum.isInfinite, hu]
  have hx := expStr_opt plan.commonExp ht plan.options
  unfold formatNum at hf
  by_cases hS : 'S' ∈ plan.options
  · rw [if_pos hS] at hf
    obtain ⟨z, Ns, U, hz, -, hN, hU, hpad⟩ := formatShorthand_ok hv hf
    obtain ⟨c, i, j, rfl⟩ := hpad.rep
    rw [he] at hU
    simp only [uncertStr, if_neg hu] at hU
    obtain ⟨hU, -⟩ := shorthandUncert_ok hU
    exact ⟨z, U, _, hz, .shorthand _ _ _ _ _ _ _ (percentStr_sign _), hx, by rw [if_pos (hSo.1 hS)]; exact hU⟩
  · rw [if_neg hS] at hf
    obtain ⟨z, z', Ns, Es, A, B, hz, -, -, hE', -, hB, rfl⟩ := formatPm_ok hv hf
    rw [hlat] at hB
    simp only [hsp, and_true] at hB
    exact ⟨z', Es, _, fun h => (hz h).2, wrapPm_uncertainty hpe hB, hx, by rw [if_neg (fun h => hS (hSo.2 h))]; exact hE'⟩

end Unc
