import Verif.Lemmas.SpecialFields

/-
C64, continued: layout of the printed numbers whose nominal value or uncertainty is infinite or NaN, or whose uncertainty is
zero.
-/

set_option autoImplicit false

namespace Unc

/-- **C64**, special values, ± notation. Without a precision for the types `g`, `G` and the default
type (for which the precision is then used as a width, see `C44_fails_precision_ignored`): infinite and NaN values are written in words
(in upper case for `E`, `F`, `G`; in LaTeX with `L`), with the sign requested, and a zero uncertainty is written 0; the exponent is
only given to finite values; with a zero before the width, zeros are added after the sign (except in the LaTeX code of infinite
values); the rest of the layout is the same as for ordinary values. -/
theorem C64_special_pm_partial (x s : FNum) (hs : ∀ q, s = .fin q → 0 ≤ q) (hn : s ≠ .inf true) (spec out : Str) (p : FmtParts)
    (hp : parseSpec spec = some p) (hS : 'S' ∉ p.options)
    (hg : p.type = [] ∨ p.type = ['g'] ∨ p.type = ['G'] → p.prec = none)
    (h : formatU x s spec = .ok out) : SpecialPmLayout p x s out := by
  obtain ⟨p', plan, hp', hv, hplan, hf⟩ := format_ok h
  obtain rfl : p = p' := by rw [hp] at hp'; injection hp'
  have hg' : isGType p.type = true → p.prec = none := by
    intro h
    exact hg (by simpa [isGType, or_assoc] using h)
  have ho : plan.options = optionsOf p := by
    obtain ⟨_, _, _, _, h⟩ := formatPlan_ok hplan
    exact h.2.2.2.2.2.2
  have hty := formatPlan_type hv hplan
  have hS' : 'S' ∉ optionsOf p := fun h => hS ((mem_optionsOf p (by decide)).1 h)
  obtain ⟨v1, v2, v3, v4, v5, v6⟩ := formatPlan_values hs hplan
  unfold formatNum at hf
  rw [ho, hty, if_neg hS'] at hf
  have hP : SpecialPlan x s plan := ⟨v1, v2, v3, v4, v6⟩
  exact hP.pm hn hv hg' hf

example : formatU (.inf true) (.fin 3) "G".toList = .ok "-INF+/-3".toList ∧
    formatU .nan (.inf false) "+<12L".toList = .ok "\\mathrm{nan} \\pm \\infty++++++".toList ∧
    formatU (.fin 1234) .nan "p".toList = .ok "(1234.0+/-nan)".toList ∧
    formatU (.fin 12) (.fin 0) "*^10e".toList = .ok "1.200000e+01+/-****0*****".toList := by decide +kernel

/-- With zero padding. -/
example : formatU (.inf false) (.fin 0) "010.5f".toList = .ok "0000000inf+/-0000000000".toList ∧
    formatU (.inf false) (.fin 0) "010,f".toList = .ok "0000000inf+/-00,000,000".toList ∧
    formatU (.inf true) (.fin 12345) "+010fL".toList = .ok "   -\\infty \\pm 12345.000000".toList ∧
    formatU (.fin 12) .nan "+012e".toList = .ok "+1.200000e+01+/-000000000nan".toList := by decide +kernel

/-- The restriction on the precision is needed: with the default type or `g`, the digits of the precision are added to those of
the width, when one of the values is infinite or NaN (here, for a width of 5, the fields have 52 characters). -/
theorem C64_fails_precision_padding :
    ¬ ∀ (x s : FNum) (spec out : Str) (p : FmtParts), (∀ q, s = .fin q → 0 ≤ q) → s ≠ .inf true → parseSpec spec = some p →
      'S' ∉ p.options → formatU x s spec = .ok out → SpecialPmLayout p x s out := by
  intro h
  have key := h .nan .nan "05.2".toList (List.replicate 49 '0' ++ "nan+/-".toList ++ List.replicate 49 '0' ++ "nan".toList)
    { fill := [], align := [], sign := [], zero := ['0'], width := ['5'], comma := [], prec := some ['2'], uncertPrec := [],
      type := [], options := [] } (by simp) (by simp) (by decide +kernel) (by simp) (by decide +kernel)
  obtain ⟨N, U, e, E, -, hN, hU, -, -, -, -, -, hw⟩ := key
  obtain ⟨A, B, eN, eU, h1, -, h2, -, ⟨i, j, -, hA, -⟩, ⟨i', j', -, hB, -⟩, hout⟩ := hw (by simp)
  have hNl : N = "00nan".toList := hN (by simp [FNum.NotFinite])
  have hUl : U = "00nan".toList := hU (by simp [FNum.NotFinite])
  rw [h1 (by simp [FNum.NotFinite]), hNl, show digitsVal ['5'] = 5 from rfl] at hA
  rw [h2 (by simp [FNum.NotFinite]), hUl, show digitsVal ['5'] = 5 from rfl] at hB
  have hl := congrArg List.length hout
  simp [parenthesized, percentText, styleOf, Style.pm, hA, hB] at hl

/-- **C64**, special values, shorthand notation. -/
theorem C64_special_shorthand_partial (x s : FNum) (hs : ∀ q, s = .fin q → 0 ≤ q) (hn : s ≠ .inf true) (spec out : Str)
    (p : FmtParts) (hp : parseSpec spec = some p) (hS : 'S' ∈ p.options)
    (hg : p.type = [] ∨ p.type = ['g'] ∨ p.type = ['G'] → p.prec = none)
    (h : formatU x s spec = .ok out) : SpecialShorthandLayout p x s out := by
  obtain ⟨p', plan, hp', hv, hplan, hf⟩ := format_ok h
  obtain rfl : p = p' := by rw [hp] at hp'; injection hp'
  have hg' : isGType p.type = true → p.prec = none := by
    intro h
    exact hg (by simpa [isGType, or_assoc] using h)
  have ho : plan.options = optionsOf p := by
    obtain ⟨_, _, _, _, h⟩ := formatPlan_ok hplan
    exact h.2.2.2.2.2.2
  have hty := formatPlan_type hv hplan
  have hS' : 'S' ∈ optionsOf p := (mem_optionsOf p (by decide)).2 hS
  obtain ⟨v1, v2, v3, v4, v5, v6⟩ := formatPlan_values hs hplan
  unfold formatNum at hf
  rw [ho, hty, if_pos hS'] at hf
  obtain ⟨z, Ns, U, hzz, hwz, hN, hU, hA⟩ := formatShorthand_ok hv hf
  have hP : SpecialPlan x s plan := ⟨v1, v2, v3, v4, v6⟩
  exact hP.shorthand hn hv hg' hzz hwz hN (fun _ => hU) hA

example : formatU (.inf true) (.fin 0) "S".toList = .ok "-inf(0)".toList ∧
    formatU (.fin 1234) .nan "ES".toList = .ok "1.234000(NAN)E+03".toList ∧
    formatU .nan (.inf false) "*>23LS".toList = .ok "***\\mathrm{nan}(\\infty)".toList ∧
    formatU .nan (.fin 12345) "+030eS".toList = .ok "+000000000000nan(1.234500)e+04".toList ∧
    formatU (.fin 12) .nan "+030eS".toList = .ok "+0000000000001.200000(nan)e+01".toList := by decide +kernel

end Unc
