import Verif.Lemmas.FloatFields
import Verif.Props.C76_FloatFormat

/-!
# C76: layout of the numbers printed with floating-point arithmetic

The same layout as with exact decimal numbers (C64; vocabulary in `Spec/Layout.lean`).
-/

set_option autoImplicit false

namespace Unc

/-- **C76**, ± notation: the string has the layout requested by the specification (width, fill character, alignment, sign, zero
padding, separators, common exponent, LaTeX and pretty-print styles, percent sign) and shows the numbers of `C76_faithful`. -/
theorem C76_layout_pm (f : FlOps) (hf : f.Sound) (x s : ℚ) (hx : InRange x) (hs : 0 < s) (hsr : InRange s) (spec out : Str)
    (p : FmtParts) (hp : parseSpec spec = some p) (hS : 'S' ∉ p.options) (h : f.formatU (.fin x) (.fin s) spec = .ok out) :
    ∃ n u, FaithfulFl x s out n u (decide (p.type = ['%'])) ∧ PmLayout p x n u out := by
  obtain ⟨p', hp', hv, l, S', E, k, -, hE, hEr, hm0, -, -, hF, hS', t, ht, hout, -, hPm⟩ := hf.format_layout hx hs hsr
    (fun p' d hp' hS' => by
      obtain rfl : p = p' := by rw [hp] at hp'; injection hp'
      exact absurd hS' hS) h
  obtain rfl : p = p' := by rw [hp] at hp'; injection hp'
  subst ht
  have hpe : '%' ∈ optionsOf p → E = none := by
    intro h
    have h' := (percent_mem hv).1 h
    rw [hE]
    unfold FlOps.commonExponent presOf
    rw [if_pos h', if_pos (.inl rfl)]
  have hSo : 'S' ∉ optionsOf p := fun h => hS ((mem_optionsOf p (by decide)).1 h)
  change f.formatNum _ _ _ _ _ _ (optionsOf p) = _ at hout
  unfold FlOps.formatNum at hout
  rw [if_neg hSo] at hout
  have hL := formatPm_layout hv hm0 hpe hout
  rw [hPm hS] at hL
  refine ⟨_, _, hF, ?_⟩
  obtain ⟨N, U, e, h1, h2, h3, h4, h5⟩ := hL
  refine ⟨N, U, e, h1, h2, ?_, h4, h5⟩
  rwa [hf.sign_mant p hx hEr] at h3

/-- **C76**, shorthand notation. -/
theorem C76_layout_shorthand (f : FlOps) (hf : f.Sound) (x s : ℚ) (hx : InRange x) (hs : 0 < s) (hsr : InRange s)
    (spec out : Str) (p : FmtParts) (hp : parseSpec spec = some p) (hS : 'S' ∈ p.options)
    (hprec : ∀ d, p.prec = some d → digitsVal d ≤ 50) (h : f.formatU (.fin x) (.fin s) spec = .ok out) :
    ∃ n u, FaithfulFl x s out n u (decide (p.type = ['%'])) ∧ ShorthandLayout p x n u out := by
  obtain ⟨p', hp', hv, l, S', E, k, -, hE, hEr, hm0, -, -, hF, hS', t, ht, hout, hSh, -⟩ := hf.format_layout hx hs hsr
    (fun p' d hp' hS' hd => by
      obtain rfl : p = p' := by rw [hp] at hp'; injection hp'
      exact hprec d hd) h
  obtain rfl : p = p' := by rw [hp] at hp'; injection hp'
  subst ht
  obtain ⟨-, U, hU, hB⟩ := hSh hS
  have hSo : 'S' ∈ optionsOf p := (mem_optionsOf p (by decide)).2 hS
  change f.formatNum _ _ _ _ _ _ (optionsOf p) = _ at hout
  unfold FlOps.formatNum at hout
  rw [if_pos hSo] at hout
  have hL := FlOps.formatShorthand_layout hv hm0.ne' hout hU (hB.bracket E)
  refine ⟨_, _, hF, ?_⟩
  obtain ⟨N, U, e, tail, h1, h2, h2', h3, h5⟩ := hL
  refine ⟨N, U, e, tail, h1, h2, h2', ?_, h5⟩
  rwa [hf.sign_mant p hx hEr] at h3

example : doubles.formatU (.fin (FlOps.rnd64 (-314159 / 100000))) (.fin (FlOps.rnd64 (1 / 100))) "*^12".toList =
    .ok "***-3.142***+/-***0.010****".toList := by decide +kernel
example : doubles.formatU (.fin (FlOps.rnd64 (31415967 / 10))) (.fin (FlOps.rnd64 (1 / 10))) "+015,.1f".toList =
    .ok "+0,003,141,596.7+/-0,000,000,000.1".toList := by decide +kernel
example : doubles.formatU (.fin (FlOps.rnd64 (314159 / 100000))) (.fin (FlOps.rnd64 (1 / 100))) ">15eS".toList =
    .ok "  3.142(10)e+00".toList := by decide +kernel

end Unc
