import Verif.Lemmas.FloatRoundTrip
import Verif.Props.C39_RoundTrip

/-!
# C78: printing, then parsing, with floating-point arithmetic
-/

set_option autoImplicit false

namespace Unc

/-- **C78**: the string printed by a format without LaTeX, percentage, thousands separator, or fill character other than a
space is read back as the printed nominal value and uncertainty, up to a relative error of `1e-14`.  (In the shorthand
notation, for a precision of at most 50.) -/
theorem C78_round_trip (f : FlOps) (hf : f.Sound) (x s : ℚ) (hx : InRange x) (hs : 0 < s) (hsr : InRange s) (spec out : Str)
    (p : FmtParts) (hp : parseSpec spec = some p) (hr : Readable p)
    (hprec : ∀ d, 'S' ∈ p.options → p.prec = some d → digitsVal d ≤ 50) (h : f.formatU (.fin x) (.fin s) spec = .ok out) :
    ∃ n u, FaithfulFl x s out n u false ∧ ∃ v w : ℚ, (ufloatFromstr out : PyRes (Fl f × Fl f)) =
      .ok ((FNum.fin v : FNum), (FNum.fin w : FNum)) ∧ NearFl v n.value ∧ NearFl w u.value := by
  obtain ⟨n, u, hF, -, -, v, w, h1, h2, h3⟩ := Sound_format_parsed hf hx hs hsr hp hr.comma hr.fill hr.percent hr.latex hprec h
  obtain ⟨v', rfl, h2⟩ := h2.fin
  obtain ⟨w', rfl, h3⟩ := h3.fin
  exact ⟨n, u, hF, v', w', h1, h2, h3⟩

/-- **C78**: what is read back differs from the nominal value by at most half a unit of the last printed digit, plus rounding
errors. -/
theorem C78_nominal_value (f : FlOps) (hf : f.Sound) (x s : ℚ) (hx : InRange x) (hs : 0 < s) (hsr : InRange s) (spec out : Str)
    (p : FmtParts) (hp : parseSpec spec = some p) (hr : Readable p)
    (hprec : ∀ d, 'S' ∈ p.options → p.prec = some d → digitsVal d ≤ 50) (h : f.formatU (.fin x) (.fin s) spec = .ok out) :
    ∃ n u, Displays out n u false ∧ ∃ v w : ℚ, (ufloatFromstr out : PyRes (Fl f × Fl f)) =
      .ok ((FNum.fin v : FNum), (FNum.fin w : FNum)) ∧ |v - x| ≤ n.unit * (1 / 2 + 1 / 10 ^ 13) + |x| * (2 / 10 ^ 13) := by
  obtain ⟨n, u, hF, v, w, h1, h2, -⟩ := C78_round_trip f hf x s hx hs hsr spec out p hp hr hprec h
  refine ⟨n, u, hF.displays, v, w, h1, ?_⟩
  have hn := hF.nominal
  unfold Shown.NearFl at hn
  unfold NearFl at h2
  rw [show percentFactor false = 1 from rfl, mul_one] at hn
  have h3 : |n.value| ≤ |x| + |x - n.value| := by
    have := abs_sub_abs_le_abs_sub n.value x
    rw [abs_sub_comm] at this
    linarith
  have h4 : |v - x| ≤ |v - n.value| + |x - n.value| := by
    rw [abs_sub_comm x]
    exact abs_sub_le v n.value x
  have hu : 0 ≤ n.unit := by unfold Shown.unit; positivity
  have hx0 := abs_nonneg x
  linarith

/-- The hypotheses are met. -/
example : (FlOps.double FlOps.logSharp).formatU (.fin (FlOps.rnd64 (314159 / 100000))) (.fin (FlOps.rnd64 (1 / 100))) "+15eP".toList =
    .ok "     +3.142×10⁰±      0.010×10⁰".toList := by decide +kernel
example : ∃ p, parseSpec "+15eP".toList = some p ∧ Readable p ∧ 'S' ∉ p.options :=
  ⟨⟨[], [], ['+'], [], "15".toList, [], none, [], ['e'], ['P']⟩, by decide +kernel, ⟨rfl, .inl rfl, by decide, by decide⟩, by decide⟩
example : (FlOps.double FlOps.logSharp).formatU (.fin (FlOps.rnd64 (314159 * 10 ^ 20))) (.fin (FlOps.rnd64 (10 ^ 22))) ".3eS".toList =
    .ok "3.142(1)e+25".toList := by decide +kernel

end Unc
