import Verif.Lemmas.Text
import Verif.Model.Format

/-! # Superscripts (C48) -/

set_option autoImplicit false

namespace Unc

theorem fromSup_toSup {c : Char} (h : isNumChar c = true) : fromSup (toSup c) = c := by
  unfold isNumChar at h
  simp only [Bool.or_eq_true, decide_eq_true_eq] at h
  rcases h with ((((h | rfl) | rfl) | rfl) | rfl) | rfl
  · rcases isDigit_cases h with rfl | rfl | rfl | rfl | rfl | rfl | rfl | rfl | rfl | rfl <;> rfl
  all_goals rfl

/-- **C48**: converting any integer to superscripts and back gives the same integer. -/
theorem C48_superscript_round_trip (z : ℤ) : nrmlzeSuperscript (toSuperscript z) = some z := by
  unfold nrmlzeSuperscript toSuperscript
  have : ((intStr z).map toSup).map fromSup = intStr z := by
    rw [List.map_map]
    conv_rhs => rw [← List.map_id (intStr z)]
    exact List.map_congr_left fun c hc => fromSup_toSup (intStr_chars z c hc)
  rw [this, pyInt_intStr]

/-- **C48**: the ordinary notation of the integer is accepted too. -/
theorem C48_ordinary_digits (z : ℤ) : nrmlzeSuperscript (intStr z) = some z := by
  unfold nrmlzeSuperscript
  have : (intStr z).map fromSup = intStr z := by
    conv_rhs => rw [← List.map_id (intStr z)]
    refine List.map_congr_left fun c hc => ?_
    have h := intStr_chars z c hc
    unfold isNumChar at h
    simp only [Bool.or_eq_true, decide_eq_true_eq] at h
    rcases h with ((((h | rfl) | rfl) | rfl) | rfl) | rfl
    · rcases isDigit_cases h with rfl | rfl | rfl | rfl | rfl | rfl | rfl | rfl | rfl | rfl <;> rfl
    all_goals rfl
  rw [this, pyInt_intStr]

/-- **C48**: only superscripts are printed: the text of the exponent has none of the characters used for ordinary
integers. -/
theorem C48_only_superscripts (z : ℤ) : ∀ c ∈ toSuperscript z, c ∈ "⁺⁻⁰¹²³⁴⁵⁶⁷⁸⁹".toList := by
  intro c hc
  unfold toSuperscript at hc
  obtain ⟨d, hd, rfl⟩ := List.mem_map.1 hc
  have hd' : isDigit d = true ∨ d = '-' := by
    unfold intStr at hd
    split_ifs at hd
    · rcases List.mem_cons.1 hd with rfl | hd
      · exact .inr rfl
      · exact .inl (natStr_digits _ d hd)
    · exact .inl (natStr_digits _ d hd)
  rcases hd' with h | rfl
  · rcases isDigit_cases h with rfl | rfl | rfl | rfl | rfl | rfl | rfl | rfl | rfl | rfl <;> decide
  · decide

example : toSuperscript (-1203) = "⁻¹²⁰³".toList := by decide +kernel
example : nrmlzeSuperscript "⁻¹²⁰³".toList = some (-1203) := by decide +kernel

end Unc
