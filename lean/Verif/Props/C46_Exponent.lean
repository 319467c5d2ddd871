import Verif.Props.C45_Parsing

/-
C46: an example of the exponent that is ignored.
-/

namespace Unc

set_option autoImplicit false

/-- `"(12.3456(78)e-6)e5"` is read like `"12.3456(78)e-6"`: the hypotheses of `C46_exponent_ignored`. -/
example : (ufloatFromstr "(12.3456(78)e-6)e5".toList : PyRes (FNum × FNum)) = ufloatFromstr "12.3456(78)e-6".toList := by
  have h := C46_exponent_ignored [] [] "e-6".toList "e5".toList [] exampleDecimal
    (.units "78".toList (by decide +kernel) (by decide +kernel)) (-6) 5 (by simp [IsSpaces]) (by simp [IsSpaces]) (.inl rfl)
    (.e _ _ ⟨['-'], ['6'], .inr (.inr rfl), by decide +kernel, by decide +kernel, .inl rfl, by decide +kernel⟩) (by decide +kernel)
    (.e _ _ ⟨[], ['5'], .inl rfl, by decide +kernel, by decide +kernel, .inl rfl, by decide +kernel⟩) (by decide +kernel) (by norm_num)
  have h1 : [] ++ ('(' :: ([] ++ (exampleDecimal.text ++ ((ShortUncert.units "78".toList (by decide +kernel) (by decide +kernel)).text ++
      "e-6".toList)) ++ ')' :: "e5".toList)) ++ [] = "(12.3456(78)e-6)e5".toList := by decide +kernel
  have h2 : [] ++ (exampleDecimal.text ++ ((ShortUncert.units "78".toList (by decide +kernel) (by decide +kernel)).text ++
      "e-6".toList)) = "12.3456(78)e-6".toList := by decide +kernel
  rw [h1, h2] at h
  exact h

end Unc
