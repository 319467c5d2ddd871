import Verif.Lemmas.Accepted

/-!
# Round trip of `repr` (C49)

The parser is here over any type of floats.  What is assumed of Python's `repr` and `float()`, for the two values at
hand, is in `ReprOk`.
-/

set_option autoImplicit false

namespace Unc

/-- `float(repr(v)) == v`, and the representation of a float only contains characters of numbers. -/
structure ReprOk {F : Type} [PyText F] (repr : F → Str) (v : F) : Prop where
  parse : PyText.ofStr (repr v) = some v
  chars : ∀ c ∈ repr v, c ∈ "0123456789.+-einfa".toList
  /-- `v*1 == v` -/
  mul_one : PyText.mul v PyText.one = v

theorem ReprOk.chars' {F : Type} [PyText F] {repr : F → Str} {v : F} (h : ReprOk repr v) :
    ∀ c ∈ repr v, isSpace c = false ∧ isDelim c = false := by
  intro c hc
  have : ∀ c ∈ "0123456789.+-einfa".toList, isSpace c = false ∧ isDelim c = false := by decide +kernel
  exact this c (h.chars c hc)

/-- **C49.**  `ufloat_fromstr(repr(x))` gives back exactly the nominal value and the standard deviation of `x`: `truthy`
is the truth value of floats, and `zero` the float `0.0`, the only one that is false. -/
theorem C49_repr_round_trip {F : Type} [PyText F] (repr : F → Str) (truthy : F → Bool) (nom std zero : F)
    (hn : ReprOk repr nom) (hs : truthy std = true → ReprOk repr std) (hz : truthy std = false → std = zero)
    (h0 : PyText.ofStr ['0'] = some zero) (h01 : PyText.mul zero PyText.one = zero)
    (hpos : PyText.isNegFinite std = false) :
    ufloatFromstr (reprU repr truthy nom std) = .ok (nom, std) := by
  have huc : ∀ c ∈ (if truthy std then repr std else ['0']), isSpace c = false ∧ isDelim c = false := by
    intro c hc
    by_cases ht : truthy std = true
    · rw [if_pos ht] at hc; exact (hs ht).chars' c hc
    · rw [if_neg ht] at hc; rw [List.mem_singleton.1 hc]; decide
  have hup : PyText.ofStr (if truthy std then repr std else ['0']) = some std := by
    by_cases ht : truthy std = true
    · rw [if_pos ht]; exact (hs ht).parse
    · rw [if_neg ht, hz (by simpa using ht)]; exact h0
  have hum : PyText.mul std PyText.one = std := by
    by_cases ht : truthy std = true
    · exact (hs ht).mul_one
    · rw [hz (by simpa using ht)]; exact h01
  unfold reprU
  generalize hU : (if truthy std then repr std else ['0']) = U at huc hup
  have hN := hn.chars'
  have hall : ∀ c ∈ repr nom ++ "+/-".toList ++ U, isSpace c = false := by
    intro c hc
    rcases List.mem_append.1 hc with hc | hc
    · rcases List.mem_append.1 hc with hc | hc
      · exact (hN c hc).1
      · have : ∀ c ∈ "+/-".toList, isSpace c = false := by decide +kernel
        exact this c hc
    · exact (huc c hc).1
  have hstrip : strip (repr nom ++ "+/-".toList ++ U) = repr nom ++ "+/-".toList ++ U := stripBy_id hall
  have hhead : (repr nom ++ "+/-".toList ++ U).head? ≠ some '(' := by
    intro h
    have : '(' ∈ repr nom ++ "+/-".toList ++ U := List.mem_of_mem_head? h
    rcases List.mem_append.1 this with hc | hc
    · rcases List.mem_append.1 hc with hc | hc
      · exact absurd (hN _ hc).2 (by decide)
      · exact absurd hc (by decide +kernel)
    · exact absurd (huc _ hc).2 (by decide)
  have hnl : ∀ {s : Str}, (∀ c ∈ s, isSpace c = false ∧ isDelim c = false) → '\n' ∉ s ∧ '/' ∉ s ∧ '±' ∉ s := by
    intro s h
    exact ⟨fun hh => absurd (h _ hh).1 (by decide), fun hh => absurd (h _ hh).2 (by decide),
      fun hh => absurd (h _ hh).2 (by decide)⟩
  have hpm := pmRe_first (n := repr nom) (u := U) (pm := "+/-".toList) (.inl rfl) (hnl hN).1 (hnl huc).1 (hnl huc).2.1
    (hnl huc).2.2
  have htf : ∀ {s : Str} {x : F}, PyText.ofStr s = some x → (toFloat s : PyRes F) = .ok x := by
    intro s x h
    unfold toFloat
    rw [h]
  unfold ufloatFromstr strToNumberWithUncert
  rw [hstrip, if_neg (fun hh => hhead hh.1)]
  simp only [globalExpRe_none hhead]
  have key : (match Re.first pmRe (repr nom ++ "+/-".toList ++ U) with
      | some (n, u) => do
        let x : F ← toFloat n
        let y : F ← toFloat u
        pure (PyText.mul x PyText.one, PyText.mul y PyText.one)
      | none => parseErrorInParentheses (repr nom ++ "+/-".toList ++ U) : PyRes (F × F)) = .ok (nom, std) := by
    rw [hpm]
    simp only [htf hn.parse, htf hup]
    show Except.ok (PyText.mul nom PyText.one, PyText.mul std PyText.one) = _
    rw [hn.mul_one, hum]
  show Except.bind (match Re.first pmRe (repr nom ++ "+/-".toList ++ U) with
      | some (n, u) => do
        let x : F ← toFloat n
        let y : F ← toFloat u
        pure (PyText.mul x PyText.one, PyText.mul y PyText.one)
      | none => parseErrorInParentheses (repr nom ++ "+/-".toList ++ U) : PyRes (F × F)) _ = _
  rw [key]
  show (if PyText.isNegFinite std then _ else _) = _
  rw [hpos]
  rfl

/-- Values that meet the hypotheses, for exact decimal numbers, infinities and NaN. -/
example : ∀ v ∈ [FNum.fin (-12345 / 1000), .fin (3 * 10 ^ (-7 : ℤ)), .fin (10 ^ 20), .inf true, .inf false, .nan],
    ReprOk reprFloat v := by
  have : ∀ v ∈ [FNum.fin (-12345 / 1000), .fin (3 * 10 ^ (-7 : ℤ)), .fin (10 ^ 20), .inf true, .inf false, .nan],
      PyText.ofStr (reprFloat v) = some v ∧ (∀ c ∈ reprFloat v, c ∈ "0123456789.+-einfa".toList) ∧
        PyText.mul v PyText.one = v := by decide +kernel
  intro v hv
  exact ⟨(this v hv).1, (this v hv).2.1, (this v hv).2.2⟩

/-- `-12.345` with the uncertainty 3e-07, and an infinite uncertainty. -/
example : reprU reprFloat FNum.truthy (.fin (-12345 / 1000)) (.fin (3 * 10 ^ (-7 : ℤ))) = "-12.345+/-3e-07".toList ∧
    (ufloatFromstr "-12.345+/-3e-07".toList : PyRes (FNum × FNum)) =
      .ok (.fin (-12345 / 1000), .fin (3 * 10 ^ (-7 : ℤ))) ∧
    reprU reprFloat FNum.truthy .nan (.fin 0) = "nan+/-0".toList ∧
    (ufloatFromstr "nan+/-0".toList : PyRes (FNum × FNum)) = .ok (.nan, .fin 0) := by decide +kernel

end Unc
