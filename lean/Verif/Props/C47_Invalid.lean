import Verif.Lemmas.Accepted

/-!
# Invalid strings (C47)

The property fails in two ways: some strings raise exceptions that are not `ValueError`, and some characters are
ignored.  What is proved instead: which exceptions can be raised, and what exactly is accepted.
-/

set_option autoImplicit false

namespace Unc

/-- **C47** (partial: `OverflowError` and `NegativeStdDev` are not `ValueError`).  For every string, `ufloat_fromstr`
returns a number, or raises `ValueError`, `OverflowError` or `NegativeStdDev`: no other exception is possible. -/
theorem C47_exceptions_partial (s : Str) :
    (∃ p, (ufloatFromstr s : PyRes (FNum × FNum)) = .ok p) ∨
      ∃ e, (ufloatFromstr s : PyRes (FNum × FNum)) = .error e ∧
        (e = .valueError ∨ e = .overflowError ∨ e = .negativeStdDev) := by
  have hov : ∀ {α : Type} (o : Option α) (e : PyErr), orValueError o = .error e → e = .valueError := by
    intro α o e h
    cases o with
    | none => exact (Except.error.inj h).symm
    | some a => cases h
  have hpow : ∀ (n : ℤ) (e : PyErr), (PyText.pow10 n : PyRes FNum) = .error e → e = .overflowError := by
    intro n e h
    by_cases hn : n ≤ 308
    · rw [pow10_ok hn] at h; cases h
    · rw [pow10_error (by omega)] at h; exact (Except.error.inj h).symm
  have hbind : ∀ {α β : Type} (x : PyRes α) (f : α → PyRes β) (e : PyErr), x.bind f = .error e →
      x = .error e ∨ ∃ a, x = .ok a ∧ f a = .error e := by
    intro α β x f e h
    cases x with
    | error e' => exact .inl (by rw [Except.error.inj h])
    | ok a => exact .inr ⟨a, rfl, h⟩
  have hto : ∀ (t : Str) (e : PyErr), (toFloat t : PyRes FNum) = .error e → e = .valueError ∨ e = .overflowError := by
    intro t e h
    unfold toFloat at h
    cases hf : (PyText.ofStr t : Option FNum) with
    | some y => simp only [hf] at h; cases h
    | none =>
      simp only [hf] at h
      cases hp : Re.first prettyRe t with
      | none => simp only [hp] at h; exact .inl (Except.error.inj h).symm
      | some me =>
        simp only [hp] at h
        rcases hbind _ _ _ h with h | ⟨_, _, h⟩
        · exact .inl (hov _ _ h)
        · rcases hbind _ _ _ h with h | ⟨_, _, h⟩
          · exact .inl (hov _ _ h)
          · rcases hbind _ _ _ h with h | ⟨_, _, h⟩
            · exact .inr (hpow _ _ h)
            · cases h
  have hpar : ∀ (t : Str) (e : PyErr), (parseErrorInParentheses t : PyRes (FNum × FNum)) = .error e →
      e = .valueError ∨ e = .overflowError := by
    intro t e h
    unfold parseErrorInParentheses at h
    rcases hbind _ _ _ h with h | ⟨m, _, h⟩
    · exact .inl (hov _ _ h)
    rcases hbind _ _ _ h with h | ⟨f, _, h⟩
    · unfold expFactor at h
      split at h
      · cases h
      · cases h
      · rcases hbind _ _ _ h with h | ⟨_, _, h⟩
        · exact .inl (hov _ _ h)
        · exact .inr (hpow _ _ h)
    rcases hbind _ _ _ h with h | ⟨v, _, h⟩
    · exact .inl (hov _ _ h)
    rcases hbind _ _ _ h with h | ⟨u, _, h⟩
    · unfold uncertOf at h
      simp only at h
      split at h
      · exact .inl (hov _ _ h)
      · rcases hbind _ _ _ h with h | ⟨n, _, h⟩
        · exact .inl (hov _ _ h)
        · rcases hbind _ _ _ h with h | ⟨d, hd, h⟩
          · exact .inr (hpow _ _ h)
          · exfalso
            have key : ∀ p : ℕ, (PyText.pow10 (p : ℤ) : PyRes FNum) = .ok d →
                (PyText.divInt n d : PyRes FNum) = .error e → False := by
              intro p hp h
              by_cases hn : (p : ℤ) ≤ 308
              · rw [pow10_ok hn] at hp
                obtain rfl := Except.ok.inj hp
                have h' : (if (10 : ℚ) ^ (p : ℤ) = 0 then throw PyErr.zeroDivisionError else pure (FNum.fin (n / 10 ^ (p : ℤ))) :
                  PyRes FNum) = .error e := h
                rw [if_neg (ne_of_gt (zpow_pos (by norm_num) _))] at h'
                cases h'
              · rw [pow10_error (by omega)] at hp
                cases hp
            exact key _ hd h
    · cases h
  rw [fromstr_eq, strToNumber_eq]
  generalize (if (strip s).head? = some '(' ∧ (strip s).getLast? = some ')' then (strip s).tail.dropLast else strip s) = t
  cases hu : (unwrapped t).bind checked with
  | ok p => exact .inl ⟨p, rfl⟩
  | error e =>
    refine .inr ⟨e, rfl, ?_⟩
    rcases hbind _ _ _ hu with h | ⟨p, -, h⟩
    · have : e = .valueError ∨ e = .overflowError := by
        unfold unwrapped at h
        rcases hbind _ _ _ h with h | ⟨fs, -, h⟩
        · split at h
          · rcases hbind _ _ _ h with h | ⟨_, _, h⟩
            · exact .inl (hov _ _ h)
            · rcases hbind _ _ _ h with h | ⟨_, _, h⟩
              · exact .inr (hpow _ _ h)
              · cases h
          · cases h
        · unfold afterFactor at h
          simp only at h
          split at h
          · rcases hbind _ _ _ h with h | ⟨_, _, h⟩
            · exact hto _ _ h
            · rcases hbind _ _ _ h with h | ⟨_, _, h⟩
              · exact hto _ _ h
              · cases h
          · exact hpar _ _ h
      rcases this with h | h
      · exact .inl h
      · exact .inr (.inl h)
    · unfold checked at h
      split_ifs at h
      exact .inr (.inr (Except.error.inj h).symm)

/-- **C47** (partial: only for strings without newlines inside, and with the three undocumented forms of
`Undocumented`).  Every accepted string has a documented form: nothing is ignored. -/
theorem C47_accepted_forms_partial (s : Str) (p : FNum × FNum) (hs : '\n' ∉ strip s) (h : ufloatFromstr s = .ok p) :
    ∃ a c b, s = a ++ c ++ b ∧ IsSpaces a ∧ IsSpaces b ∧ (WithParens Documented c ∨ WithParens Undocumented c) := by
  obtain ⟨a, b, hab, ha, hb⟩ := stripBy_decomp isSpace s
  refine ⟨a, strip s, b, hab, ha, hb, ?_⟩
  rw [fromstr_eq, strToNumber_eq] at h
  obtain ⟨q, hq, -⟩ := bind_ok h
  generalize strip s = t at hs hq
  by_cases hw : t.head? = some '(' ∧ t.getLast? = some ')'
  · rw [if_pos hw] at hq
    cases t with
    | nil => simp at hw
    | cons c t =>
      obtain rfl : c = '(' := by simpa using hw.1
      rw [List.tail_cons] at hq
      by_cases ht : t = []
      · subst ht
        exact absurd hw.2 (by decide)
      · have hl : t = t.dropLast ++ [')'] := by
          have h1 := hw.2
          rw [List.getLast?_cons, List.getLast?_eq_some_getLast ht] at h1
          have h2 : t.getLast ht = ')' := by simpa using h1
          conv_lhs => rw [← List.dropLast_append_getLast ht, h2]
        have hs' : '\n' ∉ t.dropLast := fun hh => hs (by simp [List.dropLast_subset t hh])
        rcases unwrapped_sound hs' hq with h | h
        · left; rw [hl]; exact .parens _ h
        · right; rw [hl]; exact .parens _ h
  · rw [if_neg hw] at hq
    rcases unwrapped_sound hs hq with h | h
    · exact .inl (.bare _ h)
    · exact .inr (.bare _ h)

/-- **C47**, for the numbers: `int()`, which reads exponents, accepts exactly the integers of Python's grammar, with their
value. -/
theorem C47_int_literals (s : Str) (n : ℤ) : pyInt s = some n ↔ IntLiteral s n := pyInt_iff s n

/-- **C47**, for the numbers: `float()`, which reads the nominal value and the uncertainty, accepts exactly the numbers of
Python's grammar, with their value: in particular, underscores are only accepted between two digits. -/
theorem C47_float_literals (s : Str) (x : FNum) : pyFloat s = some x ↔ FloatLiteral s x := pyFloat_iff s x

/-- `" -1_0.5e+1_0 "` is a float, `1_` and `_1` and `1__0` are not. -/
example : FloatLiteral " -1_0.5e+1_0 ".toList (.fin (-(105 : ℚ) * 10 ^ (9 : ℤ))) ∧ (∀ x, ¬ FloatLiteral "1_".toList x) ∧
    (∀ x, ¬ FloatLiteral "_1".toList x) ∧ (∀ x, ¬ FloatLiteral "1__0".toList x) := by
  have key : ∀ s : Str, pyFloat s = none → ∀ x, ¬ FloatLiteral s x := by
    intro s hs x h
    rw [← pyFloat_iff, hs] at h
    cases h
  exact ⟨(pyFloat_iff _ _).1 (by decide +kernel), key _ (by decide +kernel), key _ (by decide +kernel), key _ (by decide +kernel)⟩

/-- **C47 fails**: exceptions that are not `ValueError`. -/
theorem C47_fails_exceptions :
    (ufloatFromstr "1e400".toList : PyRes (FNum × FNum)) = .error .overflowError ∧
      (ufloatFromstr "1+/--2".toList : PyRes (FNum × FNum)) = .error .negativeStdDev := by
  decide +kernel

/-- **C47 fails**: characters that are ignored (everything after a newline; the `e` of an empty exponent; a factored
exponent). -/
theorem C47_fails_ignored :
    (ufloatFromstr "1.2+/-3\nabc".toList : PyRes (FNum × FNum)) = .ok (.fin (12 / 10), .fin 3) ∧
      (ufloatFromstr "1.23(4)e".toList : PyRes (FNum × FNum)) = .ok (.fin (123 / 100), .fin (4 / 100)) ∧
      (ufloatFromstr "(1.23(4))e7".toList : PyRes (FNum × FNum)) = .ok (.fin (123 / 100), .fin (4 / 100)) := by
  decide +kernel

/-- The hypotheses of `C47_accepted_forms_partial` are met by `((1.5±.5) × 10³)`. -/
example : '\n' ∉ strip " ((1.5+/-.5) × 10³)".toList ∧
    (ufloatFromstr " ((1.5+/-.5) × 10³)".toList : PyRes (FNum × FNum)) = .ok (.fin 1500, .fin 500) := by
  decide +kernel

/-- Rejected strings. -/
example : ∀ s ∈ ["abc", "1.2.3", "1+/-", "()", "1()", "1(.)", "1 +- 2", "1(2", "((1+/-2))", "1.2+/-3.4.5", "%", "1x", ""],
    (ufloatFromstr s.toList : PyRes (FNum × FNum)) = .error .valueError := by
  decide +kernel

end Unc
