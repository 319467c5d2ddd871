import Verif.Spec.Printed
import Verif.Lemmas.Paren2
import Verif.Lemmas.Decimal

/-!
# Numbers printed in fixed-point notation
-/

set_option autoImplicit false

namespace Unc

theorem groupRev_spec (fuel : ℕ) : ∀ (ds : Str) (w : ℤ), AllD ds → ds.length + w.toNat < fuel →
    (∃ k, (groupRev fuel ds w).filter isDigit = ds ++ List.replicate k '0') ∧
      (∀ c ∈ groupRev fuel ds w, isDigit c = true ∨ c = ',') ∧ w ≤ (groupRev fuel ds w).length ∧
      (∃ c ∈ groupRev fuel ds w, isDigit c = true) := by
  induction fuel with
  | zero => intro ds w _ h; omega
  | succ fuel ih =>
    intro ds w hd hf
    have hlen : 1 ≤ min 3 (max (max ds.length w.toNat) 1) := by omega
    have hle : min 3 (max (max ds.length w.toNat) 1) ≤ max (max ds.length w.toNat) 1 := min_le_right _ _
    unfold groupRev
    simp only []
    generalize hL : min 3 (max (max ds.length w.toNat) 1) = len at *
    have hchunk : AllD (ds.take len ++ List.replicate (len - ds.length) '0') :=
      AllD.append (fun c hc => hd c (List.mem_of_mem_take hc)) (AllD.replicate _)
    have hcl : (ds.take len ++ List.replicate (len - ds.length) '0').length = len := by
      simp; omega
    have hcf : (ds.take len ++ List.replicate (len - ds.length) '0').filter isDigit =
        ds.take len ++ List.replicate (len - ds.length) '0' := List.filter_eq_self.2 hchunk
    have hex : ∃ c ∈ ds.take len ++ List.replicate (len - ds.length) '0', isDigit c = true := by
      cases hq : ds.take len ++ List.replicate (len - ds.length) '0' with
      | nil => rw [hq] at hcl; simp at hcl; omega
      | cons c t => exact ⟨c, by simp, hchunk c (by rw [hq]; simp)⟩
    split_ifs with h
    · refine ⟨⟨len - ds.length, ?_⟩, fun c hc => .inl (hchunk c hc), ?_, hex⟩
      · rw [hcf, List.take_of_length_le (by simpa using h.1)]
      · rw [hcl]; omega
    · obtain ⟨⟨k, h1⟩, h2, h3, h4⟩ := ih (ds.drop len) (w - len - 1)
        (fun c hc => hd c (List.mem_of_mem_drop hc)) (by
          rw [List.length_drop]
          by_cases hr : ds.drop len = []
          · have h5 : ¬ w - len ≤ 0 := fun h' => h ⟨hr, h'⟩
            omega
          · have : len < ds.length := by
              by_contra hc
              exact hr (List.drop_eq_nil_of_le (by omega))
            omega)
      refine ⟨?_, ?_, ?_, ?_⟩
      · rw [List.filter_append, hcf, List.filter_cons_of_neg (by decide), h1]
        by_cases hr : len ≤ ds.length
        · refine ⟨k, ?_⟩
          rw [show len - ds.length = 0 by omega]
          simp [← List.append_assoc]
        · refine ⟨len - ds.length + k, ?_⟩
          rw [List.take_of_length_le (by omega), List.drop_eq_nil_of_le (by omega), List.append_assoc, List.nil_append,
            List.replicate_append_replicate]
      · intro c hc
        rcases List.mem_append.1 hc with hc | hc
        · exact .inl (hchunk c hc)
        · rcases List.mem_cons.1 hc with rfl | hc
          · exact .inr rfl
          · exact h2 c hc
      · rw [List.length_append, hcl, List.length_cons]
        push_cast
        omega
      · obtain ⟨c, hc, hc'⟩ := hex
        exact ⟨c, List.mem_append_left _ hc, hc'⟩

theorem groupDigits_spec {ds : Str} (hd : AllD ds) (hne : ds ≠ []) (comma : Bool) (w : ℤ) :
    (∃ k, (groupDigits ds comma w).filter isDigit = List.replicate k '0' ++ ds) ∧
      (∀ c ∈ groupDigits ds comma w, isDigit c = true ∨ c = ',') ∧ w ≤ (groupDigits ds comma w).length ∧
      (∃ c ∈ groupDigits ds comma w, isDigit c = true) ∧
      (comma = false → ∀ c ∈ groupDigits ds comma w, isDigit c = true) := by
  unfold groupDigits
  cases comma with
  | true =>
    have hr : AllD ds.reverse := fun c hc => hd c (List.mem_reverse.1 hc)
    obtain ⟨⟨k, h1⟩, h2, h3, h4⟩ := groupRev_spec (ds.length + w.toNat + 1) ds.reverse w hr (by simp)
    simp only [if_true]
    refine ⟨⟨k, ?_⟩, fun c hc => h2 c (List.mem_reverse.1 hc), by simpa using h3, ?_, by simp⟩
    · rw [List.filter_reverse, h1]
      simp
    · obtain ⟨c, hc, hc'⟩ := h4
      exact ⟨c, List.mem_reverse.2 hc, hc'⟩
  | false =>
    have hall : AllD (List.replicate (w.toNat - ds.length) '0' ++ ds) := AllD.append (AllD.replicate _) hd
    simp only [Bool.false_eq_true, if_false]
    refine ⟨⟨_, List.filter_eq_self.2 hall⟩, fun c hc => .inl (hall c hc), ?_, ?_, fun _ => hall⟩
    · simp only [List.length_append, List.length_replicate]
      omega
    · obtain ⟨c, hc⟩ := List.exists_mem_of_ne_nil ds hne
      exact ⟨c, List.mem_append_right _ hc, hd c hc⟩

/-- A number printed with the type `f`: sign, zero flag with width, separator, number of decimals. -/
def fixedStr (q : ℚ) (sign : Option Char) (zero : Option ℕ) (comma : Bool) (prec : ℕ) (t : Char) : Str :=
  formatWith (.fin q) { sign := sign, zero := zero.isSome, width := zero.getD 0, comma := comma, prec := some prec, type := some t }

theorem signStr_cases (neg : Bool) (sign : Option Char) :
    signStr neg sign = [] ∨ signStr neg sign = ['+'] ∨ signStr neg sign = ['-'] ∨ signStr neg sign = [' '] := by
  unfold signStr
  cases neg
  · simp only [Bool.false_eq_true, if_false]
    split <;> simp
  · simp

theorem signStr_minus (neg : Bool) (sign : Option Char) : signStr neg sign = ['-'] ↔ neg = true := by
  unfold signStr
  cases neg
  · simp only [Bool.false_eq_true, if_false]
    split <;> simp
  · simp

theorem fixedStr_eq (q : ℚ) (sign : Option Char) (zero : Option ℕ) (comma : Bool) (prec : ℕ) {t : Char}
    (ht : t = 'f' ∨ t = 'F') :
    ∃ w : ℤ, fixedStr q sign zero comma prec t = signStr (decide (q < 0)) sign ++
        groupDigits (natStr ((rhe (|q| * (10 : ℚ) ^ prec)).natAbs / 10 ^ prec)) comma w ++
        (if prec = 0 then [] else '.' :: padDigits prec (rhe (|q| * (10 : ℚ) ^ prec)).natAbs) ∧
      (∀ k ∈ zero, k ≤ (fixedStr q sign zero comma prec t).length) := by
  have hp : finiteParts |q| (some t) (some prec) = fixedParts (rhe (|q| * (10 : ℚ) ^ prec)).natAbs prec := by
    unfold finiteParts
    simp only [Option.getD_some, if_pos ht]
  have hne := natStr_ne ((rhe (|q| * (10 : ℚ) ^ prec)).natAbs / 10 ^ prec)
  have hd := natStr_digits ((rhe (|q| * (10 : ℚ) ^ prec)).natAbs / 10 ^ prec)
  unfold fixedStr formatWith numberParts
  simp only [hp, fixedParts, if_neg hne]
  cases zero with
  | none =>
    refine ⟨0, ?_, by simp⟩
    simp
  | some k =>
    refine ⟨_, by simp only [Option.isSome_some, if_true]; rfl, ?_⟩
    intro k' hk
    obtain rfl : k = k' := by simpa using hk
    simp only [Option.isSome_some, if_true, Option.getD_some, List.length_append]
    have := (groupDigits_spec hd hne comma ((k : ℤ) - (signStr (decide (q < 0)) sign).length -
      (if prec = 0 then [] else '.' :: padDigits prec (rhe (|q| * (10 : ℚ) ^ prec)).natAbs : Str).length)).2.2.1
    omega

theorem rhe_sign (q : ℚ) : (rhe q : ℚ) = (if q < 0 then -1 else 1) * ((rhe |q|).natAbs : ℚ) := by
  have h : (((rhe |q|).natAbs : ℤ) : ℚ) = (rhe |q| : ℚ) := by
    rw [Int.natAbs_of_nonneg (rhe_nonneg (abs_nonneg q))]
  rw [show (((rhe |q|).natAbs : ℕ) : ℚ) = (((rhe |q|).natAbs : ℤ) : ℚ) from (Int.cast_natCast _).symm, h]
  split_ifs with hq
  · rw [abs_of_neg hq, rhe_neg]; push_cast; ring
  · rw [abs_of_nonneg (not_lt.1 hq)]; ring

theorem fixed_of_digits {q : ℚ} {prec : ℕ} {sg g : Str} (hsg : sg = [] ∨ sg = ['+'] ∨ sg = ['-'] ∨ sg = [' '])
    (hneg : sg = ['-'] ↔ q < 0) (h2 : ∀ c ∈ g, isDigit c = true ∨ c = ',') (h4 : ∃ c ∈ g, isDigit c = true)
    (h1 : ∃ k, g.filter isDigit = List.replicate k '0' ++ natStr ((rhe (|q| * (10 : ℚ) ^ prec)).natAbs / 10 ^ prec)) :
    Fixed (sg ++ g ++ (if prec = 0 then [] else '.' :: padDigits prec (rhe (|q| * (10 : ℚ) ^ prec)).natAbs)) prec
      (pyRound q prec) := by
  obtain ⟨k, h1⟩ := h1
  refine ⟨sg, g, padDigits prec (rhe (|q| * (10 : ℚ) ^ prec)).natAbs, rfl, hsg, h2, h4, padDigits_digits _ _,
    padDigits_length _ _, ?_⟩
  rw [h1, List.append_assoc, digitsVal_zeros_append, digitsVal_fixed]
  have hp : (0 : ℚ) < (10 : ℚ) ^ prec := by positivity
  unfold pyRound
  rw [zpow_natCast, rhe_sign, show |q * (10 : ℚ) ^ prec| = |q| * (10 : ℚ) ^ prec by rw [abs_mul, abs_of_pos hp]]
  unfold signVal
  by_cases hq : q < 0
  · rw [if_pos (hneg.2 hq), if_pos (mul_neg_of_neg_of_pos hq hp)]; ring
  · rw [if_neg (fun h => hq (hneg.1 h)), if_neg (not_lt.2 (mul_nonneg (not_lt.1 hq) hp.le))]; ring

theorem fixedStr_fixed (q : ℚ) (sign : Option Char) (zero : Option ℕ) (comma : Bool) (prec : ℕ) {t : Char}
    (ht : t = 'f' ∨ t = 'F') : Fixed (fixedStr q sign zero comma prec t) prec (pyRound q prec) := by
  obtain ⟨w, h, -⟩ := fixedStr_eq q sign zero comma prec ht
  rw [h]
  obtain ⟨h1, h2, -, h4, -⟩ := groupDigits_spec (natStr_digits ((rhe (|q| * (10 : ℚ) ^ prec)).natAbs / 10 ^ prec))
    (natStr_ne _) comma w
  refine fixed_of_digits (signStr_cases _ _) ?_ h2 h4 h1
  rw [signStr_minus]
  simp

theorem fixedStr_length (q : ℚ) (sign : Option Char) (k : ℕ) (comma : Bool) (prec : ℕ) {t : Char}
    (ht : t = 'f' ∨ t = 'F') : k ≤ (fixedStr q sign (some k) comma prec t).length :=
  (fixedStr_eq q sign (some k) comma prec ht).choose_spec.2 k rfl

theorem fixedStr_no_comma (q : ℚ) (sign : Option Char) (zero : Option ℕ) (prec : ℕ) {t : Char}
    (ht : t = 'f' ∨ t = 'F') : ',' ∉ fixedStr q sign zero false prec t := by
  obtain ⟨w, h, -⟩ := fixedStr_eq q sign zero false prec ht
  rw [h]
  obtain ⟨-, -, -, -, h5⟩ := groupDigits_spec (natStr_digits ((rhe (|q| * (10 : ℚ) ^ prec)).natAbs / 10 ^ prec))
    (natStr_ne _) false w
  intro hc
  rcases List.mem_append.1 hc with hc | hc
  · rcases List.mem_append.1 hc with hc | hc
    · rcases signStr_cases (decide (q < 0)) sign with h' | h' | h' | h' <;> rw [h'] at hc <;> simp at hc
    · exact absurd (h5 rfl _ hc) (by decide)
  · split_ifs at hc
    · cases hc
    · rcases List.mem_cons.1 hc with hc | hc
      · exact absurd hc (by decide)
      · exact absurd (padDigits_digits _ _ _ hc) (by decide)

/-! ### How Python reads the specifications built by `format_num` -/

theorem parsePrecType_fixed (prec : ℕ) {t : Char} (ht : t = 'f' ∨ t = 'F') :
    parsePrecType (fixedSuffix prec t) = some (some prec, some t) := by
  have hd : isDigit t = false := by rcases ht with rfl | rfl <;> rfl
  obtain ⟨h1, h2⟩ := takeWhile_digits (natStr_digits prec) (NoDHead.cons (s := []) hd)
  have hm : t ∈ "eEfFgG%".toList := by rcases ht with rfl | rfl <;> decide
  unfold parsePrecType fixedSuffix
  simp only [h1, h2, if_neg (natStr_ne prec), digitsVal_natStr, Option.bind_eq_bind, Option.bind_some, if_pos hm]

/-- The prefix of a specification. -/
def specPrefix (sign : Option Char) (zero : Option ℕ) (comma : Bool) : Str :=
  sign.toList ++ (match zero with | some w => '0' :: natStr w | none => []) ++ (if comma then [','] else [])

theorem parseFloatSpec_fixed (sign : Option Char) (hs : ∀ c ∈ sign, c ∈ "+- ".toList) (zero : Option ℕ) (comma : Bool)
    (prec : ℕ) {t : Char} (ht : t = 'f' ∨ t = 'F') :
    parseFloatSpec (specPrefix sign zero comma ++ fixedSuffix prec t) =
      some { sign := sign, zero := zero.isSome, width := zero.getD 0, comma := comma, prec := some prec, type := some t } := by
  have hpt := parsePrecType_fixed prec ht
  have key : ∀ (cm : Bool) (w : Str), AllD w →
      (w ++ ((if cm then [','] else []) ++ fixedSuffix prec t)).takeWhile isDigit = w ∧
      (w ++ ((if cm then [','] else []) ++ fixedSuffix prec t)).dropWhile isDigit =
        (if cm then [','] else []) ++ fixedSuffix prec t := by
    intro cm w hw
    refine takeWhile_digits hw ?_
    cases cm
    · exact NoDHead.cons rfl
    · exact NoDHead.cons rfl
  have fin : ∀ (sg : Option Char) (z : Bool) (w : Str) (hw : AllD w), (do
      let s := w ++ ((if comma then [','] else []) ++ fixedSuffix prec t)
      let width := digitsVal (s.takeWhile isDigit)
      let s := s.dropWhile isDigit
      let (comma, s) := match s with
        | ',' :: t => (true, t)
        | t => (false, t)
      let (prec, type) ← parsePrecType s
      some ({ sign := sg, zero := z, width, comma, prec, type } : FloatSpec)) =
      some { sign := sg, zero := z, width := digitsVal w, comma := comma, prec := some prec, type := some t } := by
    intro sg z w hw
    simp only [(key comma w hw).1, (key comma w hw).2]
    cases comma
    · simp only [Bool.false_eq_true, if_false, List.nil_append]
      show (parsePrecType (fixedSuffix prec t)).bind (fun x => some
        ({ sign := sg, zero := z, width := digitsVal w, comma := false, prec := x.1, type := x.2 } : FloatSpec)) = _
      rw [hpt]
      rfl
    · simp only [if_true, List.cons_append, List.nil_append, hpt, Option.bind_eq_bind, Option.bind_some]
  have rest : ∀ sg : Option Char, (do
      let s := (match zero with | some w => '0' :: natStr w | none => []) ++
        ((if comma then [','] else []) ++ fixedSuffix prec t)
      let (z, s) := match s with
        | '0' :: t => (true, t)
        | t => (false, t)
      let width := digitsVal (s.takeWhile isDigit)
      let s := s.dropWhile isDigit
      let (comma, s) := match s with
        | ',' :: t => (true, t)
        | t => (false, t)
      let (prec, type) ← parsePrecType s
      some ({ sign := sg, zero := z, width, comma, prec, type } : FloatSpec)) =
      some { sign := sg, zero := zero.isSome, width := zero.getD 0, comma := comma, prec := some prec, type := some t } := by
    intro sg
    cases zero with
    | none =>
      have h := fin sg false [] AllD.nil
      cases comma
      · exact h
      · exact h
    | some w =>
      have h := fin sg true (natStr w) (natStr_digits w)
      rw [digitsVal_natStr] at h
      exact h
  unfold specPrefix
  rw [List.append_assoc, List.append_assoc]
  cases sign with
  | none =>
    have h := rest none
    cases zero with
    | none =>
      cases comma
      · exact h
      · exact h
    | some w => exact h
  | some c =>
    have hc := hs c rfl
    have h := rest (some c)
    unfold parseFloatSpec
    simp only [Option.toList_some, List.cons_append, List.nil_append, if_pos hc]
    exact h

theorem pyFormat_fixed (q : ℚ) (sign : Option Char) (hs : ∀ c ∈ sign, c ∈ "+- ".toList) (zero : Option ℕ) (comma : Bool)
    (prec : ℕ) {t : Char} (ht : t = 'f' ∨ t = 'F') :
    pyFormat (.fin q) (specPrefix sign zero comma ++ fixedSuffix prec t) = .ok (fixedStr q sign zero comma prec t) := by
  unfold pyFormat
  rw [parseFloatSpec_fixed sign hs zero comma prec ht]
  rfl

end Unc
