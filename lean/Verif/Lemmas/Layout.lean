import Verif.Spec.Layout
import Verif.Lemmas.FormatPlan

/-!
# Layout of the strings made by `format_num` for finite values and a non-zero uncertainty
-/

set_option autoImplicit false

namespace Unc

/-! ### Thousands separators and zero padding -/

theorem groupRev_grouped (fuel : ℕ) : ∀ (ds : Str) (w : ℤ), AllD ds → ds.length + w.toNat < fuel →
    Grouped (groupRev fuel ds w).reverse := by
  induction fuel with
  | zero => intro ds w _ h; omega
  | succ fuel ih =>
    intro ds w hd hf
    unfold groupRev
    simp only []
    generalize hL : min 3 (max (max ds.length w.toNat) 1) = len
    have hchunk : AllD (ds.take len ++ List.replicate (len - ds.length) '0') :=
      AllD.append (fun c hc => hd c (List.mem_of_mem_take hc)) (AllD.replicate _)
    have hcl : (ds.take len ++ List.replicate (len - ds.length) '0').length = len := by
      simp; omega
    have hrev : IsDigits (ds.take len ++ List.replicate (len - ds.length) '0').reverse :=
      fun c hc => hchunk c (List.mem_reverse.1 hc)
    split_ifs with h
    · exact .first _ hrev (by rw [List.length_reverse, hcl]; omega) (by rw [List.length_reverse, hcl]; omega)
    · have hr : len < ds.length ∨ len < w.toNat := by
        by_cases hr : ds.drop len = []
        · right
          have h5 : ¬ w - len ≤ 0 := fun h' => h ⟨hr, h'⟩
          omega
        · left
          by_contra hc
          exact hr (List.drop_eq_nil_of_le (by omega))
      rw [List.reverse_append, List.reverse_cons, List.append_assoc, List.singleton_append]
      refine .next _ _ (ih _ _ (fun c hc => hd c (List.mem_of_mem_drop hc)) ?_) hrev ?_
      · rw [List.length_drop]
        omega
      · rw [List.length_reverse, hcl]
        omega

/-- Zeros are added only as needed. -/
theorem groupRev_tight (fuel : ℕ) : ∀ (ds : Str) (w : ℤ), AllD ds → ds.length + w.toNat < fuel →
    (ds ≠ [] ∧ (groupRev fuel ds w).filter isDigit = ds) ∨ (0 ≤ w → ((groupRev fuel ds w).length : ℤ) ≤ w + 1) ∧ (ds ≠ [] → 0 ≤ w) := by
  induction fuel with
  | zero => intro ds w _ h; omega
  | succ fuel ih =>
    intro ds w hd hf
    unfold groupRev
    simp only []
    generalize hL : min 3 (max (max ds.length w.toNat) 1) = len
    have hchunk : AllD (ds.take len ++ List.replicate (len - ds.length) '0') :=
      AllD.append (fun c hc => hd c (List.mem_of_mem_take hc)) (AllD.replicate _)
    have hcl : (ds.take len ++ List.replicate (len - ds.length) '0').length = len := by
      simp; omega
    have hcf : (ds.take len ++ List.replicate (len - ds.length) '0').filter isDigit =
        ds.take len ++ List.replicate (len - ds.length) '0' := List.filter_eq_self.2 hchunk
    split_ifs with h
    · by_cases hz : len ≤ ds.length
      · left
        have hle : ds.length ≤ len := by simpa using h.1
        refine ⟨?_, ?_⟩
        · rintro rfl
          simp only [List.length_nil] at hz
          omega
        · rw [hcf, List.take_of_length_le hle, show len - ds.length = 0 by omega]
          simp
      · right
        rw [hcl]
        constructor
        · intro hw; omega
        · intro hne
          have : 0 < ds.length := List.length_pos_of_ne_nil hne
          omega
    · by_cases hr : ds.drop len = []
      · have h5 : ¬ w - len ≤ 0 := fun h' => h ⟨hr, h'⟩
        right
        rw [hr]
        rcases ih [] (w - len - 1) AllD.nil (by simp only [List.length_nil]; omega) with h1 | h1
        · exact absurd rfl h1.1
        · rw [List.length_append, hcl, List.length_cons]
          have := h1.1 (by omega)
          constructor
          · intro; push_cast; omega
          · intro; omega
      · have hlt : len < ds.length := by
          by_contra hc
          exact hr (List.drop_eq_nil_of_le (by omega))
        rcases ih (ds.drop len) (w - len - 1) (fun c hc => hd c (List.mem_of_mem_drop hc)) (by rw [List.length_drop]; omega) with
          h1 | h1
        · left
          refine ⟨by rintro rfl; simp at hlt, ?_⟩
          rw [List.filter_append, hcf, List.filter_cons_of_neg (by decide), h1.2, show len - ds.length = 0 by omega]
          simp
        · right
          have h2 := h1.2 hr
          have h3 := h1.1 h2
          rw [List.length_append, hcl, List.length_cons]
          constructor
          · intro; push_cast; omega
          · intro; omega

theorem natStr_head (n : ℕ) : NoExtraZero (natStr n) := by
  induction n using Nat.strong_induction_on with
  | _ n ih =>
    by_cases h : n < 10
    · rw [natStr_lt h]
      unfold NoExtraZero
      simp
    · rw [natStr_ge (by omega)]
      intro hh
      exfalso
      have hne := natStr_ne (n / 10)
      have h1 := ih (n / 10) (by omega)
      rw [List.head?_append_of_ne_nil _ hne] at hh
      have h2 := h1 hh
      have h3 : digitsVal (natStr (n / 10)) = 0 := by rw [h2]; decide
      rw [digitsVal_natStr] at h3
      omega

/-- The integer part: separators, and zeros added only as needed. -/
theorem groupDigits_layout (n : ℕ) (comma : Bool) (w : ℤ) :
    (if comma then Grouped (groupDigits (natStr n) comma w) else
      IsDigits (groupDigits (natStr n) comma w) ∧ groupDigits (natStr n) comma w ≠ []) ∧
    (NoExtraZero ((groupDigits (natStr n) comma w).filter isDigit) ∨
      ((groupDigits (natStr n) comma w).length : ℤ) = w ∨ comma = true ∧ ((groupDigits (natStr n) comma w).length : ℤ) = w + 1) := by
  have hd := natStr_digits n
  have hne := natStr_ne n
  obtain ⟨-, -, hlen, -, -⟩ := groupDigits_spec hd hne comma w
  cases comma with
  | false =>
    simp only [Bool.false_eq_true, if_false, false_and, or_false]
    unfold groupDigits at hlen ⊢
    simp only [Bool.false_eq_true, if_false] at hlen ⊢
    have hall : AllD (List.replicate (w.toNat - (natStr n).length) '0' ++ natStr n) := AllD.append (AllD.replicate _) hd
    refine ⟨⟨hall, by simp [hne]⟩, ?_⟩
    rw [List.filter_eq_self.2 hall]
    by_cases hw : w.toNat ≤ (natStr n).length
    · left
      rw [show w.toNat - (natStr n).length = 0 by omega]
      simpa using natStr_head n
    · right
      simp only [List.length_append, List.length_replicate]
      omega
  | true =>
    have hr : AllD (natStr n).reverse := fun c hc => hd c (List.mem_reverse.1 hc)
    have hf : (natStr n).reverse.length + w.toNat < (natStr n).length + w.toNat + 1 := by simp
    have h1 := groupRev_grouped _ _ _ hr hf
    have h2 := groupRev_tight _ _ _ hr hf
    unfold groupDigits at hlen ⊢
    simp only [if_true, true_and] at hlen ⊢
    refine ⟨h1, ?_⟩
    rcases h2 with h2 | h2
    · left
      rw [List.filter_reverse, h2.2, List.reverse_reverse]
      exact natStr_head n
    · right
      have h3 := h2.1 (h2.2 (by simpa using hne))
      rw [List.length_reverse] at hlen ⊢
      omega

theorem signStr_text {q : ℚ} {sign : Str} : signStr (decide (q < 0)) sign.head? = signText q (sign.take 1) := by
  have key : ∀ o : Option Char, signStr (decide (q < 0)) o = signText q o.toList := by
    intro o
    unfold signStr signText
    by_cases hq : q < 0
    · simp [hq]
    · simp only [hq, decide_false, Bool.false_eq_true, if_false]
      cases o with
      | none => rfl
      | some c =>
        by_cases h1 : c = '+'
        · subst h1; rfl
        · by_cases h2 : c = ' '
          · subst h2; rfl
          · rw [if_neg (by simpa using h1), if_neg (by simpa using h2)]
            split
            · rename_i heq; exact absurd (by simpa using heq) h1
            · rename_i heq; exact absurd (by simpa using heq) h2
            · rfl
  rw [key]
  cases sign with
  | nil => rfl
  | cons c t => rfl

/-- The fixed-point notation has the requested layout. -/
theorem fixedStr_text (q : ℚ) (sign : Str) (zero : Option ℕ) (comma : Bool) (prec : ℕ) {t : Char} (ht : t = 'f' ∨ t = 'F') :
    NumberText (fixedStr q sign.head? zero comma prec t) (signText q (sign.take 1)) comma zero prec (pyRound q prec) := by
  have hp : finiteParts |q| (some t) (some prec) = fixedParts (rhe (|q| * (10 : ℚ) ^ prec)).natAbs prec := by
    unfold finiteParts
    simp only [Option.getD_some, if_pos ht]
  have hne := natStr_ne ((rhe (|q| * (10 : ℚ) ^ prec)).natAbs / 10 ^ prec)
  have hd := natStr_digits ((rhe (|q| * (10 : ℚ) ^ prec)).natAbs / 10 ^ prec)
  have hval : ∀ w : ℤ, pyRound q prec = signVal (signText q (sign.take 1)) *
      (digitsVal ((groupDigits (natStr ((rhe (|q| * (10 : ℚ) ^ prec)).natAbs / 10 ^ prec)) comma w).filter isDigit ++
        padDigits prec (rhe (|q| * (10 : ℚ) ^ prec)).natAbs) / 10 ^ prec) := by
    intro w
    obtain ⟨⟨k, h1⟩, -, -, -, -⟩ := groupDigits_spec hd hne comma w
    rw [h1, List.append_assoc, digitsVal_zeros_append, digitsVal_fixed]
    have hp : (0 : ℚ) < (10 : ℚ) ^ prec := by positivity
    have hneg : signText q (sign.take 1) = ['-'] ↔ q < 0 := by
      rw [← signStr_text, signStr_minus]; simp
    unfold pyRound
    rw [zpow_natCast, rhe_sign, show |q * (10 : ℚ) ^ prec| = |q| * (10 : ℚ) ^ prec by rw [abs_mul, abs_of_pos hp]]
    unfold signVal
    by_cases hq : q < 0
    · rw [if_pos (hneg.2 hq), if_pos (mul_neg_of_neg_of_pos hq hp)]; ring
    · rw [if_neg (fun h => hq (hneg.1 h)), if_neg (not_lt.2 (mul_nonneg (not_lt.1 hq) hp.le))]; ring
  have hlen := (fixedStr_eq q sign.head? zero comma prec ht).choose_spec.2
  cases zero with
  | none =>
    refine ⟨groupDigits (natStr ((rhe (|q| * (10 : ℚ) ^ prec)).natAbs / 10 ^ prec)) comma 0,
      padDigits prec (rhe (|q| * (10 : ℚ) ^ prec)).natAbs, ?_, padDigits_digits _ _, padDigits_length _ _,
      (groupDigits_layout _ _ _).1, hval 0, .inl ?_, by simp⟩
    · unfold fixedStr formatWith numberParts
      simp only [hp, fixedParts, if_neg hne, signStr_text]
      simp
    · rcases (groupDigits_layout ((rhe (|q| * (10 : ℚ) ^ prec)).natAbs / 10 ^ prec) comma 0).2 with h | h | h
      · exact h
      · exfalso
        have := (groupDigits_spec hd hne comma 0).2.2.2.1
        obtain ⟨c, hc, -⟩ := this
        have : groupDigits (natStr ((rhe (|q| * (10 : ℚ) ^ prec)).natAbs / 10 ^ prec)) comma 0 = [] :=
          List.length_eq_zero_iff.1 (by exact_mod_cast h)
        rw [this] at hc
        cases hc
      · have hl : (groupDigits (natStr ((rhe (|q| * (10 : ℚ) ^ prec)).natAbs / 10 ^ prec)) comma 0).length = 1 := by
          have := h.2
          omega
        obtain ⟨a, ha⟩ := List.length_eq_one_iff.1 hl
        rw [ha]
        intro hh
        have : [a].filter isDigit = [] ∨ [a].filter isDigit = [a] := by
          by_cases hb : isDigit a = true <;> simp [hb]
        rcases this with h' | h'
        · rw [h'] at hh; cases hh
        · rw [h'] at hh ⊢
          simpa using hh
  | some k =>
    refine ⟨groupDigits (natStr ((rhe (|q| * (10 : ℚ) ^ prec)).natAbs / 10 ^ prec)) comma
        ((k : ℤ) - (signText q (sign.take 1)).length -
          (if prec = 0 then [] else '.' :: padDigits prec (rhe (|q| * (10 : ℚ) ^ prec)).natAbs : Str).length),
      padDigits prec (rhe (|q| * (10 : ℚ) ^ prec)).natAbs, ?_, padDigits_digits _ _, padDigits_length _ _,
      (groupDigits_layout _ _ _).1, hval _, ?_, fun k' hk => hlen k' (by simpa using hk)⟩
    · unfold fixedStr formatWith numberParts
      simp only [hp, fixedParts, if_neg hne, signStr_text, Option.isSome_some, if_true, Option.getD_some]
    · have heq : fixedStr q sign.head? (some k) comma prec t = signText q (sign.take 1) ++
          groupDigits (natStr ((rhe (|q| * (10 : ℚ) ^ prec)).natAbs / 10 ^ prec)) comma
          ((k : ℤ) - (signText q (sign.take 1)).length -
          (if prec = 0 then [] else '.' :: padDigits prec (rhe (|q| * (10 : ℚ) ^ prec)).natAbs : Str).length) ++
          (if prec = 0 then [] else '.' :: padDigits prec (rhe (|q| * (10 : ℚ) ^ prec)).natAbs) := by
        unfold fixedStr formatWith numberParts
        simp only [hp, fixedParts, if_neg hne, signStr_text, Option.isSome_some, if_true, Option.getD_some]
      rw [heq]
      generalize (if prec = 0 then [] else '.' :: padDigits prec (rhe (|q| * (10 : ℚ) ^ prec)).natAbs : Str) = tail
      rcases (groupDigits_layout ((rhe (|q| * (10 : ℚ) ^ prec)).natAbs / 10 ^ prec) comma
        ((k : ℤ) - (signText q (sign.take 1)).length - tail.length)).2 with h | h | ⟨h, h'⟩
      · exact .inl h
      · refine .inr ⟨k, rfl, .inl ?_⟩
        rw [List.length_append, List.length_append]
        omega
      · refine .inr ⟨k, rfl, .inr ⟨h, ?_⟩⟩
        rw [List.length_append, List.length_append]
        omega

/-! ### Alignment -/

theorem robustAlign_field {s fill width A : Str} {align : Str} (h : robustAlign s fill (align.headD '>') width = .ok A)
    (ha : align = [] ∨ ∃ c ∈ ['<', '>', '=', '^'], align = [c]) :
    InField (fillChar fill width) align (digitsVal width) s A := by
  have hA : A = padTo s (fillChar fill width) (align.headD '>') (digitsVal width) := by
    unfold robustAlign at h
    by_cases h0 : align.headD '>' = '='
    · rw [if_pos h0] at h; cases h
    · rw [if_neg h0] at h
      injection h with h
      exact h.symm
  rw [hA]
  unfold padTo
  simp only []
  rcases ha with rfl | ⟨c, hc, rfl⟩
  · refine ⟨digitsVal width - s.length, 0, by simp, ?_, by simp, by simp, by simp⟩
    simp
    omega
  · simp only [List.headD_cons]
    simp only [List.mem_cons, List.not_mem_nil, or_false] at hc
    rcases hc with rfl | rfl | rfl | rfl
    · refine ⟨0, digitsVal width - s.length, by simp, ?_, by simp, by simp, by simp⟩
      simp
      omega
    · refine ⟨digitsVal width - s.length, 0, by simp, ?_, by simp, by simp, by simp⟩
      simp
      omega
    · refine ⟨digitsVal width - s.length, 0, by simp, ?_, by simp, by simp, by simp⟩
      simp
      omega
    · refine ⟨(digitsVal width - s.length) / 2, digitsVal width - s.length - (digitsVal width - s.length) / 2, by simp, ?_,
        by simp, fun _ => by omega, by simp⟩
      simp
      omega

/-- A text that is long enough is not changed. -/
theorem InField.long {c : Char} {align s A : Str} {w : ℕ} (h : InField c align w s A) (hl : w ≤ s.length) : A = s := by
  obtain ⟨i, j, h1, h2, -⟩ := h
  have h3 := congrArg List.length h1
  simp only [List.length_append, List.length_replicate] at h3
  have hi : i = 0 := by omega
  have hj : j = 0 := by omega
  rw [h1, hi, hj]
  simp

theorem InField.of_long (c : Char) (align s : Str) {w : ℕ} (hl : w ≤ s.length) : InField c align w s s :=
  ⟨0, 0, by simp, by omega, by simp, by simp, by simp⟩

/-- The alignment of a text that is long enough when zero padding is requested. -/
theorem robustAlign_layout {p : FmtParts} (hv : p.Valid) {s A : Str}
    (h : robustAlign s p.fill (effectiveAlign p) p.width = .ok A)
    (hz : p.zero ≠ [] → digitsVal p.width ≤ s.length) : InField p.fillChar p.align (digitsVal p.width) s A := by
  have h1 := robustAlign_field h hv.align
  by_cases hz' : p.zero = []
  · have : fillChar p.fill p.width = p.fillChar := by
      unfold fillChar FmtParts.fillChar
      cases p.fill with
      | nil => simp [hv.width_zero hz']
      | cons c t => rfl
    rwa [this] at h1
  · have h2 := h1.long (hz hz')
    rw [h2]
    exact .of_long _ _ _ (hz hz')

/-! ### Exponent and symbols -/

/-- The letter of the type given to `format`. -/
def mainType (p : FmtParts) : Char := if upperCase p then 'F' else 'f'

theorem mainType_f (p : FmtParts) : mainType p = 'f' ∨ mainType p = 'F' := by
  unfold mainType; split_ifs <;> simp

theorem style_eq (options : Str) : styleOf options = match printType options with
    | .pretty => .pretty | .latex => .latex | .default => .default := by
  unfold styleOf printType
  split_ifs <;> rfl

theorem percent_not_PL {options : Str} : styleOf ('%' :: options) = styleOf options := by
  unfold styleOf
  simp

/-- The options given to `format_num`. -/
def optionsOf (p : FmtParts) : Str := if p.type = ['%'] then '%' :: p.options else p.options

theorem styleOf_options (p : FmtParts) : styleOf (optionsOf p) = styleOf p.options := by
  unfold optionsOf
  split_ifs
  · exact percent_not_PL
  · rfl

theorem mem_optionsOf (p : FmtParts) {c : Char} (hc : c ≠ '%') : c ∈ optionsOf p ↔ c ∈ p.options := by
  unfold optionsOf
  split_ifs
  · simp [hc]
  · rfl

theorem expStr_text (e : Option ℤ) (p : FmtParts) :
    OptExpText (styleOf p.options) (upperCase p) (expStr e (mainType p) (optionsOf p)) e := by
  cases e with
  | none => rfl
  | some n =>
    show ExpText _ _ _ _
    rw [← styleOf_options, style_eq]
    unfold expStr
    cases printType (optionsOf p) with
    | default =>
      have hl : expLetter (mainType p) = if upperCase p then 'E' else 'e' := by
        unfold expLetter mainType
        cases upperCase p <;> rfl
      refine ⟨if n.natAbs < 10 then '0' :: natStr n.natAbs else natStr n.natAbs, ?_, ?_, ?_, ?_⟩
      · rw [← hl]; rfl
      · split_ifs
        · intro c hc
          rcases List.mem_cons.1 hc with rfl | hc
          · decide
          · exact natStr_digits _ c hc
        · exact natStr_digits _
      · split_ifs with h
        · have := List.length_pos_of_ne_nil (natStr_ne n.natAbs)
          rw [List.length_cons]; omega
        · rw [natStr_ge (by omega), List.length_append]
          have := List.length_pos_of_ne_nil (natStr_ne (n.natAbs / 10))
          simp only [List.length_singleton]
          omega
      · split_ifs
        · rw [show '0' :: natStr n.natAbs = List.replicate 1 '0' ++ natStr n.natAbs from rfl, digitsVal_zeros_append,
            digitsVal_natStr]
        · rw [digitsVal_natStr]
    | pretty => exact ⟨_, rfl, plainInt_intStr n⟩
    | latex => exact ⟨_, rfl, plainInt_intStr n⟩

theorem percentStr_text (p : FmtParts) (hv : p.Valid) : percentStr (optionsOf p) = percentText p := by
  have h1 : '%' ∈ optionsOf p ↔ p.type = ['%'] := percent_mem hv
  unfold percentStr percentText
  simp only [h1, mem_optionsOf p (show 'L' ≠ '%' by decide)]
  split_ifs <;> rfl

theorem pmSymbol_text (p : FmtParts) : pmSymbol (optionsOf p) = (styleOf p.options).pm := by
  rw [← styleOf_options]
  unfold pmSymbol styleOf
  split_ifs <;> rfl

theorem grouping_text (p : FmtParts) : grouping (optionsOf p) = ((styleOf p.options).left, (styleOf p.options).right) := by
  rw [← styleOf_options, style_eq]
  unfold grouping
  cases printType (optionsOf p) <;> rfl

/-! ### The whole string -/

theorem formatPlan_type {p : FmtParts} (hv : p.Valid) {x s : FNum} {plan : Plan} (h : formatPlan p x s = .ok plan) :
    plan.mainPresType = mainType p := by
  have key : (if (if p.type = ['%'] then some 'f' else p.type.head?) = some 'E' ∨
      (if p.type = ['%'] then some 'f' else p.type.head?) = some 'F' ∨
      (if p.type = ['%'] then some 'f' else p.type.head?) = some 'G' then 'F' else 'f') = mainType p := by
    unfold mainType upperCase
    rcases hv.type with h | ⟨c, hc, h⟩
    · rw [h]; rfl
    · rw [h]
      clear h
      revert c
      decide
  unfold formatPlan at h
  obtain ⟨⟨lo, S1, pr⟩, hr, h⟩ := bind_ok h
  simp only [] at h
  split at h
  · obtain ⟨f, -, h⟩ := bind_ok h
    injection h with h
    rw [← h]
    exact key
  · injection h with h
    rw [← h]
    exact key

/-- Everything about a successful formatting of finite values with a non-zero uncertainty. -/
theorem format_fin_type {x s : ℚ} (hs : 0 < s) {spec out : Str} (h : formatU (.fin x) (.fin s) spec = .ok out) :
    ∃ p, parseSpec spec = some p ∧ p.Valid ∧ ∃ l S' E,
      Limit p (presOf p) (x * scaleOf p) (s * scaleOf p) l S' ∧ 0 < S' ∧
      E = commonExponent (presOf p) [|x * scaleOf p|, s * scaleOf p] (some l) ∧
      formatNum (.fin (x * scaleOf p / (10 : ℚ) ^ E.getD 0)) (.fin (S' / (10 : ℚ) ^ E.getD 0)) E p (E.getD 0 - l).toNat
        (mainType p) (optionsOf p) = .ok out := by
  unfold formatU at h
  cases hp : parseSpec spec with
  | none => rw [hp] at h; cases h
  | some p =>
    rw [hp] at h
    have hv := (parseSpec_sound hp).1
    refine ⟨p, rfl, hv, ?_⟩
    obtain ⟨plan, h1, h2⟩ := bind_ok h
    obtain ⟨l, S', hl, hpos, e1, e2, e3, e4, e5, e6, e7⟩ := formatPlan_fin hv hs h1
    rw [e3, e4, e5, e7, formatPlan_type hv h1] at h2
    exact ⟨l, S', plan.commonExp, hl, hpos, e1, h2⟩

theorem zeroWidth_padding {p : FmtParts} (hv : p.Valid) (n : ℕ) : zeroWidth p n = p.padding n := by
  unfold zeroWidth FmtParts.padding
  rcases hv.zero with h | h <;> rw [h] <;> simp

theorem sign_take {p : FmtParts} (hv : p.Valid) : p.sign.take 1 = p.sign := by
  rcases hv.sign with h | ⟨c, -, h⟩ <;> rw [h] <;> rfl

theorem signText_nil {u : ℚ} (hu : 0 < u) : signText u [] = [] := by
  unfold signText
  rw [if_neg (not_lt.2 hu.le)]
  rfl

theorem signText_scale {x : ℚ} {k : ℚ} (hk : 0 < k) (sign : Str) : signText (x * k) sign = signText x sign := by
  unfold signText
  have : x * k < 0 ↔ x < 0 := by
    constructor
    · intro h; by_contra h'; exact absurd h (not_lt.2 (mul_nonneg (not_lt.1 h') hk.le))
    · intro h; exact mul_neg_of_neg_of_pos h hk
  simp only [this]

/-- The end of `format_num`, with a width. -/
theorem wrapPm_width {p : FmtParts} (hv : p.Valid) (hw : p.width ≠ []) (e : Option ℤ) (t : Char) (A B : Str) :
    wrapPm e p t (optionsOf p) A B = parenthesized (styleOf p.options) (p.type = ['%'] || 'p' ∈ p.options)
      (A ++ (styleOf p.options).pm ++ B) ++ percentText p := by
  unfold wrapPm parenthesized
  rw [grouping_text, pmSymbol_text, percentStr_text p hv, if_neg (fun h => hw h.1)]
  have hpt : percentText p ≠ [] ↔ p.type = ['%'] := by
    unfold percentText
    by_cases hc : p.type = ['%'] <;> simp only [hc, if_true, if_false]
    · split_ifs <;> simp
    · simp
  have hpm : 'p' ∈ optionsOf p ↔ 'p' ∈ p.options := mem_optionsOf p (by decide)
  by_cases hc : p.type = ['%']
  · rw [if_pos (hpt.2 hc), if_pos (by simp [hc])]
  · rw [if_neg (fun h => hc (hpt.1 h))]
    have : percentText p = [] := by
      by_contra hne; exact hc (hpt.1 hne)
    rw [this, List.append_nil]
    by_cases hp' : 'p' ∈ p.options
    · rw [if_pos (hpm.2 hp'), if_pos (by simp [hp'])]
    · rw [if_neg (fun h => hp' (hpm.1 h)), if_neg (by simp [hc, hp'])]

theorem formatPm_layout {p : FmtParts} (hv : p.Valid) {q u : ℚ} (hu : 0 < u) {e : Option ℤ} {prec : ℕ} {out : Str}
    (hpe : '%' ∈ optionsOf p → e = none)
    (h : formatPm (.fin q) (.fin u) e p prec (mainType p) (optionsOf p) = .ok out) :
    PmLayout p q ⟨prec, pyRound q prec, e⟩ ⟨prec, pyRound u prec, e⟩ out := by
  have ht := mainType_f p
  rw [formatPm_fin hv hu.ne' ht] at h
  simp only [] at h
  have hN := fixedStr_text q p.sign (p.padding (expStr e (mainType p) (optionsOf p)).length) (p.comma ≠ []) prec ht
  have hU := fixedStr_text u [] (p.padding (expStr e (mainType p) (optionsOf p)).length) (p.comma ≠ []) prec ht
  rw [sign_take hv] at hN
  rw [List.take_nil, signText_nil hu, List.head?_nil] at hU
  rw [zeroWidth_padding hv] at h
  refine ⟨_, _, _, rfl, expStr_text e p, hN, hU, ?_, ?_⟩
  · intro hw
    rw [if_pos hw] at h
    injection h with h
    rw [← h]
    unfold wrapPm parenthesized
    rw [grouping_text, pmSymbol_text, percentStr_text p hv]
    have hx : e = none → expStr e (mainType p) (optionsOf p) = [] := by rintro rfl; rfl
    have hpt : percentText p ≠ [] ↔ p.type = ['%'] := by
      unfold percentText
      by_cases hc : p.type = ['%'] <;> simp only [hc, if_true, if_false]
      · split_ifs <;> simp
      · simp
    have hpm : 'p' ∈ optionsOf p ↔ 'p' ∈ p.options := mem_optionsOf p (by decide)
    cases e with
    | some k => 
      rw [if_pos ⟨hw, rfl⟩, if_pos (by simp)]
    | none =>
      rw [if_neg (by simp), hx rfl]
      simp only [List.append_nil, Option.isSome_none, Bool.false_or]
      by_cases hc : p.type = ['%']
      · rw [if_pos (hpt.2 hc), if_pos (by simp [hc])]
      · rw [if_neg (fun h => hc (hpt.1 h))]
        have : percentText p = [] := by
          by_contra hne; exact hc (hpt.1 hne)
        rw [this, List.append_nil]
        by_cases hp' : 'p' ∈ p.options
        · rw [if_pos (hpm.2 hp'), if_pos (by simp [hp'])]
        · rw [if_neg (fun h => hp' (hpm.1 h)), if_neg (by simp [hc, hp'])]
  · intro hw
    rw [if_neg hw] at h
    obtain ⟨A, hA, h⟩ := bind_ok h
    obtain ⟨B, hB, h⟩ := bind_ok h
    injection h with h
    have hlong : ∀ (q' : ℚ) (sg : Option Char), p.zero ≠ [] → digitsVal p.width ≤
        (fixedStr q' sg (p.padding (expStr e (mainType p) (optionsOf p)).length) (p.comma ≠ []) prec (mainType p) ++
          expStr e (mainType p) (optionsOf p)).length := by
      intro q' sg hz
      have hz' : p.zero = ['0'] := hv.zero.resolve_left hz
      have : p.padding (expStr e (mainType p) (optionsOf p)).length =
        some (digitsVal p.width - (expStr e (mainType p) (optionsOf p)).length) := by
        unfold FmtParts.padding; rw [if_pos ⟨hz', hw⟩]
      rw [this, List.length_append]
      have := fixedStr_length q' sg (digitsVal p.width - (expStr e (mainType p) (optionsOf p)).length) (p.comma ≠ []) prec ht
      omega
    refine ⟨A, B, robustAlign_layout hv hA (hlong _ _), robustAlign_layout hv hB (hlong _ _), ?_⟩
    rw [← h]
    exact wrapPm_width hv hw _ _ _ _

theorem formatShorthand_layout {p : FmtParts} (hv : p.Valid) {q u : ℚ} (hu : 0 < u) {e : Option ℤ} {prec : ℕ} {out : Str}
    (h : formatShorthand (.fin q) (.fin u) e p prec (mainType p) (optionsOf p) = .ok out) :
    ShorthandLayout p q ⟨prec, pyRound q prec, e⟩ ⟨prec, pyRound u prec, e⟩ out := by
  have ht := mainType_f p
  rw [formatShorthand_fin hv hu.ne' ht] at h
  by_cases hov : ShortOverflow u prec
  · rw [if_pos hov] at h; cases h
  rw [if_neg hov] at h
  unfold shortStr at h
  simp only [percentStr_text p hv, zeroWidth_padding hv] at h
  have htail : '(' :: (shortText u prec ++ ')' :: (expStr e (mainType p) (optionsOf p) ++ percentText p)) =
      "(".toList ++ shortText u prec ++ ")".toList ++ expStr e (mainType p) (optionsOf p) ++ percentText p := by
    simp
  rw [htail] at h
  generalize hT : "(".toList ++ shortText u prec ++ ")".toList ++ expStr e (mainType p) (optionsOf p) ++ percentText p = tail at h
  have hN := fixedStr_text q p.sign (p.padding tail.length) (p.comma ≠ []) prec ht
  rw [sign_take hv] at hN
  refine ⟨_, _, _, tail, rfl, expStr_text e p, hT.symm, hN, shortText_bracket hu.le prec e, ?_, ?_⟩
  · intro hw
    rw [if_neg (by simp [hw])] at h
    injection h with h
    exact h.symm
  · intro hw
    rw [if_pos hw] at h
    refine robustAlign_layout hv h ?_
    intro hz
    have hz' : p.zero = ['0'] := hv.zero.resolve_left hz
    have : p.padding tail.length = some (digitsVal p.width - tail.length) := by
      unfold FmtParts.padding; rw [if_pos ⟨hz', hw⟩]
    rw [this, List.length_append]
    have := fixedStr_length q p.sign.head? (digitsVal p.width - tail.length) (p.comma ≠ []) prec ht
    omega

end Unc
