import Verif.Lemmas.Layout
import Verif.Lemmas.FormatSpecial

/-!
# Layout of the strings made by `format_num` for infinite, NaN and zero values
-/

set_option autoImplicit false

namespace Unc

theorem FNum.notFinite_iff (x : FNum) : x.NotFinite ↔ x.isInfinite = true := by
  cases x <;> simp [FNum.NotFinite, FNum.isInfinite]

theorem specialError_iff (s : FNum) : s.NotFinite ∨ s = .fin 0 ↔ specialError s = true := by
  cases s with
  | fin q => simp [FNum.NotFinite, specialError, FNum.truthy, FNum.isInfinite]
  | inf b => simp [FNum.NotFinite, specialError, FNum.isInfinite]
  | nan => simp [FNum.NotFinite, specialError, FNum.isInfinite]

theorem FNum.scale_special {x : FNum} (h : x.isInfinite = true) (k : ℚ) : x.scale k = x := by
  cases x with
  | fin q => cases h
  | inf b => rfl
  | nan => rfl

theorem FNum.scale_isInfinite (x : FNum) (k : ℚ) : (x.scale k).isInfinite = x.isInfinite := by
  cases x <;> rfl

theorem zeroPadded_none (sg word : Str) : zeroPadded sg none word = sg ++ word := by
  unfold zeroPadded
  simp

/-- `format()` of an infinite or NaN value. -/
theorem formatWith_special {x : FNum} (hx : x.isInfinite = true) (f : FloatSpec) (zero : Option ℕ) (hz : f.zero = zero.isSome)
    (hw : f.width = zero.getD 0) (ht : f.type ≠ some '%') (upper : Bool) (hu : upperType f.type = upper) :
    formatWith x f = zeroPadded (signStr x.isNeg f.sign) zero (specialWord upper x) := by
  have key : numberParts x f.type f.prec = (x.isNeg, [], specialWord upper x) := by
    unfold numberParts
    rw [if_neg ht, hu]
    cases x with
    | fin q => cases hx
    | nan => cases upper <;> rfl
    | inf b => cases upper <;> rfl
  unfold formatWith zeroPadded
  rw [key]
  cases zero with
  | none =>
    simp only [hz, hw, Option.isSome_none, Option.getD_none, Bool.false_eq_true, if_false, if_true, List.append_nil, Nat.zero_sub,
      List.replicate_zero, List.nil_append]
  | some w =>
    simp only [hz, hw, Option.isSome_some, Option.getD_some, if_true]
    congr 3
    simp only [List.length_append]
    omega

theorem parseFloatSpec_type (sign : Option Char) (hs : ∀ c ∈ sign, c ∈ "+- ".toList) (zero : Option ℕ) (comma : Bool)
    (t : Option Char) (ht : t ∈ [none, some 'g', some 'G']) :
    parseFloatSpec (specPrefix sign zero comma ++ t.toList) =
      some { sign := sign, zero := zero.isSome, width := zero.getD 0, comma := comma, prec := none, type := t } := by
  have hs' : sign ∈ [none, some '+', some '-', some ' '] := by
    cases sign with
    | none => simp
    | some c =>
      have := hs c rfl
      change c ∈ ['+', '-', ' '] at this
      simpa using this
  clear hs
  cases zero with
  | none =>
    simp only [List.mem_cons, List.not_mem_nil, or_false] at hs' ht
    rcases hs' with rfl | rfl | rfl | rfl <;> rcases ht with rfl | rfl | rfl <;> cases comma <;> decide +kernel
  | some w =>
    have hd : NoDHead ((if comma then [','] else []) ++ t.toList) := by
      simp only [List.mem_cons, List.not_mem_nil, or_false] at ht
      rcases ht with rfl | rfl | rfl <;> cases comma <;> first | exact NoDHead.nil | exact NoDHead.cons rfl
    obtain ⟨h1, h2⟩ := takeWhile_digits (natStr_digits w) hd
    have h3 := digitsVal_natStr w
    have hpre : specPrefix sign (some w) comma ++ t.toList =
        sign.toList ++ '0' :: (natStr w ++ ((if comma then [','] else []) ++ t.toList)) := by
      simp [specPrefix]
    rw [hpre]
    generalize natStr w ++ ((if comma then [','] else []) ++ t.toList) = r at h1 h2 ⊢
    have key : ∀ sg : Option Char, (do
        let width := digitsVal (r.takeWhile isDigit)
        let s := r.dropWhile isDigit
        let (comma, s) := match s with
          | ',' :: t => (true, t)
          | t => (false, t)
        let (prec, type) ← parsePrecType s
        some ({ sign := sg, zero := true, width, comma, prec, type } : FloatSpec)) =
        some { sign := sg, zero := true, width := w, comma := comma, prec := none, type := t } := by
      intro sg
      simp only [h1, h2, h3]
      simp only [List.mem_cons, List.not_mem_nil, or_false] at ht
      rcases ht with rfl | rfl | rfl <;> cases comma <;> rfl
    simp only [List.mem_cons, List.not_mem_nil, or_false] at hs'
    rcases hs' with rfl | rfl | rfl | rfl <;> exact key _

/-- `signStr` and the text of the specification. -/
theorem signStr_false (sign : Str) : signStr false sign.head? = signText 1 (sign.take 1) := by
  have := signStr_text (q := 1) (sign := sign)
  rwa [show decide ((1 : ℚ) < 0) = false by decide +kernel] at this

/-- Text of a nominal value or uncertainty that is infinite or NaN. -/
theorem pyFormat_special {p : FmtParts} (hv : p.Valid) {x : FNum} (hx : x.isInfinite = true) {sign : Str}
    (hs : ∀ c ∈ sign.head?, c ∈ "+- ".toList) (zero : Option ℕ) (comma : Bool) {suffix out : Str}
    (hsuf : (∃ prec, suffix = fixedSuffix prec (mainType p)) ∨ isGType p.type = true ∧ suffix = p.type)
    (h : pyFormat x (specPrefix sign.head? zero comma ++ suffix) = .ok out) :
    out = zeroPadded (if x.isNeg then ['-'] else signText 1 (sign.take 1)) zero (specialWord (upperCase p) x) := by
  have key : signStr x.isNeg sign.head? = if x.isNeg then ['-'] else signText 1 (sign.take 1) := by
    cases x.isNeg with
    | true => rfl
    | false => simpa using signStr_false sign
  rw [← key]
  rcases hsuf with ⟨prec, rfl⟩ | ⟨hg, rfl⟩
  · unfold pyFormat at h
    rw [parseFloatSpec_fixed _ hs _ _ _ (mainType_f p)] at h
    simp only [Except.ok.injEq] at h
    rw [← h]
    refine formatWith_special hx _ zero rfl rfl ?_ _ ?_
    · unfold mainType; split_ifs <;> simp
    · show upperType (some (mainType p)) = upperCase p
      unfold mainType; cases upperCase p <;> decide
  · have hty : ∃ t ∈ [none, some 'g', some 'G'], p.type = t.toList ∧ upperType t = upperCase p := by
      simp only [isGType, Bool.or_eq_true, decide_eq_true_eq] at hg
      unfold upperCase
      rcases hg with (h | h) | h
      · exact ⟨none, by simp, by simp [h], by rw [h]; decide⟩
      · exact ⟨some 'g', by simp, by simp [h], by rw [h]; decide⟩
      · exact ⟨some 'G', by simp, by simp [h], by rw [h]; decide⟩
    obtain ⟨t, ht, e, hu⟩ := hty
    unfold pyFormat at h
    rw [e, parseFloatSpec_type _ hs _ _ _ ht] at h
    simp only [Except.ok.injEq] at h
    rw [← h]
    refine formatWith_special hx _ zero rfl rfl ?_ _ hu
    simp only []
    rintro rfl
    simp at ht

theorem groupRev_length (fuel : ℕ) : ∀ (ds : Str) (w : ℤ), ds.length + w.toNat < fuel → w ≤ (groupRev fuel ds w).length := by
  induction fuel with
  | zero => intro ds w h; omega
  | succ fuel ih =>
    intro ds w hf
    have hle : min 3 (max (max ds.length w.toNat) 1) ≤ max (max ds.length w.toNat) 1 := min_le_right _ _
    have hlen : 1 ≤ min 3 (max (max ds.length w.toNat) 1) := by omega
    unfold groupRev
    simp only []
    generalize hL : min 3 (max (max ds.length w.toNat) 1) = len at *
    have hcl : (ds.take len ++ List.replicate (len - ds.length) '0').length = len := by
      simp; omega
    split_ifs with h
    · rw [hcl]; omega
    · have h3 := ih (ds.drop len) (w - len - 1) (by
          rw [List.length_drop]
          by_cases hr : ds.drop len = []
          · have h5 : ¬ w - len ≤ 0 := fun h' => h ⟨hr, h'⟩
            omega
          · have : len < ds.length := by
              by_contra hc
              exact hr (List.drop_eq_nil_of_le (by omega))
            omega)
      rw [List.length_append, hcl, List.length_cons]
      push_cast
      omega

/-- `format()` fills the width. -/
theorem formatWith_length (x : FNum) (f : FloatSpec) : f.width ≤ (formatWith x f).length := by
  unfold formatWith
  obtain ⟨neg, ds, rest⟩ := numberParts x f.type f.prec
  simp only []
  split_ifs with h1 h2
  · simp only [List.length_append, List.length_replicate]
    omega
  · have : (f.width : ℤ) - (signStr neg f.sign).length - rest.length ≤
        (groupDigits ds f.comma ((f.width : ℤ) - (signStr neg f.sign).length - rest.length)).length := by
      unfold groupDigits
      cases f.comma with
      | true =>
        simp only [if_true, List.length_reverse]
        exact groupRev_length _ _ _ (by simp)
      | false =>
        simp only [Bool.false_eq_true, if_false, List.length_append, List.length_replicate]
        omega
    simp only [List.length_append]
    omega
  all_goals
    simp only [List.length_append, List.length_replicate]
    omega

/-- Idem, for the specifications made by `format_num`. -/
theorem pyFormat_length {p : FmtParts} {x : FNum} {sign : Option Char} (hs : ∀ c ∈ sign, c ∈ "+- ".toList) {zero : Option ℕ} {comma : Bool}
    {suffix out : Str} (hsuf : (∃ prec, suffix = fixedSuffix prec (mainType p)) ∨ isGType p.type = true ∧ suffix = p.type)
    (h : pyFormat x (specPrefix sign zero comma ++ suffix) = .ok out) (k : ℕ) (hk : zero = some k) : k ≤ out.length := by
  subst hk
  rcases hsuf with ⟨prec, rfl⟩ | ⟨hg, rfl⟩
  · unfold pyFormat at h
    rw [parseFloatSpec_fixed _ hs _ _ _ (mainType_f p)] at h
    simp only [Except.ok.injEq] at h
    rw [← h]
    exact (formatWith_length x ⟨_, _, k, _, _, _⟩ :)
  · have hty : ∃ t ∈ [none, some 'g', some 'G'], p.type = t.toList := by
      simp only [isGType, Bool.or_eq_true, decide_eq_true_eq] at hg
      rcases hg with (h | h) | h
      · exact ⟨none, by simp, by simp [h]⟩
      · exact ⟨some 'g', by simp, by simp [h]⟩
      · exact ⟨some 'G', by simp, by simp [h]⟩
    obtain ⟨t, ht, e⟩ := hty
    unfold pyFormat at h
    rw [e, parseFloatSpec_type _ hs _ _ _ ht] at h
    simp only [Except.ok.injEq] at h
    rw [← h]
    exact (formatWith_length x ⟨_, _, k, _, _, _⟩ :)

theorem specialText_nan {p : FmtParts} {sg t : Str} {pad : Option ℕ} : SpecialText p sg pad .nan t ↔
    if 'L' ∈ p.options then t = "\\mathrm{".toList ++ zeroPadded sg pad (specialWord (upperCase p) .nan) ++ "}".toList
    else t = zeroPadded sg pad (specialWord (upperCase p) .nan) := Iff.rfl

theorem specialText_inf {p : FmtParts} {sg t : Str} {pad : Option ℕ} {neg : Bool} : SpecialText p sg pad (.inf neg) t ↔
    if 'L' ∈ p.options then t = (if neg then ['-'] else []) ++ "\\infty".toList
    else t = zeroPadded (if neg then ['-'] else sg) pad (specialWord (upperCase p) (.inf neg)) := Iff.rfl

theorem latexNom_special {p : FmtParts} {x : FNum} (hx : x.isInfinite = true) (sg : Str) (pad : Option ℕ) :
    SpecialText p sg pad x (latexNom (optionsOf p) x (zeroPadded (if x.isNeg then ['-'] else sg) pad (specialWord (upperCase p) x))) := by
  have hL := mem_optionsOf p (show 'L' ≠ '%' by decide)
  by_cases h : 'L' ∈ p.options
  · have h' := hL.2 h
    cases x with
    | fin q => cases hx
    | nan =>
      unfold latexNom SpecialText
      rw [if_pos h', if_pos h]
      rfl
    | inf b =>
      rw [specialText_inf]
      unfold latexNom
      rw [if_pos h', if_pos h]
  · have h' := fun h' => h (hL.1 h')
    cases x with
    | fin q => cases hx
    | nan =>
      unfold latexNom SpecialText
      rw [if_neg h', if_neg h]
      rfl
    | inf b =>
      rw [specialText_inf]
      unfold latexNom
      rw [if_neg h', if_neg h]
      rfl

theorem latexErr_special {p : FmtParts} {x : FNum} (hx : x.isInfinite = true) (hn : x ≠ .inf true) (pad : Option ℕ) :
    SpecialText p [] pad x (latexErr (optionsOf p) x (zeroPadded (if x.isNeg then ['-'] else []) pad (specialWord (upperCase p) x))) := by
  have hL := mem_optionsOf p (show 'L' ≠ '%' by decide)
  have hb : ∀ b, x = .inf b → b = false := by
    rintro b rfl
    cases b with
    | true => exact absurd rfl hn
    | false => rfl
  by_cases h : 'L' ∈ p.options
  · have h' := hL.2 h
    cases x with
    | fin q => cases hx
    | nan =>
      unfold latexErr SpecialText
      rw [if_pos h', if_pos h]
      rfl
    | inf b =>
      obtain rfl := hb b rfl
      rw [specialText_inf]
      unfold latexErr
      rw [if_pos h', if_pos h]
      rfl
  · have h' := fun h' => h (hL.1 h')
    cases x with
    | fin q => cases hx
    | nan =>
      unfold latexErr SpecialText
      rw [if_neg h', if_neg h]
      rfl
    | inf b =>
      rw [specialText_inf]
      unfold latexErr
      rw [if_neg h', if_neg h]
      rfl

theorem digitsLimit_pos {p : FmtParts} {pres : Option Char} {nom : FNum} {s : ℚ} (hs : 0 < s) {r : Option ℤ × FNum × ℕ}
    (h : digitsLimit p pres nom (.fin s) = .ok r) : ∃ q, 0 < q ∧ r.2.1 = .fin q := by
  have hfl : ∀ {r}, digitsLimit.floatLimit pres (.fin s) (p.prec.getD []) (realValues nom (.fin s)) = .ok r →
      ∃ q, 0 < q ∧ r.2.1 = .fin q := by
    intro r h
    unfold digitsLimit.floatLimit at h
    simp only [] at h
    split at h
    · cases h; exact ⟨s, hs, rfl⟩
    · split at h <;> (cases h; exact ⟨s, hs, rfl⟩)
  unfold digitsLimit at h
  simp only [] at h
  split at h
  · rename_i s' _ heq
    cases heq
    rw [if_pos hs.ne'] at h
    split at h
    · split at h
      · cases h
      · cases h; exact ⟨s, hs, rfl⟩
    · cases h; exact ⟨_, pdg_pos hs, rfl⟩
  · exact hfl h

/-- The calculations of `__format__` keep the special values. -/
theorem formatPlan_values {p : FmtParts} {x s : FNum} {plan : Plan} (hs : ∀ q, s = .fin q → 0 ≤ q)
    (h : formatPlan p x s = .ok plan) :
    (x.isInfinite = true → plan.nomMain = x) ∧ plan.nomMain.isInfinite = x.isInfinite ∧
    (specialError s = true → plan.errorMain = s) ∧ specialError plan.errorMain = specialError s ∧
    plan.errorMain.isInfinite = s.isInfinite ∧
    (x.isInfinite = true → s.isInfinite = true → plan.commonExp = none) := by
  obtain ⟨lo, S', pr, hl, hE, -, hnom, herr, -, -, -⟩ := formatPlan_ok h
  have hsc := scaleOf_pos p
  have h10 : (0 : ℚ) < 1 / (10 : ℚ) ^ plan.commonExp.getD 0 := by
    have := ten_pos (plan.commonExp.getD 0)
    positivity
  have hsp : specialError s = true → plan.errorMain = s := by
    intro h1
    have h2 : specialError (s.scale (scaleOf p)) = true := by rwa [specialError_scale hsc]
    obtain ⟨h3, -⟩ := digitsLimit_special h2 hl
    simp only [] at h3
    rw [herr, h3]
    cases s with
    | inf b => rfl
    | nan => rfl
    | fin q =>
      have : q = 0 := by
        by_contra hq
        revert h1
        simp [specialError, FNum.truthy, FNum.isInfinite, hq]
      subst this
      simp [FNum.scale]
  have hnsp : specialError s = false → ∃ q, 0 < q ∧ plan.errorMain = .fin q := by
    intro h1
    cases s with
    | inf b => revert h1; simp [specialError, FNum.isInfinite]
    | nan => revert h1; simp [specialError, FNum.isInfinite]
    | fin q =>
      have h0 : q ≠ 0 := by
        rintro rfl
        revert h1; simp [specialError, FNum.truthy, FNum.isInfinite]
      have hq : 0 < q := lt_of_le_of_ne (hs q rfl) (Ne.symm h0)
      obtain ⟨q', h2, h3⟩ := digitsLimit_pos (by positivity : 0 < q * scaleOf p) hl
      simp only [] at h3
      rw [herr, h3]
      exact ⟨_, mul_pos h2 h10, rfl⟩
  refine ⟨?_, ?_, hsp, ?_, ?_, ?_⟩
  · intro h1
    rw [hnom, FNum.scale_special h1, FNum.scale_special h1]
  · rw [hnom, FNum.scale_isInfinite, FNum.scale_isInfinite]
  · cases h1 : specialError s with
    | true => rw [hsp h1, h1]
    | false =>
      obtain ⟨q, h2, h3⟩ := hnsp h1
      rw [h3]
      simp [specialError, FNum.truthy, FNum.isInfinite, h2.ne']
  · cases h1 : specialError s with
    | true => rw [hsp h1]
    | false =>
      obtain ⟨q, h2, h3⟩ := hnsp h1
      rw [h3]
      cases s with
      | fin q => rfl
      | inf b => revert h1; simp [specialError, FNum.isInfinite]
      | nan => revert h1; simp [specialError, FNum.isInfinite]
  · intro h1 h2
    rw [hE, FNum.scale_special h1, FNum.scale_special h2]
    have : realValues x s = [] := by
      cases x with
      | fin q => cases h1
      | inf b => cases s with
        | fin q => cases h2
        | inf b => rfl
        | nan => rfl
      | nan => cases s with
        | fin q => cases h2
        | inf b => rfl
        | nan => rfl
    rw [this]
    unfold commonExponent expRefValue
    simp

/-- The suffixes of the specifications given to `format()`. -/
theorem fmtSuffixN_cases (err : FNum) (p : FmtParts) (prec : ℕ)
    (hg : isGType p.type = true → p.prec = none) :
    (∃ pr, fmtSuffixN err p prec (mainType p) = fixedSuffix pr (mainType p)) ∨
      isGType p.type = true ∧ fmtSuffixN err p prec (mainType p) = p.type := by
  unfold fmtSuffixN gSuffix
  split_ifs with h
  · right
    simp only [Bool.and_eq_true] at h
    exact ⟨h.2, by rw [hg h.2]; rfl⟩
  · exact .inl ⟨_, rfl⟩

theorem fmtSuffixE_cases (nom err : FNum) (p : FmtParts) (prec : ℕ) (he : err.truthy = true)
    (hg : isGType p.type = true → p.prec = none) :
    (∃ pr, fmtSuffixE nom err p prec (mainType p) = fixedSuffix pr (mainType p)) ∨
      isGType p.type = true ∧ fmtSuffixE nom err p prec (mainType p) = p.type := by
  unfold fmtSuffixE gSuffix
  rw [if_pos he]
  split_ifs with h
  · right
    simp only [Bool.and_eq_true] at h
    exact ⟨h.2, by rw [hg h.2]; rfl⟩
  · exact .inl ⟨_, rfl⟩

theorem Padded.field {p : FmtParts} (hv : p.Valid) (hw : p.width ≠ []) {s A : Str} (h : Padded p s A) :
    InField p.fieldFill p.align (digitsVal p.width) s A := by
  rcases h with ⟨h, -⟩ | ⟨-, h⟩
  · exact absurd h hw
  · have h1 := robustAlign_field h hv.align
    have : fillChar p.fill p.width = p.fieldFill := by
      unfold fillChar FmtParts.fieldFill
      cases p.fill with
      | nil => rfl
      | cons c t => rfl
    rwa [this] at h1

theorem isInfinite_truthy {x : FNum} (h : x.isInfinite = true) : x.truthy = true := by
  cases x with
  | fin q => cases h
  | inf b => rfl
  | nan => rfl

theorem signs_ok {p : FmtParts} (hv : p.Valid) : ∀ c ∈ p.sign.head?, c ∈ "+- ".toList := sign_head hv

/-- The end of `format_num`, without a width. -/
theorem wrapPm_noWidth {p : FmtParts} (hv : p.Valid) (hw : p.width = []) (e : Option ℤ) (A B : Str) :
    wrapPm e p (mainType p) (optionsOf p) A B =
      parenthesized (styleOf p.options) (e.isSome || p.type = ['%'] || 'p' ∈ p.options)
        (A ++ (styleOf p.options).pm ++ B) ++ expStr e (mainType p) (optionsOf p) ++ percentText p := by
  unfold wrapPm parenthesized
  rw [grouping_text, pmSymbol_text, percentStr_text p hv]
  have hx : e = none → expStr e (mainType p) (optionsOf p) = [] := by rintro rfl; rfl
  have hpt : percentText p ≠ [] ↔ p.type = ['%'] := by
    unfold percentText
    by_cases hc : p.type = ['%'] <;> simp only [hc, if_true, if_false]
    · split_ifs <;> simp
    · simp
  have hpm : 'p' ∈ optionsOf p ↔ 'p' ∈ p.options := mem_optionsOf p (by decide)
  cases e with
  | some k =>
    rw [if_pos ⟨hw, rfl⟩, if_pos (by simp)]
  | none =>
    rw [if_neg (by simp), hx rfl]
    simp only [List.append_nil, Option.isSome_none, Bool.false_or]
    by_cases hc : p.type = ['%']
    · rw [if_pos (hpt.2 hc), if_pos (by simp [hc])]
    · rw [if_neg (fun h => hc (hpt.1 h))]
      have : percentText p = [] := by
        by_contra hne; exact hc (hpt.1 hne)
      rw [this, List.append_nil]
      by_cases hp' : 'p' ∈ p.options
      · rw [if_pos (hpm.2 hp'), if_pos (by simp [hp'])]
      · rw [if_neg (fun h => hp' (hpm.1 h)), if_neg (by simp [hc, hp'])]

theorem uncertStr_special {p : FmtParts} {s : FNum} (hs : s.isInfinite = true) (hn : s ≠ .inf true) {prec : ℕ} {U : Str}
    (h : uncertStr s prec (mainType p) (optionsOf p) = .ok U) : SpecialText p [] none s U := by
  unfold uncertStr at h
  have hL := mem_optionsOf p (show 'L' ≠ '%' by decide)
  have hm : ∀ x, pyFormat x [mainType p] = .ok (formatWith x { type := some (mainType p) }) := by
    intro x
    unfold pyFormat
    have : parseFloatSpec [mainType p] = some { type := some (mainType p) } := by
      unfold mainType
      split_ifs <;> decide +kernel
    rw [this]
  have hw : formatWith s { type := some (mainType p) } = (if s.isNeg then ['-'] else []) ++ specialWord (upperCase p) s := by
    rw [formatWith_special hs _ none rfl rfl _ (upperCase p) _, zeroPadded_none]
    · cases s.isNeg <;> rfl
    · unfold mainType; split_ifs <;> simp
    · show upperType (some (mainType p)) = upperCase p
      unfold mainType; cases upperCase p <;> decide
  by_cases hL' : 'L' ∈ p.options
  · cases s with
    | fin q => cases hs
    | nan =>
      simp only [hm, hw] at h
      have h' : mathrm (specialWord (upperCase p) .nan) = U := by
        have : (if 'L' ∈ optionsOf p then mathrm (specialWord (upperCase p) .nan) else specialWord (upperCase p) .nan) = U := by
          injection h
        rwa [if_pos (hL.2 hL')] at this
      rw [specialText_nan, if_pos hL', ← h', zeroPadded_none]
      rfl
    | inf b =>
      cases b with
      | true => exact absurd rfl hn
      | false =>
        simp only [] at h
        rw [if_pos (hL.2 hL')] at h
        rw [specialText_inf, if_pos hL']
        injection h with h
        rw [← h]
        rfl
  · have hL2 := fun h' => hL' (hL.1 h')
    cases s with
    | fin q => cases hs
    | nan =>
      simp only [hm, hw] at h
      have h' : specialWord (upperCase p) .nan = U := by
        have : (if 'L' ∈ optionsOf p then mathrm (specialWord (upperCase p) .nan) else specialWord (upperCase p) .nan) = U := by
          injection h
        rwa [if_neg hL2] at this
      rw [specialText_nan, if_neg hL', ← h', zeroPadded_none]
      rfl
    | inf b =>
      cases b with
      | true => exact absurd rfl hn
      | false =>
        simp only [] at h
        rw [if_neg hL2, hm, hw] at h
        rw [specialText_inf, if_neg hL']
        injection h with h
        rw [← h, zeroPadded_none]
        rfl

end Unc
