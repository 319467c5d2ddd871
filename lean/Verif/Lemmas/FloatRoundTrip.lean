import Verif.Lemmas.RoundTrip
import Verif.Lemmas.FloatLayout
import Verif.Props.C77_FloatParse

/-! # Parsing, with floating-point arithmetic, of the strings made by `format_num` -/

set_option autoImplicit false

namespace Unc

/-- A printed number, with its exponent. -/
structure Printable (q : ℚ) (e : Option ℤ) : Prop where
  exp : ∀ n ∈ e, -300 ≤ n ∧ n ≤ 300
  mant : Ranged q
  value : Ranged (q * 10 ^ e.getD 0)

theorem Printable.getD {q : ℚ} {e : Option ℤ} (h : Printable q e) : -300 ≤ e.getD 0 ∧ e.getD 0 ≤ 300 := by
  cases e with
  | none => simp
  | some n => exact h.exp n rfl

/-- A number in a field. -/
theorem Fixed.writtenNum {m x : Str} {p : ℕ} {q : ℚ} {e : Option ℤ} (h : Fixed m p q) (hc : ',' ∉ m) (hx : PlainExp x e)
    (hq : Printable q e) (i j : ℕ) :
    ∃ y o, WrittenNum (List.replicate i ' ' ++ (m ++ x) ++ List.replicate j ' ') y o ∧ Reach y o 0 ∧
      y.scale (10 ^ o.getD 0) = .fin (q * 10 ^ e.getD 0) := by
  obtain ⟨a, sg, d, rfl, ha, hsg, -, hqv⟩ := h.decimal hc
  have hA : IsBlanks (List.replicate i ' ' ++ a) := by
    intro c hc
    rcases List.mem_append.1 hc with hc | hc
    · exact blanks_replicate i c hc
    · rcases ha with rfl | rfl
      · cases hc
      · left; simpa using hc
  obtain ⟨h1, h2, h3⟩ := hq
  cases hx with
  | none =>
    have := WrittenNum.plain _ sg _ d hA (blanks_replicate j) hsg
    refine ⟨_, _, by simpa using this, ⟨by simp, by norm_num, by norm_num, ?_⟩, by simp [FNum.scale, hqv]⟩
    intro v hv
    injection hv with hv
    rw [← hv, ← hqv]
    simpa using h2
  | e c hc t n ht =>
    have := WrittenNum.exp _ sg _ d hA (blanks_replicate j) hsg c hc t n ht
    refine ⟨_, _, by simpa using this, ⟨by simp, by norm_num, by norm_num, ?_⟩, by simp [FNum.scale, hqv]⟩
    intro v hv
    injection hv with hv
    rw [← hv, ← hqv]
    simpa using h3
  | pretty t n ht =>
    have hn := h1 n rfl
    have := WrittenNum.times _ sg _ d hA (blanks_replicate j) hsg [] [] _ blanks_nil blanks_nil n ht.sup (by omega)
    refine ⟨_, _, by simpa using this, ⟨fun k hk => h1 k hk, by norm_num, by norm_num, ?_⟩, by simp [FNum.scale, hqv]⟩
    intro v hv
    injection hv with hv
    rw [← hv, ← hqv]
    refine ⟨h2, h3, by simpa using h3⟩

theorem reach_exp {q : ℚ} {e : Option ℤ} (h : Printable q e) : Reach (.fin q) none (e.getD 0) := by
  refine ⟨by simp, h.getD.1, h.getD.2, ?_⟩
  intro v hv
  injection hv with hv
  rw [← hv]
  exact ⟨h.mant, by simpa using h.mant, by simpa using h.value⟩

theorem ReadAs.fin {v : FNum} {q : ℚ} (h : ReadAs v (.fin q)) : ∃ y, v = .fin y ∧ NearFl y q := by
  cases v with
  | fin y => exact ⟨y, rfl, h⟩
  | inf s => exact h.elim
  | nan => exact h.elim

/-- The ± notation is read back. -/
theorem formatPm_parsed_fl {f : FlOps} (hf : f.Sound) {p : FmtParts} (hv : p.Valid) (hcomma : p.comma = [])
    (hfill : p.fill = [] ∨ p.fill = [' ']) {q u : ℚ} (hu : 0 < u) {t : Char} (ht : t = 'f' ∨ t = 'F') {e : Option ℤ}
    {prec : ℕ} {options out : Str} (hpe : '%' ∉ options) (hL : printType options ≠ .latex)
    (hq : Printable (pyRound q prec) e) (hup : Printable (pyRound u prec) e)
    (h : formatPm (.fin q) (.fin u) e p prec t options = .ok out) :
    ∃ v w : FNum, (ufloatFromstr out : PyRes (Fl f × Fl f)) = .ok (v, w) ∧
      ReadAs v (.fin (pyRound q prec * 10 ^ e.getD 0)) ∧ ReadAs w (.fin (pyRound u prec * 10 ^ e.getD 0)) := by
  rw [formatPm_fin hv hu.ne' ht] at h
  simp only [] at h
  have hx := expStr_plain e ht hL
  have hN := fixedStr_fixed q p.sign.head? (zeroWidth p (expStr e t options).length) (p.comma ≠ []) prec ht
  have hU := fixedStr_fixed u none (zeroWidth p (expStr e t options).length) (p.comma ≠ []) prec ht
  have hNc := fixedStr_no_comma' hcomma q p.sign.head? (zeroWidth p (expStr e t options).length) prec ht
  have hUc := fixedStr_no_comma' hcomma u none (zeroWidth p (expStr e t options).length) prec ht
  obtain ⟨hpm, hg1, hg2⟩ := pm_plain hL
  have hps : percentStr options = [] := by simp [percentStr, hpe]
  have hu0 := pyRound_nonneg hu.le prec
  have nil : IsSpaces [] := by simp [IsSpaces]
  -- not negative
  have hw : ∀ {y : FNum} {k r : ℚ}, 0 < k → 0 ≤ r → y.scale k = .fin r → (y.isNeg = true → y.isInfinite = true) := by
    intro y k r hk hr hy hn
    cases y with
    | fin v =>
      injection hy with hy
      simp only [FNum.isNeg, decide_eq_true_eq] at hn
      have := mul_neg_of_neg_of_pos hn hk
      rw [hy] at this
      exact absurd hr (not_le.2 this)
    | inf s => rfl
    | nan => cases hn
  by_cases hwd : p.width = []
  · rw [if_pos hwd] at h
    injection h with h
    rw [← h]
    have m1 : Printable (pyRound q prec) none := ⟨by simp, hq.mant, by simpa using hq.mant⟩
    have m2 : Printable (pyRound u prec) none := ⟨by simp, hup.mant, by simpa using hup.mant⟩
    have np : ∀ {m : Str} {r : ℚ}, Fixed m prec r → ',' ∉ m → WrittenNum m (.fin r) none := by
      intro m r hm hc
      obtain ⟨a, sg, d, rfl, ha, hsg, -, hqv⟩ := hm.decimal hc
      rw [hqv]
      have := WrittenNum.plain a sg [] d (by rcases ha with rfl | rfl <;> simp [IsBlanks]) blanks_nil hsg
      simpa using this
    by_cases he0 : e.isSome
    · unfold wrapPm
      rw [if_pos ⟨hwd, he0⟩, hg1, hg2, hps, List.append_nil]
      obtain ⟨v, w, h1, h2, h3⟩ := C77_grouped f hf [] _ _ _ _ [] _ _ none none _ nil nil (np hN hNc) hpm (np hU hUc) hx.part
        (reach_exp hq) (reach_exp hup) (hw (k := 1) one_pos hu0 (by simp [FNum.scale]))
      refine ⟨v, w, ?_, by simpa [FNum.scale] using h2, by simpa [FNum.scale] using h3⟩
      rw [List.nil_append, List.append_nil] at h1
      simp only [List.append_assoc, List.cons_append, List.nil_append] at h1 ⊢
      exact h1
    · have he1 : e = none := by simpa using he0
      subst he1
      unfold wrapPm
      rw [if_neg (by simp), hps, if_neg (by simp)]
      split_ifs
      · obtain ⟨v, w, h1, h2, h3⟩ := C77_grouped f hf [] _ _ _ _ [] _ _ none none _ nil nil (np hN hNc) hpm (np hU hUc) hx.part
          (reach_exp hq) (reach_exp hup) (hw (k := 1) one_pos hu0 (by simp [FNum.scale]))
        refine ⟨v, w, ?_, by simpa [FNum.scale] using h2, by simpa [FNum.scale] using h3⟩
        rw [hg1, hg2]
        have hxn : expStr none t options = [] := rfl
        rw [hxn] at h1
        simp only [List.append_assoc, List.cons_append, List.nil_append, List.append_nil] at h1 ⊢
        exact h1
      · obtain ⟨v, w, h1, h2, h3⟩ := C77_plus_minus f hf [] _ _ _ [] _ _ none none nil nil (np hN hNc) hpm (np hU hUc)
          (reach_exp hq) (reach_exp hup) (hw (k := 1) one_pos hu0 (by simp [FNum.scale]))
        refine ⟨v, w, ?_, by simpa [FNum.scale] using h2, by simpa [FNum.scale] using h3⟩
        simp only [List.append_assoc, List.nil_append, List.append_nil] at h1 ⊢
        exact h1
  · rw [if_neg hwd] at h
    obtain ⟨A, hA, h⟩ := bind_ok h
    obtain ⟨B, hB, h⟩ := bind_ok h
    injection h with h
    rw [← h]
    have hlen : ∀ (q : ℚ) (sg : Option Char), p.zero ≠ [] → digitsVal p.width ≤
        (fixedStr q sg (zeroWidth p (expStr e t options).length) (p.comma ≠ []) prec t ++ expStr e t options).length := by
      intro q sg hz
      have := zeroWidth_length hwd hz q sg (p.comma ≠ []) prec ht (expStr e t options).length
      rw [List.length_append]
      omega
    obtain ⟨i, j, rfl⟩ := pad_spaces hv hfill (hlen _ _) hA
    obtain ⟨i', j', rfl⟩ := pad_spaces hv hfill (hlen _ _) hB
    obtain ⟨y, o, n1, r1, s1⟩ := hN.writtenNum hNc hx hq i j
    obtain ⟨y', o', n2, r2, s2⟩ := hU.writtenNum hUc hx hup i' j'
    have hn := hw (ten_pos _) (mul_nonneg hu0 (ten_pos _).le) s2
    unfold wrapPm
    rw [if_neg (fun h => hwd h.1), hps, if_neg (by simp)]
    split_ifs
    · obtain ⟨v, w, h1, h2, h3⟩ := C77_grouped f hf [] _ _ _ [] [] _ _ _ _ 0 nil nil n1 hpm n2 .none r1 r2 hn
      rw [zpow_zero, mul_one, s1] at h2
      rw [zpow_zero, mul_one, s2] at h3
      refine ⟨v, w, ?_, h2, h3⟩
      rw [hg1, hg2]
      simp only [List.append_assoc, List.cons_append, List.nil_append, List.append_nil] at h1 ⊢
      exact h1
    · obtain ⟨v, w, h1, h2, h3⟩ := C77_plus_minus f hf [] _ _ _ [] _ _ _ _ nil nil n1 hpm n2 r1 r2 hn
      rw [s1] at h2
      rw [s2] at h3
      refine ⟨v, w, ?_, h2, h3⟩
      simp only [List.append_assoc, List.cons_append, List.nil_append, List.append_nil] at h1 ⊢
      exact h1

/-- The shorthand notation: the string. -/
theorem FlOps.formatShorthand_text {f : FlOps} {p : FmtParts} (hv : p.Valid) (hfill : p.fill = [] ∨ p.fill = [' '])
    {q u : ℚ} (hu : u ≠ 0) {t : Char} (ht : t = 'f' ∨ t = 'F') {e : Option ℤ} {prec : ℕ} {options out : Str}
    (hpe : '%' ∉ options) (h : f.formatShorthand (.fin q) (.fin u) e p prec t options = .ok out) :
    ∃ U, f.shorthandUncert u prec = .ok U ∧ ∃ i j z, out = List.replicate i ' ' ++
      (fixedStr q p.sign.head? z (p.comma ≠ []) prec t ++ '(' :: (U ++ ')' :: expStr e t options)) ++ List.replicate j ' ' := by
  have hse : specialError (.fin u) = false := by simp [specialError, FNum.truthy, FNum.isInfinite, hu]
  have hN : fmtSuffixN (.fin u) p prec t = fixedSuffix prec t := by simp [fmtSuffixN, hse]
  have hlN : ∀ s, latexNom options (.fin q) s = s := by intro s; simp [latexNom]
  have hs := sign_head hv
  have f1 := fun z => pyFormat_fixed q _ hs z (decide (p.comma ≠ [])) prec ht
  have hps : percentStr options = [] := by simp [percentStr, hpe]
  unfold FlOps.formatShorthand at h
  obtain ⟨U, hU, h⟩ := bind_ok h
  have hU' : f.shorthandUncert u prec = .ok U := by
    unfold FlOps.uncertStr at hU
    simp only [if_neg hu] at hU
    exact hU
  refine ⟨U, hU', ?_⟩
  simp only [hN, hlN, hps, List.append_nil] at h
  have ha : '(' :: U ++ ')' :: expStr e t options = '(' :: (U ++ ')' :: expStr e t options) := by simp
  rw [ha] at h
  have hff : pyFormat (.fin q) ((if p.zero ≠ [] ∧ p.width ≠ [] then p.sign ++ p.zero ++ natStr (digitsVal p.width -
      ('(' :: (U ++ ')' :: expStr e t options)).length) ++ p.comma
      else p.sign ++ p.comma) ++ fixedSuffix prec t) =
      .ok (fixedStr q p.sign.head? (zeroWidth p ('(' :: (U ++ ')' :: expStr e t options)).length) (p.comma ≠ []) prec t) := by
    unfold zeroWidth
    by_cases hz : p.zero ≠ [] ∧ p.width ≠ []
    · rw [if_pos hz, if_pos hz.symm, prefix_zero hv hz.1, f1]
    · rw [if_neg hz, if_neg (fun h => hz h.symm), prefix_plain hv, f1]
  rw [hff] at h
  obtain ⟨N, hN', h⟩ := bind_ok h
  injection hN' with hN'
  rw [← hN'] at h
  by_cases hw : p.width ≠ []
  · rw [if_pos hw] at h
    obtain ⟨i, j, hij⟩ := pad_spaces hv hfill (fun hz => by
      have := zeroWidth_length hw hz q p.sign.head? (p.comma ≠ []) prec ht ('(' :: (U ++ ')' :: expStr e t options)).length
      rw [List.length_append]
      omega) h
    exact ⟨i, j, _, hij⟩
  · rw [if_neg hw] at h
    injection h with h
    exact ⟨0, 0, _, h.symm.trans (by rw [List.replicate_zero, List.nil_append, List.append_nil])⟩

/-- The uncertainty between the parentheses is read. -/
theorem BracketForm.short {prec k : ℕ} {U : Str} (h : BracketForm prec k U) :
    ∃ S : ShortUncert, S.text = '(' :: (U ++ [')']) ∧ S.value ((10 : ℚ) ^ (-(prec : ℤ))) = .fin ((k : ℚ) / 10 ^ prec) ∧
      (S.InUnits → (k : ℚ) ≤ (10 : ℚ) ^ (285 : ℤ)) := by
  cases h with
  | explicit hp =>
    refine ⟨.explicit ⟨natStr (k / 10 ^ prec), some (padDigits prec k), natStr_digits _, padDigits_digits _ _, by simp [natStr_ne]⟩ rfl,
      ?_, ?_, False.elim⟩
    · unfold fixedParts
      simp only []
      rw [if_neg (by omega)]
      rfl
    · have hval : digitsVal (natStr (k / 10 ^ prec) ++ (some (padDigits prec k)).getD []) = k := digitsVal_fixed prec k
      show FNum.fin (Decimal.value _) = _
      unfold Decimal.value Decimal.places
      simp only [hval]
      simp [padDigits_length]
  | units hk =>
    refine ⟨.units (natStr k) (natStr_digits _) (natStr_ne _), rfl, ?_, fun _ => hk⟩
    show FNum.fin _ = _
    rw [digitsVal_natStr, zpow_neg, zpow_natCast, div_eq_mul_inv]
  | zero hp hk =>
    subst hp
    subst hk
    refine ⟨.explicit ⟨['0'], some [], by simp [IsDigits]; rfl, by simp [IsDigits], by simp⟩ rfl, rfl, ?_, False.elim⟩
    show FNum.fin _ = _
    simp [Decimal.value, digitsVal, digitVal]

/-- The shorthand notation is read back. -/
theorem formatShorthand_parsed_fl {f : FlOps} (hf : f.Sound) {p : FmtParts} (hv : p.Valid) (hcomma : p.comma = [])
    (hfill : p.fill = [] ∨ p.fill = [' ']) {q u : ℚ} (hu : 0 < u) {t : Char} (ht : t = 'f' ∨ t = 'F') {e : Option ℤ}
    {prec : ℕ} (hprec : prec ≤ 270) {options out : Str} (hpe : '%' ∉ options) (hL : printType options ≠ .latex) {k : ℕ} {U : Str}
    (hU : f.shorthandUncert u prec = .ok U) (hB : BracketForm prec k U)
    (hq : Printable (pyRound q prec) e) (hup : Printable ((k : ℚ) / 10 ^ prec) e)
    (h : f.formatShorthand (.fin q) (.fin u) e p prec t options = .ok out) :
    ∃ v w : FNum, (ufloatFromstr out : PyRes (Fl f × Fl f)) = .ok (v, w) ∧
      ReadAs v (.fin (pyRound q prec * 10 ^ e.getD 0)) ∧ ReadAs w (.fin ((k : ℚ) / 10 ^ prec * 10 ^ e.getD 0)) := by
  obtain ⟨U', hU', i, j, z, rfl⟩ := f.formatShorthand_text hv hfill hu.ne' ht hpe h
  obtain rfl : U = U' := by rw [hU] at hU'; injection hU'
  have hx := expStr_plain e ht hL
  have hN := fixedStr_fixed q p.sign.head? z (p.comma ≠ []) prec ht
  have hNc := fixedStr_no_comma' hcomma q p.sign.head? z prec ht
  obtain ⟨a, sg, d, ht', ha, hsg, hpl, hqv⟩ := hN.decimal hNc
  rw [ht']
  have hA : IsSpaces (List.replicate i ' ' ++ a) := by
    intro c hc
    rcases List.mem_append.1 hc with hc | hc
    · exact spaces_replicate i c hc
    · rcases ha with rfl | rfl
      · cases hc
      · obtain rfl : c = ' ' := by simpa using hc
        rfl
  obtain ⟨S, hS1, hS2, hS3⟩ := hB.short
  rw [← hpl] at hS2
  have hqd : Printable d.value e := by
    have hs : ∀ r : ℚ, Ranged (signVal sg * r) → Ranged r := by
      intro r hr
      rcases hsg with rfl | rfl | rfl
      · rwa [show signVal [] = 1 from rfl, one_mul] at hr
      · rwa [show signVal ['+'] = 1 from rfl, one_mul] at hr
      · rw [show signVal ['-'] = -1 from rfl, neg_one_mul] at hr
        unfold Ranged at *
        rwa [neg_eq_zero, abs_neg] at hr
    obtain ⟨h1, h2, h3⟩ := hq
    rw [hqv] at h2 h3
    rw [mul_assoc] at h3
    exact ⟨h1, hs _ h2, hs _ h3⟩
  obtain ⟨v, w, h1, h2, h3⟩ := C77_shorthand f hf _ sg _ _ d S _ _ hA (spaces_replicate j) hsg hx.part hS2 (reach_exp hqd)
    (reach_exp (by rw [hpl]; exact hup)) (fun hun => by
      refine ⟨by omega, ⟨?_, by norm_num, by norm_num, ?_⟩⟩
      · intro m hm
        obtain rfl : (d.places : ℤ) = m := by simpa using hm
        omega
      · intro v hv
        injection hv with hv
        rw [← hv]
        have hpp : (0 : ℚ) < 10 ^ d.places := by positivity
        have e1 : (k : ℚ) / 10 ^ d.places * 10 ^ (some (d.places : ℤ)).getD 0 = k := by
          rw [Option.getD_some, zpow_natCast, div_mul_cancel₀ _ hpp.ne']
        rw [e1, zpow_zero, mul_one]
        have hk : Ranged (k : ℚ) := by
          rcases Nat.eq_zero_or_pos k with rfl | hk
          · exact .inl (by simp)
          · right
            rw [abs_of_nonneg (Nat.cast_nonneg k)]
            have h1k : (1 : ℚ) ≤ k := by exact_mod_cast hk
            refine ⟨le_trans ?_ h1k, (hS3 hun).trans (ten_le_iff.2 (by norm_num))⟩
            rw [show (1 : ℚ) = (10 : ℚ) ^ (0 : ℤ) by norm_num]
            exact ten_le_iff.2 (by norm_num)
        refine ⟨?_, hk, hk⟩
        rw [hpl]
        exact hup.mant)
  rw [hpl] at h3
  refine ⟨v, w, ?_, by rw [hqv]; exact h2, h3⟩
  rw [hS1] at h1
  simp only [List.append_assoc, List.cons_append, List.nil_append] at h1 ⊢
  exact h1

theorem ranged_of {x : ℚ} (h1 : (10 : ℚ) ^ (-289 : ℤ) ≤ |x|) (h2 : |x| ≤ (10 : ℚ) ^ (289 : ℤ)) : Ranged x :=
  .inr ⟨(ten_le_iff.2 (by norm_num)).trans h1, h2.trans (ten_le_iff.2 (by norm_num))⟩

/-- A number close to a mantissa. -/
theorem printable_of {E : Option ℤ} (hE : ∀ e ∈ E, -115 ≤ e ∧ e ≤ 115) {x m r : ℚ} (hx1 : (10 : ℚ) ^ (-101 : ℤ) ≤ |x|)
    (hx2 : |x| ≤ (10 : ℚ) ^ (104 : ℤ)) (hm : |m * (10 : ℚ) ^ E.getD 0 - x| ≤ |x| * (4 / 10 ^ 15)) (hr1 : |m| / 4 ≤ |r|)
    (hr2 : |r| ≤ 4 * |m|) : Printable r E := by
  have hEg : -115 ≤ E.getD 0 ∧ E.getD 0 ≤ 115 := by
    cases E with
    | none => simp
    | some e => exact hE e rfl
  have hp := ten_pos (E.getD 0)
  have ha := abs_nonneg x
  have h1 := abs_sub_abs_le_abs_sub (m * (10 : ℚ) ^ E.getD 0) x
  have h2 := abs_sub_abs_le_abs_sub x (m * (10 : ℚ) ^ E.getD 0)
  rw [abs_sub_comm x] at h2
  rw [abs_mul, abs_of_pos hp] at h1 h2
  have k1 : |x| / 2 ≤ |m| * (10 : ℚ) ^ E.getD 0 := by linarith
  have k2 : |m| * (10 : ℚ) ^ E.getD 0 ≤ 2 * |x| := by linarith
  have k3 : |x| / 8 ≤ |r| * (10 : ℚ) ^ E.getD 0 := by
    have := mul_le_mul_of_nonneg_right hr1 hp.le
    linarith
  have k4 : |r| * (10 : ℚ) ^ E.getD 0 ≤ 8 * |x| := by
    have := mul_le_mul_of_nonneg_right hr2 hp.le
    linarith
  have l1 : (10 : ℚ) ^ (-102 : ℤ) ≤ |r| * (10 : ℚ) ^ E.getD 0 := by
    refine le_trans ?_ k3
    have e1 : (10 : ℚ) ^ (-101 : ℤ) = (10 : ℚ) ^ (-102 : ℤ) * 10 := by
      rw [show (-101 : ℤ) = -102 + 1 by norm_num, ten_add, zpow_one]
    have := ten_pos (-102)
    rw [e1] at hx1
    generalize (10 : ℚ) ^ (-102 : ℤ) = A at *
    linarith
  have l2 : |r| * (10 : ℚ) ^ E.getD 0 ≤ (10 : ℚ) ^ (105 : ℤ) := by
    refine le_trans k4 ?_
    have e1 : (10 : ℚ) ^ (105 : ℤ) = (10 : ℚ) ^ (104 : ℤ) * 10 := by
      rw [show (105 : ℤ) = 104 + 1 by norm_num, ten_add, zpow_one]
    rw [e1]
    generalize (10 : ℚ) ^ (104 : ℤ) = A at *
    linarith
  have u1 : (10 : ℚ) ^ (-217 : ℤ) ≤ |r| := by
    have h3 : (10 : ℚ) ^ (-217 : ℤ) * (10 : ℚ) ^ E.getD 0 ≤ |r| * (10 : ℚ) ^ E.getD 0 := by
      rw [← ten_add]
      exact (ten_le_iff.2 (by omega)).trans l1
    exact le_of_mul_le_mul_right h3 hp
  have u2 : |r| ≤ (10 : ℚ) ^ (220 : ℤ) := by
    have h3 : |r| * (10 : ℚ) ^ E.getD 0 ≤ (10 : ℚ) ^ (220 : ℤ) * (10 : ℚ) ^ E.getD 0 := by
      rw [← ten_add]
      exact l2.trans (ten_le_iff.2 (by omega))
    exact le_of_mul_le_mul_right h3 hp
  refine ⟨fun n hn => ?_, ranged_of ((ten_le_iff.2 (by norm_num)).trans u1) (u2.trans (ten_le_iff.2 (by norm_num))), ranged_of ?_ ?_⟩
  · have := hE n hn
    omega
  · rw [abs_mul, abs_of_pos hp]
    exact (ten_le_iff.2 (by norm_num)).trans l1
  · rw [abs_mul, abs_of_pos hp]
    exact l2.trans (ten_le_iff.2 (by norm_num))

theorem printable_zero {E : Option ℤ} (hE : ∀ e ∈ E, -115 ≤ e ∧ e ≤ 115) : Printable 0 E :=
  ⟨fun n hn => by have := hE n hn; omega, .inl rfl, .inl (by simp)⟩

/-- A number of units close to a number. -/
theorem units_close {y : ℚ} {k : ℤ} (h : |(k : ℚ) - y| ≤ 1 / 2 + |y| * (3 / 10 ^ 14)) (hk : k ≠ 0) :
    |y| / 4 ≤ |(k : ℚ)| ∧ |(k : ℚ)| ≤ 4 * |y| := by
  have h1 : (1 : ℚ) ≤ |(k : ℚ)| := by
    have : 1 ≤ |k| := Int.one_le_abs hk
    exact_mod_cast this
  have h2 := abs_sub_abs_le_abs_sub (k : ℚ) y
  have h3 := abs_sub_abs_le_abs_sub y (k : ℚ)
  rw [abs_sub_comm y] at h3
  constructor <;> linarith

theorem Sound_format_parsed {f : FlOps} (hf : f.Sound) {x s : ℚ} (hx : InRange x) (hs : 0 < s) (hsr : InRange s) {spec out : Str}
    {p : FmtParts} (hp : parseSpec spec = some p) (hcomma : p.comma = []) (hfill : p.fill = [] ∨ p.fill = [' '])
    (hpc : p.type ≠ ['%']) (hlatex : 'L' ∈ p.options → 'P' ∈ p.options)
    (hprec : ∀ d, 'S' ∈ p.options → p.prec = some d → digitsVal d ≤ 50)
    (h : f.formatU (.fin x) (.fin s) spec = .ok out) :
    ∃ n u, FaithfulFl x s out n u false ∧ n.places = u.places ∧ n.exp = u.exp ∧
      ∃ v w : FNum, (ufloatFromstr out : PyRes (Fl f × Fl f)) = .ok (v, w) ∧ ReadAs v (.fin n.value) ∧ ReadAs w (.fin u.value) := by
  obtain ⟨p', hp', hv, l, S', E, k, -, -, hEr, hm0, hk1, -, hF, hSr, t, ht', hout, hSh, hPm⟩ := hf.format_layout hx hs hsr
    (fun p' d hp' hS hd => by
      obtain rfl : p = p' := by rw [hp] at hp'; injection hp'
      exact hprec d hS hd) h
  obtain rfl : p = p' := by rw [hp] at hp'; injection hp'
  have ht : t = 'f' ∨ t = 'F' := ht' ▸ mainType_f p
  rw [decide_eq_false hpc] at hF
  rw [if_neg hpc] at hout
  have hpe : '%' ∉ p.options := fun h => absurd (hv.options _ h) (by decide)
  have hL : printType p.options ≠ .latex := by
    unfold printType
    by_cases h1 : 'P' ∈ p.options
    · rw [if_pos h1]; decide
    · rw [if_neg h1, if_neg (fun h => h1 (hlatex h))]; decide
  refine ⟨_, _, hF, rfl, rfl, ?_⟩
  set prec := (E.getD 0 - l).toNat with hprecE
  have hpp : (0 : ℚ) < 10 ^ prec := by positivity
  have hxr : f.scaled p x = 0 ∨ (10 : ℚ) ^ (-100 : ℤ) ≤ |f.scaled p x| ∧ |f.scaled p x| ≤ (10 : ℚ) ^ (103 : ℤ) := (hf.scaled_near p hx).2.1
  have close : ∀ {y : ℚ} {j : ℤ}, (10 : ℚ) ^ (-101 : ℤ) ≤ |y| → |y| ≤ (10 : ℚ) ^ (104 : ℤ) →
      |(j : ℚ) - f.mant E y * 10 ^ prec| ≤ 1 / 2 + |f.mant E y * 10 ^ prec| * (3 / 10 ^ 14) → Printable ((j : ℚ) / 10 ^ prec) E := by
    intro y j y1 y2 hj
    by_cases hj0 : j = 0
    · rw [hj0, Int.cast_zero, zero_div]
      exact printable_zero hEr
    · obtain ⟨c1, c2⟩ := units_close hj hj0
      have mn := hf.mant_near (q := y) hEr (.inr ⟨(ten_le_iff.2 (by norm_num)).trans y1, y2.trans (ten_le_iff.2 (by norm_num))⟩)
      rw [abs_mul, abs_of_pos hpp] at c1 c2
      refine printable_of hEr y1 y2 mn ?_ ?_
      · rw [abs_div, abs_of_pos hpp, le_div_iff₀ hpp]
        linarith
      · rw [abs_div, abs_of_pos hpp, div_le_iff₀ hpp]
        linarith
  have hnom : Printable (pyRound (f.mant E (f.scaled p x)) prec) E := by
    rw [pyRound_units]
    rcases hxr with h0 | ⟨x1, x2⟩
    · have : f.mant E (f.scaled p x) = 0 := by
        rw [h0]
        cases E with
        | none => rfl
        | some e => simp only [FlOps.mant]; rw [zero_mul, hf.rnd_zero]
      rw [this, zero_mul, show rhe 0 = 0 by decide +kernel, Int.cast_zero, zero_div]
      exact printable_zero hEr
    · refine close ((ten_le_iff.2 (by norm_num)).trans x1) (x2.trans (ten_le_iff.2 (by norm_num))) ?_
      have := rhe_near (f.mant E (f.scaled p x) * 10 ^ prec)
      rw [abs_sub_comm] at this
      refine this.trans (le_add_of_nonneg_right ?_)
      positivity
  have hSp : 0 < S' := (ten_pos _).trans_le hSr.1
  have hunc : Printable ((k : ℚ) / 10 ^ prec) E := by
    have hkk : ((k : ℕ) : ℚ) = ((k : ℤ) : ℚ) := (Int.cast_natCast k).symm
    rw [hkk]
    refine close (y := S') (by rw [abs_of_pos hSp]; exact hSr.1) (by rw [abs_of_pos hSp]; exact hSr.2) ?_
    rw [abs_of_pos (mul_pos hm0 hpp), ← hkk]
    exact hk1
  unfold FlOps.formatNum at hout
  by_cases hS : 'S' ∈ p.options
  · rw [if_pos hS] at hout
    obtain ⟨h270, U, hU, hB⟩ := hSh hS
    exact formatShorthand_parsed_fl hf hv hcomma hfill hm0 ht h270 hpe hL hU hB hnom hunc hout
  · rw [if_neg hS] at hout
    have := hPm hS
    rw [← this] at hunc ⊢
    exact formatPm_parsed_fl hf hv hcomma hfill hm0 ht hpe hL hnom hunc hout

end Unc
