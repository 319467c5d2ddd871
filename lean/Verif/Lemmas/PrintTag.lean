import Verif.Lemmas.Print
import Verif.Lemmas.Accepted

/-
Texts that start with `<` cannot be parsed.
-/

set_option autoImplicit false

namespace Unc

/-- The text starts with `<`. -/
def StartsLt (s : Str) : Prop := s.head? = some '<'

theorem StartsLt.cons {s : Str} (h : StartsLt s) : ∃ t, s = '<' :: t := by
  cases s with
  | nil => cases h
  | cons c t =>
    cases Option.some.inj h
    exact ⟨t, rfl⟩

theorem stripBy_lt {p : Char → Bool} (hp : p '<' = false) (t : Str) : ∃ t', stripBy p ('<' :: t) = '<' :: t' := by
  unfold stripBy
  rw [List.dropWhile_cons_of_neg (by simp [hp]), List.reverse_cons, List.dropWhile_append]
  split
  · rename_i h
    refine ⟨[], ?_⟩
    rw [List.dropWhile_cons_of_neg (by simp [hp])]
    rfl
  · rw [List.reverse_append]
    exact ⟨_, rfl⟩

theorem dropUnderscores_lt {t s : Str} (h : dropUnderscores ('<' :: t) = some s) : StartsLt s := by
  unfold dropUnderscores at h
  split at h
  · split at h
    · rw [← Option.some.inj h]
      rw [List.filter_cons_of_pos (by decide)]
      rfl
    · cases h
  · rw [← Option.some.inj h]
    rfl

theorem pyFloat_lt (t : Str) : pyFloat ('<' :: t) = none := by
  unfold pyFloat
  obtain ⟨t', h⟩ := stripBy_lt (p := isNumSpace) (by decide +kernel) t
  rw [h]
  cases hd : dropUnderscores ('<' :: t') with
  | none => rfl
  | some s =>
    obtain ⟨t2, rfl⟩ := (dropUnderscores_lt hd).cons
    have h1 : takeSign ('<' :: t2) = (false, '<' :: t2) := rfl
    have h2 : lower ('<' :: t2) = '<' :: lower t2 := rfl
    have h3 : parseDecimal ('<' :: t2) = none := by
      unfold parseDecimal
      rw [List.takeWhile_cons_of_neg (by decide), List.dropWhile_cons_of_neg (by decide)]
      rfl
    simp only [Option.bind_eq_bind, Option.bind_some, h1, h2, h3]
    rw [if_neg (by simp), if_neg (by simp)]
    rfl

theorem pyFloat_lt_prefix {s a t : Str} (hs : StartsLt s) (h : s = a ++ t) : pyFloat a = none := by
  cases a with
  | nil => decide +kernel
  | cons c a =>
    obtain ⟨t', rfl⟩ := hs.cons
    cases (List.cons.inj h).1
    exact pyFloat_lt a

theorem StartsLt.prefix_nil {s a t : Str} {p : Char → Bool} (hs : StartsLt s) (h : s = a ++ t) (ha : ∀ c ∈ a, p c = true)
    (hp : p '<' = false) : a = [] := by
  cases a with
  | nil => rfl
  | cons c a =>
    obtain ⟨t', rfl⟩ := hs.cons
    cases (List.cons.inj h).1
    rw [ha _ List.mem_cons_self] at hp
    cases hp

theorem StartsLt.lit_nil {s : Str} (hs : StartsLt s) {c : Char} {l : Str} (hc : c ≠ '<') : Re.lit (c :: l) s = [] := by
  apply Re.lit_nil
  rintro ⟨t, ht⟩
  obtain ⟨t', rfl⟩ := hs.cons
  exact hc (List.cons.inj ht).1

theorem StartsLt.timesRe_nil {s : Str} (hs : StartsLt s) : timesRe s = [] := by
  rw [List.eq_nil_iff_forall_not_mem]
  rintro ⟨u, t⟩ hm
  unfold timesRe Re.alt at hm
  rcases List.mem_append.1 hm with hm | hm
  · obtain ⟨c, t1, h1, -⟩ := Re.mem_seq.1 hm
    obtain ⟨h2, h3⟩ := Re.mem_one.1 h1
    obtain ⟨t', rfl⟩ := hs.cons
    cases (List.cons.inj h2).1
    cases h3
  · obtain ⟨a, t1, h1, h2⟩ := Re.mem_seq.1 hm
    obtain ⟨h3, h4⟩ := Re.mem_star.1 h1
    have := hs.prefix_nil h3 h4 (by decide +kernel)
    subst this
    rw [List.nil_append] at h3
    subst h3
    obtain ⟨a, t2, h5, -⟩ := Re.mem_seq.1 h2
    rw [hs.lit_nil (by decide)] at h5
    cases h5

theorem StartsLt.numberRe {s t : Str} {m : NumMatch} (hs : StartsLt s) (h : (m, t) ∈ numberRe s) : t = s := by
  unfold Unc.numberRe Re.alt at h
  rcases List.mem_append.1 h with h | h
  · unfold decimalRe at h
    obtain ⟨i, t1, h1, h2⟩ := Re.mem_seq.1 h
    obtain ⟨h3, h4⟩ := Re.mem_star.1 h1
    have := hs.prefix_nil h3 h4 (by decide +kernel)
    subst this
    rw [List.nil_append] at h3
    subst h3
    obtain ⟨d, t2, h5, h6⟩ := Re.mem_seq.1 h2
    rcases Re.mem_opt.1 h5 with ⟨b, -, h7⟩ | ⟨-, rfl⟩
    · obtain ⟨a, t3, h8, -⟩ := Re.mem_seq.1 h7
      rw [hs.lit_nil (by decide)] at h8
      cases h8
    · exact (Prod.mk.inj (List.mem_singleton.1 h6)).2
  · exfalso
    have hn : ∀ name : String, ∀ c l, name.toList = c :: l → c ≠ '<' → (m, t) ∈ nameRe name s → False := by
      intro name c l hn hc hm
      unfold nameRe at hm
      obtain ⟨a, t1, h1, -⟩ := Re.mem_seq.1 hm
      rw [hn, hs.lit_nil hc] at h1
      cases h1
    simp only [List.mem_append] at h
    rcases h with h | h | h | h
    · exact hn "nan" 'n' ['a', 'n'] (by decide) (by decide) h
    · exact hn "NAN" 'N' ['A', 'N'] (by decide) (by decide) h
    · exact hn "inf" 'i' ['n', 'f'] (by decide) (by decide) h
    · exact hn "INF" 'I' ['N', 'F'] (by decide) (by decide) h

theorem StartsLt.parenRe_none {s : Str} (hs : StartsLt s) : Re.first parenRe s = none := by
  apply Re.first_none
  rw [List.eq_nil_iff_forall_not_mem]
  rintro ⟨m, t⟩ hm
  unfold parenRe at hm
  obtain ⟨sg, t1, h1, hm1⟩ := Re.mem_seq.1 hm
  rcases Re.mem_opt.1 h1 with ⟨b, -, h⟩ | ⟨-, rfl⟩
  · obtain ⟨h2, h3⟩ := Re.mem_one.1 h
    obtain ⟨t', rfl⟩ := hs.cons
    cases (List.cons.inj h2).1
    cases h3
  obtain ⟨main, t2, g2, hm2⟩ := Re.mem_seq.1 hm1
  cases hs.numberRe g2
  obtain ⟨u, t3, g3, hm3⟩ := Re.mem_seq.1 hm2
  rcases Re.mem_opt.1 g3 with ⟨b, -, h⟩ | ⟨-, rfl⟩
  · obtain ⟨a, t4, h8, -⟩ := Re.mem_seq.1 h
    rw [hs.lit_nil (by decide)] at h8
    cases h8
  obtain ⟨e, t4, g4, hm4⟩ := Re.mem_seq.1 hm3
  rcases Re.mem_opt.1 g4 with ⟨b, -, h⟩ | ⟨-, rfl⟩
  · obtain ⟨a, t4, h8, -⟩ := Re.mem_seq.1 h
    rw [hs.timesRe_nil] at h8
    cases h8
  obtain ⟨a, t5, g5, -⟩ := Re.mem_seq.1 hm4
  obtain ⟨-, h2⟩ := Re.mem_eos.1 g5
  obtain ⟨t', rfl⟩ := hs.cons
  rcases h2 with h2 | h2 <;> cases h2

section
variable {F : Type} [PyText F] {ρ : FNum → F}

theorem toFloat_lt_prefix (hρ : ∀ s, (PyText.ofStr s : Option F) = (pyFloat s).map ρ) {s a t : Str} (hs : StartsLt s)
    (h : s = a ++ t) : (toFloat a : PyRes F) = .error .valueError := by
  unfold toFloat
  rw [hρ, pyFloat_lt_prefix hs h]
  dsimp only [Option.map_none]
  cases hp : Re.first prettyRe a with
  | none => rfl
  | some p =>
    obtain ⟨m, e⟩ := p
    have h2 : ∃ t', a = m ++ t' := by
      obtain ⟨t1, ht⟩ := Re.first_hd hp
      unfold prettyRe at ht
      obtain ⟨m', t2, h1, h2⟩ := Re.mem_seq.1 ht.mem
      obtain ⟨h3, -⟩ := Re.mem_lazyStar.1 h1
      obtain ⟨_, t3, -, h2⟩ := Re.mem_seq.1 h2
      obtain ⟨_, t4, -, h2⟩ := Re.mem_seq.1 h2
      obtain ⟨_, t5, -, h2⟩ := Re.mem_seq.1 h2
      obtain ⟨_, t6, -, h2⟩ := Re.mem_seq.1 h2
      obtain ⟨_, t7, -, h2⟩ := Re.mem_seq.1 h2
      obtain ⟨h5, -⟩ := Prod.mk.inj (List.mem_singleton.1 h2)
      cases h5
      exact ⟨_, h3⟩
    obtain ⟨t', rfl⟩ := h2
    dsimp only
    rw [hρ, pyFloat_lt_prefix hs (a := m) (t := t' ++ t) (by rw [h, List.append_assoc])]
    rfl

theorem strToNumber_lt (hρ : ∀ s, (PyText.ofStr s : Option F) = (pyFloat s).map ρ) {s : Str} (hs : StartsLt s) :
    (strToNumberWithUncert s : PyRes (F × F)) = .error .valueError := by
  have hp : s.head? ≠ some '(' := by
    rw [hs]
    decide
  rw [strToNumberG_plain hp]
  unfold afterFactorG
  cases hm : Re.first pmRe s with
  | none =>
    dsimp only
    unfold parseErrorInParentheses
    rw [hs.parenRe_none]
    rfl
  | some p =>
    obtain ⟨n, u⟩ := p
    have h2 : ∃ t', s = n ++ t' := by
      obtain ⟨t1, ht⟩ := Re.first_hd hm
      unfold pmRe at ht
      obtain ⟨m', t2, h1, h2⟩ := Re.mem_seq.1 ht.mem
      obtain ⟨h3, -⟩ := Re.mem_star.1 h1
      obtain ⟨_, t3, -, h2⟩ := Re.mem_seq.1 h2
      obtain ⟨_, t4, -, h2⟩ := Re.mem_seq.1 h2
      obtain ⟨h5, -⟩ := Prod.mk.inj (List.mem_singleton.1 h2)
      cases h5
      exact ⟨_, h3⟩
    obtain ⟨t', h2⟩ := h2
    dsimp only
    rw [toFloat_lt_prefix hρ hs h2]
    rfl

theorem strip_tagText (t : String) (text : Str) : StartsLt (strip (tagText t text)) := by
  obtain ⟨t', h⟩ := stripBy_lt (p := isSpace) (by decide +kernel) (' ' :: (t.toList ++ " = ".toList ++ text ++ " >".toList))
  have : tagText t text = '<' :: (' ' :: (t.toList ++ " = ".toList ++ text ++ " >".toList)) := by
    simp [tagText]
  unfold strip
  rw [this, h]
  rfl

end

end Unc
