import Verif.Lemmas.Text
import Verif.Lemmas.Regex
import Verif.Model.Parse

/-! # Which characters are accepted, and how the regular expressions of the parser split a string -/

set_option autoImplicit false

namespace Unc

/-- Characters that are accepted neither by `int()` nor by `float()`, and that delimit the parts of a number with
uncertainty. -/
def isDelim (c : Char) : Bool := c = '/' || c = '±' || c = '(' || c = ')' || c = '×'

theorem mem_takeWhile {p : Char → Bool} {s : Str} {c : Char} (h : c ∈ s.takeWhile p) : p c = true := by
  induction s with
  | nil => simp at h
  | cons d s ih =>
    by_cases hd : p d
    · simp only [List.takeWhile_cons, hd, if_true] at h
      rcases List.mem_cons.1 h with rfl | h
      · exact hd
      · exact ih h
    · simp [hd] at h

theorem stripBy_decomp (p : Char → Bool) (s : Str) :
    ∃ a b, s = a ++ stripBy p s ++ b ∧ (∀ c ∈ a, p c = true) ∧ (∀ c ∈ b, p c = true) := by
  refine ⟨s.takeWhile p, ((s.dropWhile p).reverse.takeWhile p).reverse, ?_, ?_, ?_⟩
  · unfold stripBy
    rw [List.append_assoc, ← List.reverse_append, List.takeWhile_append_dropWhile, List.reverse_reverse,
      List.takeWhile_append_dropWhile]
  · intro c hc; exact mem_takeWhile hc
  · intro c hc
    rw [List.mem_reverse] at hc
    exact mem_takeWhile hc

theorem delim_not_space {c : Char} (h : isDelim c = true) : isSpace c = false := by
  unfold isDelim at h
  simp only [Bool.or_eq_true, decide_eq_true_eq] at h
  rcases h with (((h | h) | h) | h) | h <;> subst h <;> rfl

theorem delim_not_numChar {c : Char} (h : isDelim c = true) : isNumChar c = false := by
  unfold isDelim at h
  simp only [Bool.or_eq_true, decide_eq_true_eq] at h
  rcases h with (((h | h) | h) | h) | h <;> subst h <;> rfl

theorem numSpace_space {c : Char} (h : isNumSpace c = true) : isSpace c = true := by
  unfold isNumSpace at h
  simp only [Bool.and_eq_true] at h
  exact h.1

/-- A delimiter in a string is still there after the removal of spaces and underscores and of the sign. -/
theorem delim_kept {s t : Str} (h : dropUnderscores (stripBy isNumSpace s) = some t) {c : Char}
    (hc : isDelim c = true) (hm : c ∈ s) : c ∈ (takeSign t).2 := by
  obtain ⟨a, b, heq, ha, hb⟩ := stripBy_decomp isNumSpace s
  have hsp := delim_not_space hc
  have h1 : c ∈ stripBy isNumSpace s := by
    rw [heq] at hm
    rcases List.mem_append.1 hm with hm | hm
    · rcases List.mem_append.1 hm with hm | hm
      · have := numSpace_space (ha c hm)
        rw [hsp] at this
        exact absurd this (by decide)
      · exact hm
    · have := numSpace_space (hb c hm)
      rw [hsp] at this
      exact absurd this (by decide)
  have h2 : c ∈ t := by
    unfold dropUnderscores at h
    split_ifs at h
    · obtain rfl := Option.some.inj h
      rw [List.mem_filter]
      refine ⟨h1, ?_⟩
      unfold isDelim at hc
      simp only [Bool.or_eq_true, decide_eq_true_eq] at hc
      rcases hc with (((h | h) | h) | h) | h <;> subst h <;> rfl
    · obtain rfl := Option.some.inj h
      exact h1
  have hn := delim_not_numChar hc
  cases t with
  | nil => simp at h2
  | cons d t =>
    simp only [takeSign]
    rcases List.mem_cons.1 h2 with rfl | h2
    · have : c ≠ '-' ∧ c ≠ '+' := by
        constructor <;> (rintro rfl; exact absurd hn (by decide))
      simp [this]
    · split_ifs
      · exact h2
      · exact h2
      · exact List.mem_cons_of_mem _ h2

theorem digit_not_delim {c : Char} (h : isDigit c = true) : isDelim c = false := by
  rcases isDigit_cases h with rfl | rfl | rfl | rfl | rfl | rfl | rfl | rfl | rfl | rfl <;> rfl

/-- A string accepted by `int()` contains no delimiter. -/
theorem pyInt_no_delim {s : Str} {n : ℤ} (h : pyInt s = some n) : ∀ c ∈ s, isDelim c = false := by
  intro c hm
  by_contra hc
  rw [Bool.not_eq_false] at hc
  unfold pyInt at h
  cases hs : dropUnderscores (stripBy isNumSpace s) with
  | none => rw [hs] at h; simp at h
  | some t =>
    rw [hs] at h
    simp only [Option.bind_eq_bind, Option.bind_some] at h
    have hk := delim_kept hs hc hm
    have hd : (takeSign t).2 ≠ [] ∧ (takeSign t).2.all isDigit = true := by
      by_contra hd
      rw [if_neg hd] at h
      cases h
    have := digit_not_delim (List.all_eq_true.1 hd.2 c hk)
    rw [hc] at this
    exact absurd this (by decide)

theorem fromSup_delim {c : Char} (h : isDelim c = true) : fromSup c = c := by
  unfold isDelim at h
  simp only [Bool.or_eq_true, decide_eq_true_eq] at h
  rcases h with (((h | h) | h) | h) | h <;> subst h <;> rfl

/-- An exponent contains no delimiter. -/
theorem nrmlze_no_delim {s : Str} {n : ℤ} (h : nrmlzeSuperscript s = some n) : ∀ c ∈ s, isDelim c = false := by
  intro c hm
  by_contra hc
  rw [Bool.not_eq_false] at hc
  have := pyInt_no_delim h (fromSup c) (List.mem_map_of_mem hm)
  rw [fromSup_delim hc, hc] at this
  exact absurd this (by decide)

theorem delim_lower {c : Char} (h : isDelim c = true) : c.toLower = c := by
  unfold isDelim at h
  simp only [Bool.or_eq_true, decide_eq_true_eq] at h
  rcases h with (((h | h) | h) | h) | h <;> subst h <;> rfl

theorem lower_no_delim {s l : Str} (h : lower s = l) (hl : ∀ c ∈ l, isDelim c = false) :
    ∀ c ∈ s, isDelim c = false := by
  intro c hm
  by_contra hc
  rw [Bool.not_eq_false] at hc
  have : c.toLower ∈ l := by
    rw [← h]
    exact List.mem_map_of_mem hm
  rw [delim_lower hc] at this
  rw [hl c this] at hc
  exact absurd hc (by decide)

theorem parseExp_no_delim {s : Str} {n : ℤ} (h : parseExp s = some n) : ∀ c ∈ s, isDelim c = false := by
  cases s with
  | nil => simp
  | cons d s =>
    unfold parseExp at h
    simp only at h
    split_ifs at h with h1 h2 h3
    all_goals
      intro c hm
      rcases List.mem_cons.1 hm with rfl | hm
      · rcases h1 with rfl | rfl <;> rfl
      · cases s with
        | nil => simp at hm
        | cons x s =>
          simp only [takeSign] at h2
          split_ifs at h2 with g1 g2
          all_goals
            rcases List.mem_cons.1 hm with rfl | hm
            first
              | (subst g1; rfl)
              | (subst g2; rfl)
              | exact digit_not_delim (List.all_eq_true.1 h2.2 _ (by simp))
            exact digit_not_delim (List.all_eq_true.1 h2.2 _ (by simp [hm]))

theorem parseDecimal_no_delim {s : Str} {q : ℚ} (h : parseDecimal s = some q) : ∀ c ∈ s, isDelim c = false := by
  unfold parseDecimal at h
  simp only at h
  split_ifs at h
  cases he : parseExp (takeDec (s.dropWhile isDigit)).2 with
  | none => rw [he] at h; simp at h
  | some e =>
    have hexp := parseExp_no_delim he
    intro c hm
    rw [← List.takeWhile_append_dropWhile (p := isDigit) (l := s)] at hm
    rcases List.mem_append.1 hm with hm | hm
    · exact digit_not_delim (mem_takeWhile hm)
    · cases hr : s.dropWhile isDigit with
      | nil => rw [hr] at hm; simp at hm
      | cons d t =>
        rw [hr] at hm hexp
        simp only [takeDec] at hexp
        split_ifs at hexp with hdot
        · rcases List.mem_cons.1 hm with rfl | hm
          · subst hdot; rfl
          · rw [← List.takeWhile_append_dropWhile (p := isDigit) (l := t)] at hm
            rcases List.mem_append.1 hm with hm | hm
            · exact digit_not_delim (mem_takeWhile hm)
            · exact hexp c hm
        · exact hexp c hm

/-- A string accepted by `float()` contains no delimiter. -/
theorem pyFloat_no_delim {s : Str} {x : FNum} (h : pyFloat s = some x) : ∀ c ∈ s, isDelim c = false := by
  intro c hm
  by_contra hc
  rw [Bool.not_eq_false] at hc
  unfold pyFloat at h
  cases hs : dropUnderscores (stripBy isNumSpace s) with
  | none => rw [hs] at h; cases h
  | some t =>
    rw [hs] at h
    simp only [Option.bind_eq_bind, Option.bind_some] at h
    have hk := delim_kept hs hc hm
    have key : isDelim c = false := by
      split_ifs at h with h1 h2
      · exact lower_no_delim h1 (by decide) c hk
      · rcases h2 with h2 | h2
        · exact lower_no_delim h2 (by decide) c hk
        · exact lower_no_delim h2 (by decide) c hk
      all_goals
        cases hd : parseDecimal (takeSign t).2 with
        | none => rw [hd] at h; cases h
        | some q => exact parseDecimal_no_delim hd c hk
    rw [hc] at key
    exact absurd key (by decide)

/-! ### Regular expressions of the parser -/

theorem dot_of_ne {c : Char} (h : c ≠ '\n') : Re.dot c = true := by simp [Re.dot, h]

/-- Splitting at the plus-minus symbol. -/
theorem pmRe_first {n pm u : Str} (hpm : pm = "+/-".toList ∨ pm = ['±'])
    (hn : '\n' ∉ n) (hu : '\n' ∉ u) (hu1 : '/' ∉ u) (hu2 : '±' ∉ u) :
    Re.first pmRe (n ++ pm ++ u) = some (n, u) := by
  have h3 : Re.Hd (fun s => Re.seq (Re.star Re.dot) (fun v => Re.ret (n, v)) s) u ((n, u), []) :=
    (Re.Hd.star_all (fun c hc => dot_of_ne (by rintro rfl; exact hu hc))).seq (Re.Hd.ret _ _)
  have hd : ∀ c, c ∈ n → Re.dot c = true := fun c hc => dot_of_ne (by rintro rfl; exact hn hc)
  have main : Re.Hd pmRe (n ++ (pm ++ u)) ((n, u), []) := by
    unfold pmRe
    refine Re.Hd.star_seq hd ?_ ?_
    · -- no later symbol
      intro c d heq hc _
      refine Re.seq_nil ?_
      rintro a t hm
      exfalso
      rcases Re.mem_alt.1 hm with hm | hm
      · have hd' := Re.mem_lit.1 hm
        subst hd'
        rcases hpm with rfl | rfl
        · -- `+/-` after `+/-`
          have : ("+/-".toList ++ u) = c ++ ("+/-".toList ++ t) := heq
          have hl : '/' ∈ u := by
            cases c with
            | nil => exact absurd rfl hc
            | cons c0 c =>
              have h1 : ('/' :: '-' :: u) = c ++ ("+/-".toList ++ t) := (List.cons.inj this).2
              cases c with
              | nil => exact absurd (List.cons.inj h1).1 (by decide)
              | cons c1 c =>
                have h2 : ('-' :: u) = c ++ ("+/-".toList ++ t) := (List.cons.inj h1).2
                cases c with
                | nil => exact absurd (List.cons.inj h2).1 (by decide)
                | cons c2 c =>
                  have h3 : u = c ++ ("+/-".toList ++ t) := (List.cons.inj h2).2
                  rw [h3]
                  simp
          exact hu1 hl
        · have : ('±' :: u) = c ++ ("+/-".toList ++ t) := heq
          cases c with
          | nil => exact absurd rfl hc
          | cons c0 c =>
            have h1 : u = c ++ ("+/-".toList ++ t) := (List.cons.inj this).2
            exact hu1 (by rw [h1]; simp)
      · have hd' := Re.mem_lit.1 hm
        subst hd'
        rcases hpm with rfl | rfl
        · have : ("+/-".toList ++ u) = c ++ (['±'] ++ t) := heq
          have hmem : '±' ∈ "+/-".toList ++ u := by rw [this]; simp
          rcases List.mem_append.1 hmem with h | h
          · exact absurd h (by decide)
          · exact hu2 h
        · have : ('±' :: u) = c ++ (['±'] ++ t) := heq
          cases c with
          | nil => exact absurd rfl hc
          | cons c0 c =>
            have h1 : u = c ++ (['±'] ++ t) := (List.cons.inj this).2
            exact hu2 (by rw [h1]; simp)
    · refine Re.Hd.seq (m := ((), u)) ?_ h3
      rcases hpm with rfl | rfl
      · exact (Re.Hd.lit _ _).alt_left
      · refine Re.Hd.alt_right (Re.lit_nil ?_) (Re.Hd.lit _ _)
        rintro ⟨t, ht⟩
        exact absurd (List.cons.inj ht).1 (by decide)
  rw [List.append_assoc]
  exact main.first

/-- No plus-minus symbol. -/
theorem pmRe_none {s : Str} (h1 : '/' ∉ s) (h2 : '±' ∉ s) : Re.first pmRe s = none := by
  refine Re.first_none (Re.seq_nil ?_)
  intro a t hm
  obtain ⟨rfl, -⟩ := Re.mem_star.1 hm
  refine Re.seq_nil ?_
  rintro x t' hm
  exfalso
  rcases Re.mem_alt.1 hm with hm | hm
  · have := Re.mem_lit.1 hm
    subst this
    exact h1 (by simp)
  · have := Re.mem_lit.1 hm
    subst this
    exact h2 (by simp)

/-- Text that introduces an exponent. -/
inductive TimesText : Str → Prop
  | e : TimesText ['e']
  | E : TimesText ['E']
  | times (a b : Str) (ha : ∀ c ∈ a, isSpace c = true) (hb : ∀ c ∈ b, isSpace c = true) :
      TimesText (a ++ '×' :: (b ++ ['1', '0']))

theorem timesRe_hd {t s : Str} (h : TimesText t) : Re.Hd timesRe (t ++ s) ((), s) := by
  unfold timesRe
  cases h with
  | e => exact Re.Hd.alt_left ((Re.Hd.one (by rfl)).seq (Re.Hd.ret _ _))
  | E => exact Re.Hd.alt_left ((Re.Hd.one (by rfl)).seq (Re.Hd.ret _ _))
  | times a b ha hb =>
    refine Re.Hd.alt_right ?_ ?_
    · refine Re.seq_nil ?_
      intro c t hm
      exfalso
      obtain ⟨h1, h2⟩ := Re.mem_one.1 hm
      have hc : c ∈ a ∨ c = '×' := by
        cases a with
        | nil => right; exact (List.cons.inj h1).1.symm
        | cons x a => left; rw [(List.cons.inj h1).1]; simp
      simp only [Bool.or_eq_true, decide_eq_true_eq] at h2
      rcases hc with hc | rfl
      · have := ha c hc
        rcases h2 with rfl | rfl <;> exact absurd this (by decide)
      · rcases h2 with h2 | h2 <;> exact absurd h2 (by decide)
    · have hh : Re.Hd (Re.star isSpace) (a ++ ('×' :: (b ++ (['1', '0'] ++ s)))) (a, '×' :: (b ++ (['1', '0'] ++ s))) :=
        Re.Hd.star ha (by intro c hc; obtain rfl : '×' = c := by simpa using hc
                          rfl)
      have hh2 : Re.Hd (Re.star isSpace) (b ++ (['1', '0'] ++ s)) (b, ['1', '0'] ++ s) :=
        Re.Hd.star hb (by intro c hc; obtain rfl : '1' = c := by simpa using hc
                          rfl)
      have hfin := hh.seq (f := fun _ => Re.seq (Re.lit ['×']) fun _ =>
        Re.seq (Re.star isSpace) fun _ => Re.lit ['1', '0'])
        (Re.Hd.seq (Re.Hd.lit ['×'] _) (hh2.seq (Re.Hd.lit ['1', '0'] s)))
      simpa using hfin

end Unc
