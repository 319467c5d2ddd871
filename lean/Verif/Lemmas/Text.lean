import Mathlib.Tactic.Linarith
import Mathlib.Tactic.Ring
import Mathlib.Tactic.IntervalCases
import Mathlib.Tactic.FieldSimp
import Verif.Model.Text

/-! # Lemmas about digits, `int()`, `float()` and spaces -/

set_option autoImplicit false

namespace Unc

/-- All characters are digits. -/
def AllD (s : Str) : Prop := ∀ c ∈ s, isDigit c = true

/-- The string does not start with a digit. -/
def NoDHead (s : Str) : Prop := ∀ c, s.head? = some c → isDigit c = false

theorem AllD.nil : AllD [] := by simp [AllD]
theorem AllD.append {a b : Str} (ha : AllD a) (hb : AllD b) : AllD (a ++ b) := by
  intro c hc
  rcases List.mem_append.1 hc with h | h
  · exact ha c h
  · exact hb c h
theorem AllD.all {a : Str} (ha : AllD a) : a.all isDigit = true := List.all_eq_true.2 ha
theorem AllD.replicate (n : ℕ) : AllD (List.replicate n '0') := by
  intro c hc
  rw [List.eq_of_mem_replicate hc]
  rfl
theorem NoDHead.nil : NoDHead [] := by simp [NoDHead]
theorem NoDHead.cons {c : Char} {s : Str} (h : isDigit c = false) : NoDHead (c :: s) := by
  simp [NoDHead, h]

theorem digitChar_digit {n : ℕ} (h : n < 10) :
    isDigit (Nat.digitChar n) = true ∧ digitVal (Nat.digitChar n) = n := by
  interval_cases n <;> decide

theorem digitsVal_aux (s : Str) (a : ℕ) :
    s.foldl (fun a c => a * 10 + digitVal c) a = a * 10 ^ s.length + digitsVal s := by
  induction s generalizing a with
  | nil => simp [digitsVal]
  | cons c s ih =>
    unfold digitsVal
    simp only [List.foldl_cons, List.length_cons]
    rw [ih, ih (0 * 10 + digitVal c), pow_succ]
    ring

theorem digitsVal_append (a b : Str) : digitsVal (a ++ b) = digitsVal a * 10 ^ b.length + digitsVal b := by
  conv_lhs => unfold digitsVal
  rw [List.foldl_append, digitsVal_aux]
  rfl

theorem digitsVal_nil : digitsVal [] = 0 := rfl

theorem digitsVal_single (c : Char) : digitsVal [c] = digitVal c := by simp [digitsVal]

theorem digitsVal_cons (c : Char) (s : Str) : digitsVal (c :: s) = digitVal c * 10 ^ s.length + digitsVal s := by
  rw [show c :: s = [c] ++ s from rfl, digitsVal_append, digitsVal_single]

theorem digitsVal_zeros (n : ℕ) : digitsVal (List.replicate n '0') = 0 := by
  induction n with
  | zero => rfl
  | succ n ih => rw [List.replicate_succ, digitsVal_cons, ih]; simp [show digitVal '0' = 0 from rfl]

theorem digitsVal_zeros_append (n : ℕ) (s : Str) : digitsVal (List.replicate n '0' ++ s) = digitsVal s := by
  rw [digitsVal_append, digitsVal_zeros]
  simp

theorem natStr_lt {n : ℕ} (h : n < 10) : natStr n = [Nat.digitChar n] := Nat.toDigits_of_lt_base h

theorem natStr_ge {n : ℕ} (h : 10 ≤ n) : natStr n = natStr (n / 10) ++ [Nat.digitChar (n % 10)] := by
  have := Nat.toDigits_of_base_le (b := 10) (n := n) (by norm_num) h
  unfold natStr
  exact this

theorem natStr_spec (n : ℕ) : AllD (natStr n) ∧ digitsVal (natStr n) = n ∧ natStr n ≠ [] := by
  induction n using Nat.strongRecOn with
  | ind n ih =>
    by_cases h : n < 10
    · rw [natStr_lt h, digitsVal_single]
      refine ⟨?_, (digitChar_digit h).2, by simp⟩
      intro c hc
      rw [List.mem_singleton.1 hc]
      exact (digitChar_digit h).1
    · have h' : 10 ≤ n := by omega
      rw [natStr_ge h']
      obtain ⟨h1, h2, -⟩ := ih (n / 10) (by omega)
      have hd := digitChar_digit (n := n % 10) (by omega)
      refine ⟨h1.append ?_, ?_, by simp⟩
      · intro c hc
        rw [List.mem_singleton.1 hc]
        exact hd.1
      · rw [digitsVal_append, h2, digitsVal_single, hd.2]
        simp
        omega

theorem natStr_digits (n : ℕ) : AllD (natStr n) := (natStr_spec n).1
theorem digitsVal_natStr (n : ℕ) : digitsVal (natStr n) = n := (natStr_spec n).2.1
theorem natStr_ne (n : ℕ) : natStr n ≠ [] := (natStr_spec n).2.2

theorem padDigits_length (p n : ℕ) : (padDigits p n).length = p := by
  induction p generalizing n with
  | zero => rfl
  | succ p ih => simp [padDigits, ih]

theorem padDigits_digits (p n : ℕ) : AllD (padDigits p n) := by
  induction p generalizing n with
  | zero => exact AllD.nil
  | succ p ih =>
    refine (ih _).append ?_
    intro c hc
    rw [List.mem_singleton.1 hc]
    exact (digitChar_digit (Nat.mod_lt _ (by norm_num))).1

theorem digitsVal_padDigits (p n : ℕ) : digitsVal (padDigits p n) = n % 10 ^ p := by
  induction p generalizing n with
  | zero => simp [padDigits, digitsVal_nil, Nat.mod_one]
  | succ p ih =>
    rw [padDigits, digitsVal_append, ih, digitsVal_single, (digitChar_digit (Nat.mod_lt _ (by norm_num))).2]
    simp only [List.length_singleton, pow_one]
    rw [pow_succ, Nat.mul_comm (10 ^ p) 10, Nat.mod_mul]
    ring

theorem digitsVal_fixed (p n : ℕ) : digitsVal (natStr (n / 10 ^ p) ++ padDigits p n) = n := by
  rw [digitsVal_append, digitsVal_natStr, digitsVal_padDigits, padDigits_length]
  rw [Nat.mul_comm]
  exact Nat.div_add_mod _ _

theorem takeWhile_digits {a b : Str} (ha : AllD a) (hb : NoDHead b) :
    (a ++ b).takeWhile isDigit = a ∧ (a ++ b).dropWhile isDigit = b := by
  have hb' : b.takeWhile isDigit = [] ∧ b.dropWhile isDigit = b := by
    cases b with
    | nil => simp
    | cons c s =>
      have := hb c rfl
      simp [this]
  rw [List.takeWhile_append_of_pos ha, List.dropWhile_append_of_pos ha, hb'.1, hb'.2]
  simp

/-! ### Spaces -/

theorem dropWhile_append_all {p : Char → Bool} {a b : Str} (ha : ∀ c ∈ a, p c = true) :
    (a ++ b).dropWhile p = b.dropWhile p := List.dropWhile_append_of_pos ha

theorem dropWhile_none {p : Char → Bool} {a : Str} (h : ∀ c, a.head? = some c → p c = false) :
    a.dropWhile p = a := by
  cases a with
  | nil => rfl
  | cons c s => simp [h c rfl]

/-- Removal of what is around a string whose first and last characters are not to be removed. -/
theorem stripBy_pad {p : Char → Bool} {a s b : Str} (ha : ∀ c ∈ a, p c = true) (hb : ∀ c ∈ b, p c = true)
    (h1 : ∀ c, s.head? = some c → p c = false) (h2 : ∀ c, s.getLast? = some c → p c = false) :
    stripBy p (a ++ s ++ b) = s := by
  unfold stripBy
  rw [List.append_assoc, dropWhile_append_all ha]
  by_cases hs : s = []
  · subst hs
    have : b.dropWhile p = [] := by simpa using dropWhile_append_all (b := []) hb
    simp [this]
  · have : (s ++ b).dropWhile p = s ++ b := dropWhile_none (by
      intro c hc
      refine h1 c ?_
      rwa [List.head?_append_of_ne_nil _ hs] at hc)
    rw [this, List.reverse_append, dropWhile_append_all (by intro c hc; exact hb c (by simpa using hc)),
      dropWhile_none, List.reverse_reverse]
    intro c hc
    exact h2 c (by rwa [List.head?_reverse] at hc)

theorem stripBy_id {p : Char → Bool} {s : Str} (h : ∀ c ∈ s, p c = false) : stripBy p s = s := by
  have := stripBy_pad (p := p) (a := []) (b := []) (s := s) (by simp) (by simp)
    (fun c hc => h c (List.mem_of_mem_head? hc)) (fun c hc => h c (List.mem_of_mem_getLast? hc))
  simpa using this

theorem digit_not_space {c : Char} (h : isDigit c = true) : isSpace c = false := by
  unfold isDigit at h
  unfold isSpace
  simp only [Bool.and_eq_true, decide_eq_true_eq] at h
  simp only [Bool.or_eq_false_iff, Bool.and_eq_false_iff, decide_eq_false_iff_not, beq_eq_false_iff_ne]
  omega

theorem not_numSpace {c : Char} (h : isSpace c = false) : isNumSpace c = false := by
  simp [isNumSpace, h]

theorem dropUnderscores_none {s : Str} (h : '_' ∉ s) : dropUnderscores s = some s := by
  simp [dropUnderscores, h]

theorem digit_ne {c d : Char} (h : isDigit c = true) (hd : isDigit d = false) : c ≠ d := by
  rintro rfl
  rw [h] at hd
  exact absurd hd (by decide)

theorem takeSign_digits {s : Str} (h : AllD s) : takeSign s = (false, s) := by
  cases s with
  | nil => rfl
  | cons c s =>
    have hc := h c (by simp)
    simp [takeSign, digit_ne hc (show isDigit '-' = false from rfl), digit_ne hc (show isDigit '+' = false from rfl)]

/-- Characters of a decimal number. -/
def isNumChar (c : Char) : Bool := isDigit c || c = '+' || c = '-' || c = '.' || c = 'e' || c = 'E'

theorem numChar_not_space {c : Char} (h : isNumChar c = true) : isSpace c = false := by
  unfold isNumChar at h
  simp only [Bool.or_eq_true, decide_eq_true_eq] at h
  rcases h with ((((h | h) | h) | h) | h) | h
  · exact digit_not_space h
  all_goals subst h; rfl

theorem numChar_ne_underscore {c : Char} (h : isNumChar c = true) : c ≠ '_' := by
  rintro rfl
  exact absurd h (by decide)

theorem digit_numChar {c : Char} (h : isDigit c = true) : isNumChar c = true := by
  simp [isNumChar, h]

/-- `int()` of an optional sign and digits, possibly with spaces around. -/
theorem pyInt_digits {a b s : Str} (ha : ∀ c ∈ a, isNumSpace c = true) (hb : ∀ c ∈ b, isNumSpace c = true)
    {neg : Bool} {ds : Str} (hs : takeSign s = (neg, ds)) (hd : AllD ds) (hne : ds ≠ [])
    (hn : ∀ c ∈ s, isNumChar c = true) :
    pyInt (a ++ s ++ b) = some (if neg then -(digitsVal ds : ℤ) else (digitsVal ds : ℤ)) := by
  unfold pyInt
  rw [stripBy_pad ha hb (fun c hc => not_numSpace (numChar_not_space (hn c (List.mem_of_mem_head? hc))))
    (fun c hc => not_numSpace (numChar_not_space (hn c (List.mem_of_mem_getLast? hc)))),
    dropUnderscores_none (fun h => numChar_ne_underscore (hn _ h) rfl)]
  simp only [Option.bind_eq_bind, Option.bind_some, hs]
  rw [if_pos ⟨hne, hd.all⟩]

theorem intStr_sign (z : ℤ) : takeSign (intStr z) = (decide (z < 0), natStr z.natAbs) := by
  unfold intStr
  by_cases h : z < 0
  · simp [h, takeSign]
  · simp [h, takeSign_digits (natStr_digits _)]

theorem intStr_chars (z : ℤ) : ∀ c ∈ intStr z, isNumChar c = true := by
  intro c hc
  unfold intStr at hc
  split_ifs at hc
  · rcases List.mem_cons.1 hc with rfl | hc
    · rfl
    · exact digit_numChar (natStr_digits _ c hc)
  · exact digit_numChar (natStr_digits _ c hc)

theorem neg_natAbs (z : ℤ) : (if decide (z < 0) = true then -(z.natAbs : ℤ) else (z.natAbs : ℤ)) = z := by
  by_cases h : z < 0
  · simp only [h, decide_true, if_true]; omega
  · simp only [h, decide_false]; simp; omega

/-- `int('%d' % z)` -/
theorem pyInt_intStr (z : ℤ) : pyInt (intStr z) = some z := by
  have := pyInt_digits (a := []) (b := []) (by simp) (by simp) (intStr_sign z) (natStr_digits _) (natStr_ne _)
    (intStr_chars z)
  rw [digitsVal_natStr, neg_natAbs] at this
  simpa using this

theorem expDigits_sign (z : ℤ) : ∃ ds, takeSign (expDigits z) = (decide (z < 0), ds) ∧ AllD ds ∧ ds ≠ [] ∧
    digitsVal ds = z.natAbs := by
  unfold expDigits
  refine ⟨if z.natAbs < 10 then '0' :: natStr z.natAbs else natStr z.natAbs, ?_, ?_, ?_, ?_⟩
  · by_cases h : z < 0 <;> simp [h, takeSign]
  · split_ifs
    · exact AllD.append (a := ['0']) (AllD.replicate 1) (natStr_digits _)
    · exact natStr_digits _
  · split_ifs
    · simp
    · exact natStr_ne _
  · split_ifs
    · rw [digitsVal_cons, digitsVal_natStr]; simp [show digitVal '0' = 0 from rfl]
    · exact digitsVal_natStr _

theorem expDigits_chars (z : ℤ) : ∀ c ∈ expDigits z, isNumChar c = true := by
  intro c hc
  unfold expDigits at hc
  rcases List.mem_cons.1 hc with rfl | hc
  · split_ifs <;> rfl
  · split_ifs at hc
    · rcases List.mem_cons.1 hc with rfl | hc
      · rfl
      · exact digit_numChar (natStr_digits _ c hc)
    · exact digit_numChar (natStr_digits _ c hc)

theorem pyInt_expDigits (z : ℤ) : pyInt (expDigits z) = some z := by
  obtain ⟨ds, h1, h2, h3, h4⟩ := expDigits_sign z
  have := pyInt_digits (a := []) (b := []) (by simp) (by simp) h1 h2 h3 (expDigits_chars z)
  rw [h4, neg_natAbs] at this
  simpa using this

end Unc

namespace Unc

/-! ### Decimal literals -/

theorem isDigit_cases {c : Char} (h : isDigit c = true) :
    c = '0' ∨ c = '1' ∨ c = '2' ∨ c = '3' ∨ c = '4' ∨ c = '5' ∨ c = '6' ∨ c = '7' ∨ c = '8' ∨ c = '9' := by
  unfold isDigit at h
  simp only [Bool.and_eq_true, decide_eq_true_eq] at h
  have hc : c = Char.ofNat c.toNat := (Char.ofNat_toNat c).symm
  obtain ⟨h1, h2⟩ := h
  generalize c.toNat = n at *
  subst hc
  interval_cases n <;> decide

theorem isDigit_lower {c : Char} (h : isDigit c = true) : c.toLower = c := by
  rcases isDigit_cases h with rfl | rfl | rfl | rfl | rfl | rfl | rfl | rfl | rfl | rfl <;> rfl

/-- The decimal part of a number: nothing, or a decimal point and digits. -/
def decPart : Option Str → Str
  | none => []
  | some fp => '.' :: fp

/-- The digits of the decimal part. -/
def decDigits (d : Option Str) : Str := d.getD []

theorem takeSign_of {sg : Str} (h : sg = [] ∨ sg = ['+'] ∨ sg = ['-']) {s : Str}
    (hs : ∀ c, s.head? = some c → c ≠ '-' ∧ c ≠ '+') : takeSign (sg ++ s) = (decide (sg = ['-']), s) := by
  rcases h with rfl | rfl | rfl
  · cases s with
    | nil => rfl
    | cons c s => simp [takeSign, hs c rfl]
  · simp [takeSign]
  · simp [takeSign]

theorem parseDecimal_eq {ip : Str} {d : Option Str} {ex : Str} {e : ℤ} (hip : AllD ip) (hd : AllD (decDigits d))
    (hne : ip ++ decDigits d ≠ []) (he : parseExp ex = some e) (hex : ∀ c, ex.head? = some c → c = 'e' ∨ c = 'E') :
    parseDecimal (ip ++ decPart d ++ ex) =
      some ((digitsVal (ip ++ decDigits d) : ℚ) * (10 : ℚ) ^ (e - (decDigits d).length)) := by
  have hexd : NoDHead ex := by
    intro c hc
    rcases hex c hc with rfl | rfl <;> rfl
  unfold parseDecimal
  cases d with
  | none =>
    have h := takeWhile_digits hip hexd
    simp only [decPart, List.append_nil, h.1, h.2]
    have hmatch : takeDec ex = ([], ex) := by
      cases ex with
      | nil => rfl
      | cons c s =>
        rcases hex c rfl with rfl | rfl <;> rfl
    rw [hmatch]
    simp only [decDigits, Option.getD_none, List.append_nil] at hne ⊢
    rw [if_neg hne, he]
    rfl
  | some fp =>
    have h := takeWhile_digits (b := '.' :: fp ++ ex) hip (NoDHead.cons (by rfl))
    have h2 := takeWhile_digits (a := fp) (b := ex) hd hexd
    simp only [decPart, List.append_assoc, List.cons_append] at h ⊢
    rw [h.1, h.2]
    simp only [takeDec, if_true, h2.1, h2.2]
    simp only [decDigits, Option.getD_some] at hne ⊢
    rw [if_neg hne, he]
    rfl

theorem parseExp_of {c : Char} {s : Str} {neg : Bool} {ds : Str} (hc : c = 'e' ∨ c = 'E')
    (hs : takeSign s = (neg, ds)) (hd : AllD ds) (hne : ds ≠ []) :
    parseExp (c :: s) = some (if neg then -(digitsVal ds : ℤ) else (digitsVal ds : ℤ)) := by
  unfold parseExp
  simp only [if_pos hc, hs]
  rw [if_pos ⟨hne, hd.all⟩]

theorem head_decimal {ip : Str} {d : Option Str} {ex : Str} (hip : AllD ip)
    (hne : ip ++ decDigits d ≠ []) : ∃ c t, ip ++ decPart d ++ ex = c :: t ∧ (isDigit c = true ∨ c = '.') := by
  cases ip with
  | cons c t => exact ⟨c, t ++ decPart d ++ ex, rfl, .inl (hip c (by simp))⟩
  | nil =>
    cases d with
    | none => simp [decDigits] at hne
    | some fp => exact ⟨'.', fp ++ ex, rfl, .inr rfl⟩

/-- `float()` of a decimal literal, possibly with spaces around. -/
theorem pyFloat_decimal {a b sg ip : Str} {d : Option Str} {ex : Str} {e : ℤ}
    (ha : ∀ c ∈ a, isNumSpace c = true) (hb : ∀ c ∈ b, isNumSpace c = true)
    (hsg : sg = [] ∨ sg = ['+'] ∨ sg = ['-'])
    (hip : AllD ip) (hd : AllD (decDigits d)) (hne : ip ++ decDigits d ≠ [])
    (he : parseExp ex = some e) (hex : ∀ c, ex.head? = some c → c = 'e' ∨ c = 'E')
    (hch : ∀ c ∈ ex, isNumChar c = true) :
    pyFloat (a ++ (sg ++ (ip ++ decPart d ++ ex)) ++ b) =
      some (.fin (if sg = ['-'] then -((digitsVal (ip ++ decDigits d) : ℚ) * (10 : ℚ) ^ (e - (decDigits d).length))
        else (digitsVal (ip ++ decDigits d) : ℚ) * (10 : ℚ) ^ (e - (decDigits d).length))) := by
  have hall : ∀ c ∈ sg ++ (ip ++ decPart d ++ ex), isNumChar c = true := by
    intro c hc
    rcases List.mem_append.1 hc with h | h
    · rcases hsg with rfl | rfl | rfl
      · simp at h
      · rw [List.mem_singleton.1 h]; rfl
      · rw [List.mem_singleton.1 h]; rfl
    · rcases List.mem_append.1 h with h | h
      · rcases List.mem_append.1 h with h | h
        · exact digit_numChar (hip c h)
        · cases d with
          | none => simp [decPart] at h
          | some fp =>
            rcases List.mem_cons.1 h with rfl | h
            · rfl
            · exact digit_numChar (hd c h)
      · exact hch c h
  obtain ⟨c, t, hct, hc⟩ := head_decimal (d := d) (ex := ex) hip hne
  have hc2 : c ≠ '-' ∧ c ≠ '+' := by
    rcases hc with hc | rfl
    · exact ⟨digit_ne hc rfl, digit_ne hc rfl⟩
    · exact ⟨by decide, by decide⟩
  have hsign := takeSign_of hsg (s := ip ++ decPart d ++ ex) (by
    intro c' h'
    rw [hct] at h'
    obtain rfl : c = c' := by simpa using h'
    exact hc2)
  have hlow : c.toLower = c := by
    rcases hc with hc | rfl
    · exact isDigit_lower hc
    · rfl
  have hcn : c ≠ 'n' ∧ c ≠ 'i' := by
    rcases hc with hc | rfl
    · exact ⟨digit_ne hc rfl, digit_ne hc rfl⟩
    · exact ⟨by decide, by decide⟩
  have hname : ∀ x (l : Str), x = 'n' ∨ x = 'i' → lower (ip ++ decPart d ++ ex) ≠ x :: l := by
    intro x l hx h
    rw [hct] at h
    have := (List.cons.inj h).1
    rw [hlow] at this
    rcases hx with rfl | rfl
    · exact hcn.1 this
    · exact hcn.2 this
  unfold pyFloat
  rw [stripBy_pad ha hb (fun c hc => not_numSpace (numChar_not_space (hall c (List.mem_of_mem_head? hc))))
    (fun c hc => not_numSpace (numChar_not_space (hall c (List.mem_of_mem_getLast? hc)))),
    dropUnderscores_none (fun h => numChar_ne_underscore (hall _ h) rfl)]
  simp only [Option.bind_eq_bind, Option.bind_some, hsign]
  have n1 : lower (ip ++ decPart d ++ ex) ≠ "nan".toList := hname 'n' _ (.inl rfl)
  have n2 : lower (ip ++ decPart d ++ ex) ≠ "inf".toList := hname 'i' _ (.inr rfl)
  have n3 : lower (ip ++ decPart d ++ ex) ≠ "infinity".toList := hname 'i' _ (.inr rfl)
  rw [if_neg n1, if_neg (not_or.2 ⟨n2, n3⟩), parseDecimal_eq hip hd hne he hex]
  simp only [Option.bind_some, decide_eq_true_eq]

end Unc
