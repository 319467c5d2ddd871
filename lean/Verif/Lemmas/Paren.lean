import Verif.Lemmas.ParseText
import Verif.Spec.Text

/-! # Parsing of the shorthand notation -/

set_option autoImplicit false

namespace Unc

theorem Re.Hd.seq' {α β : Type} {r : Re α} {f : α → Re β} {s t : Str} {a : α} {x : β × Str}
    (h₁ : Re.Hd r s (a, t)) (h₂ : Re.Hd (f a) t x) : Re.Hd (Re.seq r f) s x := h₁.seq h₂

theorem Re.Hd.seq_alt_right {α β : Type} {r₁ r₂ : Re α} {f : α → Re β} {s : Str} {x : β × Str}
    (h₁ : Re.seq r₁ f s = []) (h₂ : Re.Hd (Re.seq r₂ f) s x) : Re.Hd (Re.seq (Re.alt r₁ r₂) f) s x := by
  unfold Re.Hd Re.seq Re.alt at *
  rw [List.flatMap_append, h₁]
  simpa using h₂

/-- The rest of the string cannot continue a decimal number. -/
def NoDecHead (s : Str) : Prop := ∀ c, s.head? = some c → isDigit c = false ∧ c ≠ '.'

theorem decimalRe_hd {ip : Str} {d : Option Str} {rest : Str} (hip : AllD ip) (hd : AllD (decDigits d))
    (hr : NoDecHead rest) :
    Re.Hd decimalRe (ip ++ decPart d ++ rest)
      ({ text := ip ++ decPart d, int := some ip, dec := d.map ('.' :: ·) }, rest) := by
  unfold decimalRe
  cases d with
  | none =>
    have h1 : Re.Hd (Re.star isDigit) (ip ++ rest) (ip, rest) := Re.Hd.star hip (fun c hc => (hr c hc).1)
    have h2 : Re.Hd (Re.opt (Re.seq (Re.lit ['.']) fun _ =>
        Re.seq (Re.star isDigit) fun d => Re.ret ('.' :: d))) rest (none, rest) := by
      refine Re.Hd.opt_none (Re.seq_nil ?_)
      intro a t hm
      have := Re.mem_lit.1 hm
      exact absurd rfl (hr '.' (by rw [this]; rfl)).2
    have h3 := h1.seq (f := fun i => Re.seq (Re.opt (Re.seq (Re.lit ['.']) fun _ =>
        Re.seq (Re.star isDigit) fun d => Re.ret ('.' :: d))) fun d =>
        Re.ret ({ text := i ++ d.getD [], int := some i, dec := d } : NumMatch)) (h2.seq (Re.Hd.ret _ _))
    simpa [decPart] using h3
  | some fp =>
    have h1 : Re.Hd (Re.star isDigit) (ip ++ (['.'] ++ (fp ++ rest))) (ip, ['.'] ++ (fp ++ rest)) :=
      Re.Hd.star hip (by intro c hc; obtain rfl : '.' = c := by simpa using hc
                         rfl)
    have h2 : Re.Hd (Re.star isDigit) (fp ++ rest) (fp, rest) := Re.Hd.star hd (fun c hc => (hr c hc).1)
    have h3 : Re.Hd (Re.opt (Re.seq (Re.lit ['.']) fun _ =>
        Re.seq (Re.star isDigit) fun d => Re.ret ('.' :: d))) (['.'] ++ (fp ++ rest)) (some ('.' :: fp), rest) :=
      Re.Hd.opt_some (m := ('.' :: fp, rest)) (Re.Hd.seq' (Re.Hd.lit ['.'] _) (Re.Hd.seq' h2 (Re.Hd.ret _ _)))
    have h4 := h1.seq (f := fun i => Re.seq (Re.opt (Re.seq (Re.lit ['.']) fun _ =>
        Re.seq (Re.star isDigit) fun d => Re.ret ('.' :: d))) fun d =>
        Re.ret ({ text := i ++ d.getD [], int := some i, dec := d } : NumMatch)) (h3.seq (Re.Hd.ret _ _))
    simpa [decPart] using h4

theorem numberRe_hd {ip : Str} {d : Option Str} {rest : Str} (hip : AllD ip) (hd : AllD (decDigits d))
    (hr : NoDecHead rest) :
    Re.Hd numberRe (ip ++ decPart d ++ rest)
      ({ text := ip ++ decPart d, int := some ip, dec := d.map ('.' :: ·) }, rest) :=
  (decimalRe_hd hip hd hr).alt_left

/-- What the regular expression finds in the parentheses. -/
def ShortUncert.found : ShortUncert → Option NumMatch
  | .implicit => none
  | .units ds _ _ => some { text := ds, int := some ds, dec := none }
  | .explicit d _ => some { text := d.text, int := some d.ip, dec := d.fp.map ('.' :: ·) }
  | .nan upper => some { text := if upper then "NAN".toList else "nan".toList, int := none, dec := none }
  | .inf upper => some { text := if upper then "INF".toList else "inf".toList, int := none, dec := none }

theorem Decimal.text_eq (d : Decimal) : d.text = d.ip ++ decPart d.fp := by
  unfold Decimal.text
  cases d.fp <;> rfl

theorem noDecHead_paren (s : Str) : NoDecHead (')' :: s) := by
  intro c hc
  obtain rfl : ')' = c := by simpa using hc
  exact ⟨rfl, by decide⟩

/-- The optional uncertainty in parentheses. -/
def uncertRe : Re (Option NumMatch) := Re.opt (Re.seq (Re.lit ['(']) fun _ =>
    Re.seq numberRe fun u => Re.seq (Re.lit [')']) fun _ => Re.ret u)

theorem nameRe_after {name rest : Str} {k : Str → Re NumMatch} : True := trivial

theorem decimal_then_paren_nil {s : Str} (h : ∀ c, s.head? = some c → isDigit c = false ∧ c ≠ '.' ∧ c ≠ ')') :
    Re.seq decimalRe (fun u => Re.seq (Re.lit [')']) fun _ => Re.ret u) s = [] := by
  refine Re.seq_nil ?_
  intro a t hm
  have hst : t = s := by
    unfold decimalRe at hm
    obtain ⟨i, t1, h1, h2⟩ := Re.mem_seq.1 hm
    obtain ⟨d, t2, h3, h4⟩ := Re.mem_seq.1 h2
    obtain ⟨-, rfl⟩ := Re.mem_ret.1 h4
    obtain ⟨rfl, hall⟩ := Re.mem_star.1 h1
    have hi : i = [] := by
      cases i with
      | nil => rfl
      | cons c i =>
        have := (h c rfl).1
        rw [hall c (by simp)] at this
        exact absurd this (by decide)
    subst hi
    rcases Re.mem_opt.1 h3 with ⟨b, -, hb⟩ | ⟨-, rfl⟩
    · obtain ⟨u, t3, h5, -⟩ := Re.mem_seq.1 hb
      have := Re.mem_lit.1 h5
      subst this
      exact absurd rfl (h '.' rfl).2.1
    · rfl
  subst hst
  refine Re.seq_nil ?_
  intro u t' hm'
  have := Re.mem_lit.1 hm'
  subst this
  exact absurd rfl (h ')' rfl).2.2

theorem name_then_paren_nil {name : String} {s : Str} (h : ¬ name.toList <+: s) {f : NumMatch → Re NumMatch} :
    Re.seq (nameRe name) f s = [] := by
  refine Re.seq_nil ?_
  intro a t hm
  exfalso
  unfold nameRe at hm
  obtain ⟨u, t1, h1, -⟩ := Re.mem_seq.1 hm
  have := Re.mem_lit.1 h1
  exact h ⟨t1, this.symm⟩

theorem name_then_paren_hd {name : String} {rest : Str} :
    Re.Hd (Re.seq (nameRe name) (fun u => Re.seq (Re.lit [')']) fun _ => Re.ret u)) (name.toList ++ (')' :: rest))
      ({ text := name.toList, int := none, dec := none }, rest) := by
  unfold nameRe
  exact Re.Hd.seq' (Re.Hd.seq' (Re.Hd.lit _ _) (Re.Hd.ret _ _)) (Re.Hd.seq' (Re.Hd.lit [')'] rest) (Re.Hd.ret _ _))

theorem uncertRe_hd (u : ShortUncert) {rest : Str} (hr : ∀ c, rest.head? = some c → c ≠ '(') :
    Re.Hd uncertRe (u.text ++ rest) (u.found, rest) := by
  unfold uncertRe
  have name_case : ∀ t : Str, ∀ m : NumMatch,
      Re.Hd (Re.seq numberRe (fun u => Re.seq (Re.lit [')']) fun _ => Re.ret u)) (t ++ (')' :: rest)) (m, rest) →
      Re.Hd (Re.opt (Re.seq (Re.lit ['(']) fun _ =>
        Re.seq numberRe fun u => Re.seq (Re.lit [')']) fun _ => Re.ret u)) ('(' :: (t ++ (')' :: rest))) (some m, rest) := by
    intro t m h
    exact Re.Hd.opt_some (m := (m, rest)) (Re.Hd.seq' (Re.Hd.lit ['('] _) h)
  cases u with
  | implicit =>
    refine Re.Hd.opt_none (Re.seq_nil ?_)
    intro a t hm
    have := Re.mem_lit.1 hm
    exact absurd rfl (hr '(' (by
      have h' : rest = '(' :: t := this
      rw [h']; rfl))
  | units ds h hne =>
    have h1 := numberRe_hd (ip := ds) (d := none) (rest := ')' :: rest) h AllD.nil (noDecHead_paren rest)
    have h2 := name_case ds _ (by
      have := h1.seq (f := fun u => Re.seq (Re.lit [')']) fun _ => Re.ret u)
        ((Re.Hd.lit [')'] rest).seq (Re.Hd.ret _ _))
      simpa [decPart] using this)
    simpa [ShortUncert.text, ShortUncert.found] using h2
  | explicit d h =>
    have h1 := numberRe_hd (ip := d.ip) (d := d.fp) (rest := ')' :: rest) d.ipDigits d.fpDigits (noDecHead_paren rest)
    have h2 := name_case d.text _ (by
      have := h1.seq (f := fun u => Re.seq (Re.lit [')']) fun _ => Re.ret u)
        ((Re.Hd.lit [')'] rest).seq (Re.Hd.ret _ _))
      rw [d.text_eq]
      exact this)
    simpa [ShortUncert.text, ShortUncert.found, d.text_eq] using h2
  | nan upper =>
    cases upper with
    | false =>
      refine name_case "nan".toList _ (Re.Hd.seq_alt_right (decimal_then_paren_nil ?_) ?_)
      · intro c hc
        obtain rfl : 'n' = c := by simpa using hc
        decide
      · have := (name_then_paren_hd (name := "nan") (rest := rest))
        unfold Re.Hd Re.seq Re.alt at *
        rw [List.flatMap_append, List.head?_append, this]
        rfl
    | true =>
      refine name_case "NAN".toList _ (Re.Hd.seq_alt_right (decimal_then_paren_nil ?_)
        (Re.Hd.seq_alt_right (name_then_paren_nil ?_) ?_))
      · intro c hc
        obtain rfl : 'N' = c := by simpa using hc
        decide
      · rintro ⟨t, ht⟩; exact absurd (List.cons.inj ht).1 (by decide)
      · have := (name_then_paren_hd (name := "NAN") (rest := rest))
        unfold Re.Hd Re.seq Re.alt at *
        rw [List.flatMap_append, List.head?_append, this]
        rfl
  | inf upper =>
    cases upper with
    | false =>
      refine name_case "inf".toList _ (Re.Hd.seq_alt_right (decimal_then_paren_nil ?_)
        (Re.Hd.seq_alt_right (name_then_paren_nil ?_) (Re.Hd.seq_alt_right (name_then_paren_nil ?_) ?_)))
      · intro c hc
        obtain rfl : 'i' = c := by simpa using hc
        decide
      · rintro ⟨t, ht⟩; exact absurd (List.cons.inj ht).1 (by decide)
      · rintro ⟨t, ht⟩; exact absurd (List.cons.inj ht).1 (by decide)
      · have := (name_then_paren_hd (name := "inf") (rest := rest))
        unfold Re.Hd Re.seq Re.alt at *
        rw [List.flatMap_append, List.head?_append, this]
        rfl
    | true =>
      refine name_case "INF".toList _ (Re.Hd.seq_alt_right (decimal_then_paren_nil ?_)
        (Re.Hd.seq_alt_right (name_then_paren_nil ?_) (Re.Hd.seq_alt_right (name_then_paren_nil ?_)
          (Re.Hd.seq_alt_right (name_then_paren_nil ?_) name_then_paren_hd))))
      · intro c hc
        obtain rfl : 'I' = c := by simpa using hc
        decide
      · rintro ⟨t, ht⟩; exact absurd (List.cons.inj ht).1 (by decide)
      · rintro ⟨t, ht⟩; exact absurd (List.cons.inj ht).1 (by decide)
      · rintro ⟨t, ht⟩; exact absurd (List.cons.inj ht).1 (by decide)

/-! ### Exponents -/

theorem IsSign.chars {sg : Str} (h : IsSign sg) : ∀ c ∈ sg, isNumChar c = true := by
  rcases h with rfl | rfl | rfl <;> simp <;> rfl

theorem signed_chars {sg ds : Str} (h : IsSign sg) (hd : IsDigits ds) :
    ∀ c ∈ sg ++ ds, c = '+' ∨ c = '-' ∨ isDigit c = true := by
  intro c hc
  rcases List.mem_append.1 hc with hc | hc
  · rcases h with rfl | rfl | rfl
    · simp at hc
    · left; simpa using hc
    · right; left; simpa using hc
  · exact .inr (.inr (hd c hc))

/-- Characters of exponents. -/
def isExpChar (c : Char) : Bool := c ∈ "+-0123456789⁺⁻⁰¹²³⁴⁵⁶⁷⁸⁹".toList

theorem expChar_cases {c : Char} (h : isExpChar c = true) :
    isSpace c = false ∧ c ≠ '\n' ∧ isDelim c = false ∧ c ≠ '_' := by
  unfold isExpChar at h
  simp only [decide_eq_true_eq] at h
  revert h
  revert c
  decide +kernel

theorem IntText.chars {t : Str} {n : ℤ} (h : IntText t n) : ∀ c ∈ t, isExpChar c = true := by
  obtain ⟨sg, ds, hsg, hds, hne, ht, -⟩ := h
  have key := signed_chars hsg hds
  rcases ht with rfl | rfl
  · intro c hc
    rcases key c hc with rfl | rfl | h
    · decide
    · decide
    · rcases isDigit_cases h with rfl | rfl | rfl | rfl | rfl | rfl | rfl | rfl | rfl | rfl <;> decide
  · intro c hc
    obtain ⟨d, hd, rfl⟩ := List.mem_map.1 hc
    rcases key d hd with rfl | rfl | h
    · decide
    · decide
    · rcases isDigit_cases h with rfl | rfl | rfl | rfl | rfl | rfl | rfl | rfl | rfl | rfl <;> decide

theorem IntText.ne_nil {t : Str} {n : ℤ} (h : IntText t n) : t ≠ [] := by
  obtain ⟨sg, ds, hsg, hds, hne, ht, -⟩ := h
  rcases ht with rfl | rfl <;> simp [hne]

theorem IntText.nrmlze {t : Str} {n : ℤ} (h : IntText t n) : nrmlzeSuperscript t = some n := by
  obtain ⟨sg, ds, hsg, hds, hne, ht, rfl⟩ := h
  have key := signed_chars hsg hds
  have hmap : t.map fromSup = sg ++ ds := by
    rcases ht with rfl | rfl
    · conv_rhs => rw [← List.map_id (sg ++ ds)]
      refine List.map_congr_left fun c hc => ?_
      rcases key c hc with rfl | rfl | h
      · rfl
      · rfl
      · rcases isDigit_cases h with rfl | rfl | rfl | rfl | rfl | rfl | rfl | rfl | rfl | rfl <;> rfl
    · rw [List.map_map]
      conv_rhs => rw [← List.map_id (sg ++ ds)]
      refine List.map_congr_left fun c hc => ?_
      rcases key c hc with rfl | rfl | h
      · rfl
      · rfl
      · rcases isDigit_cases h with rfl | rfl | rfl | rfl | rfl | rfl | rfl | rfl | rfl | rfl <;> rfl
  unfold nrmlzeSuperscript
  rw [hmap]
  have hsign : takeSign (sg ++ ds) = (decide (sg = ['-']), ds) := takeSign_of hsg (by
    intro c hc
    have := hds c (List.mem_of_mem_head? hc)
    exact ⟨digit_ne this rfl, digit_ne this rfl⟩)
  have := pyInt_digits (a := []) (b := []) (by simp) (by simp) hsign hds hne (by
    intro c hc
    rcases key c hc with rfl | rfl | h
    · rfl
    · rfl
    · exact digit_numChar h)
  simpa using this

/-- The exponent found by the regular expressions. -/
def expFound (t : Str) (e : Option Str) : Prop :=
  Re.Hd (Re.opt (Re.seq timesRe fun _ => Re.star Re.dot)) t (e, [])

theorem ExpPart.cases' {t : Str} {n : ℤ} (h : ExpPart t n) :
    (t = [] ∧ n = 0) ∨ ∃ tt it, t = tt ++ it ∧ TimesText tt ∧ IntText it n := by
  cases h with
  | none => exact .inl ⟨rfl, rfl⟩
  | e t n h => exact .inr ⟨['e'], t, rfl, .e, h⟩
  | E t n h => exact .inr ⟨['E'], t, rfl, .E, h⟩
  | times a b t n ha hb h => exact .inr ⟨a ++ '×' :: (b ++ ['1', '0']), t, by simp, .times a b ha hb, h⟩

theorem ExpPart.found {t : Str} {n : ℤ} (h : ExpPart t n) :
    (t = [] ∧ n = 0 ∧ expFound t Option.none) ∨ ∃ e, expFound t (some e) ∧ IntText e n ∧ t ≠ [] := by
  rcases h.cases' with ⟨rfl, rfl⟩ | ⟨tt, it, rfl, htt, hit⟩
  · exact .inl ⟨rfl, rfl, by unfold expFound Re.Hd; decide +kernel⟩
  · refine .inr ⟨it, ?_, hit, fun h => hit.ne_nil (List.append_eq_nil_iff.1 h).2⟩
    have h1 : Re.Hd (Re.star Re.dot) it (it, []) :=
      Re.Hd.star_all (fun c hc => dot_of_ne (expChar_cases (hit.chars c hc)).2.1)
    exact Re.Hd.opt_some (m := (it, [])) (Re.Hd.seq' (timesRe_hd htt) h1)

theorem TimesText.head {t : Str} (h : TimesText t) :
    ∃ c r, t = c :: r ∧ (c = 'e' ∨ c = 'E' ∨ c = '×' ∨ isSpace c = true) := by
  cases h with
  | e => exact ⟨_, _, rfl, .inl rfl⟩
  | E => exact ⟨_, _, rfl, .inr (.inl rfl)⟩
  | times a b ha hb =>
    cases a with
    | nil => exact ⟨_, _, rfl, .inr (.inr (.inl rfl))⟩
    | cons c a => exact ⟨c, _, rfl, .inr (.inr (.inr (ha c (by simp))))⟩

theorem ExpPart.head {t : Str} {n : ℤ} (h : ExpPart t n) :
    ∀ c, t.head? = some c → isDigit c = false ∧ c ≠ '.' ∧ c ≠ '(' := by
  intro c hc
  rcases h.cases' with ⟨rfl, -⟩ | ⟨tt, it, rfl, htt, -⟩
  · simp at hc
  · obtain ⟨d, r, rfl, hd⟩ := htt.head
    obtain rfl : d = c := by simpa using hc
    rcases hd with rfl | rfl | rfl | hd
    · decide
    · decide
    · decide
    · refine ⟨?_, ?_, ?_⟩
      · by_contra hdig
        rw [Bool.not_eq_false] at hdig
        rw [digit_not_space hdig] at hd
        exact absurd hd (by decide)
      · rintro rfl; exact absurd hd (by decide)
      · rintro rfl; exact absurd hd (by decide)

theorem ExpPart.no_pm {t : Str} {n : ℤ} (h : ExpPart t n) : '/' ∉ t ∧ '±' ∉ t ∧ '(' ∉ t ∧ ')' ∉ t := by
  have key : ∀ c, isDelim c = true → c ≠ '×' → c ∉ t := by
    intro c hc hx hm
    rcases h.cases' with ⟨rfl, -⟩ | ⟨tt, it, rfl, htt, hit⟩
    · simp at hm
    · rcases List.mem_append.1 hm with hm | hm
      · cases htt with
        | e => rw [List.mem_singleton.1 hm] at hc; exact absurd hc (by decide)
        | E => rw [List.mem_singleton.1 hm] at hc; exact absurd hc (by decide)
        | times a b ha hb =>
          have hsp := delim_not_space hc
          rcases List.mem_append.1 hm with hm | hm
          · rw [ha c hm] at hsp; exact absurd hsp (by decide)
          · rcases List.mem_cons.1 hm with rfl | hm
            · exact hx rfl
            · rcases List.mem_append.1 hm with hm | hm
              · rw [hb c hm] at hsp; exact absurd hsp (by decide)
              · simp only [List.mem_cons, List.not_mem_nil, or_false] at hm
                rcases hm with rfl | rfl <;> exact absurd hc (by decide)
      · rw [(expChar_cases (hit.chars c hm)).2.2.1] at hc
        exact absurd hc (by decide)
  exact ⟨key _ (by decide) (by decide), key _ (by decide) (by decide), key _ (by decide) (by decide),
    key _ (by decide) (by decide)⟩

/-- The last character of an exponent is not a space. -/
theorem ExpPart.last {t : Str} {n : ℤ} (h : ExpPart t n) : ∀ c, t.getLast? = some c → isSpace c = false := by
  intro c hc
  rcases h.cases' with ⟨rfl, -⟩ | ⟨tt, it, rfl, htt, hit⟩
  · simp at hc
  · rw [List.getLast?_append_of_ne_nil _ hit.ne_nil] at hc
    exact (expChar_cases (hit.chars c (List.mem_of_mem_getLast? hc))).1

/-! ### The whole regular expression -/

theorem parenRe_exp {sg : Str} (hsg : IsSign sg) (d : Decimal) (u : ShortUncert) {x : Str} {n : ℤ}
    (hx : ExpPart x n) :
    ∃ e, (e = none ∧ n = 0 ∧ x = [] ∨ ∃ t, e = some t ∧ IntText t n ∧ x ≠ []) ∧
    Re.first parenRe (sg ++ (d.text ++ (u.text ++ x))) =
      some { sign := sg.head?, main := { text := d.text, int := some d.ip, dec := d.fp.map ('.' :: ·) },
             uncert := u.found, exponent := e } := by
  obtain ⟨e, hxe, hen⟩ : ∃ e, expFound x e ∧ (e = none ∧ n = 0 ∧ x = [] ∨ ∃ t, e = some t ∧ IntText t n ∧ x ≠ []) := by
    rcases hx.found with ⟨h1, h0, h⟩ | ⟨t, h, ht⟩
    · exact ⟨none, h, .inl ⟨rfl, h0, h1⟩⟩
    · exact ⟨some t, h, .inr ⟨t, rfl, ht⟩⟩
  refine ⟨e, hen, ?_⟩
  have hu := uncertRe_hd u (rest := x) (fun c hc => (hx.head c hc).2.2)
  have hrest : NoDecHead (u.text ++ x) := by
    intro c hc
    cases u with
    | implicit => exact ⟨(hx.head c hc).1, (hx.head c hc).2.1⟩
    | units ds h hne =>
      obtain rfl : '(' = c := by simpa [ShortUncert.text] using hc
      decide
    | explicit d h =>
      obtain rfl : '(' = c := by simpa [ShortUncert.text] using hc
      decide
    | nan upper =>
      obtain rfl : '(' = c := by cases upper <;> simpa [ShortUncert.text] using hc
      decide
    | inf upper =>
      obtain rfl : '(' = c := by cases upper <;> simpa [ShortUncert.text] using hc
      decide
  have hmain := numberRe_hd (ip := d.ip) (d := d.fp) d.ipDigits d.fpDigits hrest
  rw [← d.text_eq] at hmain
  have hsign : Re.Hd (Re.opt (Re.one fun c => c = '+' || c = '-')) (sg ++ (d.text ++ (u.text ++ x)))
      (sg.head?, d.text ++ (u.text ++ x)) := by
    rcases hsg with rfl | rfl | rfl
    · refine Re.Hd.opt_none (Re.one_nil ?_)
      intro c hc
      obtain ⟨c', t, hct, hc'⟩ := head_decimal (ip := d.ip) (d := d.fp) (ex := u.text ++ x) d.ipDigits d.some_digit
      rw [← d.text_eq] at hct
      rw [List.nil_append, hct] at hc
      obtain rfl : c' = c := by simpa using hc
      rcases hc' with h | rfl
      · simp [digit_ne h (show isDigit '+' = false from rfl), digit_ne h (show isDigit '-' = false from rfl)]
      · decide
    · exact (Re.Hd.one (by rfl)).opt_some
    · exact (Re.Hd.one (by rfl)).opt_some
  have hxe' : Re.Hd (Re.opt (Re.seq timesRe fun _ => Re.star Re.dot)) x (e, []) := hxe
  have fin := hsign.seq (f := fun sign =>
    Re.seq numberRe fun main => Re.seq uncertRe fun uncert =>
    Re.seq (Re.opt (Re.seq timesRe fun _ => Re.star Re.dot)) fun exponent =>
    Re.seq Re.eos fun _ => Re.ret ({ sign, main, uncert, exponent } : ParenMatch))
    (hmain.seq (hu.seq (hxe'.seq (Re.Hd.eos.seq (Re.Hd.ret _ _)))))
  exact Re.Hd.first (r := parenRe) fin

theorem parenRe_first {sg : Str} (hsg : IsSign sg) (d : Decimal) (u : ShortUncert) {x : Str} {n : ℤ}
    (hx : ExpPart x n) :
    ∃ e, (e = none ∧ n = 0 ∨ ∃ t, e = some t ∧ IntText t n) ∧
    Re.first parenRe (sg ++ (d.text ++ (u.text ++ x))) =
      some { sign := sg.head?, main := { text := d.text, int := some d.ip, dec := d.fp.map ('.' :: ·) },
             uncert := u.found, exponent := e } := by
  obtain ⟨e, h1, h2⟩ := parenRe_exp hsg d u hx
  refine ⟨e, ?_, h2⟩
  rcases h1 with ⟨h, h', -⟩ | ⟨t, h, h', -⟩
  · exact .inl ⟨h, h'⟩
  · exact .inr ⟨t, h, h'⟩

end Unc
