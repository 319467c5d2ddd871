import Verif.Spec.FormatSpec
import Verif.Lemmas.Paren

/-!
# Reading of the format specifications
-/

set_option autoImplicit false

namespace Unc

namespace Re

theorem Hd.optC_some {p : Char → Bool} {c : Char} {s : Str} (h : p c = true) : Hd (optC p) (c :: s) ([c], s) := by
  simp [Hd, optC, Re.one, h]

theorem Hd.optC_none {p : Char → Bool} {s : Str} (h : ∀ c, s.head? = some c → p c = false) : Hd (optC p) s ([], s) := by
  simp [Hd, optC, one_nil h]

theorem Hd.lazyOptC_none {p : Char → Bool} {s : Str} : Hd (lazyOptC p) s ([], s) := by
  simp [Hd, lazyOptC]

theorem Hd.lazyOptC_seq {β : Type} {p : Char → Bool} {f : Str → Re β} {c : Char} {s : Str} {x : β × Str} (h : p c = true)
    (hn : f [] (c :: s) = []) (h2 : Hd (f [c]) s x) : Hd (Re.seq (lazyOptC p) f) (c :: s) x := by
  unfold Hd at *
  simp [Re.seq, lazyOptC, hn, Re.one, h, h2]

theorem Hd.optC_seq_elim {β : Type} {p : Char → Bool} {f : Str → Re β} {s : Str} {x : β × Str}
    (h : Hd (Re.seq (optC p) f) s x) :
    (∃ c t, s = c :: t ∧ p c = true ∧ Hd (f [c]) t x) ∨
      (Hd (f []) s x ∧ ∀ c t, s = c :: t → p c = true → f [c] t = []) := by
  unfold Hd at *
  cases s with
  | nil =>
    right
    simpa [Re.seq, optC, Re.one] using h
  | cons c t =>
    by_cases hp : p c = true
    · by_cases hf : f [c] t = []
      · right
        refine ⟨by simpa [Re.seq, optC, Re.one, hp, hf] using h, ?_⟩
        rintro c' t' ⟨⟩ -
        exact hf
      · left
        refine ⟨c, t, rfl, hp, ?_⟩
        simp only [Re.seq, optC, Re.one, hp, if_true, List.map_cons, List.map_nil, List.singleton_append,
          List.flatMap_cons, List.flatMap_nil, List.append_nil] at h
        cases hq : f [c] t with
        | nil => exact absurd hq hf
        | cons a l => rw [hq] at h; simpa using h
    · right
      refine ⟨by simpa [Re.seq, optC, Re.one, hp] using h, ?_⟩
      rintro c' t' ⟨⟩ hp'
      exact absurd hp' hp

theorem Hd.lazyOptC_seq_elim {β : Type} {p : Char → Bool} {f : Str → Re β} {s : Str} {x : β × Str}
    (h : Hd (Re.seq (lazyOptC p) f) s x) :
    Hd (f []) s x ∨ (∃ c t, s = c :: t ∧ p c = true ∧ Hd (f [c]) t x) := by
  unfold Hd at *
  by_cases hf : f [] s = []
  · right
    cases s with
    | nil => simp [Re.seq, lazyOptC, Re.one, hf] at h
    | cons c t =>
      by_cases hp : p c = true
      · exact ⟨c, t, rfl, hp, by simpa [Re.seq, lazyOptC, Re.one, hf, hp] using h⟩
      · simp [Re.seq, lazyOptC, Re.one, hf, hp] at h
  · left
    simp only [Re.seq, lazyOptC, List.flatMap_cons] at h
    cases hq : f [] s with
    | nil => exact absurd hq hf
    | cons a l => rw [hq] at h; simpa using h

end Re

/-- The regular expression after the zero. -/
def specTail (fill align sign zero : Str) : Re FmtParts :=
  Re.seq (Re.star isDigit) fun width =>
  Re.seq (Re.optC fun c => c = ',') fun comma =>
  Re.seq (Re.opt (Re.seq (Re.lit ['.']) fun _ =>
    Re.seq (Re.one isDigit) fun d => Re.seq (Re.star isDigit) fun ds => Re.ret (d :: ds))) fun prec =>
  Re.seq (Re.optC fun c => c = 'u') fun uncertPrec =>
  Re.seq (Re.lazyOptC fun c => c ∈ "eEfFgG%".toList) fun type =>
  Re.seq (Re.star fun c => c ∈ "PSLp".toList) fun options =>
  Re.seq Re.eos fun _ =>
  Re.ret { fill, align, sign, zero, width, comma, prec, uncertPrec, type, options }

/-- The regular expression after the fill character. -/
def specBody (fill : Str) : Re FmtParts :=
  Re.seq (Re.optC fun c => c ∈ "<>=^".toList) fun align =>
  Re.seq (Re.optC fun c => c ∈ "-+ ".toList) fun sign =>
  Re.seq (Re.optC fun c => c = '0') fun zero => specTail fill align sign zero

theorem specRe_eq : specRe = Re.seq (Re.lazyOptC fun c => c ≠ '{' && c ≠ '}') specBody := rfl

theorem mem_prec {s t : Str} {d : Option Str} :
    (d, t) ∈ Re.opt (Re.seq (Re.lit ['.']) fun _ =>
      Re.seq (Re.one isDigit) fun d => Re.seq (Re.star isDigit) fun ds => Re.ret (d :: ds)) s ↔
    s = precText d ++ t ∧ ∀ e, d = some e → e ≠ [] ∧ ∀ c ∈ e, isDigit c = true := by
  rw [Re.mem_opt]
  constructor
  · rintro (⟨b, rfl, hm⟩ | ⟨rfl, rfl⟩)
    · obtain ⟨⟨⟩, s1, h1, hm⟩ := Re.mem_seq.1 hm
      obtain ⟨c, s2, h2, hm⟩ := Re.mem_seq.1 hm
      obtain ⟨ds, s3, h3, hm⟩ := Re.mem_seq.1 hm
      obtain ⟨rfl, rfl⟩ := Re.mem_ret.1 hm
      obtain ⟨rfl, hc⟩ := Re.mem_one.1 h2
      obtain ⟨rfl, hd⟩ := Re.mem_star.1 h3
      rw [Re.mem_lit.1 h1]
      refine ⟨by simp [precText], ?_⟩
      rintro e ⟨⟩
      refine ⟨by simp, ?_⟩
      intro c' hc'
      rcases List.mem_cons.1 hc' with rfl | hc'
      · exact hc
      · exact hd c' hc'
    · simp [precText]
  · rintro ⟨rfl, h⟩
    cases d with
    | none => right; simp [precText]
    | some e =>
      left
      obtain ⟨hne, hd⟩ := h e rfl
      cases e with
      | nil => exact absurd rfl hne
      | cons c ds =>
        refine ⟨_, rfl, Re.mem_seq.2 ⟨(), c :: (ds ++ t), Re.mem_lit.2 (by simp [precText]), Re.mem_seq.2 ⟨c, ds ++ t,
          Re.mem_one.2 ⟨rfl, hd c (by simp)⟩, Re.mem_seq.2 ⟨ds, t, Re.mem_star.2 ⟨rfl, ?_⟩, Re.mem_ret.2 ⟨rfl, rfl⟩⟩⟩⟩⟩
        exact fun c' hc' => hd c' (by simp [hc'])

/-- What the tail of the regular expression matches. -/
theorem mem_specTail {fill align sign zero s t : Str} {p : FmtParts} :
    (p, t) ∈ specTail fill align sign zero s ↔
      p.fill = fill ∧ p.align = align ∧ p.sign = sign ∧ p.zero = zero ∧
      s = p.width ++ (p.comma ++ (precText p.prec ++ (p.uncertPrec ++
        (p.type ++ (p.options ++ t))))) ∧
      (∀ c ∈ p.width, isDigit c = true) ∧ (p.comma = [] ∨ p.comma = [',']) ∧
      (∀ d, p.prec = some d → d ≠ [] ∧ ∀ c ∈ d, isDigit c = true) ∧ (p.uncertPrec = [] ∨ p.uncertPrec = ['u']) ∧
      (p.type = [] ∨ ∃ c ∈ ['e', 'E', 'f', 'F', 'g', 'G', '%'], p.type = [c]) ∧
      (∀ c ∈ p.options, c ∈ ['P', 'S', 'L', 'p']) ∧ (t = [] ∨ t = ['\n']) := by
  constructor
  · intro h
    obtain ⟨width, s1, h1, h⟩ := Re.mem_seq.1 h
    obtain ⟨comma, s2, h2, h⟩ := Re.mem_seq.1 h
    obtain ⟨prec, s3, h3, h⟩ := Re.mem_seq.1 h
    obtain ⟨u, s4, h4, h⟩ := Re.mem_seq.1 h
    obtain ⟨type, s5, h5, h⟩ := Re.mem_seq.1 h
    obtain ⟨opts, s6, h6, h⟩ := Re.mem_seq.1 h
    obtain ⟨⟨⟩, s7, h7, h⟩ := Re.mem_seq.1 h
    obtain ⟨rfl, rfl⟩ := Re.mem_ret.1 h
    obtain ⟨rfl, k1⟩ := Re.mem_star.1 h1
    obtain ⟨rfl, k3⟩ := mem_prec.1 h3
    obtain ⟨rfl, k6⟩ := Re.mem_star.1 h6
    obtain ⟨rfl, k7⟩ := Re.mem_eos.1 h7
    refine ⟨rfl, rfl, rfl, rfl, ?_, k1, ?_, k3, ?_, ?_, ?_, k7⟩
    · rcases Re.mem_optC.1 h2 with ⟨c, rfl, hc, rfl⟩ | ⟨rfl, rfl⟩ <;>
      rcases Re.mem_optC.1 h4 with ⟨c, rfl, hc, rfl⟩ | ⟨rfl, rfl⟩ <;>
      rcases Re.mem_lazyOptC.1 h5 with ⟨c, rfl, hc, rfl⟩ | ⟨rfl, rfl⟩ <;> simp
    · rcases Re.mem_optC.1 h2 with ⟨c, rfl, hc, rfl⟩ | ⟨rfl, rfl⟩
      · right; simpa using hc
      · left; rfl
    · rcases Re.mem_optC.1 h4 with ⟨c, rfl, hc, rfl⟩ | ⟨rfl, rfl⟩
      · right; simpa using hc
      · left; rfl
    · rcases Re.mem_lazyOptC.1 h5 with ⟨c, rfl, hc, rfl⟩ | ⟨rfl, rfl⟩
      · right; exact ⟨c, by simpa using hc, rfl⟩
      · left; rfl
    · intro c hc
      simpa using k6 c hc
  · rintro ⟨rfl, rfl, rfl, rfl, rfl, h1, h2, h3, h4, h5, h6, h7⟩
    refine Re.mem_seq.2 ⟨p.width, p.comma ++ (precText p.prec ++ (p.uncertPrec ++
        (p.type ++ (p.options ++ t)))), Re.mem_star.2 ⟨rfl, h1⟩, ?_⟩
    refine Re.mem_seq.2 ⟨p.comma, precText p.prec ++ (p.uncertPrec ++
        (p.type ++ (p.options ++ t))), Re.mem_optC.2 ?_, ?_⟩
    rotate_left
    refine Re.mem_seq.2 ⟨p.prec, p.uncertPrec ++ (p.type ++ (p.options ++ t)), mem_prec.2 ⟨rfl, h3⟩, ?_⟩
    refine Re.mem_seq.2 ⟨p.uncertPrec, p.type ++ (p.options ++ t), Re.mem_optC.2 ?_, ?_⟩
    rotate_left
    refine Re.mem_seq.2 ⟨p.type, p.options ++ t, Re.mem_lazyOptC.2 ?_, ?_⟩
    rotate_left
    refine Re.mem_seq.2 ⟨p.options, t, Re.mem_star.2 ⟨rfl, fun c hc => by simpa using h6 c hc⟩, ?_⟩
    exact Re.mem_seq.2 ⟨(), t, Re.mem_eos.2 ⟨rfl, h7⟩, Re.mem_ret.2 ⟨rfl, rfl⟩⟩
    · rcases h2 with h | h <;> rw [h] <;> simp
    · rcases h4 with h | h <;> rw [h] <;> simp
    · rcases h5 with h | ⟨c, hc, h⟩ <;> rw [h]
      · simp
      · left; exact ⟨c, rfl, by simpa using hc, rfl⟩

theorem specBody_sound {fill s t : Str} {p : FmtParts} (hfill : fill = [] ∨ ∃ c, fill = [c] ∧ c ≠ '{' ∧ c ≠ '}')
    (h : Re.Hd (specBody fill) s (p, t)) : p.Valid ∧ p.fill = fill ∧ fill ++ s = p.text ++ t ∧ (t = [] ∨ t = ['\n']) := by
  have key : ∀ align sign s', (align = [] ∨ ∃ c ∈ ['<', '>', '=', '^'], align = [c]) →
      (sign = [] ∨ ∃ c ∈ ['-', '+', ' '], sign = [c]) →
      Re.Hd (Re.seq (Re.optC fun c => c = '0') fun zero => specTail fill align sign zero) s' (p, t) →
      p.Valid ∧ p.fill = fill ∧ fill ++ (align ++ (sign ++ s')) = p.text ++ t ∧ (t = [] ∨ t = ['\n']) := by
    intro align sign s' ha hs h
    rcases Re.Hd.optC_seq_elim h with ⟨c, s1, rfl, hc, h⟩ | ⟨h, hno⟩
    · obtain ⟨e1, e2, e3, e4, rfl, h1, h2, h3, h4, h5, h6, h7⟩ := mem_specTail.1 h.mem
      have hc : c = '0' := by simpa using hc
      subst hc
      refine ⟨⟨by rw [e1]; exact hfill, by rw [e2]; exact ha, by rw [e3]; exact hs, .inr e4, h1, by simp [e4], h2, h3, h4, h5, h6⟩,
        e1, ?_, h7⟩
      unfold FmtParts.text
      rw [e1, e2, e3, e4]
      simp
    · obtain ⟨e1, e2, e3, e4, rfl, h1, h2, h3, h4, h5, h6, h7⟩ := mem_specTail.1 h.mem
      refine ⟨⟨by rw [e1]; exact hfill, by rw [e2]; exact ha, by rw [e3]; exact hs, .inl e4, h1, ?_, h2, h3, h4, h5, h6⟩,
        e1, ?_, h7⟩
      · intro _ hw
        cases hq : p.width with
        | nil => rw [hq] at hw; cases hw
        | cons c w =>
          rw [hq] at hw h1 hno
          obtain rfl : c = '0' := by simpa using hw
          have := hno '0' _ rfl (by decide)
          have hm := (mem_specTail (p := { p with zero := ['0'], width := w }) (fill := fill) (align := align) (sign := sign)
            (zero := ['0']) (t := t)).2
            ⟨e1, e2, e3, rfl, rfl, fun c hc => h1 c (by simp [hc]), h2, h3, h4, h5, h6, h7⟩
          exact List.not_mem_nil (this ▸ hm)
      · unfold FmtParts.text
        rw [e1, e2, e3, e4]
        simp
  unfold specBody at h
  rcases Re.Hd.optC_seq_elim h with ⟨c, s1, rfl, hc, h⟩ | ⟨h, -⟩
  · rcases Re.Hd.optC_seq_elim h with ⟨c', s2, rfl, hc', h⟩ | ⟨h, -⟩
    · exact key [c] [c'] s2 (.inr ⟨c, by simpa using hc, rfl⟩) (.inr ⟨c', by simpa using hc', rfl⟩) h
    · exact key [c] [] s1 (.inr ⟨c, by simpa using hc, rfl⟩) (.inl rfl) h
  · rcases Re.Hd.optC_seq_elim h with ⟨c', s2, rfl, hc', h⟩ | ⟨h, -⟩
    · exact key [] [c'] s2 (.inl rfl) (.inr ⟨c', by simpa using hc', rfl⟩) h
    · exact key [] [] s (.inl rfl) (.inl rfl) h

/-- An accepted specification is the text of its parts, possibly followed by a newline. -/
theorem parseSpec_sound {s : Str} {p : FmtParts} (h : parseSpec s = some p) :
    p.Valid ∧ (s = p.text ∨ s = p.text ++ ['\n']) := by
  obtain ⟨t, h⟩ := Re.first_hd h
  rw [specRe_eq] at h
  have hh : p.Valid ∧ s = p.text ++ t ∧ (t = [] ∨ t = ['\n']) := by
    rcases Re.Hd.lazyOptC_seq_elim h with h | ⟨c, s', rfl, hc, h⟩
    · obtain ⟨h1, -, h2, h3⟩ := specBody_sound (.inl rfl) h
      exact ⟨h1, h2, h3⟩
    · obtain ⟨h1, -, h2, h3⟩ := specBody_sound (.inr ⟨c, rfl, by simpa using hc⟩) h
      exact ⟨h1, h2, h3⟩
  obtain ⟨h1, rfl, rfl | rfl⟩ := hh
  · exact ⟨h1, .inl (by simp)⟩
  · exact ⟨h1, .inr rfl⟩

/-! ### Documented specifications -/

/-- The first character, if any, is in the list. -/
def HeadIn (L : List Char) (s : Str) : Prop := ∀ c, s.head? = some c → c ∈ L

theorem HeadIn.nil (L : List Char) : HeadIn L [] := by simp [HeadIn]

theorem HeadIn.append {L M : List Char} {a s : Str} (ha : ∀ c ∈ a, c ∈ L) (hs : HeadIn M s) : HeadIn (L ++ M) (a ++ s) := by
  intro c hc
  cases a with
  | nil => exact List.mem_append_right _ (hs c hc)
  | cons x t =>
    obtain rfl : x = c := by simpa using hc
    exact List.mem_append_left _ (ha x (by simp))

theorem HeadIn.not {L : List Char} {s : Str} (h : HeadIn L s) {p : Char → Bool} (hp : ∀ c ∈ L, p c = false) :
    ∀ c, s.head? = some c → p c = false := fun c hc => hp c (h c hc)

theorem optC_hd {L : List Char} {p : Char → Bool} {a s : Str} (ha : a = [] ∨ ∃ c, a = [c] ∧ p c = true) (hs : HeadIn L s)
    (hL : ∀ c ∈ L, p c = false) : Re.Hd (Re.optC p) (a ++ s) (a, s) := by
  rcases ha with rfl | ⟨c, rfl, hc⟩
  · exact Re.Hd.optC_none (hs.not hL)
  · exact Re.Hd.optC_some hc

/-- The decimal digits. -/
def digitChars : List Char := ['0', '1', '2', '3', '4', '5', '6', '7', '8', '9']

theorem mem_digitChars {c : Char} (h : isDigit c = true) : c ∈ digitChars := by
  rcases isDigit_cases h with h | h | h | h | h | h | h | h | h | h <;> rw [h] <;> decide

section
variable {p : FmtParts} (h : p.Valid)
include h

theorem head_options : HeadIn ['P', 'S', 'L', 'p'] p.options := fun c hc => h.options c (List.mem_of_mem_head? hc)

theorem head_type : HeadIn (['e', 'E', 'f', 'F', 'g', 'G', '%'] ++ ['P', 'S', 'L', 'p']) (p.type ++ p.options) := by
  refine HeadIn.append ?_ (head_options h)
  rcases h.type with h | ⟨c, hc, h⟩ <;> rw [h]
  · simp
  · simpa using hc

theorem head_uncert : HeadIn (['u'] ++ (['e', 'E', 'f', 'F', 'g', 'G', '%'] ++ ['P', 'S', 'L', 'p']))
    (p.uncertPrec ++ (p.type ++ p.options)) := by
  refine HeadIn.append ?_ (head_type h)
  rcases h.uncertPrec with h | h <;> rw [h] <;> simp

theorem head_prec : HeadIn (['.'] ++ (['u'] ++ (['e', 'E', 'f', 'F', 'g', 'G', '%'] ++ ['P', 'S', 'L', 'p'])))
    (precText p.prec ++ (p.uncertPrec ++ (p.type ++ p.options))) := by
  cases hp : p.prec with
  | none => exact fun c hc => List.mem_append_right _ (head_uncert h c hc)
  | some d =>
    intro c hc
    obtain rfl : '.' = c := by simpa [precText] using hc
    simp

theorem head_comma : HeadIn ([','] ++ (['.'] ++ (['u'] ++ (['e', 'E', 'f', 'F', 'g', 'G', '%'] ++ ['P', 'S', 'L', 'p']))))
    (p.comma ++ (precText p.prec ++ (p.uncertPrec ++ (p.type ++ p.options)))) := by
  refine HeadIn.append ?_ (head_prec h)
  rcases h.comma with h | h <;> rw [h] <;> simp

theorem head_width : HeadIn (digitChars ++ ([','] ++ (['.'] ++ (['u'] ++ (['e', 'E', 'f', 'F', 'g', 'G', '%'] ++ ['P', 'S', 'L', 'p'])))))
    (p.width ++ (p.comma ++ (precText p.prec ++ (p.uncertPrec ++ (p.type ++ p.options))))) :=
  HeadIn.append (fun c hc => mem_digitChars (h.width c hc)) (head_comma h)

theorem head_zero : HeadIn (digitChars ++ ([','] ++ (['.'] ++ (['u'] ++ (['e', 'E', 'f', 'F', 'g', 'G', '%'] ++ ['P', 'S', 'L', 'p'])))))
    (p.zero ++ (p.width ++ (p.comma ++ (precText p.prec ++ (p.uncertPrec ++ (p.type ++ p.options)))))) := by
  rcases h.zero with hz | hz <;> rw [hz]
  · exact head_width h
  · intro c hc
    obtain rfl : '0' = c := by simpa using hc
    decide

theorem head_sign : HeadIn (['-', '+', ' '] ++ (digitChars ++ ([','] ++ (['.'] ++ (['u'] ++ (['e', 'E', 'f', 'F', 'g', 'G', '%'] ++ ['P', 'S', 'L', 'p']))))))
    (p.sign ++ (p.zero ++ (p.width ++ (p.comma ++ (precText p.prec ++ (p.uncertPrec ++ (p.type ++ p.options))))))) := by
  refine HeadIn.append ?_ (head_zero h)
  rcases h.sign with h | ⟨c, hc, h⟩ <;> rw [h]
  · simp
  · simpa using hc

theorem prec_hd : Re.Hd (Re.opt (Re.seq (Re.lit ['.']) fun _ =>
    Re.seq (Re.one isDigit) fun d => Re.seq (Re.star isDigit) fun ds => Re.ret (d :: ds)))
    (precText p.prec ++ (p.uncertPrec ++ (p.type ++ p.options))) (p.prec, p.uncertPrec ++ (p.type ++ p.options)) := by
  cases hp : p.prec with
  | none =>
    refine Re.Hd.opt_none (Re.seq_nil ?_)
    intro a t hm
    have := Re.mem_lit.1 hm
    have := head_uncert h '.' (by rw [precText, List.nil_append] at this; rw [this]; rfl)
    exact absurd this (by decide)
  | some d =>
    obtain ⟨hne, hd⟩ := h.prec d hp
    cases d with
    | nil => exact absurd rfl hne
    | cons c ds =>
      refine Re.Hd.opt_some (m := (c :: ds, p.uncertPrec ++ (p.type ++ p.options))) ?_
      refine Re.Hd.seq' (a := ()) (t := c :: (ds ++ (p.uncertPrec ++ (p.type ++ p.options)))) (Re.Hd.lit ['.'] _) ?_
      refine Re.Hd.seq' (a := c) (t := ds ++ (p.uncertPrec ++ (p.type ++ p.options))) (Re.Hd.one (hd c (by simp))) ?_
      refine Re.Hd.seq' (a := ds) (t := p.uncertPrec ++ (p.type ++ p.options)) (Re.Hd.star (fun c hc => hd c (by simp [hc])) ?_) ?_
      · exact (head_uncert h).not (by decide)
      · exact Re.Hd.ret _ _

theorem specTail_hd : Re.Hd (specTail p.fill p.align p.sign p.zero)
    (p.width ++ (p.comma ++ (precText p.prec ++ (p.uncertPrec ++ (p.type ++ p.options))))) (p, []) := by
  unfold specTail
  refine Re.Hd.seq' (a := p.width) (t := _) (Re.Hd.star h.width ((head_comma h).not (by decide))) ?_
  refine Re.Hd.seq' (a := p.comma) (t := _) (optC_hd ?_ (head_prec h) (by decide)) ?_
  · rcases h.comma with h | h <;> rw [h] <;> simp
  refine Re.Hd.seq' (a := p.prec) (t := _) (prec_hd h) ?_
  refine Re.Hd.seq' (a := p.uncertPrec) (t := _) (optC_hd ?_ (head_type h) (by decide)) ?_
  · rcases h.uncertPrec with h | h <;> rw [h] <;> simp
  have hopt : Re.Hd (Re.star fun c => decide (c ∈ "PSLp".toList)) p.options (p.options, []) := by
    refine Re.Hd.star_all fun c hc => ?_
    have := h.options c hc
    simpa using this
  rcases h.type with ht | ⟨c, hc, ht⟩
  · rw [ht]
    refine Re.Hd.seq' (a := []) (t := p.options) Re.Hd.lazyOptC_none ?_
    refine Re.Hd.seq' (a := p.options) (t := []) hopt ?_
    refine Re.Hd.seq' (a := ()) (t := []) Re.Hd.eos ?_
    have : p = { p with type := [] } := by rw [← ht]
    rw [this]
    exact Re.Hd.ret _ _
  · rw [ht]
    refine Re.Hd.lazyOptC_seq (by simpa using hc) ?_ ?_
    · refine Re.seq_nil fun o s hm => ?_
      obtain ⟨hs, ho⟩ := Re.mem_star.1 hm
      refine Re.seq_nil fun u s' hm' => ?_
      obtain ⟨-, hs'⟩ := Re.mem_eos.1 hm'
      exfalso
      cases o with
      | nil =>
        rw [List.nil_append] at hs
        rcases hs' with rfl | rfl
        · cases hs
        · have hcn : c = '\n' := by injection hs
          subst hcn
          revert hc
          decide
      | cons x l =>
        obtain rfl : c = x := by injection hs
        have := ho c (by simp)
        revert hc this
        have : ∀ c ∈ ['e', 'E', 'f', 'F', 'g', 'G', '%'], ¬ decide (c ∈ "PSLp".toList) = true := by decide
        exact fun hc h => this c hc h
    · refine Re.Hd.seq' (a := p.options) (t := []) hopt ?_
      refine Re.Hd.seq' (a := ()) (t := []) Re.Hd.eos ?_
      have : p = { p with type := [c] } := by rw [← ht]
      rw [this]
      exact Re.Hd.ret _ _

theorem specBody_hd : Re.Hd (specBody p.fill)
    (p.align ++ (p.sign ++ (p.zero ++ (p.width ++ (p.comma ++ (precText p.prec ++ (p.uncertPrec ++ (p.type ++ p.options))))))))
    (p, []) := by
  unfold specBody
  refine Re.Hd.seq' (a := p.align) (t := _) (optC_hd ?_ (head_sign h) (by decide)) ?_
  · rcases h.align with h | ⟨c, hc, h⟩ <;> rw [h]
    · simp
    · exact .inr ⟨c, rfl, by simpa using hc⟩
  refine Re.Hd.seq' (a := p.sign) (t := _) (optC_hd ?_ (head_zero h) (by decide)) ?_
  · rcases h.sign with h | ⟨c, hc, h⟩ <;> rw [h]
    · simp
    · exact .inr ⟨c, rfl, by simpa using hc⟩
  have hh := specTail_hd h
  rcases h.zero with hz | hz
  · rw [hz] at hh ⊢
    refine Re.Hd.seq' (a := []) (t := _) (Re.Hd.optC_none ?_) hh
    intro c hc
    by_contra hne
    have hc0 : c = '0' := by simpa using hne
    subst hc0
    cases hw : p.width with
    | nil =>
      rw [hw] at hc
      exact absurd (head_comma h '0' hc) (by decide)
    | cons x w =>
      rw [hw] at hc
      exact h.width_zero hz (by rw [hw]; exact hc)
  · rw [hz] at hh ⊢
    exact Re.Hd.seq' (a := ['0']) (t := _) (Re.Hd.optC_some (by decide)) hh

/-- A documented specification without fill character is read as its parts. -/
theorem parseSpec_no_fill (hf : p.fill = []) : parseSpec p.text = some p := by
  have hh := specBody_hd h
  rw [hf] at hh
  refine Re.Hd.first (m := (p, [])) ?_
  rw [specRe_eq]
  unfold FmtParts.text
  rw [hf]
  exact Re.Hd.seq' (a := []) (t := _) Re.Hd.lazyOptC_none hh

/-- The characters that follow the alignment. -/
theorem align_not_mem {a : Char} (ha : a ∈ ['<', '>', '=', '^']) :
    a ∉ p.sign ++ (p.zero ++ (p.width ++ (p.comma ++ (precText p.prec ++ (p.uncertPrec ++ (p.type ++ p.options)))))) := by
  have hD : ∀ {ds : Str}, (∀ c ∈ ds, isDigit c = true) → a ∉ ds := by
    intro ds hd hm
    have := mem_digitChars (hd a hm)
    revert this
    exact (by decide : ∀ a ∈ ['<', '>', '=', '^'], a ∉ digitChars) a ha
  simp only [List.mem_append, not_or]
  refine ⟨?_, ?_, hD h.width, ?_, ?_, ?_, ?_, ?_⟩
  · rcases h.sign with h | ⟨c, hc, h⟩ <;> rw [h]
    · simp
    · intro hm
      obtain rfl : a = c := by simpa using hm
      revert ha hc
      exact fun ha hc => (by decide : ∀ a ∈ ['<', '>', '=', '^'], a ∉ ['-', '+', ' ']) a ha hc
  · rcases h.zero with h | h <;> rw [h]
    · simp
    · exact (by decide : ∀ a ∈ ['<', '>', '=', '^'], a ∉ ['0']) a ha
  · rcases h.comma with h | h <;> rw [h]
    · simp
    · exact (by decide : ∀ a ∈ ['<', '>', '=', '^'], a ∉ [',']) a ha
  · cases hp : p.prec with
    | none => simp [precText]
    | some d =>
      intro hm
      rcases List.mem_cons.1 hm with hm | hm
      · exact absurd ha (by rw [hm]; decide)
      · exact hD (h.prec d hp).2 hm
  · rcases h.uncertPrec with h | h <;> rw [h]
    · simp
    · exact (by decide : ∀ a ∈ ['<', '>', '=', '^'], a ∉ ['u']) a ha
  · rcases h.type with h | ⟨c, hc, h⟩ <;> rw [h]
    · simp
    · intro hm
      obtain rfl : a = c := by simpa using hm
      exact (by decide : ∀ a ∈ ['<', '>', '=', '^'], a ∉ ['e', 'E', 'f', 'F', 'g', 'G', '%']) a ha hc
  · intro hm
    exact (by decide : ∀ a ∈ ['<', '>', '=', '^'], a ∉ ['P', 'S', 'L', 'p']) a ha (h.options a hm)

end

/-- A documented specification with fill character and alignment is read as its parts. -/
theorem parseSpec_fill {p : FmtParts} (h : p.Valid) (ha : p.align ≠ []) : parseSpec p.text = some p := by
  rcases h.fill with hf | ⟨c, hf, hc⟩
  · exact parseSpec_no_fill h hf
  rcases h.align with ha' | ⟨a, haa, ha'⟩
  · exact absurd ha' ha
  have hh := specBody_hd h
  refine Re.Hd.first (m := (p, [])) ?_
  rw [specRe_eq]
  have ht : p.text = c :: a :: (p.sign ++ (p.zero ++ (p.width ++ (p.comma ++ (precText p.prec ++ (p.uncertPrec ++
      (p.type ++ p.options))))))) := by
    unfold FmtParts.text
    rw [hf, ha']
    rfl
  rw [ht]
  rw [hf, ha'] at hh
  refine Re.Hd.lazyOptC_seq (by simpa using hc) ?_ hh
  by_contra hne
  cases hq : specBody [] (c :: a :: (p.sign ++ (p.zero ++ (p.width ++ (p.comma ++ (precText p.prec ++ (p.uncertPrec ++
      (p.type ++ p.options)))))))) with
  | nil => exact hne hq
  | cons m l =>
    obtain ⟨p', t⟩ := m
    have hm : Re.Hd (specBody []) (c :: a :: (p.sign ++ (p.zero ++ (p.width ++ (p.comma ++ (precText p.prec ++ (p.uncertPrec ++
      (p.type ++ p.options)))))))) (p', t) := by
      unfold Re.Hd
      rw [hq]
      rfl
    obtain ⟨hv, hf', he, ht'⟩ := specBody_sound (.inl rfl) hm
    have hnot := align_not_mem hv haa
    have hat : a ∉ t := by
      rcases ht' with rfl | rfl
      · simp
      · intro hm
        obtain rfl : a = '\n' := by simpa using hm
        revert haa
        decide
    unfold FmtParts.text at he
    rw [hf', List.nil_append, List.nil_append] at he
    rcases hv.align with ha2 | ⟨b, hb, ha2⟩
    · rw [ha2, List.nil_append] at he
      have : a ∈ c :: a :: (p.sign ++ (p.zero ++ (p.width ++ (p.comma ++ (precText p.prec ++ (p.uncertPrec ++
        (p.type ++ p.options))))))) := by simp
      rw [he] at this
      rcases List.mem_append.1 this with h' | h'
      · exact hnot h'
      · exact hat h'
    · rw [ha2] at he
      have he' : a :: (p.sign ++ (p.zero ++ (p.width ++ (p.comma ++ (precText p.prec ++ (p.uncertPrec ++
        (p.type ++ p.options))))))) = (p'.sign ++ (p'.zero ++ (p'.width ++ (p'.comma ++ (precText p'.prec ++ (p'.uncertPrec ++
        (p'.type ++ p'.options))))))) ++ t := by
        simp only [List.cons_append, List.nil_append, List.cons.injEq] at he
        exact he.2
      have : a ∈ a :: (p.sign ++ (p.zero ++ (p.width ++ (p.comma ++ (precText p.prec ++ (p.uncertPrec ++
        (p.type ++ p.options))))))) := by simp
      rw [he'] at this
      rcases List.mem_append.1 this with h' | h'
      · exact hnot h'
      · exact hat h'

end Unc
