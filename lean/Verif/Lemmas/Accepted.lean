import Verif.Lemmas.ParsePm
import Verif.Spec.Accepted
import Verif.Lemmas.Literal

/-! # Soundness of the parser -/

set_option autoImplicit false

namespace Unc

/-- The head of a sequence. -/
theorem Re.Hd.seq_elim {α β : Type} {r : Re α} {f : α → Re β} {s : Str} {x : β × Str} (h : Re.Hd (Re.seq r f) s x) :
    ∃ a t, (a, t) ∈ r s ∧ Re.Hd (f a) t x := by
  obtain ⟨l₁, m, l₂, h1, -, h3⟩ := Re.Hd.of_seq h
  exact ⟨m.1, m.2, by rw [h1]; simp, h3⟩

theorem Re.Hd.unique {α : Type} {r : Re α} {s : Str} {x y : α × Str} (h : Re.Hd r s x) (h' : Re.Hd r s y) : x = y :=
  Option.some.inj (Eq.trans (Eq.symm h) h')

theorem timesRe_mem {s t : Str} {u : Unit} (h : (u, t) ∈ timesRe s) : ∃ m, ExpMark m ∧ s = m ++ t := by
  unfold timesRe at h
  rcases Re.mem_alt.1 h with h | h
  · obtain ⟨c, t1, h1, h2⟩ := Re.mem_seq.1 h
    obtain ⟨-, rfl⟩ := Re.mem_ret.1 h2
    obtain ⟨rfl, hc⟩ := Re.mem_one.1 h1
    simp only [Bool.or_eq_true, decide_eq_true_eq] at hc
    rcases hc with rfl | rfl
    · exact ⟨['e'], .e, rfl⟩
    · exact ⟨['E'], .E, rfl⟩
  · obtain ⟨a, t1, h1, h2⟩ := Re.mem_seq.1 h
    obtain ⟨rfl, ha⟩ := Re.mem_star.1 h1
    obtain ⟨_, t2, h3, h4⟩ := Re.mem_seq.1 h2
    have := Re.mem_lit.1 h3
    subst this
    obtain ⟨b, t3, h5, h6⟩ := Re.mem_seq.1 h4
    obtain ⟨rfl, hb⟩ := Re.mem_star.1 h5
    have := Re.mem_lit.1 h6
    subst this
    exact ⟨_, .times a b ha hb, by simp⟩

theorem all_dot {s : Str} (h : '\n' ∉ s) : ∀ c ∈ s, Re.dot c = true :=
  fun c hc => dot_of_ne (by rintro rfl; exact h hc)

theorem pmRe_some {s n u : Str} (hs : '\n' ∉ s) (h : Re.first pmRe s = some (n, u)) :
    ∃ pm, IsPm pm ∧ s = n ++ pm ++ u := by
  obtain ⟨t, ht⟩ := Re.first_hd h
  unfold pmRe at ht
  obtain ⟨n', t1, h1, h2⟩ := ht.seq_elim
  obtain ⟨rfl, -⟩ := Re.mem_star.1 h1
  obtain ⟨x, t2, h3, h4⟩ := h2.seq_elim
  obtain ⟨pm, hpm, rfl⟩ : ∃ pm, IsPm pm ∧ t1 = pm ++ t2 := by
    rcases Re.mem_alt.1 h3 with h3 | h3
    · exact ⟨_, .inl rfl, Re.mem_lit.1 h3⟩
    · exact ⟨_, .inr rfl, Re.mem_lit.1 h3⟩
  have h5 : Re.Hd (Re.seq (Re.star Re.dot) fun u => Re.ret (n', u)) t2 ((n', t2), []) :=
    Re.Hd.seq' (Re.Hd.star_all (all_dot fun hh => hs (by simp [hh]))) (Re.Hd.ret _ _)
  have := h4.unique h5
  simp only [Prod.mk.injEq] at this
  obtain ⟨⟨rfl, rfl⟩, -⟩ := this
  exact ⟨pm, hpm, by simp⟩

theorem prettyRe_some {s m e : Str} (hs : '\n' ∉ s) (h : Re.first prettyRe s = some (m, e)) :
    ∃ a b, IsSpaces a ∧ IsSpaces b ∧ s = m ++ (a ++ '×' :: (b ++ '1' :: '0' :: e)) := by
  obtain ⟨t, ht0⟩ := Re.first_hd h
  unfold prettyRe at ht0
  obtain ⟨m', t1, h1, ht1⟩ := ht0.seq_elim
  obtain ⟨rfl, -⟩ := Re.mem_lazyStar.1 h1
  obtain ⟨a, t2, h2, ht2⟩ := ht1.seq_elim
  obtain ⟨rfl, ha⟩ := Re.mem_star.1 h2
  obtain ⟨_, t3, h3, ht3⟩ := ht2.seq_elim
  have := Re.mem_lit.1 h3
  subst this
  obtain ⟨b, t4, h4, ht4⟩ := ht3.seq_elim
  obtain ⟨rfl, hb⟩ := Re.mem_star.1 h4
  obtain ⟨_, t5, h5, ht5⟩ := ht4.seq_elim
  have := Re.mem_lit.1 h5
  subst this
  have h6 : Re.Hd (Re.seq (Re.star Re.dot) fun e => Re.ret (m', e)) t5 ((m', t5), []) :=
    Re.Hd.seq' (Re.Hd.star_all (all_dot fun hh => hs (by simp [hh]))) (Re.Hd.ret _ _)
  have := ht5.unique h6
  simp only [Prod.mk.injEq] at this
  obtain ⟨⟨rfl, rfl⟩, -⟩ := this
  exact ⟨a, b, ha, hb, by simp⟩

theorem toFloat_ok {s : Str} {x : FNum} (hs : '\n' ∉ s) (h : (toFloat s : PyRes FNum) = .ok x) : IsNumber s := by
  unfold toFloat at h
  cases hf : (PyText.ofStr s : Option FNum) with
  | some y => exact .float s y ((pyFloat_iff s y).1 hf)
  | none =>
    rw [hf] at h
    cases hp : Re.first prettyRe s with
    | none => simp only [hp] at h; cases h
    | some me =>
      obtain ⟨m, e⟩ := me
      simp only [hp] at h
      obtain ⟨a, b, ha, hb, rfl⟩ := prettyRe_some hs hp
      cases hm : (PyText.ofStr m : Option FNum) with
      | none => simp only [hm, orValueError] at h; cases h
      | some y =>
        simp only [hm, orValueError] at h
        cases he : nrmlzeSuperscript e with
        | none => simp only [he] at h; cases h
        | some n => exact .times m a b e y ((pyFloat_iff m y).1 hm) ha hb ⟨n, (pyInt_iff _ n).1 he⟩

/-- What the regular expression of numbers matches. -/
theorem numberRe_mem {s t : Str} {m : NumMatch} (h : (m, t) ∈ numberRe s) :
    s = m.text ++ t ∧
      ((∃ i d, m = { text := i ++ d.getD [], int := some i, dec := d } ∧ IsDigits i ∧
          (d = none ∨ ∃ ds, d = some ('.' :: ds) ∧ IsDigits ds)) ∨
        m.text ∈ ["nan".toList, "NAN".toList, "inf".toList, "INF".toList]) := by
  have hname : ∀ name : String, (m, t) ∈ nameRe name s → s = m.text ++ t ∧ m.text = name.toList := by
    intro name h
    unfold nameRe at h
    obtain ⟨_, t1, h1, h2⟩ := Re.mem_seq.1 h
    obtain ⟨rfl, rfl⟩ := Re.mem_ret.1 h2
    exact ⟨Re.mem_lit.1 h1, rfl⟩
  unfold numberRe at h
  rcases Re.mem_alt.1 h with h | h
  · unfold decimalRe at h
    obtain ⟨i, t1, h1, h2⟩ := Re.mem_seq.1 h
    obtain ⟨rfl, hi⟩ := Re.mem_star.1 h1
    obtain ⟨d, t2, h3, h4⟩ := Re.mem_seq.1 h2
    obtain ⟨rfl, rfl⟩ := Re.mem_ret.1 h4
    rcases Re.mem_opt.1 h3 with ⟨b, rfl, hb⟩ | ⟨rfl, rfl⟩
    · obtain ⟨_, t3, h5, h6⟩ := Re.mem_seq.1 hb
      have := Re.mem_lit.1 h5
      subst this
      obtain ⟨ds, t4, h7, h8⟩ := Re.mem_seq.1 h6
      obtain ⟨rfl, hds⟩ := Re.mem_star.1 h7
      obtain ⟨rfl, rfl⟩ := Re.mem_ret.1 h8
      exact ⟨by simp, .inl ⟨i, some ('.' :: ds), rfl, hi, .inr ⟨ds, rfl, hds⟩⟩⟩
    · exact ⟨by simp, .inl ⟨i, none, rfl, hi, .inl rfl⟩⟩
  · rcases Re.mem_alt.1 h with h | h
    · obtain ⟨h1, h2⟩ := hname _ h
      exact ⟨h1, .inr (by rw [h2]; decide +kernel)⟩
    · rcases Re.mem_alt.1 h with h | h
      · obtain ⟨h1, h2⟩ := hname _ h
        exact ⟨h1, .inr (by rw [h2]; decide +kernel)⟩
      · rcases Re.mem_alt.1 h with h | h
        · obtain ⟨h1, h2⟩ := hname _ h
          exact ⟨h1, .inr (by rw [h2]; decide +kernel)⟩
        · obtain ⟨h1, h2⟩ := hname _ h
          exact ⟨h1, .inr (by rw [h2]; decide +kernel)⟩

/-- Digits are needed. -/
theorem pyFloat_no_digit {sg : Str} (hsg : IsSign sg) {t : Str} (ht : t = [] ∨ t = ['.']) : pyFloat (sg ++ t) = none := by
  rcases hsg with rfl | rfl | rfl <;> rcases ht with rfl | rfl <;> decide +kernel

theorem unsigned_of {m : NumMatch} {sg : Str} {x : FNum} (hsg : IsSign sg)
    (hm : (∃ i d, m = { text := i ++ d.getD [], int := some i, dec := d } ∧ IsDigits i ∧
          (d = none ∨ ∃ ds, d = some ('.' :: ds) ∧ IsDigits ds)) ∨
        m.text ∈ ["nan".toList, "NAN".toList, "inf".toList, "INF".toList])
    (h : pyFloat (sg ++ m.text) = some x) : IsUnsigned m.text := by
  rcases hm with ⟨i, d, rfl, hi, hd⟩ | hm
  · rcases hd with rfl | ⟨ds, rfl, hds⟩
    · by_cases hne : i = []
      · subst hne
        have h' : pyFloat (sg ++ []) = some x := h
        rw [pyFloat_no_digit hsg (.inl rfl)] at h'
        cases h'
      · have := IsUnsigned.decimal ⟨i, none, hi, by simp [IsDigits], by simpa using hne⟩
        simpa [Decimal.text] using this
    · by_cases hne : i ++ ds = []
      · obtain ⟨rfl, rfl⟩ := List.append_eq_nil_iff.1 hne
        have h' : pyFloat (sg ++ ['.']) = some x := h
        rw [pyFloat_no_digit hsg (.inr rfl)] at h'
        cases h'
      · have := IsUnsigned.decimal ⟨i, some ds, hi, hds, hne⟩
        simpa [Decimal.text] using this
  · exact .name _ hm

theorem parenRe_some {s : Str} {m : ParenMatch} (hs : '\n' ∉ s) (h : Re.first parenRe s = some m) :
    ∃ u x, s = m.sign.toList ++ (m.main.text ++ (u ++ x)) ∧ IsSign m.sign.toList ∧
      ((∃ i d, m.main = { text := i ++ d.getD [], int := some i, dec := d } ∧ IsDigits i ∧
          (d = none ∨ ∃ ds, d = some ('.' :: ds) ∧ IsDigits ds)) ∨
        m.main.text ∈ ["nan".toList, "NAN".toList, "inf".toList, "INF".toList]) ∧
      ((m.uncert = none ∧ u = []) ∨ ∃ w, m.uncert = some w ∧ u = '(' :: (w.text ++ [')']) ∧
        ((∃ i d, w = { text := i ++ d.getD [], int := some i, dec := d } ∧ IsDigits i ∧
          (d = none ∨ ∃ ds, d = some ('.' :: ds) ∧ IsDigits ds)) ∨
        w.text ∈ ["nan".toList, "NAN".toList, "inf".toList, "INF".toList])) ∧
      ((m.exponent = none ∧ x = []) ∨ ∃ mk e, m.exponent = some e ∧ ExpMark mk ∧ x = mk ++ e) := by
  obtain ⟨t, ht⟩ := Re.first_hd h
  have hm := ht.mem
  unfold parenRe at hm
  obtain ⟨sg, t1, h1, hm⟩ := Re.mem_seq.1 hm
  obtain ⟨main, t2, h2, hm⟩ := Re.mem_seq.1 hm
  obtain ⟨uncert, t3, h3, hm⟩ := Re.mem_seq.1 hm
  obtain ⟨ex, t4, h4, hm⟩ := Re.mem_seq.1 hm
  obtain ⟨_, t5, h5, hm⟩ := Re.mem_seq.1 hm
  obtain ⟨rfl, ht5⟩ := Re.mem_ret.1 hm
  obtain ⟨h54, h5⟩ := Re.mem_eos.1 h5
  rw [← h54] at h5 h4
  obtain ⟨h2, hmain⟩ := numberRe_mem h2
  subst h2
  have hsg : s = sg.toList ++ (main.text ++ t2) ∧ IsSign sg.toList := by
    rcases Re.mem_opt.1 h1 with ⟨c, rfl, hc⟩ | ⟨rfl, rfl⟩
    · obtain ⟨rfl, hcp⟩ := Re.mem_one.1 hc
      refine ⟨rfl, ?_⟩
      have hc' : c = '+' ∨ c = '-' := by simpa using hcp
      rcases hc' with rfl | rfl
      · exact .inr (.inl rfl)
      · exact .inr (.inr rfl)
    · exact ⟨rfl, .inl rfl⟩
  have hu : ∃ u, t2 = u ++ t3 ∧ ((uncert = none ∧ u = []) ∨ ∃ w, uncert = some w ∧ u = '(' :: (w.text ++ [')']) ∧
        ((∃ i d, w = { text := i ++ d.getD [], int := some i, dec := d } ∧ IsDigits i ∧
          (d = none ∨ ∃ ds, d = some ('.' :: ds) ∧ IsDigits ds)) ∨
        w.text ∈ ["nan".toList, "NAN".toList, "inf".toList, "INF".toList])) := by
    rcases Re.mem_opt.1 h3 with ⟨w, rfl, hw⟩ | ⟨rfl, rfl⟩
    · obtain ⟨_, r1, g1, hw⟩ := Re.mem_seq.1 hw
      obtain ⟨w', r2, g2, hw⟩ := Re.mem_seq.1 hw
      obtain ⟨_, r3, g3, hw⟩ := Re.mem_seq.1 hw
      obtain ⟨rfl, rfl⟩ := Re.mem_ret.1 hw
      have e1 := Re.mem_lit.1 g1
      obtain ⟨e2, hw'⟩ := numberRe_mem g2
      have e3 := Re.mem_lit.1 g3
      exact ⟨_, by rw [e1, e2, e3]; simp, .inr ⟨w, rfl, rfl, hw'⟩⟩
    · exact ⟨[], rfl, .inl ⟨rfl, rfl⟩⟩
  obtain ⟨u, hu, hu'⟩ := hu
  have hx : ∃ x, t3 = x ++ t5 ∧ ((ex = none ∧ x = []) ∨ ∃ mk e, ex = some e ∧ ExpMark mk ∧ x = mk ++ e) := by
    rcases Re.mem_opt.1 h4 with ⟨e, rfl, he⟩ | ⟨rfl, rfl⟩
    · obtain ⟨_, r1, g1, g2⟩ := Re.mem_seq.1 he
      obtain ⟨mk, hmk, rfl⟩ := timesRe_mem g1
      obtain ⟨rfl, -⟩ := Re.mem_star.1 g2
      exact ⟨mk ++ e, by simp, .inr ⟨mk, e, rfl, hmk, rfl⟩⟩
    · exact ⟨[], rfl, .inl ⟨rfl, rfl⟩⟩
  obtain ⟨x, hx, hx'⟩ := hx
  have ht5' : t5 = [] := by
    rcases h5 with h | h
    · exact h
    · exfalso
      refine hs ?_
      rw [hsg.1, hu, hx, h]
      simp
  refine ⟨u, x, ?_, hsg.2, hmain, hu', hx'⟩
  rw [hsg.1, hu, hx, ht5']
  simp

theorem bind_ok {α β : Type} {x : PyRes α} {f : α → PyRes β} {y : β} (h : x.bind f = .ok y) :
    ∃ a, x = .ok a ∧ f a = .ok y := by
  cases x with
  | error e => cases h
  | ok a => exact ⟨a, rfl, h⟩

theorem orValueError_ok {α : Type} {o : Option α} {a : α} (h : orValueError o = .ok a) : o = some a := by
  cases o with
  | none => cases h
  | some b => rw [Except.ok.inj h]

theorem parseError_sound {s : Str} {p : FNum × FNum} (hs : '\n' ∉ s)
    (h : (parseErrorInParentheses s : PyRes (FNum × FNum)) = .ok p) : ShortForm s ∨ EmptyExpForm s := by
  unfold parseErrorInParentheses at h
  obtain ⟨m, hm, h⟩ := bind_ok h
  obtain ⟨f, hf, h⟩ := bind_ok h
  obtain ⟨v, hv, h⟩ := bind_ok h
  obtain ⟨w, hw, h⟩ := bind_ok h
  obtain ⟨u, x, rfl, hsg, hmain, hu, hx⟩ := parenRe_some hs (orValueError_ok hm)
  have ht : IsUnsigned m.main.text := unsigned_of hsg hmain (orValueError_ok hv)
  have hu' : IsParen u := by
    rcases hu with ⟨-, rfl⟩ | ⟨n, hn, rfl, hn'⟩
    · exact .none
    · refine .some _ ?_
      rw [hn] at hw
      unfold uncertOf at hw
      by_cases hd : n.dec.isSome ∨ n.text ∈ ["nan".toList, "NAN".toList, "inf".toList, "INF".toList]
      · simp only [if_pos hd] at hw
        exact unsigned_of (.inl rfl) hn' (orValueError_ok hw)
      · simp only [if_neg hd] at hw
        obtain ⟨k, hk, -⟩ := bind_ok hw
        rcases hn' with ⟨i, d, rfl, hi, hd'⟩ | hname
        · rcases hd' with rfl | ⟨ds, rfl, -⟩
          · have hne : i ≠ [] := by
              rintro rfl
              have := orValueError_ok hk
              have h' : pyInt [] = some k := this
              exact absurd h' (by rw [show pyInt [] = none by decide +kernel]; simp)
            have := IsUnsigned.decimal ⟨i, none, hi, by simp [IsDigits], by simpa using hne⟩
            simpa [Decimal.text] using this
          · exact absurd (.inl rfl) hd
        · exact absurd (.inr hname) hd
  rcases hx with ⟨-, rfl⟩ | ⟨mk, e, he, hmk, rfl⟩
  · exact .inl (.mk _ _ _ _ hsg ht hu' .none)
  · cases e with
    | nil =>
      rw [List.append_nil]
      exact .inr (.mk _ _ _ _ hsg ht hu' hmk)
    | cons c e =>
      rw [he] at hf
      obtain ⟨n, hn, -⟩ := bind_ok (x := orValueError (nrmlzeSuperscript (c :: e))) hf
      exact .inl (.mk _ _ _ _ hsg ht hu' (.some mk (c :: e) hmk ⟨n, (pyInt_iff _ n).1 (orValueError_ok hn)⟩))

theorem afterFactor_sound {s : Str} {f : FNum} {p : FNum × FNum} (hs : '\n' ∉ s) (h : afterFactor f s = .ok p) :
    PmForm s ∨ ShortForm s ∨ EmptyExpForm s := by
  unfold afterFactor at h
  cases hp : Re.first pmRe s with
  | none =>
    simp only [hp] at h
    exact .inr (parseError_sound hs h)
  | some nu =>
    obtain ⟨N, U⟩ := nu
    simp only [hp] at h
    obtain ⟨x, hx, h⟩ := bind_ok h
    obtain ⟨y, hy, h⟩ := bind_ok h
    obtain ⟨pm, hpm, rfl⟩ := pmRe_some hs hp
    exact .inl (.mk N pm U (toFloat_ok (fun hh => hs (by simp [hh])) hx) hpm (toFloat_ok (fun hh => hs (by simp [hh])) hy))

theorem globalExp_some {s c e : Str} (hs : '\n' ∉ s) (h : Re.first globalExpRe s = some (c, e)) :
    ∃ m, ExpMark m ∧ s = '(' :: (c ++ ')' :: (m ++ e)) := by
  obtain ⟨t, ht⟩ := Re.first_hd h
  have hm := ht.mem
  unfold globalExpRe at hm
  obtain ⟨_, t1, h1, hm⟩ := Re.mem_seq.1 hm
  obtain ⟨c', t2, h2, hm⟩ := Re.mem_seq.1 hm
  obtain ⟨_, t3, h3, hm⟩ := Re.mem_seq.1 hm
  obtain ⟨_, t4, h4, hm⟩ := Re.mem_seq.1 hm
  obtain ⟨e', t5, h5, hm⟩ := Re.mem_seq.1 hm
  obtain ⟨_, t6, h6, hm⟩ := Re.mem_seq.1 hm
  obtain ⟨hce, -⟩ := Re.mem_ret.1 hm
  simp only [Prod.mk.injEq] at hce
  obtain ⟨rfl, rfl⟩ := hce
  obtain ⟨h65, h6⟩ := Re.mem_eos.1 h6
  rw [← h65] at h6 h5
  have e1 := Re.mem_lit.1 h1
  obtain ⟨e2, -⟩ := Re.mem_star.1 h2
  have e3 := Re.mem_lit.1 h3
  obtain ⟨m, hmk, e4⟩ := timesRe_mem h4
  obtain ⟨e5, -⟩ := Re.mem_star.1 h5
  have e6 : t6 = [] := by
    rcases h6 with h | h
    · exact h
    · exfalso
      refine hs ?_
      rw [e1, e2, e3, e4, e5, h]
      simp
  refine ⟨m, hmk, ?_⟩
  rw [e1, e2, e3, e4, e5, e6]
  simp

/-- The parser after the removal of the parentheses. -/
def unwrapped (s : Str) : PyRes (FNum × FNum) := do
  let (factor, s) ← (match Re.first globalExpRe s with
    | some (simple, e) => do
      let n ← orValueError (nrmlzeSuperscript e)
      let f : FNum ← PyText.pow10 n
      pure (f, simple)
    | none => pure (PyText.one, s) : PyRes (FNum × Str))
  afterFactor factor s

theorem unwrapped_sound {s : Str} {p : FNum × FNum} (hs : '\n' ∉ s) (h : unwrapped s = .ok p) :
    Documented s ∨ Undocumented s := by
  unfold unwrapped at h
  cases hg : Re.first globalExpRe s with
  | none =>
    simp only [hg] at h
    rcases afterFactor_sound hs h with h | h | h
    · exact .inl (.pm _ h)
    · exact .inl (.short _ h)
    · exact .inr (.emptyExp _ h)
  | some ce =>
    obtain ⟨c, e⟩ := ce
    simp only [hg] at h
    obtain ⟨m, hm, rfl⟩ := globalExp_some hs hg
    obtain ⟨fs, hfs, h⟩ := bind_ok h
    obtain ⟨n, hn, hfs⟩ := bind_ok hfs
    obtain ⟨f, hf, hfs⟩ := bind_ok hfs
    obtain rfl := Except.ok.inj hfs
    have he : IsExponent e := ⟨n, (pyInt_iff _ n).1 (orValueError_ok hn)⟩
    rcases afterFactor_sound (fun hh => hs (by simp [hh])) h with h | h | h
    · exact .inl (.factored _ (.mk c m e h hm he))
    · exact .inr (.factoredShort _ (.mk c m e h hm he))
    · exact .inr (.factoredEmptyExp _ (.mk c m e h hm he))

theorem strToNumber_eq (s : Str) : (strToNumberWithUncert s : PyRes (FNum × FNum)) =
    unwrapped (if s.head? = some '(' ∧ s.getLast? = some ')' then s.tail.dropLast else s) := by
  unfold strToNumberWithUncert unwrapped afterFactor
  rfl

theorem strip_mem {s : Str} {c : Char} (h : c ∈ strip s) : c ∈ s := by
  obtain ⟨a, b, hab, -⟩ := stripBy_decomp isSpace s
  rw [hab]
  have h' : c ∈ stripBy isSpace s := h
  simp [h']

end Unc
