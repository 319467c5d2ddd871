import Verif.Lemmas.Effects

/-
The calls that are written down by `EWrapDef.noted` (C96).
-/

namespace Unc

set_option autoImplicit false

variable {S F : Type}

/-- The calls `new` of a calculation whose result is `r` are the first ones of those that are expected, all of them if there
is a result, and a call that raises an exception is the last one. -/
structure CallsFollow {α : Type} (new : CallLog F) (expected : List (UserCall F)) (r : PyRes α) : Prop where
  order : new.map Prod.fst <+: expected
  complete : ∀ a, r = .ok a → new.map Prod.fst = expected
  stop : ∀ p ∈ new, ∀ e, p.2 = some e → r = .error e ∧ new.getLast? = some p

theorem CallsFollow.nil {α : Type} (r : PyRes α) : CallsFollow ([] : CallLog F) [] r :=
  ⟨List.prefix_rfl, fun _ _ => rfl, fun p hp => by cases hp⟩

theorem CallsFollow.single {α : Type} (c : UserCall F) (r : PyRes α) : CallsFollow [(c, raisedBy r)] [c] r := by
  refine ⟨List.prefix_rfl, fun _ _ => rfl, fun p hp e he => ?_⟩
  rw [List.mem_singleton.1 hp] at he ⊢
  cases r with
  | ok a => cases he
  | error e' => cases he; exact ⟨rfl, rfl⟩

theorem CallsFollow.append {α β : Type} {n1 n2 : CallLog F} {e1 e2 : List (UserCall F)} {a : α} {r : PyRes β}
    (h1 : CallsFollow n1 e1 (.ok a : PyRes α)) (h2 : CallsFollow n2 e2 r) : CallsFollow (n1 ++ n2) (e1 ++ e2) r := by
  have h := h1.complete a rfl
  refine ⟨?_, fun b hb => ?_, fun p hp e he => ?_⟩
  · rw [List.map_append, h]; exact (List.prefix_append_right_inj _).2 h2.order
  · rw [List.map_append, h, h2.complete b hb]
  · rcases List.mem_append.1 hp with hp | hp
    · cases (h1.stop p hp e he).1
    · obtain ⟨a1, a2⟩ := h2.stop p hp e he
      exact ⟨a1, by rw [List.getLast?_append, a2]; rfl⟩

theorem CallsFollow.error {α β : Type} {n1 : CallLog F} {e1 : List (UserCall F)} (e2 : List (UserCall F)) {e : PyErr}
    (h1 : CallsFollow n1 e1 (.error e : PyRes α)) : CallsFollow n1 (e1 ++ e2) (.error e : PyRes β) := by
  refine ⟨h1.order.trans (List.prefix_append _ _), fun _ h => (by cases h), fun p hp e' he => ?_⟩
  obtain ⟨a1, a2⟩ := h1.stop p hp e' he
  cases a1
  exact ⟨rfl, a2⟩

/-- The result is changed, without changing whether there is one. -/
theorem CallsFollow.of_ok {α β : Type} {n : CallLog F} {ex : List (UserCall F)} {a : α} (r : PyRes β) (h : CallsFollow n ex (.ok a : PyRes α)) :
    CallsFollow n ex r :=
  ⟨h.order, fun _ _ => h.complete a rfl, fun p hp e he => by cases (h.stop p hp e he).1⟩

/-- `g'` does the same as `g`, and writes down calls that follow the expected ones. -/
def Notes {α : Type} (g' : S × CallLog F → (S × CallLog F) × PyRes α) (g : S → S × PyRes α) (expected : List (UserCall F)) : Prop :=
  ∀ s l, ∃ new, g' (s, l) = (((g s).1, l ++ new), (g s).2) ∧ CallsFollow new expected (g s).2

theorem notes_noted {α : Type} (c : List (PyVal F) → KwArgs F → UserCall F) (f : List (PyVal F) → KwArgs F → S → S × PyRes α)
    (a : List (PyVal F)) (k : KwArgs F) : Notes (noted c f a k) (f a k) [c a k] :=
  fun _ _ => ⟨_, rfl, CallsFollow.single _ _⟩

theorem notes_inOrder {α β γ : Type} (L : List γ) (key : γ → α) (g' : γ → S × CallLog F → (S × CallLog F) × PyRes β)
    (g : γ → S → S × PyRes β) (ex : γ → List (UserCall F)) (h : ∀ c ∈ L, Notes (g' c) (g c) (ex c)) :
    Notes (inOrder (L.map fun c => (key c, g' c))) (inOrder (L.map fun c => (key c, g c))) (L.flatMap ex) := by
  induction L with
  | nil => exact fun s l => ⟨[], by simp [inOrder], CallsFollow.nil _⟩
  | cons c L ih =>
    intro s l
    obtain ⟨n1, h1, f1⟩ := h c List.mem_cons_self s l
    simp only [List.map_cons, inOrder, List.flatMap_cons, h1]
    rcases hg : g c s with ⟨s1, e | b⟩
    · rw [hg] at f1
      exact ⟨n1, rfl, f1.error _⟩
    · rw [hg] at f1
      obtain ⟨n2, h2, f2⟩ := ih (fun c' hc' => h c' (List.mem_cons_of_mem _ hc')) s1 (l ++ n1)
      simp only [h2]
      rcases hr : inOrder (L.map fun c => (key c, g c)) s1 with ⟨s2, e | b2⟩
      · rw [hr] at f2
        exact ⟨n1 ++ n2, by simp, f1.append f2⟩
      · rw [hr] at f2
        exact ⟨n1 ++ n2, by simp, f1.append (f2.of_ok _)⟩

variable [PyFloat F]

theorem noted_given (df : EWrapDef S F) (r : ArgRef) :
    df.noted.given r = (df.given r).map fun p => (p.1, noted (.derivative p.1) p.2) := by
  cases r with
  | pos i => simp [EWrapDef.given, EWrapDef.noted, Function.comp_def]
  | kw name =>
    simp only [EWrapDef.given, EWrapDef.noted]
    cases (df.argspec.getD []).idxOf? name with
    | some i => simp [Function.comp_def]
    | none =>
      simp only []
      have : ∀ l : List (String × Option (EDeriv S F)), (l.map fun p => (p.1, p.2.map (noted (F := F) (.derivative (.kw p.1))))).lookup name =
          (l.lookup name).map fun o => o.map (noted (F := F) (.derivative (.kw name))) := by
        intro l
        induction l with
        | nil => rfl
        | cons p l ih =>
          obtain ⟨m, o⟩ := p
          by_cases hm : name = m
          · subst hm; simp [List.lookup]
          · have : (name == m) = false := by simpa using hm
            simp [List.lookup, this, ih]
      rw [this]
      cases df.derivativesKwargs.lookup name with
      | none => rfl
      | some o => cases o <;> rfl

theorem notes_shiftedCalls (f : EFn S F) (plus minus : List (PyVal F) × KwArgs F) (step : F) :
    Notes (shiftedCalls (noted .function f) plus minus step) (shiftedCalls f plus minus step)
      [.function plus.1 plus.2, .function minus.1 minus.2] := by
  intro s l
  obtain ⟨n1, h1, f1⟩ := notes_noted .function f plus.1 plus.2 s l
  simp only [shiftedCalls, h1]
  rcases hg : f plus.1 plus.2 s with ⟨s1, e | b⟩
  · rw [hg] at f1
    exact ⟨n1, rfl, f1.error [.function minus.1 minus.2]⟩
  · rw [hg] at f1
    obtain ⟨n2, h2, f2⟩ := notes_noted .function f minus.1 minus.2 s1 (l ++ n1)
    simp only [h2]
    rcases hr : f minus.1 minus.2 s1 with ⟨s2, e | b2⟩
    · rw [hr] at f2
      refine ⟨n1 ++ n2, by simp, ?_⟩
      have := f1.append f2
      refine ⟨this.order, fun _ h => (by cases h), fun p hp e' he => ?_⟩
      obtain ⟨a1, a2⟩ := this.stop p hp e' he
      cases a1
      exact ⟨rfl, a2⟩
    · rw [hr] at f2
      exact ⟨n1 ++ n2, by simp, f1.append (f2.of_ok _)⟩

theorem notes_derivValue (df : EWrapDef S F) (a : List (PyVal F)) (k : KwArgs F) (r : ArgRef) (x : F) :
    Notes (derivValue df.noted a k r x) (derivValue df a k r x) (derivCalls df a k r x) := by
  unfold derivValue derivCalls
  rw [noted_given]
  cases df.given r with
  | some p => exact notes_noted _ _ _ _
  | none => exact notes_shiftedCalls _ _ _ _

theorem documentedCall_noted (df : EWrapDef S F) (args : List (Val F)) (kwargs : List (String × Val F)) (s : S) (l : CallLog F) :
    ∃ new, documentedCall df.noted args kwargs (s, l) =
        (((documentedCall df args kwargs s).1, l ++ new), (documentedCall df args kwargs s).2) ∧
      new ≠ [] ∧ new.map Prod.fst <+: expectedCalls df args kwargs ∧
      (∀ x, (documentedCall df args kwargs s).2 = .ok (.inr x) → new.map Prod.fst = expectedCalls df args kwargs) ∧
      (∀ v, (documentedCall df args kwargs s).2 = .ok (.inl v) → new.map Prod.fst = (expectedCalls df args kwargs).take 1) ∧
      (∀ p ∈ new, ∀ e, p.2 = some e → (documentedCall df args kwargs s).2 = .error e ∧ new.getLast? = some p) := by
  set a := args.map Val.nominal with ha
  set k := kwargs.map (fun p => (p.1, p.2.nominal)) with hk
  have hex : expectedCalls df args kwargs =
      [.function a k] ++ (uncertainArgs args kwargs).flatMap fun p => derivCalls df a k p.1 p.2.nom := rfl
  obtain ⟨n1, h1, f1⟩ := notes_noted .function df.f a k s l
  have hn1 : n1.map Prod.fst = [.function a k] := by
    have h := congrArg (fun x => x.1.2) h1
    simp only [noted, List.append_cancel_left_eq] at h
    rw [← h]; rfl
  have hne : n1 ≠ [] := by rintro rfl; cases hn1
  have h1' : df.noted.f a k (s, l) = (((df.f a k s).1, l ++ n1), (df.f a k s).2) := h1
  have hpre : n1.map Prod.fst <+: expectedCalls df args kwargs := by rw [hn1, hex]; exact List.prefix_append _ _
  have htake : n1.map Prod.fst = (expectedCalls df args kwargs).take 1 := by rw [hn1, hex]; rfl
  simp only [documentedCall, ← ha, ← hk, h1']
  rcases hg : df.f a k s with ⟨s1, e | v⟩
  · rw [hg] at f1
    refine ⟨n1, rfl, hne, hpre, fun x h => (by cases h), fun v h => (by cases h), fun p hp e' he => ?_⟩
    obtain ⟨a1, a2⟩ := f1.stop p hp e' he
    cases a1
    exact ⟨rfl, a2⟩
  rw [hg] at f1
  have hnone : ∀ p ∈ n1, ∀ e, p.2 ≠ some e := fun p hp e he => by cases (f1.stop p hp e he).1
  simp only []
  by_cases hemp : (uncertainArgs args kwargs).isEmpty = true
  · simp only [hemp, if_true]
    exact ⟨n1, rfl, hne, hpre, fun x h => (by cases h), fun _ _ => htake, fun p hp e he => absurd he (hnone p hp e)⟩
  simp only [hemp, if_false, Bool.false_eq_true]
  by_cases hv : v.floatLike = true
  swap
  · simp only [hv, Bool.not_false, if_true]
    exact ⟨n1, rfl, hne, hpre, fun x h => (by cases h), fun _ _ => htake, fun p hp e he => absurd he (hnone p hp e)⟩
  simp only [hv, Bool.not_true, if_false, Bool.false_eq_true]
  obtain ⟨n2, h2, f2⟩ := notes_inOrder (uncertainArgs args kwargs) Prod.snd
    (fun p => derivValue df.noted a k p.1 p.2.nom) (fun p => derivValue df a k p.1 p.2.nom)
    (fun p => derivCalls df a k p.1 p.2.nom) (fun p _ => notes_derivValue df a k p.1 p.2.nom) s1 (l ++ n1)
  have f12 := f1.append f2
  rw [← hn1] at f12
  simp only [h2]
  rcases hr : inOrder ((uncertainArgs args kwargs).map fun p => (p.2, derivValue df a k p.1 p.2.nom)) s1 with ⟨s2, e | L⟩
  · rw [hr, hn1] at f12
    simp only [hr]
    refine ⟨n1 ++ n2, by simp, by simp [hne], f12.order, fun x h => (by cases h), fun v h => (by cases h), fun p hp e' he => ?_⟩
    obtain ⟨a1, a2⟩ := f12.stop p hp e' he
    cases a1
    exact ⟨rfl, a2⟩
  · rw [hr, hn1] at f12
    simp only [hr]
    have hstop : ∀ p ∈ n1 ++ n2, ∀ e, p.2 ≠ some e := fun p hp e he => by cases (f12.stop p hp e he).1
    cases v.toFloat with
    | error e =>
      exact ⟨n1 ++ n2, by simp, by simp [hne], f12.order, fun x h => (by cases h), fun v h => (by cases h),
        fun p hp e' he => absurd he (hstop p hp e')⟩
    | ok x =>
      exact ⟨n1 ++ n2, by simp, by simp [hne], f12.order, fun x h => f12.complete _ rfl, fun v h => (by cases h),
        fun p hp e' he => absurd he (hstop p hp e')⟩

end Unc
