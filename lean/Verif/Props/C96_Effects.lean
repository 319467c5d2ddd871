import Verif.Lemmas.EffectsLog
import Verif.Props.C19_Wrap

/-
C96: functions with side effects given to `wrap`: which calls are made, in which order, with which arguments, and what the result is.
The vocabulary is in `Spec/Effects.lean`.
-/

namespace Unc

set_option autoImplicit false

section
variable {S F : Type} [PyFloat F]

/-- **C96**, values: whatever the functions given to `wrap` do (side effects, different values at each call, exceptions), after any
history of calls, a call of the wrapped function has the effects of the documented calls, in the documented order, and returns
the result calculated with the values that they return. -/
theorem C96_result (df : EWrapDef S F) (history : List ((List (Val F) × List (String × Val F)) × S))
    (hh : ∀ c ∈ history, (c.1.2.map Prod.fst).Nodup) (args : List (Val F)) (kwargs : List (String × Val F))
    (hk : (kwargs.map Prod.fst).Nodup) (s : S) :
    let r := callE (callsE history (mkWrappedE df)) args kwargs s
    r.2.1 = (documentedCall df args kwargs s).1 ∧
    match (documentedCall df args kwargs s).2 with
    | .error e => r.2.2 = .error e
    | .ok (.inl v) => r.2.2 = .ok (.inl v)
    | .ok (.inr (x, l)) => r.2.2 = .ok (.inr (x, termsOf l)) := by
  obtain ⟨a1, a2⟩ := callsE_ok history (mkWrappedE_ok df) hh
  obtain ⟨wf, -, -, h⟩ := callE_ok a1 args kwargs hk s
  rw [mkWrappedE_df] at a2
  rw [a2] at h
  simp only [h, true_and]
  rcases (documentedCall df args kwargs s).2 with e | v | ⟨x, l⟩ <;> rfl

/-- **C96**, calls: the calls of the functions of the user are, in order, the expected ones: the function at the nominal values,
then, for each argument with an uncertainty, the given derivative, or else the function at two shifted values. There is at least
one call. When a number with uncertainty is returned, all the expected calls were made; when a plain value is returned
(`NotImplemented` included), only the first one. A call that raises an exception is the last one, and the exception is not caught. -/
theorem C96_calls (df : EWrapDef S F) (history : List ((List (Val F) × List (String × Val F)) × (S × CallLog F)))
    (hh : ∀ c ∈ history, (c.1.2.map Prod.fst).Nodup) (args : List (Val F)) (kwargs : List (String × Val F))
    (hk : (kwargs.map Prod.fst).Nodup) (s : S) :
    let r := callE (callsE history (mkWrappedE df.noted)) args kwargs (s, [])
    let calls := r.2.1.2
    calls ≠ [] ∧ calls.map Prod.fst <+: expectedCalls df args kwargs ∧
    (∀ x, r.2.2 = .ok (.inr x) → calls.map Prod.fst = expectedCalls df args kwargs) ∧
    (∀ v, r.2.2 = .ok (.inl v) → calls.map Prod.fst = (expectedCalls df args kwargs).take 1) ∧
    (∀ c ∈ calls, ∀ e, c.2 = some e → r.2.2 = .error e ∧ calls.getLast? = some c) := by
  obtain ⟨a1, a2⟩ := callsE_ok history (mkWrappedE_ok df.noted) hh
  obtain ⟨wf, -, -, h⟩ := callE_ok a1 args kwargs hk (s, [])
  rw [mkWrappedE_df] at a2
  rw [a2] at h
  obtain ⟨new, h1, h2, h3, h4, h5, h6⟩ := documentedCall_noted df args kwargs s []
  simp only [h, h1, List.nil_append]
  refine ⟨h2, h3, fun x hx => ?_, fun v hv => ?_, fun c hc e he => ?_⟩
  · rcases hr : (documentedCall df args kwargs s).2 with e | v | y
    · rw [hr] at hx; cases hx
    · rw [hr] at hx; cases hx
    · exact h4 y hr
  · rcases hr : (documentedCall df args kwargs s).2 with e | w | y
    · rw [hr] at hv; cases hv
    · exact h5 w hr
    · rw [hr] at hv; cases hv
  · obtain ⟨b1, b2⟩ := h6 c hc e he
    exact ⟨by rw [b1]; rfl, b2⟩

/-- **C96**: functions that write down their calls do the same as the functions. -/
theorem C96_noted (df : EWrapDef S F) (history : List ((List (Val F) × List (String × Val F)) × (S × CallLog F)))
    (history' : List ((List (Val F) × List (String × Val F)) × S))
    (hh : ∀ c ∈ history, (c.1.2.map Prod.fst).Nodup) (hh' : ∀ c ∈ history', (c.1.2.map Prod.fst).Nodup)
    (args : List (Val F)) (kwargs : List (String × Val F)) (hk : (kwargs.map Prod.fst).Nodup) (s : S) :
    let r := callE (callsE history (mkWrappedE df.noted)) args kwargs (s, [])
    let r' := callE (callsE history' (mkWrappedE df)) args kwargs s
    r.2.1.1 = r'.2.1 ∧ r.2.2 = r'.2.2 := by
  obtain ⟨a1, a2⟩ := callsE_ok history (mkWrappedE_ok df.noted) hh
  obtain ⟨wf, -, -, h⟩ := callE_ok a1 args kwargs hk (s, [])
  obtain ⟨a1', a2'⟩ := callsE_ok history' (mkWrappedE_ok df) hh'
  obtain ⟨wf', -, -, h'⟩ := callE_ok a1' args kwargs hk s
  rw [mkWrappedE_df] at a2 a2'
  rw [a2] at h
  rw [a2'] at h'
  obtain ⟨new, h1, -⟩ := documentedCall_noted df args kwargs s []
  simp only [h, h', h1, and_self]

/-- **C96**, number of calls: the function is called once, and two times more for each argument with an uncertainty for which no
derivative is given; each of the other derivatives is called once. -/
theorem C96_number (df : EWrapDef S F) (args : List (Val F)) (kwargs : List (String × Val F)) :
    (expectedCalls df args kwargs).countP UserCall.isFunction =
      1 + 2 * (uncertainArgs args kwargs).countP (fun p => (df.given p.1).isNone) ∧
    (expectedCalls df args kwargs).countP (fun c => !c.isFunction) =
      (uncertainArgs args kwargs).countP (fun p => (df.given p.1).isSome) := by
  have key : ∀ L : List (ArgRef × UF F),
      (L.flatMap fun p => derivCalls df (args.map Val.nominal) (kwargs.map fun p => (p.1, p.2.nominal)) p.1 p.2.nom).countP
          UserCall.isFunction = 2 * L.countP (fun p => (df.given p.1).isNone) ∧
      (L.flatMap fun p => derivCalls df (args.map Val.nominal) (kwargs.map fun p => (p.1, p.2.nominal)) p.1 p.2.nom).countP
          (fun c => !c.isFunction) = L.countP (fun p => (df.given p.1).isSome) := by
    intro L
    induction L with
    | nil => exact ⟨rfl, rfl⟩
    | cons p L ih =>
      obtain ⟨h1, h2⟩ := ih
      simp only [List.flatMap_cons, List.countP_append, h1, h2, List.countP_cons]
      unfold derivCalls
      cases df.given p.1 with
      | none => simp [UserCall.isFunction, List.countP_cons]; omega
      | some q => simp [UserCall.isFunction, List.countP_cons]; omega
  obtain ⟨h1, h2⟩ := key (uncertainArgs args kwargs)
  refine ⟨?_, ?_⟩
  · unfold expectedCalls
    rw [List.countP_cons, h1]
    simp [UserCall.isFunction]; omega
  · unfold expectedCalls
    rw [List.countP_cons, h2]
    simp [UserCall.isFunction]

omit [PyFloat F] in
theorem setKw_keys {α : Type} (l : List (String × α)) (n : String) (x : α) (h : n ∈ l.map Prod.fst) :
    (setKw l n x).map Prod.fst = l.map Prod.fst := by
  induction l with
  | nil => cases h
  | cons p l ih =>
    obtain ⟨m, y⟩ := p
    by_cases hm : m = n
    · simp [setKw, hm]
    · simp only [setKw, hm, if_false, List.map_cons]
      rw [ih]
      rcases List.mem_cons.1 h with h | h
      · exact absurd h.symm hm
      · exact h

omit [PyFloat F] in
theorem mem_setKw {α : Type} (l : List (String × α)) (n m : String) (x y : α) (h : (m, y) ∈ l) (hne : m ≠ n) : (m, y) ∈ setKw l n x := by
  induction l with
  | nil => cases h
  | cons p l ih =>
    obtain ⟨q, z⟩ := p
    by_cases hq : q = n
    · simp only [setKw, hq, if_true]
      rcases List.mem_cons.1 h with h | h
      · cases h; exact absurd hq hne
      · exact List.mem_cons_of_mem _ h
    · simp only [setKw, hq, if_false]
      rcases List.mem_cons.1 h with h | h
      · rw [h]; exact List.mem_cons_self
      · exact List.mem_cons_of_mem _ (ih h)

/-- **C96**, arguments: all the calls have the same number of positional arguments and the same keywords as the call of the wrapped
function, and the arguments without uncertainty (of any type) are given unchanged. The given derivatives are called with the nominal
values of the arguments with an uncertainty. -/
theorem C96_arguments (df : EWrapDef S F) (args : List (Val F)) (kwargs : List (String × Val F))
    (hk : (kwargs.map Prod.fst).Nodup) (c : UserCall F) (hc : c ∈ expectedCalls df args kwargs) :
    c.args.1.length = args.length ∧ c.args.2.map Prod.fst = kwargs.map Prod.fst ∧
    (∀ (i : Nat) (v : PyVal F), args[i]? = some (.plain v) → c.args.1[i]? = some v) ∧
    (∀ (name : String) (v : PyVal F), (name, .plain v) ∈ kwargs → (name, v) ∈ c.args.2) ∧
    (c.isFunction = false → c.args = (args.map Val.nominal, kwargs.map fun p => (p.1, p.2.nominal))) := by
  have base : ∀ c : UserCall F, c.args = (args.map Val.nominal, kwargs.map fun p => (p.1, p.2.nominal)) →
      c.args.1.length = args.length ∧ c.args.2.map Prod.fst = kwargs.map Prod.fst ∧
      (∀ (i : Nat) (v : PyVal F), args[i]? = some (.plain v) → c.args.1[i]? = some v) ∧
      (∀ (name : String) (v : PyVal F), (name, .plain v) ∈ kwargs → (name, v) ∈ c.args.2) ∧
      (c.isFunction = false → c.args = (args.map Val.nominal, kwargs.map fun p => (p.1, p.2.nominal))) := by
    intro c hc
    refine ⟨by simp [hc], by simp [hc, Function.comp_def], fun i v hi => by simp [hc, hi, Val.nominal], fun n v hn => ?_, fun _ => hc⟩
    rw [hc]
    exact List.mem_map.2 ⟨_, hn, rfl⟩
  have shifted : ∀ (r : ArgRef) (u : UF F), (r, u) ∈ uncertainArgs args kwargs → ∀ (x : F) (c : UserCall F),
      c = .function (withArg (args.map Val.nominal) (kwargs.map fun p => (p.1, p.2.nominal)) x r).1
        (withArg (args.map Val.nominal) (kwargs.map fun p => (p.1, p.2.nominal)) x r).2 →
      c.args.1.length = args.length ∧ c.args.2.map Prod.fst = kwargs.map Prod.fst ∧
      (∀ (i : Nat) (v : PyVal F), args[i]? = some (.plain v) → c.args.1[i]? = some v) ∧
      (∀ (name : String) (v : PyVal F), (name, .plain v) ∈ kwargs → (name, v) ∈ c.args.2) ∧
      (c.isFunction = false → c.args = (args.map Val.nominal, kwargs.map fun p => (p.1, p.2.nominal))) := by
    rintro r u hr x c rfl
    rw [uncertainArgs_eq] at hr
    rcases List.mem_append.1 hr with hr | hr
    · obtain ⟨j, rfl, hj⟩ := uncPos_mem _ _ _ _ hr
      simp only [Nat.zero_add, withArg, UserCall.args, UserCall.isFunction, List.length_set, List.length_map, true_and]
      refine ⟨by simp [Function.comp_def], fun i v hi => ?_, fun n v hn => List.mem_map.2 ⟨_, hn, rfl⟩, fun h => by cases h⟩
      have hne : j ≠ i := by
        rintro rfl
        rw [hj] at hi
        cases hi
      rw [List.getElem?_set_ne hne, List.getElem?_map, hi]
      rfl
    · obtain ⟨n, rfl, hn⟩ := uncKw_mem _ _ _ hr
      simp only [withArg, UserCall.args, UserCall.isFunction, List.length_map, true_and]
      refine ⟨?_, fun i v hi => by simp [hi, Val.nominal], fun m v hm => ?_, fun h => by cases h⟩
      · rw [setKw_keys]
        · simp [Function.comp_def]
        · simp only [List.map_map, Function.comp_def]
          exact List.mem_map.2 ⟨_, hn, rfl⟩
      · refine mem_setKw _ _ _ _ _ (List.mem_map.2 ⟨_, hm, rfl⟩) ?_
        rintro rfl
        have h1 := kwargs_lookup_of_mem kwargs hk _ _ hm
        rw [kwargs_lookup_of_mem kwargs hk _ _ hn] at h1
        cases h1
  rcases List.mem_cons.1 hc with rfl | hc
  · exact base _ rfl
  · obtain ⟨⟨r, u⟩, hr, hc⟩ := List.mem_flatMap.1 hc
    unfold derivCalls at hc
    cases hg : df.given r with
    | some p =>
      simp only [hg, List.mem_singleton] at hc
      exact base c (by rw [hc]; rfl)
    | none =>
      simp only [hg, List.mem_cons, List.not_mem_nil, or_false] at hc
      rcases hc with hc | hc
      · exact shifted r u hr _ c hc
      · exact shifted r u hr _ c hc

end

/-! ### Functions without side effects -/

/-- The same arguments of `wrap`, for functions that do not change the state and do not depend on it. -/
def WrapDef.withState {F : Type} (S : Type) (df : WrapDef F) : EWrapDef S F where
  f a k s := (s, df.f a k)
  derivativesArgs i := (df.derivativesArgs.chained i).map fun d a k s => (s, d a k)
  derivativesKwargs := df.derivativesKwargs.map fun p => (p.1, p.2.map fun d a k s => (s, d a k))
  argspec := df.argspec
  kwargsNodup := by
    have : (df.derivativesKwargs.map fun p => (p.1, p.2.map fun (d : DerivFn F) a k (s : S) => (s, d a k))).map Prod.fst =
        df.derivativesKwargs.map Prod.fst := by simp [Function.comp_def]
    rw [this]
    exact df.kwargsNodup
  argspecNodup := df.argspecNodup

section
variable {S F : Type} [PyFloat F]

theorem partialDerivativeE_withState (df : WrapDef F) (r : ArgRef) (a : List (PyVal F)) (k : KwArgs F) (s : S) :
    partialDerivativeE (df.withState S).f r a k s = (s, partialDerivative df.f r a k) := by
  have key : ∀ (p m : List (PyVal F) × KwArgs F) (step : F), shiftedCalls (df.withState S).f p m step s =
      (s, match df.f p.1 p.2 with
        | .error e => .error e
        | .ok vp => match df.f m.1 m.2 with
          | .error e => .error e
          | .ok vm => centralDiff vp vm step) := by
    intro p m step
    simp only [shiftedCalls, WrapDef.withState]
    cases df.f p.1 p.2 with
    | error e => rfl
    | ok vp =>
      simp only []
      cases df.f m.1 m.2 <;> rfl
  cases r with
  | pos i =>
    simp only [partialDerivativeE, partialDerivative, key]
    cases a[i]? with
    | none => rfl
    | some v => cases v <;> rfl
  | kw name =>
    simp only [partialDerivativeE, partialDerivative, key]
    cases k.lookup name with
    | none => rfl
    | some v => cases v <;> rfl

theorem spec_withState_pos (df : WrapDef F) (i : Nat) (a : List (PyVal F)) (k : KwArgs F) (s : S) :
    (df.withState S).spec (.pos i) a k s = (s, df.specPos i a k) := by
  have hd : (df.withState S).derivativesArgs i = (df.derivativesArgs.chained i).map fun d a k s => (s, d a k) := rfl
  rw [EWrapDef.spec_pos, chained_specPos, hd]
  cases df.derivativesArgs.chained i with
  | none => exact partialDerivativeE_withState df (.pos i) a k s
  | some d => rfl

theorem spec_withState_kw (df : WrapDef F) (name : String) (a : List (PyVal F)) (k : KwArgs F) (s : S) :
    (df.withState S).spec (.kw name) a k s = (s, df.specKw name a k) := by
  have hp : ∀ i : Nat, (match ((df.withState S).derivativesArgs i).map fun d => (ArgRef.pos i, d) with
      | some (_, d) => d
      | none => partialDerivativeE (df.withState S).f (.kw name)) a k s = (s, df.specParam i name a k) := by
    intro i
    have hd : (df.withState S).derivativesArgs i = (df.derivativesArgs.chained i).map fun d a k s => (s, d a k) := rfl
    rw [chained_specParam, hd]
    cases df.derivativesArgs.chained i with
    | none => exact partialDerivativeE_withState df _ a k s
    | some d => rfl
  have hl : (df.withState S).derivativesKwargs.lookup name =
      (df.derivativesKwargs.lookup name).map fun o => o.map fun (d : DerivFn F) a k (s : S) => (s, d a k) := by
    simp only [WrapDef.withState]
    induction df.derivativesKwargs with
    | nil => rfl
    | cons p l ih =>
      obtain ⟨m, o⟩ := p
      by_cases hm : name = m
      · subst hm; simp [List.lookup]
      · have : (name == m) = false := by simpa using hm
        simp [List.lookup, this, ih]
  have hw : (match (((df.withState S).derivativesKwargs.lookup name).getD none).map fun d => (ArgRef.kw name, d) with
      | some (_, d) => d
      | none => partialDerivativeE (df.withState S).f (.kw name)) a k s = (s, df.specKeyword name a k) := by
    rw [hl]
    unfold WrapDef.specKeyword
    cases df.derivativesKwargs.lookup name with
    | none => exact partialDerivativeE_withState df _ a k s
    | some o =>
      cases o with
      | none => exact partialDerivativeE_withState df _ a k s
      | some d => rfl
  unfold EWrapDef.spec EWrapDef.given WrapDef.specKw
  have ha : (df.withState S).argspec = df.argspec := rfl
  rw [ha]
  cases df.argspec with
  | none => exact hw
  | some names =>
    simp only [Option.getD_some]
    cases names.idxOf? name with
    | none => exact hw
    | some i => exact hp i

theorem posTerms_withState {wf : Wrapped F} (h : wf.OK) (a : List (PyVal F)) (k : KwArgs F) (i : Nat) (args : List (Val F)) (s : S)
    (acc : List (Item F)) :
    ∃ wf', wf'.OK ∧ wf'.df = wf.df ∧ ∃ r, termsFrom (wf.df.withState S) a k (uncPos i args) s = (s, r) ∧
      posTerms a k i args wf acc = (wf', r.map fun l => termsOf l ++ acc) := by
  induction args generalizing i wf acc with
  | nil => exact ⟨wf, h, rfl, .ok [], rfl, rfl⟩
  | cons v args ih =>
    cases v with
    | plain v => exact ih h (i + 1) acc
    | unc u =>
      obtain ⟨wf1, h1, h2, h3⟩ := Wrapped.posDeriv_ok h i
      simp only [posTerms, h1, uncPos, termsFrom, List.map_cons, inOrder, spec_withState_pos]
      cases wf.df.specPos i a k with
      | error e => exact ⟨wf1, h2, h3, .error e, rfl, rfl⟩
      | ok c =>
        obtain ⟨wf2, a1, a2, r, a3, a4⟩ := ih h2 (i + 1) (.pair c u.lin :: acc)
        rw [h3, termsFrom] at a3
        simp only [a3, a4]
        cases r with
        | error e => exact ⟨wf2, a1, a2.trans h3, .error e, rfl, rfl⟩
        | ok l => exact ⟨wf2, a1, a2.trans h3, .ok ((u, c) :: l), rfl, by simp [Except.map, termsOf]⟩

theorem kwTerms_withState {wf : Wrapped F} (h : wf.OK) (a : List (PyVal F)) (k : KwArgs F) (kwargs : List (String × Val F)) (s : S)
    (acc : List (Item F)) :
    ∃ wf', wf'.OK ∧ wf'.df = wf.df ∧ ∃ r, termsFrom (wf.df.withState S) a k (uncKw kwargs) s = (s, r) ∧
      kwTerms a k kwargs wf acc = (wf', r.map fun l => termsOf l ++ acc) := by
  induction kwargs generalizing wf acc with
  | nil => exact ⟨wf, h, rfl, .ok [], rfl, rfl⟩
  | cons p kwargs ih =>
    obtain ⟨name, v⟩ := p
    cases v with
    | plain v => exact ih h acc
    | unc u =>
      obtain ⟨wf1, h1, h2, h3⟩ := Wrapped.kwDeriv_ok h name
      simp only [kwTerms, h1, uncKw, termsFrom, List.map_cons, inOrder, spec_withState_kw]
      cases wf.df.specKw name a k with
      | error e => exact ⟨wf1, h2, h3, .error e, rfl, rfl⟩
      | ok c =>
        obtain ⟨wf2, a1, a2, r, a3, a4⟩ := ih h2 (.pair c u.lin :: acc)
        rw [h3, termsFrom] at a3
        simp only [a3, a4]
        cases r with
        | error e => exact ⟨wf2, a1, a2.trans h3, .error e, rfl, rfl⟩
        | ok l => exact ⟨wf2, a1, a2.trans h3, .ok ((u, c) :: l), rfl, by simp [Except.map, termsOf]⟩

theorem callTerms_withState {wf : Wrapped F} (h : wf.OK) {ewf : EWrapped S F} (he : ewf.OK) (hd : ewf.df = wf.df.withState S)
    (args : List (Val F)) (kwargs : List (String × Val F)) (s : S) :
    (callE ewf args kwargs s).2 = (s, (callTerms wf args kwargs).2) := by
  unfold callE callTerms
  have hf : ∀ a k, ewf.df.f a k s = (s, wf.df.f a k) := fun a k => by rw [hd]; rfl
  simp only [hf]
  generalize hb : (args.all (fun a => !a.isUnc) && kwargs.all (fun p => !p.2.isUnc)) = b
  cases hv : wf.df.f (args.map Val.nominal) (kwargs.map fun p => (p.1, p.2.nominal)) with
  | error e => cases b <;> rfl
  | ok v =>
    cases b with
    | true => rfl
    | false =>
      simp only [Bool.false_eq_true, if_false]
      by_cases hl : v.floatLike = true
      swap
      · simp only [hl]; rfl
      simp only [hl, Bool.not_true, if_false, Bool.false_eq_true]
      obtain ⟨w1, a1, a2, r1, a3, a4⟩ := posTerms_withState h (args.map Val.nominal) (kwargs.map fun p => (p.1, p.2.nominal)) 0 args s []
      obtain ⟨e1, b1, b2, b3⟩ := posTermsE_ok he (args.map Val.nominal) (kwargs.map fun p => (p.1, p.2.nominal)) 0 args s []
      rw [hd, a3] at b3
      rw [a4, b3]
      cases r1 with
      | error e => rfl
      | ok l1 =>
        simp only [Except.map]
        obtain ⟨w2, c1, c2, r2, c3, c4⟩ := kwTerms_withState a1 (args.map Val.nominal) (kwargs.map fun p => (p.1, p.2.nominal)) kwargs s
          (termsOf l1 ++ [])
        obtain ⟨e2, d1, d2, d3⟩ := kwTermsE_ok b1 (args.map Val.nominal) (kwargs.map fun p => (p.1, p.2.nominal)) kwargs s
          (termsOf l1 ++ [])
        rw [b2, hd, ← a2, c3] at d3
        rw [c4, d3]
        cases r2 with
        | error e => rfl
        | ok l2 =>
          simp only [Except.map]
          cases v.toFloat <;> rfl

end

/-- **C96**, functions without side effects: the model of the other properties (`callTerms`, after any program) is this one, for
functions that do not use the state. -/
theorem C96_pure {S F : Type} [PyMath F] [Halts F] (cs : List (Cmd F)) (f : Nat) (df : WrapDef F) (hf : (fnsOf cs)[f]? = some df)
    (history : List ((List (Val F) × List (String × Val F)) × S)) (hh : ∀ c ∈ history, (c.1.2.map Prod.fst).Nodup)
    (args : List (Val F)) (kwargs : List (String × Val F)) (s : S) :
    ∃ wf, (after cs).w.wraps[f]? = some wf ∧
      (callE (callsE history (mkWrappedE (df.withState S))) args kwargs s).2 = (s, (callTerms wf args kwargs).2) := by
  rw [← fnsOf_after, List.getElem?_map, Option.map_eq_some_iff] at hf
  obtain ⟨wf, h1, rfl⟩ := hf
  have hok := (MShape.after cs).shape.wraps f wf h1
  obtain ⟨a1, a2⟩ := callsE_ok history (mkWrappedE_ok (wf.df.withState S)) hh
  exact ⟨wf, h1, callTerms_withState hok a1 (by rw [a2, mkWrappedE_df]) args kwargs s⟩

/-! ### Example: a function that counts its calls, and returns a value that depends on their number -/

/-- `def f(a, b, c=None): global n; n += 1; return 100*n + a + b`; the state is `n`. It raises an exception at the 5th call. -/
def exCounter : EWrapDef Nat ZN where
  f a _ n :=
    if n = 4 then (n + 1, .error .valueError)
    else match a with
      | .flt x :: .flt y :: _ => (n + 1, .ok (.flt (.fin (100 * (n + 1)) + x + y)))
      | _ => (n + 1, .ok (.other 0))
  derivativesArgs i := if i = 0 then some fun _ _ n => (n, .ok (.fin n)) else none
  derivativesKwargs := []
  argspec := none

/-- `wrap(lambda x: 2*x)` -/
def exWrapPure : WrapDef ZN where
  f a _ := match a with
    | [.flt x] => .ok (.flt (x + x))
    | _ => .error .typeError
  derivativesArgs := .finite []
  derivativesKwargs := []
  argspec := some ["x"]
  argspecNodup := by rintro _ ⟨⟩; simp

def exA : UF ZN := { nom := .fin 5, lin := 0, var := some 0 }
def exB : UF ZN := { nom := .fin 7, lin := 1, var := some 1 }

/-- The first call of the wrapped function, with two numbers with uncertainty and a list: 3 calls of the function, and 1 of the
given derivative. The nominal value is that of the first call; the coefficient of `b` comes from the two last calls. -/
example :
    let r := callE (callsE [] (mkWrappedE exCounter)) [.unc exA, .unc exB, .plain (.other 3)] [] 0
    r.2.1 = 3 ∧ r.2.2 = .ok (.inr (.fin 112, [.pair (.fin (-6)) 1, .pair (.fin 1) 0])) := by
  decide

/-- The second call, after the first one: the function raises an exception at its second call, for the derivative with respect
to `b`; there is no other call. -/
example :
    let r := callE (callsE [(([.unc exA, .unc exB, .plain (.other 3)], []), 0)] (mkWrappedE exCounter)) [.unc exA, .unc exB] [] 3
    r.2.1 = 5 ∧ r.2.2 = .error .valueError := by
  decide

/-- A list is returned: `NotImplemented`, after a single call. -/
example :
    let r := callE (mkWrappedE exCounter) [.unc exA] [] 0
    r.2.1 = 1 ∧ r.2.2 = .ok (.inl .notImpl) := by
  decide

example : (expectedCalls exCounter [.unc exA, .unc exB, .plain (.other 3)] []).map (fun c => (c.isFunction, c.args.1)) =
    [(true, [.flt (.fin 5), .flt (.fin 7), .other 3]), (false, [.flt (.fin 5), .flt (.fin 7), .other 3]),
     (true, [.flt (.fin 5), .flt (.fin 14), .other 3]), (true, [.flt (.fin 5), .flt (.fin 0), .other 3])] := by
  decide

/-- The calls of the second example, with the exception: 3 of the 4 expected calls. -/
example :
    let r := callE (callsE [(([.unc exA, .unc exB], []), (0, []))] (mkWrappedE exCounter.noted)) [.unc exA, .unc exB] [] (3, [])
    r.2.1.2.map (fun c => (c.1.isFunction, c.1.args.1, c.2)) =
      [(true, [.flt (.fin 5), .flt (.fin 7)], none), (false, [.flt (.fin 5), .flt (.fin 7)], none),
       (true, [.flt (.fin 5), .flt (.fin 14)], some .valueError)] := by
  decide

/-- The hypotheses of `C96_calls` and of `C96_arguments`, with a keyword argument. -/
example := C96_calls exCounter [(([.unc exA, .unc exB], []), (0, []))] (by simp) [.unc exA] [("b", .unc exB)] (by simp) 0
example := C96_arguments exCounter [.unc exA] [("b", .unc exB), ("c", .plain (.other 1))] (by simp)

/-- A function without side effects, in a program that calls it. -/
example : ∃ wf, (after [.wrap exWrapPure, .ufloat (.fin 3) (.fin 1) none, .call (fnsOf ([] : List (Cmd ZN))).length [.ref 0] []]).w.wraps[
    (fnsOf ([] : List (Cmd ZN))).length]? = some wf := by
  obtain ⟨wf, h, -⟩ := C96_pure (S := Nat) [.wrap exWrapPure, .ufloat (.fin 3) (.fin 1) none,
    .call (fnsOf ([] : List (Cmd ZN))).length [.ref 0] []] (fnsOf ([] : List (Cmd ZN))).length exWrapPure rfl [] (by simp) [] [] 0
  exact ⟨wf, h⟩

end Unc
