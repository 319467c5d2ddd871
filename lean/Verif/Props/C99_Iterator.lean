import Verif.Lemmas.IteratorCalls
import Verif.Py.ZN

/-
C99: derivatives given to `wrap` by an iterator (generator...): which elements are asked for, when, and which ones are used. The
vocabulary is in `Spec/Iterator.lean`. The iterator writes down its answers, which changes nothing else (`C99_noted`).
-/

namespace Unc

set_option autoImplicit false

section
variable {S I F : Type} [PyFloat F]

/-- **C99**, `wrap`: it asks for at most one derivative per positional parameter of the function, and for none if the function has no
signature; when the wrapped function is made, the elements for these parameters have been given, or the iterator has ended. An exception of the iterator is not caught; else, the wrapped function is made. -/
theorem C99_wrap (df : IWrapDef S I F) (i : I) :
    let r := mkWrappedI df.noted (i, [])
    let answers := r.1.2
    (elementsOf answers).length ≤ (df.argspec.getD []).length ∧ (df.argspec = none → r.1 = (i, [])) ∧
    ((NoException answers ∧ (∃ wf, r.2 = .ok wf) ∧ ((elementsOf answers).length = (df.argspec.getD []).length ∨ .stop ∈ answers)) ∨
      ∃ A e, NoException A ∧ answers = A ++ [.raise e] ∧ r.2 = .error e) := by
  obtain ⟨i', M, r, a1, a2, a3, a4⟩ := mkWrappedI_ok df i
  rw [a1]
  refine ⟨a3, fun h => ?_, ?_⟩
  · simp only [mkWrappedI, IWrapDef.noted, h] at a1
    have := congrArg Prod.fst a1
    exact this.symm
  · cases r with
    | error e => cases a2 with | failed M0 _ h0 hM => exact .inr ⟨M0, e, h0, hM, rfl⟩
    | ok wf =>
      have hok := a4 wf rfl
      cases a2 with
      | fine h =>
        refine .inl ⟨h, ⟨wf, rfl⟩, ?_⟩
        cases he : wf.iter.ended with
        | false =>
          have h1 := (hok.iter.running he).1
          have h2 := hok.names
          exact .inl (by show (elementsOf M).length = _; omega)
        | true => exact .inr (hok.iter.stopped he)

/-- **C99**, calls: after any history of calls, whatever the iterator answers and whatever the program does to it between the calls, a
call of the wrapped function does what it would do if `derivatives_args` was the list of the elements that the iterator has given so
far, in the order in which it has given them (see C96); if it returns a number with uncertainty, the iterator has given an element
for each positional argument with an uncertainty, or it has ended — unless the iterator raises an exception during the call: then this exception leaves the
call, and it is the last request. -/
theorem C99_result (df : IWrapDef S I F) (i0 : I) (j0 : I × List (NextRes (EDeriv S F)))
    (wf : IWrapped S (I × List (NextRes (EDeriv S F))) F) (hw : mkWrappedI df.noted (i0, []) = (j0, .ok wf)) (history : List (ICall S I F))
    (hh : ∀ c ∈ history, (c.kwargs.map Prod.fst).Nodup) (args : List (Val F)) (kwargs : List (String × Val F))
    (hk : (kwargs.map Prod.fst).Nodup) (s : S) (i : I) :
    let w := callsI (history.map ICall.noted) wf j0
    let r := callI w.1 args kwargs s (i, w.2.2)
    let answers := r.2.2.1.2
    ∃ new, answers = w.2.2 ++ new ∧
      ((NoException new ∧
        r.2.1 = (documentedCall (df.withList (elementsOf answers)) args kwargs s).1 ∧
        match (documentedCall (df.withList (elementsOf answers)) args kwargs s).2 with
        | .error e => r.2.2.2 = .error e
        | .ok (.inl v) => r.2.2.2 = .ok (.inl v)
        | .ok (.inr (x, l)) => r.2.2.2 = .ok (.inr (x, termsOf l)) ∧
          ∀ j u, args[j]? = some (.unc u) → j < (elementsOf answers).length ∨ .stop ∈ answers) ∨
      ∃ A e, NoException A ∧ new = A ++ [.raise e] ∧ r.2.2.2 = .error e) := by
  obtain ⟨i', M0, r0, a1, a2, a3, a4⟩ := mkWrappedI_ok df i0
  rw [hw] at a1
  cases a1
  obtain ⟨wf1, i1, M1, b1, b2, -⟩ := callsI_ok history (a4 wf rfl) hh i'
  obtain ⟨wf2, s2, i2, M2, r, c1, c2, c3, c4, c6, c5⟩ := callI_ok b2 args kwargs hk s i
  simp only [b1, c1]
  refine ⟨M2, rfl, ?_⟩
  rcases c5 with ⟨x1, x2, x3⟩ | ⟨A, e, x1, x2, x3⟩
  · refine .inl ⟨x1, x2, ?_⟩
    rw [x3]
    rcases hd : (documentedCall (df.withList (elementsOf (M0 ++ M1 ++ M2))) args kwargs s).2 with e | v | ⟨x, l⟩
    · rfl
    · rfl
    · refine ⟨rfl, fun j u hj => ?_⟩
      rw [hd] at x3
      have hlt := c6 (x, termsOf l) x3 j u hj
      cases he : wf2.iter.ended with
      | false => exact .inl (by rw [← (c2.iter.running he).1]; exact hlt)
      | true => exact .inr (c2.iter.stopped he)
  · exact .inr ⟨A, e, x1, x2, x3⟩

/-- **C99**, requests: they are made as late as possible, and each element is asked for only once. If all the arguments with an uncertainty of
the history are at positions smaller than `n`, and the function has at most `n` positional parameters, then at most `n` elements
have been obtained; a call whose arguments with an uncertainty are at positions for which the element is known does not ask
for anything; and an iterator that has ended is never asked again. -/
theorem C99_requests (df : IWrapDef S I F) (i0 : I) (j0 : I × List (NextRes (EDeriv S F)))
    (wf : IWrapped S (I × List (NextRes (EDeriv S F))) F) (hw : mkWrappedI df.noted (i0, []) = (j0, .ok wf)) (history : List (ICall S I F))
    (hh : ∀ c ∈ history, (c.kwargs.map Prod.fst).Nodup) (args : List (Val F)) (kwargs : List (String × Val F))
    (hk : (kwargs.map Prod.fst).Nodup) (s : S) (i : I) :
    let w := callsI (history.map ICall.noted) wf j0
    let r := callI w.1 args kwargs s (i, w.2.2)
    let answers := r.2.2.1.2
    (∀ n, (df.argspec.getD []).length ≤ n → (∀ c ∈ history, ∀ j u, c.args[j]? = some (.unc u) → j < n) →
      (∀ j u, args[j]? = some (.unc u) → j < n) → (elementsOf answers).length ≤ n) ∧
    ((∀ j u, args[j]? = some (.unc u) → j < (elementsOf w.2.2).length) → r.2.2.1 = (i, w.2.2)) ∧
    (∀ A B, answers = A ++ .stop :: B → B = []) := by
  obtain ⟨i', M0, r0, a1, a2, a3, a4⟩ := mkWrappedI_ok df i0
  rw [hw] at a1
  cases a1
  obtain ⟨wf1, i1, M1, b1, b2, b3⟩ := callsI_ok history (a4 wf rfl) hh i'
  obtain ⟨wf2, s2, i2, M2, r, c1, c2, c3, c4, c6, c5⟩ := callI_ok b2 args kwargs hk s i
  simp only [b1, c1]
  refine ⟨fun n hn h1 h2 => ?_, fun h => ?_, c2.iter.last⟩
  · have := b3 n h1
    have := c3 n h2
    omega
  · obtain ⟨x1, x2⟩ := c4 fun j u hj => Nat.lt_of_lt_of_le (h j u hj) b2.iter.le
    rw [x1, x2, List.append_nil]

end

/-! ### Writing down the answers changes nothing else -/

section
variable {I D : Type}

theorem next_noted (src : Source I D) (it : IIter D) (i : I) (R : List (NextRes D)) :
    ∃ R', it.next (notedSource src) (i, R) = ((it.next src i).1, ((it.next src i).2.1, R'), (it.next src i).2.2) := by
  unfold IIter.next notedSource
  cases it.ended with
  | true => exact ⟨R, rfl⟩
  | false =>
    rcases h : src i with ⟨i', _ | e | d⟩ <;> exact ⟨_, by simp only [Bool.false_eq_true, if_false]; rfl⟩

theorem fetchMany_noted (src : Source I D) (pos n : Nat) (it : IIter D) (i : I) (R : List (NextRes D)) :
    ∃ R', IIter.fetchMany (notedSource src) pos n it (i, R) =
      ((IIter.fetchMany src pos n it i).1, ((IIter.fetchMany src pos n it i).2.1, R'), (IIter.fetchMany src pos n it i).2.2) := by
  induction n generalizing pos it i R with
  | zero => exact ⟨R, rfl⟩
  | succ n ih =>
    obtain ⟨R1, h1⟩ := next_noted src it i R
    rcases h : it.next src i with ⟨it1, i1, e | v⟩
    · exact ⟨R1, by simp only [IIter.fetchMany, h1, h]⟩
    · rw [h] at h1
      cases v with
      | none =>
        obtain ⟨R2, h2⟩ := ih (pos + 1) { it1 with returnedElements := it1.returnedElements ++ [it1.noneConverter pos] } i1 R1
        exact ⟨R2, by simp only [IIter.fetchMany, h1, h]; exact h2⟩
      | some d =>
        obtain ⟨R2, h2⟩ := ih (pos + 1) { it1 with returnedElements := it1.returnedElements ++ [some d] } i1 R1
        exact ⟨R2, by simp only [IIter.fetchMany, h1, h]; exact h2⟩

theorem getItem_noted (src : Source I D) (it : IIter D) (index : Nat) (i : I) (R : List (NextRes D)) :
    ∃ R', it.getItem (notedSource src) index (i, R) =
      ((it.getItem src index i).1, ((it.getItem src index i).2.1, R'), (it.getItem src index i).2.2) := by
  unfold IIter.getItem
  cases it.returnedElements[index]? with
  | some e => exact ⟨R, rfl⟩
  | none =>
    obtain ⟨R1, h1⟩ := fetchMany_noted src it.returnedElements.length (index + 1 - it.returnedElements.length) it i R
    rcases h : IIter.fetchMany src it.returnedElements.length (index + 1 - it.returnedElements.length) it i with ⟨it1, i1, e | u⟩
    · exact ⟨R1, by simp only [h1, h]⟩
    · refine ⟨R1, ?_⟩
      simp only [h1, h]
      cases it1.returnedElements[index]? <;> rfl

theorem initArgspecI_noted (src : Source I D) (num : ArgRef → D) (index : Nat) (names : List String) (it : IIter D)
    (kw : List (String × D)) (i : I) (R : List (NextRes D)) :
    ∃ R', initArgspecI (notedSource src) num index names it kw (i, R) =
      (((initArgspecI src num index names it kw i).1, R'), (initArgspecI src num index names it kw i).2) := by
  induction names generalizing index it kw i R with
  | nil => exact ⟨R, rfl⟩
  | cons n names ih =>
    obtain ⟨R1, h1⟩ := getItem_noted src it index i R
    rcases h : it.getItem src index i with ⟨it1, i1, e | _ | d⟩
    · exact ⟨R1, by simp only [initArgspecI, h1, h]⟩
    · obtain ⟨R2, h2⟩ := ih (index + 1) it1 (setKw kw n (num (.kw n))) i1 R1
      exact ⟨R2, by simp only [initArgspecI, h1, h]; exact h2⟩
    · obtain ⟨R2, h2⟩ := ih (index + 1) it1 (setKw kw n d) i1 R1
      exact ⟨R2, by simp only [initArgspecI, h1, h]; exact h2⟩

end

section
variable {S I F : Type} [PyFloat F]

/-- The same wrapped function, with an iterator that writes down its answers. -/
def IWrapped.noted (wf : IWrapped S I F) : IWrapped S (I × List (NextRes (EDeriv S F))) F := ⟨wf.df.noted, wf.iter, wf.kw⟩

omit [PyFloat F] in
theorem posTermsI_noted (a : List (PyVal F)) (k : KwArgs F) (pos : Nat) (args : List (Val F)) (wf : IWrapped S I F) (s : S) (i : I)
    (R : List (NextRes (EDeriv S F))) (acc : List (Item F)) :
    let r := posTermsI a k pos args wf s i acc
    ∃ R', posTermsI a k pos args wf.noted s (i, R) acc = (r.1.noted, r.2.1, (r.2.2.1, R'), r.2.2.2) := by
  induction args generalizing pos wf s i R acc with
  | nil => exact ⟨R, rfl⟩
  | cons v args ih =>
    cases v with
    | plain v => exact ih (pos + 1) wf s i R acc
    | unc u =>
      obtain ⟨R1, h1⟩ := getItem_noted wf.df.source wf.iter pos i R
      have h1' : wf.noted.iter.getItem wf.noted.df.source pos (i, R) = _ := h1
      rcases h : wf.iter.getItem wf.df.source pos i with ⟨it1, i1, e | _ | d⟩
      · exact ⟨R1, by simp only [posTermsI, IWrapped.posDeriv, h1', h]; rfl⟩
      · exact ⟨R1, by simp only [posTermsI, IWrapped.posDeriv, h1', h]; rfl⟩
      · simp only [posTermsI, IWrapped.posDeriv, h1', h]
        rcases d a k s with ⟨s1, e | c⟩
        · exact ⟨R1, rfl⟩
        · exact ih (pos + 1) { wf with iter := it1 } s1 i1 R1 _

theorem kwTermsI_noted (a : List (PyVal F)) (k : KwArgs F) (kwargs : List (String × Val F)) (wf : IWrapped S I F) (s : S)
    (acc : List (Item F)) :
    let r := kwTermsI a k kwargs wf s acc
    kwTermsI a k kwargs wf.noted s acc = (r.1.noted, r.2.1, r.2.2) := by
  induction kwargs generalizing wf s acc with
  | nil => rfl
  | cons p kwargs ih =>
    obtain ⟨name, v⟩ := p
    cases v with
    | plain v => exact ih wf s acc
    | unc u =>
      have h1 : wf.noted.kwDeriv name = ((wf.kwDeriv name).1.noted, (wf.kwDeriv name).2) := by
        unfold IWrapped.kwDeriv
        show (match wf.kw.lookup name with | some d => _ | none => _) = _
        cases wf.kw.lookup name <;> rfl
      simp only [kwTermsI, h1]
      rcases (wf.kwDeriv name).2 a k s with ⟨s1, e | c⟩
      · rfl
      · exact ih (wf.kwDeriv name).1 s1 _

/-- **C99**: an iterator that writes down its answers does the same as the iterator, in `wrap` and in calls: same effects, same
results, same exceptions. -/
theorem C99_noted (df : IWrapDef S I F) (i : I) (wf : IWrapped S I F) (args : List (Val F)) (kwargs : List (String × Val F)) (s : S)
    (R : List (NextRes (EDeriv S F))) :
    (∃ R', mkWrappedI df.noted (i, R) = (((mkWrappedI df i).1, R'), (mkWrappedI df i).2.map IWrapped.noted)) ∧
    (let r := callI wf args kwargs s i
     ∃ R', callI wf.noted args kwargs s (i, R) = (r.1.noted, r.2.1, (r.2.2.1, R'), r.2.2.2)) := by
  constructor
  · have e1 : df.noted.argspec = df.argspec := rfl
    have e2 : df.noted.source = notedSource df.source := rfl
    have e3 : df.noted.f = df.f := rfl
    have e4 : df.noted.derivativesKwargs = df.derivativesKwargs := rfl
    unfold mkWrappedI
    rw [e1, e2, e3, e4]
    cases hs : df.argspec with
    | none => exact ⟨R, rfl⟩
    | some names =>
      obtain ⟨R1, h1⟩ := initArgspecI_noted df.source (partialDerivativeE df.f) 0 names
        { ended := false, returnedElements := [], noneConverter := fun _ => none } (initKwargsE (partialDerivativeE df.f) df.derivativesKwargs []) i R
      rcases h : initArgspecI df.source (partialDerivativeE df.f) 0 names { ended := false, returnedElements := [], noneConverter := fun _ => none }
        (initKwargsE (partialDerivativeE df.f) df.derivativesKwargs []) i with ⟨i1, e | ⟨it, kw⟩⟩
      · exact ⟨R1, by simp only [h1, h]; rfl⟩
      · exact ⟨R1, by simp only [h1, h]; rfl⟩
  · simp only [callI]
    have hf : wf.noted.df.f = wf.df.f := rfl
    rw [hf]
    split
    · rcases hv : wf.df.f (args.map Val.nominal) (kwargs.map fun p => (p.1, p.2.nominal)) s with ⟨s1, e | v⟩ <;> exact ⟨R, by simp only [hv]⟩
    · rcases hv : wf.df.f (args.map Val.nominal) (kwargs.map fun p => (p.1, p.2.nominal)) s with ⟨s1, e | v⟩
      · exact ⟨R, by simp only [hv]⟩
      · simp only [hv]
        split
        · exact ⟨R, rfl⟩
        · obtain ⟨R1, h1⟩ := posTermsI_noted (args.map Val.nominal) (kwargs.map fun p => (p.1, p.2.nominal)) 0 args wf s1 i R []
          rcases hp : posTermsI (args.map Val.nominal) (kwargs.map fun p => (p.1, p.2.nominal)) 0 args wf s1 i [] with ⟨wf2, s2, i2, e | acc⟩
          · rw [hp] at h1
            exact ⟨R1, by simp only [h1, hp]⟩
          · rw [hp] at h1
            simp only [h1, hp]
            have h2 := kwTermsI_noted (args.map Val.nominal) (kwargs.map fun p => (p.1, p.2.nominal)) kwargs wf2 s2 acc
            rcases hq : kwTermsI (args.map Val.nominal) (kwargs.map fun p => (p.1, p.2.nominal)) kwargs wf2 s2 acc with ⟨wf3, s3, e | acc2⟩
            · rw [hq] at h2
              exact ⟨R1, by simp only [h2, hq]⟩
            · rw [hq] at h2
              simp only [h2, hq]
              cases v.toFloat <;> exact ⟨R1, rfl⟩

end

/-! ### Generators -/

/-- A generator of derivatives of `a*b` that reads them from a file: it gives the first one, then the file cannot be read
(`raise OSError`). After an exception, a generator has ended. The state is the number of requests. -/
def brokenGenerator : Source Nat (EDeriv Unit ZN) := fun n =>
  (n + 1, if n = 0 then .item (some fun _ _ s => (s, .ok (.fin 1000))) else if n = 1 then .raise (.other 5) else .stop)

/-- `wrap(lambda *args: args[0]*args[1], brokenGenerator())` -/
def exBroken : IWrapDef Unit Nat ZN where
  f a _ s := match a with
    | [.flt x, .flt y] => (s, .ok (.flt (x * y)))
    | _ => (s, .error .typeError)
  source := brokenGenerator
  derivativesKwargs := []
  argspec := some []

/-- 5 ± … and 7 ± … -/
def iterA : UF ZN := { nom := .fin 5, lin := 0, var := some 0 }
def iterB : UF ZN := { nom := .fin 7, lin := 1, var := some 1 }

/-- The wrapped function. -/
def exBrokenWrapped : IWrapped Unit (Nat × List (NextRes (EDeriv Unit ZN))) ZN :=
  ⟨exBroken.noted, ⟨false, [], fun index => some (partialDerivativeE exBroken.f (.pos index))⟩, []⟩

theorem exBroken_wrap : mkWrappedI exBroken.noted (0, []) = ((0, []), .ok exBrokenWrapped) := rfl

/-- **C99**, generators that fail: the exception leaves the call, but the next call succeeds silently, with numerical derivatives
for this argument and for the next ones, since a generator that has raised an exception has ended. -/
theorem C99_generator_exception :
    let r1 := callI exBrokenWrapped [.unc iterA, .unc iterB] [] () (0, [])
    let r2 := callI r1.1 [.unc iterA, .unc iterB] [] () r1.2.2.1
    r1.2.2.2 = .error (.other 5) ∧ r2.2.2.2 = .ok (.inr (.fin 35, [.pair (.fin 5) 1, .pair (.fin 1000) 0])) := by
  decide +kernel

/-- The hypotheses of `C99_result` and `C99_requests`, with a history of two calls. -/
example := C99_result exBroken 0 _ exBrokenWrapped exBroken_wrap
  [⟨[.unc iterA, .unc iterB], [], (), id⟩, ⟨[.unc iterA, .plain (.flt (.fin 2))], [], (), fun n => n + 3⟩] (by simp) [.unc iterA, .unc iterB] []
  (by simp) () 7
example := C99_requests exBroken 0 _ exBrokenWrapped exBroken_wrap
  [⟨[.unc iterA, .unc iterB], [], (), id⟩, ⟨[.unc iterA, .plain (.flt (.fin 2))], [], (), fun n => n + 3⟩] (by simp) [.unc iterA, .unc iterB] []
  (by simp) () 7

/-- An infinite generator of derivatives, for a function with 2 positional parameters: `wrap` asks for 2 derivatives; the first call with a third
argument with an uncertainty asks for the third one; the next calls do not ask for anything. -/
def exEndless : IWrapDef Unit Nat ZN where
  f _ _ s := (s, .ok (.flt (.fin 1)))
  source n := (n + 1, .item (if n = 1 then none else some fun _ _ s => (s, .ok (.fin n))))
  derivativesKwargs := []
  argspec := some ["a", "b"]
  argspecNodup := by rintro _ ⟨⟩; simp

example : (match mkWrappedI exEndless 0 with
    | (n, .ok wf) =>
      let r1 := callI wf [.unc iterA, .unc iterB] [] () n
      let r2 := callI r1.1 [.unc iterA, .plain .notImpl, .unc iterB] [] () r1.2.2.1
      let r3 := callI r2.1 [.unc iterA, .unc iterA, .unc iterB] [] () r2.2.2.1
      decide (n = 2 ∧ r1.2.2.1 = 2 ∧ r2.2.2.1 = 3 ∧ r3.2.2.1 = 3 ∧
        r3.2.2.2 = .ok (.inr (.fin 1, [.pair (.fin 2) 1, .pair (.fin 0) 0, .pair (.fin 0) 0])))
    | _ => false) = true := by
  decide +kernel

end Unc
