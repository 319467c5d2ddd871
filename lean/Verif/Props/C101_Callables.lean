import Verif.Spec.Callables
import Verif.Props.C19_Wrap

/-
C101: wrapping of any callable.
-/

namespace Unc

set_option autoImplicit false

section
variable {F : Type} [PyMath F] [Halts F] [ExactLin F]

/-- **C101** (partial: functions only), after any history: the wrapped version of a function, or of any other callable with a name and
without bound parameter, follows the documentation of `wrap` for all calls. It has the name of the original function as its attribute
`name`. -/
theorem C101_functions_partial {c : PyCallable F} (hb : c.bound = none) {name : String} (hn : c.name = some name) (da : DSource F)
    (dk : List (String × Option (DerivFn F))) (nd : (dk.map Prod.fst).Nodup) :
    ∃ df, wrapCallable c da dk nd = .ok (df, name) ∧
      ∀ (cs : List (Cmd F)) (f : Nat), (fnsOf cs)[f]? = some df →
        ∀ (args : List (Arg F)) (kwargs : List (String × Arg F)) (av : List (Seen F)) (kv : List (String × Seen F)),
          AllSeenAs cs args av → AllSeenAsKw cs kwargs kv →
          Results cs (.call f args kwargs) (docCall (c.asFunction da dk nd) av kv) := by
  have e : c.fullArgSpec = c.params := by
    unfold PyCallable.fullArgSpec
    rw [hb]
    cases c.params <;> rfl
  unfold wrapCallable
  simp only [hn]
  refine ⟨_, rfl, fun cs f hf args kwargs av kv ha hk => ?_⟩
  have := C19_call cs f _ hf args kwargs av kv ha hk
  convert this using 2
  unfold PyCallable.asFunction
  congr 1
  exact e.symm

omit [PyMath F] [Halts F] [ExactLin F] in
theorem docPosTerms_asFunction [PyFloat F] {df df' : WrapDef F} (hf : df.f = df'.f) (hd : df.derivativesArgs = df'.derivativesArgs)
    (av : List (PyVal F)) (kv : KwArgs F) : ∀ (i : Nat) (args : List (Seen F)),
      docPosTerms df av kv i args = docPosTerms df' av kv i args := by
  have e : ∀ i, df.specPos i = df'.specPos i := fun i => by simp only [WrapDef.specPos, hf, hd]
  intro i args
  induction args generalizing i with
  | nil => rfl
  | cons a args ih =>
    obtain ⟨v, D⟩ := a
    cases D <;> simp only [docPosTerms, ih, e]

omit [PyMath F] [Halts F] [ExactLin F] in
theorem docKwTerms_plain [PyFloat F] (df df' : WrapDef F) (av : List (PyVal F)) (kv : KwArgs F) (kwargs : List (String × Seen F))
    (h : ∀ p ∈ kwargs, p.2.2 = none ∨ df.specKw p.1 = df'.specKw p.1) :
    docKwTerms df av kv kwargs = docKwTerms df' av kv kwargs := by
  induction kwargs with
  | nil => rfl
  | cons a kwargs ih =>
    obtain ⟨k, v, D⟩ := a
    have h1 := ih fun p hp => h p (List.mem_cons_of_mem _ hp)
    have h2 := h _ List.mem_cons_self
    cases D with
    | none => simp only [docKwTerms, h1]
    | some D =>
      have h2 : df.specKw k = df'.specKw k := by simpa using h2
      simp only [docKwTerms, h1, h2]

omit [Halts F] [ExactLin F] in
theorem docCall_asFunction {df df' : WrapDef F} (hf : df.f = df'.f) (hd : df.derivativesArgs = df'.derivativesArgs)
    {av : List (Seen F)} {kv : List (String × Seen F)} (h : ∀ p ∈ kv, p.2.2 = none ∨ df.specKw p.1 = df'.specKw p.1) :
    docCall df av kv = docCall df' av kv := by
  simp only [docCall, hf, docPosTerms_asFunction hf hd, docKwTerms_plain df df' _ _ kv h]

/-- **C101** (partial: arguments with an uncertainty given by position), after any history: the wrapped version of any callable with a
name (methods and classes included) follows the documentation of `wrap` for the calls where no keyword argument has an uncertainty. -/
theorem C101_positions_partial {c : PyCallable F} {name : String} (hn : c.name = some name) (da : DSource F)
    (dk : List (String × Option (DerivFn F))) (nd : (dk.map Prod.fst).Nodup) :
    ∃ df, wrapCallable c da dk nd = .ok (df, name) ∧
      ∀ (cs : List (Cmd F)) (f : Nat), (fnsOf cs)[f]? = some df →
        ∀ (args : List (Arg F)) (kwargs : List (String × Arg F)) (av : List (Seen F)) (kv : List (String × Seen F)),
          AllSeenAs cs args av → AllSeenAsKw cs kwargs kv → (∀ p ∈ kv, p.2.2 = none) →
          Results cs (.call f args kwargs) (docCall (c.asFunction da dk nd) av kv) := by
  unfold wrapCallable
  simp only [hn]
  refine ⟨_, rfl, fun cs f hf args kwargs av kv ha hk hp => ?_⟩
  have := C19_call cs f _ hf args kwargs av kv ha hk
  refine Eq.mp (congrArg (Results cs (.call f args kwargs)) (docCall_asFunction ?_ ?_ fun p h => .inl (hp p h))) this <;> rfl

/-- **C101** (partial: numerical derivatives), after any history: if no derivative is given to `wrap`, the wrapped version of any
callable with a name (methods and classes included) follows the documentation of `wrap` for all calls. -/
theorem C101_numerical_partial {c : PyCallable F} {name : String} (hn : c.name = some name) :
    ∃ df, wrapCallable c (.finite []) [] (by simp) = .ok (df, name) ∧
      ∀ (cs : List (Cmd F)) (f : Nat), (fnsOf cs)[f]? = some df →
        ∀ (args : List (Arg F)) (kwargs : List (String × Arg F)) (av : List (Seen F)) (kv : List (String × Seen F)),
          AllSeenAs cs args av → AllSeenAsKw cs kwargs kv →
          Results cs (.call f args kwargs) (docCall (c.asFunction (.finite []) [] (by simp)) av kv) := by
  unfold wrapCallable
  simp only [hn]
  refine ⟨_, rfl, fun cs f hf args kwargs av kv ha hk => ?_⟩
  have := C19_call cs f _ hf args kwargs av kv ha hk
  have num : ∀ (df : WrapDef F), df.derivativesArgs = .finite [] → df.derivativesKwargs = [] → ∀ k,
      df.specKw k = partialDerivative df.f (.kw k) := by
    intro df h1 h2 k
    simp only [WrapDef.specKw, WrapDef.specParam, WrapDef.specKeyword, h1, h2]
    split
    · rfl
    · split <;> rfl
  refine Eq.mp (congrArg (Results cs (.call f args kwargs)) (docCall_asFunction ?_ ?_ fun p _ => .inr ?_)) this
  · rfl
  · rfl
  · rw [num _ rfl rfl, num _ rfl rfl]
    rfl

end

/-! ### What is missing: bound methods, classes, and callables without name -/

/-- For a bound method (or a class), the derivative that is used for the parameter number `i`, when it is given by keyword, is the one
given to `wrap` for the parameter number `i + 1`. -/
theorem C101_methods_shifted {F : Type} [PyFloat F] {c : PyCallable F} {self : String} (hb : c.bound = some self) {l : List String}
    (hl : c.params = some l) {name : String} (hn : c.name = some name) (da : DSource F) (dk : List (String × Option (DerivFn F)))
    (nd : (dk.map Prod.fst).Nodup) {i : Nat} {k : String} (hk : l[i]? = some k) :
    ∃ df, wrapCallable c da dk nd = .ok (df, name) ∧ df.specKw k = (c.asFunction da dk nd).specParam (i + 1) k ∧
      (c.asFunction da dk nd).specKw k = (c.asFunction da dk nd).specParam i k := by
  have nodup := c.nodup l hl
  rw [hb] at nodup
  have hi : ∀ (m : List String) (j : Nat), m.Nodup → m[j]? = some k → m.idxOf? k = some j := by
    intro m j hm hj
    rw [List.idxOf?_eq_some_iff]
    obtain ⟨h1, h2⟩ := List.getElem?_eq_some_iff.1 hj
    refine ⟨h1, h2, fun j' hj' e => ?_⟩
    have := (List.Nodup.getElem_inj_iff hm (i := j') (j := j) (hi := by omega) (hj := h1)).1 (by rw [h2]; simpa using e)
    omega
  unfold wrapCallable
  simp only [hn]
  refine ⟨_, rfl, ?_, ?_⟩
  · simp only [WrapDef.specKw, PyCallable.fullArgSpec, hl, hb, Option.map_some]
    rw [hi _ (i + 1) nodup (by simpa using hk)]
    rfl
  · simp only [WrapDef.specKw, PyCallable.asFunction, hl]
    rw [hi _ i (List.nodup_append.1 nodup).2.1 hk]

/-- A bound method: m(self, x, y) = x + 10*y. -/
def exMethod : PyCallable ZN where
  call
    | [.flt x, .flt y], [] => .ok (.flt (x + .fin 10 * y))
    | [], [("x", .flt x), ("y", .flt y)] => .ok (.flt (x + .fin 10 * y))
    | _, _ => .error .typeError
  params := some ["x", "y"]
  bound := some "self"
  name := some "m"

/-- The derivatives of the method with respect to x and y. -/
def exMethodDerivs : DSource ZN := .finite [some fun _ _ => .ok (.fin 1), some fun _ _ => .ok (.fin 10)]

def exMethodDef : WrapDef ZN :=
  ⟨exMethod.call, exMethodDerivs, [], some ["self", "x", "y"], by simp, by rintro _ ⟨⟩; simp⟩

/-- `m = wrap(obj.m, [dx, dy]); u = ufloat(3, 1); m(u, 5); m(x=u, y=5)` -/
def exMethodCs : List (Cmd ZN) :=
  [.wrap exMethodDef, .ufloat (.fin 3) (.fin 1) none, .call 18 [.ref 0, .const (.flt (.fin 5))] [],
   .call 18 [] [("x", .ref 0), ("y", .const (.flt (.fin 5)))]]

/-- The code does not have the property, for bound methods: with the right derivatives of m(x, y) = x + 10*y, which are 1 and 10,
`m(x=u, y=5)` silently has the derivative 10 with respect to u, instead of 1 (which `m(u, 5)` has). -/
theorem C101_fails_methods :
    wrapCallable exMethod exMethodDerivs [] (by simp) = .ok (exMethodDef, "m") ∧
    (fnsOf exMethodCs)[18]? = some exMethodDef ∧
    SeenAs exMethodCs (.ref 1) (.flt (.fin 53), some fun v => [(0, ZN.fin 1)].lookup v) ∧
    SeenAs exMethodCs (.ref 2) (.flt (.fin 53), some fun v => [(0, ZN.fin 10)].lookup v) ∧
    ∃ D, docCall (exMethod.asFunction exMethodDerivs [] (by simp))
      [] [("x", (.flt (.fin 3), some (Lin.single 0))), ("y", (.flt (.fin 5), none))] = .ok (.flt (.fin 53), some D) ∧
      D 0 = some (.fin 1) :=
  ⟨rfl, rfl, ⟨rfl, rfl⟩, ⟨rfl, rfl⟩, _, rfl, rfl⟩

/-- The code does not have the property, for callables without name (`functools.partial` objects, instances of classes that define
`__call__`): they cannot be wrapped. -/
theorem C101_fails_unnamed {F : Type} {c : PyCallable F} (hn : c.name = none) (da : DSource F) (dk : List (String × Option (DerivFn F)))
    (nd : (dk.map Prod.fst).Nodup) : wrapCallable c da dk nd = .error .attributeError := by
  unfold wrapCallable
  simp only [hn]

/-- `functools.partial(m, 0)`, which cannot be wrapped. -/
example : ∃ c : PyCallable ZN, c.name = none ∧ c.params = some ["x"] :=
  ⟨⟨fun _ _ => .ok (.flt (.fin 0)), some ["x"], none, none, by rintro _ ⟨⟩; simp⟩, rfl, rfl⟩

/-- A function without bound parameter: `lambda x, y: obj.m(x, y)`, for which all calls are as documented. -/
def exLambda : PyCallable ZN := { exMethod with bound := none, name := some "<lambda>", nodup := by rintro _ ⟨⟩; simp }

example : exLambda.bound = none ∧ exLambda.name = some "<lambda>" ∧ exMethod.bound = some "self" ∧ exMethod.name = some "m" :=
  ⟨rfl, rfl, rfl, rfl⟩

/-- `m(x=u, y=5)` where m is the wrapped version of this function: the derivative is 1. -/
example : ∃ df, wrapCallable exLambda exMethodDerivs [] (by simp) = .ok (df, "<lambda>") ∧
    Results (exMethodCs ++ [.wrap df]) (.call 19 [] [("x", .ref 0), ("y", .const (.flt (.fin 5)))])
      (docCall (exLambda.asFunction exMethodDerivs [] (by simp)) []
        [("x", (.flt (.fin 3), some fun v => [(0, ZN.fin 1)].lookup v)), ("y", (.flt (.fin 5), none))]) := by
  obtain ⟨df, h1, h2⟩ := C101_functions_partial (c := exLambda) rfl rfl exMethodDerivs [] (by simp)
  refine ⟨df, h1, ?_⟩
  cases h1
  exact h2 _ 19 rfl _ _ _ _ trivial ⟨rfl, ⟨rfl, rfl⟩, rfl, ⟨rfl, rfl⟩, trivial⟩

end Unc
