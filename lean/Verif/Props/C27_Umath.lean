import Verif.Py.ZN
import Verif.Lemmas.DerivMath2
import Verif.Props.C23_Operators

/-
C27 (derivatives of the functions of umath), C28 (errors in derivatives), C29 (locally constant
functions), C30 (fsum, ldexp, modf).

The functions of umath are created by `wrap`: in a history, they are what `.wrap fn.wrapDef` creates.
-/

namespace Unc

set_option autoImplicit false
set_option linter.unusedSectionVars false

open NR Topology Filter

/-! ### Calls with one or two arguments -/

section
variable {F : Type} [PyMath F] [ExactLin F] [Halts F]

theorem call1_results {cs : List (Cmd F)} {f : Nat} {df : WrapDef F} (hf : (fnsOf cs)[f]? = some df)
    {a : Arg F} {x z c : F} {A : Lin F} (ha : SeenAs cs a (.flt x, some A))
    (hz : df.f [.flt x] [] = .ok (.flt z)) (hc : df.specPos 0 [.flt x] [] = .ok c) :
    Results cs (.call f [a] []) (.ok (.flt z, some (Lin.comb [(c, A)]))) := by
  have := C19_call cs f df hf [a] [] [(.flt x, some A)] [] ⟨ha, trivial⟩ trivial
  have e : docCall df [(.flt x, some A)] [] = .ok (.flt z, some (Lin.comb [(c, A)])) := by
    simp only [docCall, List.map_cons, List.map_nil, hz, ok_bind]
    rw [if_neg (by simp [anyUnc]), if_neg (by simp [PyVal.floatLike])]
    simp only [docPosTerms, hc, ok_bind, docKwTerms, PyVal.toFloat, List.append_nil]
  rwa [e] at this

theorem call2_results {cs : List (Cmd F)} {f : Nat} {df : WrapDef F} (hf : (fnsOf cs)[f]? = some df)
    {a b : Arg F} {x y z c0 c1 : F} {A B : Option (Lin F)} (ha : SeenAs cs a (.flt x, A))
    (hb : SeenAs cs b (.flt y, B)) (hu : A ≠ none ∨ B ≠ none)
    (hz : df.f [.flt x, .flt y] [] = .ok (.flt z))
    (h0 : A ≠ none → df.specPos 0 [.flt x, .flt y] [] = .ok c0)
    (h1 : B ≠ none → df.specPos 1 [.flt x, .flt y] [] = .ok c1) :
    Results cs (.call f [a, b] []) (.ok (.flt z, some (Lin.comb (term c0 A ++ term c1 B)))) := by
  have := C19_call cs f df hf [a, b] [] [(.flt x, A), (.flt y, B)] [] ⟨ha, hb, trivial⟩ trivial
  have e : docCall df [(.flt x, A), (.flt y, B)] [] =
      .ok (.flt z, some (Lin.comb (term c0 A ++ term c1 B))) := by
    simp only [docCall, List.map_cons, List.map_nil, hz, ok_bind]
    rw [if_neg (by cases A <;> cases B <;> simp [anyUnc] at hu ⊢), if_neg (by simp [PyVal.floatLike])]
    cases A with
    | none =>
      cases B with
      | none => simp at hu
      | some B =>
        simp only [docPosTerms, h1 (by simp), ok_bind, docKwTerms, PyVal.toFloat, List.append_nil, term,
          List.nil_append]
    | some A =>
      cases B with
      | none =>
        simp only [docPosTerms, h0 (by simp), ok_bind, docKwTerms, PyVal.toFloat, List.append_nil, term]
      | some B =>
        simp only [docPosTerms, h0 (by simp), h1 (by simp), ok_bind, docKwTerms, PyVal.toFloat,
          List.append_nil, term, List.cons_append, List.nil_append]
  rwa [e] at this

omit [ExactLin F] [Halts F] in
theorem MF1.specPos {fn : MF1} {D : F → PyRes F} (h : fn.deriv = some D) (x : F) :
    (fn.wrapDef : WrapDef F).specPos 0 [.flt x] [] = nanIfException (D x) := by
  simp [WrapDef.specPos, MF1.wrapDef, h, nanIfExceptionFn, lambda1]

omit [ExactLin F] [Halts F] in
theorem MF2.specPos0 {fn : MF2} {D0 D1 : F → F → PyRes F} (h0 : fn.deriv0 = some D0)
    (h1 : fn.deriv1 = some D1) (x y : F) :
    (fn.wrapDef : WrapDef F).specPos 0 [.flt x, .flt y] [] = nanIfException (D0 x y) := by
  simp [WrapDef.specPos, MF2.wrapDef, h0, h1, nanIfExceptionFn, lambda2]

omit [ExactLin F] [Halts F] in
theorem MF2.specPos1 {fn : MF2} {D0 D1 : F → F → PyRes F} (h0 : fn.deriv0 = some D0)
    (h1 : fn.deriv1 = some D1) (x y : F) :
    (fn.wrapDef : WrapDef F).specPos 1 [.flt x, .flt y] [] = nanIfException (D1 x y) := by
  simp [WrapDef.specPos, MF2.wrapDef, h0, h1, nanIfExceptionFn, lambda2]

omit [ExactLin F] [Halts F] in
theorem MF2.analytical {fn : MF2} (h : fn ≠ .fmod) :
    ∃ D0 D1 : F → F → PyRes F, fn.deriv0 = some D0 ∧ fn.deriv1 = some D1 := by
  cases fn with
  | fmod => exact absurd rfl h
  | _ => exact ⟨_, _, rfl, rfl⟩

omit [ExactLin F] [Halts F] in
theorem MF1.analytical {fn : MF1} (h : fn ≠ .gamma ∧ fn ≠ .lgamma) : ∃ D : F → PyRes F, fn.deriv = some D := by
  cases fn with
  | gamma => exact absurd rfl h.1
  | lgamma => exact absurd rfl h.2
  | _ => exact ⟨_, rfl⟩

end

/-! ### C27 -/

theorem MF1.func_ok {fn : MF1} {x z : ℝ} (h : fn.func (flts [x]) [] = .ok (.flt (fin z))) :
    mathReal fn x = .ok (fin z) := by
  have h' : (mathReal fn x).map PyVal.flt = .ok (.flt (fin z)) := h
  cases hm : mathReal fn x with
  | error e => rw [hm] at h'; cases h'
  | ok w => rw [hm] at h'; cases h'; rfl

theorem MF2.func_ok {fn : MF2} {x y z : ℝ} (h : fn.func (flts [x, y]) [] = .ok (.flt (fin z))) :
    mathReal2 fn x y = .ok (fin z) := by
  have h' : (mathReal2 fn x y).map PyVal.flt = .ok (.flt (fin z)) := h
  cases hm : mathReal2 fn x y with
  | error e => rw [hm] at h'; cases h'
  | ok w => rw [hm] at h'; cases h'; rfl

/-- **C27**: functions of one argument with an analytical derivative (all of acos, acosh, asin, asinh,
atan, atanh, cos, cosh, degrees, erf, erfc, exp, expm1, fabs, log10, log1p, radians, sin, sinh, sqrt,
tan, tanh). At every point where the function has a derivative `d`, the derivatives of `umath.fn(a)` are
`d` times those of `a`. -/
theorem C27_one_argument {cs : List (Cmd NR)} {f : Nat} {fn : MF1} (hf : (fnsOf cs)[f]? = some fn.wrapDef)
    (hfn : fn ≠ .gamma ∧ fn ≠ .lgamma) {a : Arg NR} {x z d : ℝ} {A : Lin NR}
    (ha : SeenAs cs a (.flt (fin x), some A)) (hz : fn.func (flts [x]) [] = .ok (.flt (fin z)))
    (hd : IsPartial fn.func [x] 0 d) :
    Results cs (.call f [a] []) (.ok (.flt (fin z), some (Lin.comb [(fin d, A)]))) := by
  obtain ⟨g, h1, h2⟩ := hd
  obtain ⟨D, e1, e2⟩ := MF1.deriv_true hfn (h1.mono fun t ht => MF1.func_ok ht) h2
  refine call1_results hf ha hz ?_
  have : D (fin x) = .ok (fin d) := e2
  rw [MF1.specPos e1, this]; rfl

/-- **C27**: functions of two arguments with analytical derivatives (atan2, copysign, hypot, pow), where
each argument is a plain float (`A` or `B` is `none`) or a number with uncertainty. -/
theorem C27_two_arguments {cs : List (Cmd NR)} {f : Nat} {fn : MF2} (hf : (fnsOf cs)[f]? = some fn.wrapDef)
    (hfn : fn ≠ .fmod) {a b : Arg NR} {x y z d0 d1 : ℝ} {A B : Option (Lin NR)}
    (ha : SeenAs cs a (.flt (fin x), A)) (hb : SeenAs cs b (.flt (fin y), B))
    (hu : A ≠ none ∨ B ≠ none) (hz : fn.func (flts [x, y]) [] = .ok (.flt (fin z)))
    (h0 : A ≠ none → IsPartial fn.func [x, y] 0 d0) (h1 : B ≠ none → IsPartial fn.func [x, y] 1 d1) :
    Results cs (.call f [a, b] [])
      (.ok (.flt (fin z), some (Lin.comb (term (fin d0) A ++ term (fin d1) B)))) := by
  obtain ⟨D0, D1, e0, e1⟩ := MF2.analytical (F := NR) hfn
  refine call2_results hf ha hb hu hz (fun h => ?_) (fun h => ?_)
  · obtain ⟨g, k1, k2⟩ := h0 h
    obtain ⟨D, m1, m2⟩ := MF2.deriv0_true hfn (x := x) (y := y) (g := g)
      (k1.mono fun t ht => MF2.func_ok ht) k2
    rw [m1] at e0; cases e0
    rw [MF2.specPos0 m1 e1, m2]; rfl
  · obtain ⟨g, k1, k2⟩ := h1 h
    obtain ⟨D, m1, m2⟩ := MF2.deriv1_true hfn (x := x) (y := y) (g := g)
      (k1.mono fun t ht => MF2.func_ok ht) k2
    rw [m1] at e1; cases e1
    rw [MF2.specPos1 e0 m1, m2]; rfl

theorem logFunc_ok1 {x z : ℝ} (h : logFunc (flts [x]) [] = .ok (.flt (fin z))) :
    PyOps.log (fin x) = .ok (fin z) := by
  have h' : (PyOps.log (fin x) : PyRes NR).map PyVal.flt = .ok (.flt (fin z)) := h
  cases hm : (PyOps.log (fin x) : PyRes NR) with
  | error e => rw [hm] at h'; cases h'
  | ok w => rw [hm] at h'; cases h'; rfl

theorem logFunc_ok2 {x b z : ℝ} (h : logFunc (flts [x, b]) [] = .ok (.flt (fin z))) :
    PyMath.logb (fin x) (fin b) = .ok (fin z) := by
  have h' : (PyMath.logb (fin x) (fin b) : PyRes NR).map PyVal.flt = .ok (.flt (fin z)) := h
  cases hm : (PyMath.logb (fin x) (fin b) : PyRes NR) with
  | error e => rw [hm] at h'; cases h'
  | ok w => rw [hm] at h'; cases h'; rfl

/-- **C27**: `umath.log(a)`. -/
theorem C27_log {cs : List (Cmd NR)} {f : Nat} (hf : (fnsOf cs)[f]? = some logWrapDef)
    {a : Arg NR} {x z d : ℝ} {A : Lin NR}
    (ha : SeenAs cs a (.flt (fin x), some A)) (hz : logFunc (flts [x]) [] = .ok (.flt (fin z)))
    (hd : IsPartial logFunc [x] 0 d) :
    Results cs (.call f [a] []) (.ok (.flt (fin z), some (Lin.comb [(fin d, A)]))) := by
  obtain ⟨g, h1, h2⟩ := hd
  have e := log_deriv_true (x := x) (g := g) (h1.mono fun t ht => logFunc_ok1 ht) h2
  refine call1_results hf ha hz ?_
  simp only [WrapDef.specPos, logWrapDef, List.getElem?_cons_zero, nanIfExceptionFn, e]
  rfl

/-- **C27**: `umath.log(a, b)`, where each argument is a plain float or a number with uncertainty. -/
theorem C27_log_base {cs : List (Cmd NR)} {f : Nat} (hf : (fnsOf cs)[f]? = some logWrapDef)
    {a b : Arg NR} {x y z d0 d1 : ℝ} {A B : Option (Lin NR)}
    (ha : SeenAs cs a (.flt (fin x), A)) (hb : SeenAs cs b (.flt (fin y), B))
    (hu : A ≠ none ∨ B ≠ none) (hz : logFunc (flts [x, y]) [] = .ok (.flt (fin z)))
    (h0 : A ≠ none → IsPartial logFunc [x, y] 0 d0) (h1 : B ≠ none → IsPartial logFunc [x, y] 1 d1) :
    Results cs (.call f [a, b] [])
      (.ok (.flt (fin z), some (Lin.comb (term (fin d0) A ++ term (fin d1) B)))) := by
  refine call2_results hf ha hb hu hz (fun h => ?_) (fun h => ?_)
  · obtain ⟨g, k1, k2⟩ := h0 h
    have e := logb_deriv0_true (x := x) (b := y) (g := g) (k1.mono fun t ht => logFunc_ok2 ht) k2
    simp only [WrapDef.specPos, logWrapDef, List.getElem?_cons_zero, nanIfExceptionFn, e]
    rfl
  · obtain ⟨g, k1, k2⟩ := h1 h
    have e := logb_deriv1_true (x := x) (b := y) (g := g) (k1.mono fun t ht => logFunc_ok2 ht) k2
    simp only [WrapDef.specPos, logWrapDef, List.getElem?_cons_zero, List.getElem?_cons_succ,
      nanIfExceptionFn, e]
    rfl

/-- Interior points of the domains where the functions of one argument are differentiable
(`Smooth1`): -1 < x < 1 for acos, asin and atanh, 1 < x for acosh, 0 < x for log10 and sqrt, -1 < x for
log1p, x ≠ 0 for fabs, cos(x) ≠ 0 for tan, and everywhere for the other ones. -/
theorem C27_differentiable {fn : MF1} {x : ℝ} (h : Smooth1 fn x) : ∃ d, IsPartial fn.func [x] 0 d := by
  obtain ⟨D, d, -, -, h3⟩ := smooth1_deriv h
  refine ⟨d, mathVal fn, ?_, h3⟩
  have := smooth1_ev h
  filter_upwards [this] with t ht
  change (mathReal fn t).map PyVal.flt = _
  rw [ht]; rfl

/-- After `exCs` and the definition of a function. -/
theorem ex_wrap (df : WrapDef NR) :
    Reaches (exCs ++ [.wrap df]) { exState with fns := opDefs ++ [df] } :=
  (ex_reaches.snoc (.wrap df) rfl).2

theorem ex_fn (df : WrapDef NR) : (fnsOf (exCs ++ [.wrap df]))[18]? = some df := rfl

theorem comb_exP : Lin.comb [(fin 5, Lin.single 0), (fin 3, Lin.single 1)] = exP := by
  funext v
  simp only [Lin.comb, Lin.add, Lin.smul, Lin.single, exP, Lin.zero]
  by_cases h0 : v = 0
  · simp [h0, optAdd]
  · by_cases h1 : v = 1 <;> simp [h0, h1, optAdd]

/-- `p = x*y` in the example. -/
theorem ex_p_seen (df : WrapDef NR) : SeenAs (exCs ++ [.wrap df]) (.ref 2) (.flt (fin 15), some exP) := by
  have h := (ex_wrap df).seenAs (x := .ref 2) (v := .unc ⟨fin 15, Lin.comb [(fin 5, Lin.single 0),
    (fin 3, Lin.single 1)], none⟩) rfl
  rw [← comb_exP]; exact h

/-- `x` in the example. -/
theorem ex_x_seen (df : WrapDef NR) : SeenAs (exCs ++ [.wrap df]) (.ref 0) (.flt (fin 3), some (Lin.single 0)) :=
  (ex_wrap df).seenAs (x := .ref 0) (v := .unc ⟨fin 3, Lin.single 0, some 0⟩) rfl

/-- An exact variable `z = ufloat(0, 0)` in the example. -/
theorem ex_z_seen (df : WrapDef NR) : SeenAs (exCs ++ [.wrap df]) (.ref 3) (.flt (fin 0), some (Lin.single 2)) :=
  (ex_wrap df).seenAs (x := .ref 3) (v := .unc ⟨fin 0, Lin.single 2, some 2⟩) rfl

/-- `umath.sin(x*y)` at x = 3, y = 5: the derivatives of `x*y` are multiplied by cos(15). -/
example : Results (exCs ++ [.wrap (MF1.wrapDef .sin)]) (.call 18 [.ref 2] [])
    (.ok (.flt (fin (Real.sin 15)), some (Lin.comb [(fin (Real.cos 15), exP)]))) :=
  C27_one_argument (fn := .sin) (ex_fn _) (by simp) (ex_p_seen _) rfl
    ⟨Real.sin, Eventually.of_forall fun _ => rfl, Real.hasDerivAt_sin 15⟩

/-- `umath.hypot(x, 4)` at x = 3. -/
example : Results (exCs ++ [.wrap (MF2.wrapDef .hypot)]) (.call 18 [.ref 0, .const (.flt (fin 4))] [])
    (.ok (.flt (fin (Real.sqrt (3 ^ 2 + 4 ^ 2))),
      some (Lin.comb [(fin (3 / Real.sqrt (3 ^ 2 + 4 ^ 2)), Lin.single 0)]))) :=
  C27_two_arguments (fn := .hypot) (d1 := 0) (ex_fn _) (by simp) (ex_x_seen _)
    ((ex_wrap _).seenAs (x := .const (.flt (fin 4))) (v := .plain (.flt (fin 4))) rfl) (by simp) rfl
    (fun _ => ⟨fun t => Real.sqrt (t ^ 2 + 4 ^ 2), Eventually.of_forall fun _ => rfl,
      hypot_hasDerivAt (by norm_num)⟩) (fun h => absurd rfl h)

/-- `umath.log(2, x)` at x = 3. -/
example : ∃ d, Results (exCs ++ [.wrap logWrapDef]) (.call 18 [.const (.flt (fin 2)), .ref 0] [])
    (.ok (.flt (fin (Real.log 2 / Real.log 3)), some (Lin.comb [(fin d, Lin.single 0)]))) := by
  have hl : Real.log 3 ≠ 0 := log_ne_zero' (by norm_num) (by norm_num)
  refine ⟨_, C27_log_base (d0 := 0) (ex_fn _)
    ((ex_wrap _).seenAs (x := .const (.flt (fin 2))) (v := .plain (.flt (fin 2))) rfl) (ex_x_seen _)
    (by simp) ?_ (fun h => absurd rfl h)
    (fun _ => ⟨fun t => Real.log 2 / Real.log t, ?_,
      (hasDerivAt_const 3 (Real.log 2)).div (Real.hasDerivAt_log (by norm_num)) hl⟩)⟩
  · change (PyMath.logb (fin 2) (fin 3)).map PyVal.flt = _
    rw [logb_eq (by norm_num) (by norm_num) (by norm_num)]; rfl
  · change ∀ᶠ t in 𝓝 (3 : ℝ), _
    filter_upwards [lt_mem_nhds (show (1:ℝ) < 3 by norm_num)] with t ht
    change (PyMath.logb (fin 2) (fin t)).map PyVal.flt = _
    rw [logb_eq (by norm_num) (by linarith) ht.ne']; rfl

/-! ### C28 -/

/-- The exceptions of float operations and of the functions of the `math` module. -/
def PyErr.Arith (e : PyErr) : Prop := e = .valueError ∨ e = .zeroDivisionError ∨ e = .overflowError

/-- Float operations and functions of the `math` module raise only `ValueError`, `ZeroDivisionError` and
`OverflowError`. -/
class MathErrors (F : Type) [PyMath F] : Prop where
  truediv : ∀ (a b : F) e, PyFloat.truediv a b = .error e → e.Arith
  sq : ∀ (a : F) e, PyFloat.sq a = .error e → e.Arith
  sqrt : ∀ (a : F) e, PyFloat.sqrt a = .error e → e.Arith
  mod : ∀ (a b : F) e, PyOps.mod a b = .error e → e.Arith
  log : ∀ (a : F) e, PyOps.log a = .error e → e.Arith
  logb : ∀ (a b : F) e, PyMath.logb a b = .error e → e.Arith
  fn1 : ∀ fn (a : F) e, PyMath.fn1 fn a = .error e → e.Arith
  fn2 : ∀ fn (a b : F) e, PyMath.fn2 fn a b = .error e → e.Arith

theorem onDomain_err {p : Prop} {y : ℝ} {e : PyErr} (h : onDomain p y = .error e) : e.Arith := by
  unfold onDomain at h
  split at h <;> cases h
  exact Or.inl rfl

/-- Exact arithmetic meets this description. -/
instance : MathErrors NR where
  truediv a b e h := by
    simp only [PyFloat.truediv] at h
    split at h <;> (try split at h) <;> cases h <;> simp [PyErr.Arith]
  sq a e h := by cases h
  sqrt a e h := by
    simp only [PyFloat.sqrt] at h
    split at h <;> (try split at h) <;> cases h <;> simp [PyErr.Arith]
  mod a b e h := by
    simp only [PyOps.mod] at h
    split at h <;> (try split at h) <;> cases h <;> simp [PyErr.Arith]
  log a e h := by
    simp only [PyOps.log] at h
    split at h <;> (try split at h) <;> cases h <;> simp [PyErr.Arith]
  logb a b e h := by
    simp only [PyMath.logb] at h
    split at h <;> (repeat' split at h) <;> cases h <;> simp [PyErr.Arith]
  fn1 fn a e h := by
    cases a with
    | nan => cases h
    | fin x => cases fn <;> first | exact onDomain_err h | cases h
  fn2 fn a b e h := by
    cases a with
    | nan =>
      cases b with
      | nan => cases h
      | fin y =>
        cases fn <;> simp only [PyMath.fn2] at h <;> (try split at h) <;> cases h <;> simp [PyErr.Arith]
    | fin x =>
      cases b with
      | nan => cases fn <;> simp only [PyMath.fn2] at h <;> (try split at h) <;> cases h
      | fin y =>
        cases fn <;> simp only [PyMath.fn2, mathReal2, mathPowReal] at h <;> (repeat' split at h) <;>
          cases h <;> simp [PyErr.Arith]

section
variable {F : Type} [PyMath F]

/-- What the code uses in place of a derivative `r` that may have raised an exception. -/
def DerivOrNan (r : PyRes F) (c : F) : Prop := r = .ok c ∨ ((∃ e, r = .error e) ∧ c = PyFloat.nan)

theorem nanIfException_total {r : PyRes F} (h : ∀ e, r = .error e → e.Arith) :
    ∃ c, nanIfException r = .ok c ∧ DerivOrNan r c := by
  cases r with
  | ok c => exact ⟨c, rfl, Or.inl rfl⟩
  | error e =>
    rcases h e rfl with rfl | rfl | rfl <;> exact ⟨PyFloat.nan, rfl, Or.inr ⟨⟨_, rfl⟩, rfl⟩⟩

theorem arith_bind {α β : Type} {r : PyRes α} {f : α → PyRes β} (h : ∀ e, r = .error e → e.Arith)
    (hf : ∀ a, r = .ok a → ∀ e, f a = .error e → e.Arith) : ∀ e, (r >>= f) = .error e → e.Arith := by
  intro e he
  cases r with
  | error e' => cases he; exact h _ rfl
  | ok a => exact hf a rfl e he

theorem arith_ok {α : Type} {a : α} : ∀ e, (Except.ok a : PyRes α) = .error e → e.Arith := fun _ h => by cases h

variable [MathErrors F]

open MathErrors in
theorem MF1.deriv_arith {fn : MF1} {D : F → PyRes F} (h : fn.deriv = some D) (x : F) :
    ∀ e, D x = .error e → e.Arith := by
  cases fn <;> simp only [MF1.deriv, Option.some.injEq, reduceCtorEq] at h <;> subst h
  case acos | asin | acosh | asinh =>
    exact arith_bind (sq _) fun _ _ => arith_bind (MathErrors.sqrt _) fun _ _ => truediv _ _
  case atan | atanh => exact arith_bind (sq _) fun _ _ => truediv _ _
  case cos => exact arith_bind (fn1 _ _) fun _ _ => arith_ok
  case cosh | degrees | exp | expm1 | radians | sin | sinh => exact fn1 _ _
  case erf | erfc => exact arith_bind (sq _) fun _ _ => arith_bind (fn1 _ _) fun _ _ => arith_ok
  case fabs => intro e h; unfold derivFabs at h; split at h <;> cases h
  case log10 => exact arith_bind (truediv _ _) fun _ _ => arith_bind (log _) fun _ _ => truediv _ _
  case log1p => exact truediv _ _
  case sqrt => exact arith_bind (MathErrors.sqrt _) fun _ _ => truediv _ _
  case tan | tanh => exact arith_bind (fn1 _ _) fun _ _ => arith_bind (sq _) fun _ _ => arith_ok

open MathErrors in
theorem MF2.deriv0_arith {fn : MF2} {D : F → F → PyRes F} (h : fn.deriv0 = some D) (x y : F) :
    ∀ e, D x y = .error e → e.Arith := by
  cases fn <;> simp only [MF2.deriv0, Option.some.injEq, reduceCtorEq] at h <;> subst h
  case atan2 => exact arith_bind (sq _) fun _ _ => arith_bind (sq _) fun _ _ => truediv _ _
  case copysign =>
    refine arith_bind (fn2 _ _ _) fun _ _ => ?_
    split <;> exact arith_ok
  case hypot => exact arith_bind (fn2 _ _ _) fun _ _ => truediv _ _
  case pow =>
    unfold mathPowDeriv0
    split
    · exact arith_ok
    · refine arith_bind ?_ fun _ _ => ?_
      · split
        · exact arith_ok
        · exact arith_bind (mod _ _) fun _ _ => arith_ok
      · split
        · exact arith_bind (fn2 _ _ _) fun _ _ => arith_ok
        · exact arith_ok

open MathErrors in
theorem MF2.deriv1_arith {fn : MF2} {D : F → F → PyRes F} (h : fn.deriv1 = some D) (x y : F) :
    ∀ e, D x y = .error e → e.Arith := by
  cases fn <;> simp only [MF2.deriv1, Option.some.injEq, reduceCtorEq] at h <;> subst h
  case atan2 => exact arith_bind (sq _) fun _ _ => arith_bind (sq _) fun _ _ => truediv _ _
  case copysign => exact arith_ok
  case hypot => exact arith_bind (fn2 _ _ _) fun _ _ => truediv _ _
  case pow =>
    unfold mathPowDeriv1
    split
    · exact arith_ok
    · exact arith_bind (log _) fun _ _ => arith_bind (fn2 _ _ _) fun _ _ => arith_ok

variable [ExactLin F] [Halts F]

/-- **C28** (partial: functions with analytical derivatives): if `math.fn` succeeds on the nominal value,
then `umath.fn` succeeds. The derivatives are those of the argument multiplied by the derivative of the
table, or by NaN if the calculation of this derivative raises an exception. -/
theorem C28_one_argument_partial {cs : List (Cmd F)} {f : Nat} {fn : MF1} (hf : (fnsOf cs)[f]? = some fn.wrapDef)
    (hfn : fn ≠ .gamma ∧ fn ≠ .lgamma) {a : Arg F} {x z : F} {A : Lin F}
    (ha : SeenAs cs a (.flt x, some A)) (hz : fn.func [.flt x] [] = .ok (.flt z)) :
    ∃ D c, fn.deriv = some D ∧ DerivOrNan (D x) c ∧
      Results cs (.call f [a] []) (.ok (.flt z, some (Lin.comb [(c, A)]))) := by
  obtain ⟨D, e⟩ := MF1.analytical (F := F) hfn
  obtain ⟨c, h1, h2⟩ := nanIfException_total (MF1.deriv_arith e x)
  exact ⟨D, c, e, h2, call1_results hf ha hz (by rw [MF1.specPos e, h1])⟩

/-- **C28** (partial), two arguments. -/
theorem C28_two_arguments_partial {cs : List (Cmd F)} {f : Nat} {fn : MF2} (hf : (fnsOf cs)[f]? = some fn.wrapDef)
    (hfn : fn ≠ .fmod) {a b : Arg F} {x y z : F} {A B : Option (Lin F)}
    (ha : SeenAs cs a (.flt x, A)) (hb : SeenAs cs b (.flt y, B)) (hu : A ≠ none ∨ B ≠ none)
    (hz : fn.func [.flt x, .flt y] [] = .ok (.flt z)) :
    ∃ D0 D1 c0 c1, fn.deriv0 = some D0 ∧ fn.deriv1 = some D1 ∧ DerivOrNan (D0 x y) c0 ∧
      DerivOrNan (D1 x y) c1 ∧
      Results cs (.call f [a, b] []) (.ok (.flt z, some (Lin.comb (term c0 A ++ term c1 B)))) := by
  obtain ⟨D0, D1, e0, e1⟩ := MF2.analytical (F := F) hfn
  obtain ⟨c0, h1, h2⟩ := nanIfException_total (MF2.deriv0_arith e0 x y)
  obtain ⟨c1, h3, h4⟩ := nanIfException_total (MF2.deriv1_arith e1 x y)
  exact ⟨D0, D1, c0, c1, e0, e1, h2, h4, call2_results hf ha hb hu hz
    (fun _ => by rw [MF2.specPos0 e0 e1, h1]) (fun _ => by rw [MF2.specPos1 e0 e1, h3])⟩

open MathErrors in
/-- **C28** (partial), `umath.log` with one argument. -/
theorem C28_log_partial {cs : List (Cmd F)} {f : Nat} (hf : (fnsOf cs)[f]? = some logWrapDef)
    {a : Arg F} {x z : F} {A : Lin F}
    (ha : SeenAs cs a (.flt x, some A)) (hz : logFunc [.flt x] [] = .ok (.flt z)) :
    ∃ c, DerivOrNan (logDer0 [.flt x] []) c ∧
      Results cs (.call f [a] []) (.ok (.flt z, some (Lin.comb [(c, A)]))) := by
  obtain ⟨c, h1, h2⟩ := nanIfException_total (r := logDer0 [.flt x] []) (truediv _ _)
  exact ⟨c, h2, call1_results hf ha hz h1⟩

open MathErrors in
/-- **C28** (partial), `umath.log` with a base. -/
theorem C28_log_base_partial {cs : List (Cmd F)} {f : Nat} (hf : (fnsOf cs)[f]? = some logWrapDef)
    {a b : Arg F} {x y z : F} {A B : Option (Lin F)}
    (ha : SeenAs cs a (.flt x, A)) (hb : SeenAs cs b (.flt y, B)) (hu : A ≠ none ∨ B ≠ none)
    (hz : logFunc [.flt x, .flt y] [] = .ok (.flt z)) :
    ∃ c0 c1, DerivOrNan (logDer0 [.flt x, .flt y] []) c0 ∧ DerivOrNan (logDer1 [.flt x, .flt y] []) c1 ∧
      Results cs (.call f [a, b] []) (.ok (.flt z, some (Lin.comb (term c0 A ++ term c1 B)))) := by
  obtain ⟨c0, h1, h2⟩ := nanIfException_total (r := logDer0 [.flt x, .flt y] [])
    (arith_bind (truediv _ _) fun _ _ => arith_bind (log _) fun _ _ => truediv _ _)
  obtain ⟨c1, h3, h4⟩ := nanIfException_total (r := logDer1 [.flt x, .flt y] [])
    (arith_bind (logb _ _) fun _ _ => arith_bind (truediv _ _) fun _ _ => arith_bind (log _) fun _ _ => truediv _ _)
  exact ⟨c0, c1, h2, h4, call2_results hf ha hb hu hz (fun _ => h1) (fun _ => h3)⟩

end

/-- `umath.sqrt(z)` at z = 0: the derivative `0.5/sqrt(0)` raises `ZeroDivisionError`; it is replaced by
NaN. -/
example : Results (exCs ++ [.wrap (MF1.wrapDef .sqrt)]) (.call 18 [.ref 3] [])
    (.ok (.flt (fin 0), some (Lin.comb [(nan, Lin.single 2)]))) := by
  obtain ⟨D, c, h1, h2, h3⟩ := C28_one_argument_partial (fn := .sqrt) (ex_fn _) (by simp) (ex_z_seen _)
    (z := fin 0) (by
      change (mathReal .sqrt 0).map PyVal.flt = _
      simp [mathReal, onDomain, Except.map])
  simp only [MF1.deriv, Option.some.injEq] at h1
  subst h1
  have : (do let s ← PyFloat.sqrt (fin 0 : NR); PyFloat.truediv PyMath.half s) = .error .zeroDivisionError := by
    rw [nr_sqrt le_rfl, ok_bind]
    simp [PyMath.half, PyFloat.truediv]
  rcases h2 with h2 | ⟨-, h2⟩
  · cases this.symm.trans h2
  · rw [← show c = nan from h2]; exact h3

theorem fmod_step_ne {y : ℝ} (hy : y ≠ 0) : y + stepReal y ≠ 0 ∧ y - stepReal y ≠ 0 := by
  have hS1 : stepConst < 1 := by rw [stepConst_eq]; norm_num
  have hS0 := stepConst_pos
  rw [stepReal, if_neg hy]
  rcases lt_or_gt_of_ne hy with h | h
  · rw [abs_of_neg h]; constructor <;> nlinarith
  · rw [abs_of_pos h]; constructor <;> nlinarith

/-- **C28** (partial: exact arithmetic) for `fmod`, whose derivatives are calculated numerically: if
`math.fmod` succeeds on the nominal values, then `umath.fmod` succeeds. -/
theorem C28_fmod_partial {cs : List (Cmd NR)} {f : Nat} (hf : (fnsOf cs)[f]? = some (MF2.wrapDef .fmod))
    {a b : Arg NR} {x y z : ℝ} {A B : Option (Lin NR)}
    (ha : SeenAs cs a (.flt (fin x), A)) (hb : SeenAs cs b (.flt (fin y), B)) (hu : A ≠ none ∨ B ≠ none)
    (hz : MF2.func .fmod [.flt (fin x), .flt (fin y)] [] = .ok (.flt (fin z))) :
    ∃ c0 c1, Results cs (.call f [a, b] []) (.ok (.flt (fin z), some (Lin.comb (term c0 A ++ term c1 B)))) := by
  have hy : y ≠ 0 := by
    rintro rfl
    have : MF2.func .fmod [.flt (fin x), .flt (fin (0:ℝ))] [] = .error .valueError := by
      change (mathReal2 .fmod x 0).map PyVal.flt = _
      simp [mathReal2, Except.map]
    rw [this] at hz; cases hz
  have hfm : ∀ u v : ℝ, v ≠ 0 → MF2.func .fmod (flts [u, v]) [] = .ok (.flt (fin (u - v * truncReal (u / v)))) := by
    intro u v hv
    change (mathReal2 .fmod u v).map PyVal.flt = _
    simp [mathReal2, Except.map, hv]
  have h0 := partialDerivative_real (f := MF2.func .fmod) (xs := [x, y]) (i := 0) (kw := []) (by simp)
    (hfm _ y hy) (hfm _ y hy)
  have h1 := partialDerivative_real (f := MF2.func .fmod) (xs := [x, y]) (i := 1) (kw := []) (by simp)
    (hfm x _ (fmod_step_ne hy).1) (hfm x _ (fmod_step_ne hy).2)
  exact ⟨_, _, call2_results hf ha hb hu hz (fun _ => h0) (fun _ => h1)⟩

/-- `umath.fmod(x, 2)` at x = 3. -/
example : ∃ c, Results (exCs ++ [.wrap (MF2.wrapDef .fmod)]) (.call 18 [.ref 0, .const (.flt (fin 2))] [])
    (.ok (.flt (fin (3 - 2 * truncReal (3 / 2))), some (Lin.comb [(c, Lin.single 0)]))) := by
  obtain ⟨c0, c1, h⟩ := C28_fmod_partial (x := 3) (y := 2) (ex_fn _) (ex_x_seen _)
    ((ex_wrap _).seenAs (x := .const (.flt (fin 2))) (v := .plain (.flt (fin 2))) rfl) (by simp) (by
      change (mathReal2 .fmod 3 2).map PyVal.flt = _
      simp only [mathReal2]
      rw [if_neg (by norm_num)]; rfl)
  exact ⟨c0, h⟩

/-- A call raises the exceptions raised by a numerical derivative. -/
theorem call1_error {cs : List (Cmd NR)} {f : Nat} {df : WrapDef NR} (hf : (fnsOf cs)[f]? = some df)
    {a : Arg NR} {x z : NR} {A : Lin NR} {e : PyErr} (ha : SeenAs cs a (.flt x, some A))
    (hz : df.f [.flt x] [] = .ok (.flt z)) (hd : df.specPos 0 [.flt x] [] = .error e) :
    Results cs (.call f [a] []) (.error e) := by
  have := C19_call cs f df hf [a] [] [(.flt x, some A)] [] ⟨ha, trivial⟩ trivial
  have he : docCall df [(.flt x, some A)] [] = .error e := by
    simp only [docCall, List.map_cons, List.map_nil, hz, ok_bind, docPosTerms, hd]
    rfl
  rwa [he] at this

/-- There is a point, close to -1, where one of the two points used for a numerical derivative is -1. -/
theorem exists_step_to_pole : ∃ x : ℝ, x + stepReal x = -1 ∧ ∀ n : ℕ, x ≠ -n := by
  obtain ⟨S, hS⟩ : ∃ S, S = stepConst := ⟨_, rfl⟩
  have hS0 : 0 < S := by rw [hS, stepConst_eq]; norm_num
  have hS1 : S ≤ 1 / 4 := by rw [hS, stepConst_eq]; norm_num
  have hd : 0 < 1 - S := by linarith
  have hxlt : -(1 / (1 - S)) < -1 := by
    rw [neg_lt_neg_iff, lt_div_iff₀ hd]; linarith
  have hxgt : -2 < -(1 / (1 - S)) := by
    rw [neg_lt_neg_iff, div_lt_iff₀ hd]; linarith
  refine ⟨-(1 / (1 - S)), ?_, ?_⟩
  · rw [stepReal, if_neg (by linarith), abs_of_neg (by linarith), ← hS]
    field_simp
    ring
  · intro n hn
    rw [hn] at hxlt hxgt
    have h1 : (1:ℝ) < n := by linarith
    have h2 : (n:ℝ) < 2 := by linarith
    have h1' : 1 < n := by exact_mod_cast h1
    have h2' : n < 2 := by exact_mod_cast h2
    omega

/-- **C28** does not hold for `gamma` and `lgamma`, whose derivative is calculated numerically and is not
protected: there are points where the function of the `math` module succeeds and that of `umath` raises
`ValueError`, because one of the two points used for the numerical derivative is a pole. -/
theorem C28_gamma_fails {fn : MF1} (hfn : fn = .gamma ∨ fn = .lgamma) :
    ∃ x z : ℝ, MF1.func fn (flts [x]) [] = .ok (.flt (fin z)) ∧
    sees [.ufloat (fin x) (fin 1) none, .wrap (MF1.wrapDef fn)] (.call 18 [.ref 0] []) =
      .err .valueError := by
  obtain ⟨x, hstep, hdom⟩ := exists_step_to_pole
  have hpole' : ¬ ∀ n : ℕ, (-1:ℝ) ≠ -n := fun h => h 1 (by norm_num)
  obtain ⟨z, hval⟩ : ∃ z, MF1.func fn [.flt (fin x)] [] = .ok (.flt (fin z)) := by
    have : ∃ z, mathReal fn x = .ok (fin z) := by
      rcases hfn with rfl | rfl <;> exact ⟨_, by simp only [mathReal, onDomain]; exact if_pos hdom⟩
    obtain ⟨z, hz⟩ := this
    refine ⟨z, ?_⟩
    change (mathReal fn x).map PyVal.flt = _
    rw [hz]; rfl
  have hpole : MF1.func fn [.flt (fin (-1) : NR)] [] = .error .valueError := by
    change (mathReal fn (-1)).map PyVal.flt = _
    have : mathReal fn (-1) = .error .valueError := by
      rcases hfn with rfl | rfl <;> (simp only [mathReal, onDomain]; exact if_neg hpole')
    rw [this]; rfl
  have hder : partialDerivative (MF1.func fn) (.pos 0) [.flt (fin x)] [] = .error .valueError := by
    have es : ([.flt (fin x)] : List (PyVal NR))[0]? = some (.flt (fin x)) := rfl
    simp only [partialDerivative, es, derivStep_real, List.set_cons_zero, fin_add, hstep, hpole]
  refine ⟨x, z, hval, ?_⟩
  have h1 : Reaches [.ufloat (fin x) (fin 1) none] _ :=
    (Reaches.nil.ufloat (n := fin x) none (by simp [specBadStd, PyFloat.ltb])).2
  have h2 := (h1.snoc (.wrap (MF1.wrapDef fn)) rfl).2
  have ha := h2.seenAs (x := .ref 0) (v := .unc ⟨fin x, Lin.single 0, some 0⟩) rfl
  refine call1_error (f := 18) (cs := [.ufloat (fin x) (fin 1) none] ++ [.wrap (MF1.wrapDef fn)]) (df := MF1.wrapDef fn)
    rfl ha hval ?_
  rcases hfn with rfl | rfl <;> exact hder

/-! ### C29 -/

section
variable {F : Type} [PyMath F]

/-- **C29**, for every float semantics: `umath.ceil`, `floor`, `isinf`, `isnan`, `trunc` return what the
function of the `math` module returns for the nominal value; the result has no uncertainty (it has no
`derivatives`, and its standard deviation is 0). -/
theorem C29_locally_constant {cs : List (Cmd F)} {fn : LF} {a : Arg F} {x : F}
    (ha : sees cs (.nominal a) = .val (.flt x)) :
    (∀ e, fn.func [.flt x] [] = .error e → sees cs (.lcst fn.func [a] []) = .err e) ∧
    (∀ v, fn.func [.flt x] [] = .ok v → v ≠ .notImpl →
      sees cs (.lcst fn.func [a] []) = .done ∧
      SeenAs (cs ++ [.lcst fn.func [a] []]) (next cs) (v, none) ∧
      sees (cs ++ [.lcst fn.func [a] []]) (.stdDev (next cs)) = .val (.flt 0)) := by
  obtain ⟨u, h1, h2⟩ : ∃ u, a.eval (after cs).env = some u ∧ u.nominal = .flt x := by
    simp only [sees, Machine.step] at ha
    cases h : a.eval (after cs).env with
    | none => rw [h] at ha; cases ha
    | some u => rw [h] at ha; cases u <;> cases ha <;> exact ⟨_, rfl, rfl⟩
  have hl : wrapLocallyCst fn.func [u] [] = (fn.func [.flt x] []).map .plain := by
    simp [wrapLocallyCst, h2]
  have hstep : (after cs).step (.lcst fn.func [a] []) =
      Machine.bind (after cs).env (after cs).w ((fn.func [.flt x] []).map .plain) := by
    simp only [Machine.step, evalArgs, h1, hl]
  constructor
  · intro e he
    simp only [sees, hstep, he]; rfl
  · intro v hv hn
    have hb : Machine.bind (after cs).env (after cs).w (.ok (.plain v)) =
        (⟨(after cs).w, (after cs).env ++ [some (.plain v)]⟩, .done) := by
      cases v <;> first | rfl | exact absurd rfl hn
    have hm : (fn.func [.flt x] []).map Val.plain = .ok (.plain v) := by rw [hv]; rfl
    rw [hm, hb] at hstep
    have ha : after (cs ++ [.lcst fn.func [a] []]) = ⟨(after cs).w, (after cs).env ++ [some (.plain v)]⟩ := by
      rw [after_snoc, hstep]
    have hn : (next cs).eval ((after cs).env ++ [some (.plain v)]) = some (.plain v) := by
      simp [next, Arg.eval]
    refine ⟨by simp only [sees, hstep], ⟨?_, ?_⟩, ?_⟩
    · simp only [sees, ha, Machine.step, hn]; rfl
    · simp only [sees, ha, Machine.step, Machine.read, Arg.evalUnc, hn]; rfl
    · simp only [sees, ha, Machine.step, hn]; rfl

end

/-- `umath.floor(x*y)` for x = 3±2, y = 5±1: 15. -/
example : SeenAs (exCs ++ [.lcst (LF.func .floor) [.ref 2] []]) (next exCs) (.flt (fin 15), none) :=
  ((C29_locally_constant (fn := .floor) ex_p.nominal).2 (.flt (fin 15)) (by
    change Except.ok (lcstReal .floor 15) = _
    have : ⌊(15:ℝ)⌋ = 15 := by norm_num
    simp [lcstReal, this]) (by simp)).2.1

/-! ### C30 -/

section
variable {F : Type} [PyMath F] [ExactLin F] [Halts F]

theorem docPosTerms_fsum (av : List (PyVal F)) (kv : KwArgs F) (pos : Nat) (args : List (Seen F)) :
    docPosTerms fsumWrapDef av kv pos args = .ok ((args.filterMap Prod.snd).map fun D => (1, D)) := by
  induction args generalizing pos with
  | nil => rfl
  | cons a args ih =>
    obtain ⟨v, A⟩ := a
    cases A with
    | none => simp only [docPosTerms, ih]; rfl
    | some A =>
      have : (fsumWrapDef : WrapDef F).specPos pos av kv = .ok 1 := rfl
      simp only [docPosTerms, ih, this, ok_bind]; rfl

theorem allFloats_map (l : List F) : allFloats (l.map PyVal.flt) = some l := by
  induction l with
  | nil => rfl
  | cons x l ih => simp [allFloats, ih]

/-- **C30**: `umath.fsum([x1, ..., xn])` for any number of terms, some of which are plain floats: the
nominal value is `math.fsum` of the nominal values, and the derivatives are the sum of the derivatives of
the terms that have an uncertainty. -/
theorem C30_fsum {cs : List (Cmd F)} {f : Nat} (hf : (fnsOf cs)[f]? = some fsumWrapDef)
    {args : List (Arg F)} {av : List (F × Option (Lin F))}
    (ha : AllSeenAs cs args (av.map fun p => (.flt p.1, p.2))) (hu : ∃ p ∈ av, p.2 ≠ none) {z : F}
    (hz : PyMath.fsum (av.map Prod.fst) = .ok z) :
    Results cs (.call f args [])
      (.ok (.flt z, some (Lin.comb ((av.filterMap Prod.snd).map fun D => (1, D))))) := by
  have := C19_call cs f fsumWrapDef hf args [] _ [] ha trivial
  have e : docCall fsumWrapDef (av.map fun p => ((.flt p.1, p.2) : Seen F)) [] =
      .ok (.flt z, some (Lin.comb ((av.filterMap Prod.snd).map fun D => (1, D)))) := by
    have hv : (fsumWrapDef : WrapDef F).f ((av.map fun p => ((.flt p.1, p.2) : Seen F)).map Prod.fst) [] =
        .ok (.flt z) := by
      have : (av.map fun p => ((.flt p.1, p.2) : Seen F)).map Prod.fst = (av.map Prod.fst).map PyVal.flt := by
        simp [List.map_map, Function.comp_def]
      rw [this]
      simp only [fsumWrapDef, flatFsum, allFloats_map, hz]; rfl
    have hany : anyUnc (av.map fun p => ((.flt p.1, p.2) : Seen F)) [] = true := by
      obtain ⟨p, hp, hne⟩ := hu
      simp only [anyUnc, List.any_map, List.any_nil, Bool.or_false, List.any_eq_true]
      exact ⟨p, hp, by simpa [Option.isSome_iff_ne_none] using hne⟩
    have hfm : (av.map fun p => ((.flt p.1, p.2) : Seen F)).filterMap Prod.snd = av.filterMap Prod.snd := by
      rw [List.filterMap_map]; rfl
    simp only [docCall, List.map_nil, hv, ok_bind]
    rw [if_neg (by rw [hany]; simp), if_neg (by simp [PyVal.floatLike])]
    simp only [docPosTerms_fsum, ok_bind, docKwTerms, PyVal.toFloat, List.append_nil, hfm]
  rwa [e] at this

/-- **C30**: without uncertainties, `umath.fsum` gives what `math.fsum` gives. -/
theorem C30_fsum_plain {cs : List (Cmd F)} {f : Nat} (hf : (fnsOf cs)[f]? = some fsumWrapDef)
    {args : List (Arg F)} {l : List F}
    (ha : AllSeenAs cs args (l.map fun x => (.flt x, none))) {z : F} (hz : PyMath.fsum l = .ok z) :
    Results cs (.call f args []) (.ok (.flt z, none)) := by
  have := C19_call cs f fsumWrapDef hf args [] _ [] ha trivial
  have e : docCall fsumWrapDef (l.map fun x => ((.flt x, none) : Seen F)) [] = .ok (.flt z, none) := by
    have hv : (fsumWrapDef : WrapDef F).f ((l.map fun x => ((.flt x, none) : Seen F)).map Prod.fst) [] =
        .ok (.flt z) := by
      have : (l.map fun x => ((.flt x, none) : Seen F)).map Prod.fst = l.map PyVal.flt := by
        simp [List.map_map, Function.comp_def]
      rw [this]
      simp only [fsumWrapDef, flatFsum, allFloats_map, hz]; rfl
    have hany : anyUnc (l.map fun x => ((.flt x, none) : Seen F)) [] = false := by
      simp [anyUnc, List.any_map, Function.comp_def]
    simp only [docCall, List.map_nil, hv, ok_bind]
    rw [if_pos hany]
  rwa [e] at this

theorem allFloats_none {l : List (PyVal F)} (h : ∃ v ∈ l, ∀ x, v ≠ .flt x) : allFloats l = none := by
  induction l with
  | nil => simp at h
  | cons a l ih =>
    obtain ⟨v, hv, hx⟩ := h
    cases a with
    | flt y =>
      rcases List.mem_cons.mp hv with rfl | hv
      · exact absurd rfl (hx y)
      · simp only [allFloats, ih ⟨v, hv, hx⟩]; rfl
    | _ => rfl

/-- **C30**: a term that is not a number (`umath.fsum([x, 'a'])`, `umath.fsum([x, 1j])`) makes `umath.fsum`
raise a `TypeError`, wherever it stands among the terms. -/
theorem C30_fsum_invalid {cs : List (Cmd F)} {f : Nat} (hf : (fnsOf cs)[f]? = some fsumWrapDef)
    {args : List (Arg F)} {av : List (Seen F)} (ha : AllSeenAs cs args av)
    (hv : ∃ p ∈ av, ∀ x, p.1 ≠ .flt x) : Results cs (.call f args []) (.error .typeError) := by
  have := C19_call cs f fsumWrapDef hf args [] _ [] ha trivial
  have e : docCall fsumWrapDef av [] = .error .typeError := by
    have hn : allFloats (av.map Prod.fst) = none := by
      obtain ⟨p, hp, hx⟩ := hv
      exact allFloats_none ⟨p.1, List.mem_map_of_mem hp, hx⟩
    have hv : (fsumWrapDef : WrapDef F).f (av.map Prod.fst) [] = .error .typeError := by
      simp only [fsumWrapDef, flatFsum, hn]
    simp only [docCall, List.map_nil, hv]; rfl
  rwa [e] at this

/-- Quantities that depend on a variable. -/
theorem Reaches.notConst {cs : List (Cmd F)} {s : SState F} (hs : Reaches cs s) {a : Arg F} {p : SQ F}
    (ea : a.seval s.env = some (.unc p)) (hA : ∃ v, p.grad v ≠ none) :
    (SVal.unc p).isConst s.vars.length = false := by
  obtain ⟨v, hv⟩ := hA
  obtain ⟨d, hd⟩ := Option.ne_none_iff_exists'.mp hv
  have hlt := hs.wf.keys p (sevalUnc_mem (x := a) (by simp [Arg.sevalUnc, ea])) v d hd
  simp only [SVal.isConst, Bool.not_eq_false', List.any_eq_true]
  exact ⟨v, List.mem_range.mpr hlt, by simp [hd]⟩

/-- **C30** (partial: `a` depends on at least one variable; see `C30_fails_constant`): `umath.ldexp(a, i)`
for a number with uncertainty, after any history (whether the derivatives of `a` have been calculated or
not): the derivatives are multiplied by `2**i`. -/
theorem C30_ldexp_partial {cs : List (Cmd F)} {a : Arg F} {x z : F} {A : Lin F} {i : Int}
    (ha : SeenAs cs a (.flt x, some A)) (hA : ∃ v, A v ≠ none) (hz : PyMath.ldexp x i = .ok z) :
    Results cs (.ldexp a i) (.ok (.flt z, some (Lin.comb [(PyMath.pow2 i, A)]))) := by
  obtain ⟨s, hs⟩ := Reaches.exists cs
  obtain ⟨va, ea, sa⟩ := hs.seen ha
  rcases seen_flt sa with ⟨p, rfl, rfl, e⟩ | ⟨-, e⟩
  · cases e
    exact hs.results (c := .ldexp a i) rfl
      (r := .ok (.unc ⟨z, Lin.comb [(PyMath.pow2 i, p.grad)], none⟩))
      (by simp only [SState.step, ea, specLdexp, hz, hs.notConst ea hA, Bool.false_eq_true, if_false])
  · cases e

/-- **C30**: `umath.ldexp` on a plain float is `math.ldexp`. -/
theorem C30_ldexp_plain {cs : List (Cmd F)} {a : Arg F} {x z : F} {i : Int}
    (ha : SeenAs cs a (.flt x, none)) (hz : PyMath.ldexp x i = .ok z) :
    Results cs (.ldexp a i) (.ok (.flt z, none)) := by
  obtain ⟨s, hs⟩ := Reaches.exists cs
  obtain ⟨va, ea, sa⟩ := hs.seen ha
  rcases seen_flt sa with ⟨p, rfl, rfl, e⟩ | ⟨rfl, -⟩
  · cases e
  · exact hs.results (c := .ldexp a i) rfl (r := .ok (.plain (.flt z)))
      (by simp only [SState.step, ea, specLdexp, hz, SVal.isConst, Bool.false_eq_true, if_false])

/-- **C30** (partial: `a` is a plain float or depends on at least one variable; see
`C30_fails_constant`): `umath.modf(a)`, after any history, has two results: the fractional part, with the
derivatives of `a` (if any), and the integer part, which is a plain float. -/
theorem C30_modf_partial {cs : List (Cmd F)} {a : Arg F} {x : F} {A : Option (Lin F)}
    (ha : SeenAs cs a (.flt x, A)) (hA : ∀ A', A = some A' → ∃ v, A' v ≠ none) :
    sees cs (.modf a) = .done ∧
    SeenAs (cs ++ [.modf a]) (next cs) (.flt (PyMath.modf x).1, A) ∧
    SeenAs (cs ++ [.modf a]) (.ref ((after cs).env.length + 1)) (.flt (PyMath.modf x).2, none) := by
  obtain ⟨s, hs⟩ := Reaches.exists cs
  obtain ⟨va, ea, sa⟩ := hs.seen ha
  obtain ⟨h1, h2⟩ := hs.snoc (.modf a) rfl
  have key : ∀ r : SVal F, s.step (.modf a) =
      ({ s with env := s.env ++ [some r, some (.plain (.flt (PyMath.modf x).2))] }, .done) →
      sees cs (.modf a) = .done ∧ SeenAs (cs ++ [.modf a]) (next cs) r.seen ∧
      SeenAs (cs ++ [.modf a]) (.ref ((after cs).env.length + 1)) (.flt (PyMath.modf x).2, none) := by
    intro r hr
    rw [hr] at h1 h2
    refine ⟨h1, h2.seenAs ?_, h2.seenAs (v := .plain (.flt (PyMath.modf x).2)) ?_⟩
    · simp [next, Arg.seval, ← hs.env_length]
    · simp [Arg.seval, ← hs.env_length]
  rcases seen_flt sa with ⟨p, rfl, rfl, rfl⟩ | ⟨rfl, rfl⟩
  · exact key (.unc ⟨(PyMath.modf p.nom).1, p.grad, none⟩) (by
      simp only [SState.step, ea, specModf, hs.notConst ea (hA _ rfl), Bool.false_eq_true, if_false])
  · exact key (.plain (.flt (PyMath.modf x).1)) (by
      simp only [SState.step, ea, specModf, SVal.isConst, Bool.false_eq_true, if_false])

end

/-- `fsum([x, x*y, 2])` for x = 3±2, y = 5±1. -/
example : Results (exCs ++ [.wrap fsumWrapDef]) (.call 18 [.ref 0, .ref 2, .const (.flt (fin 2))] [])
    (.ok (.flt (fin (0 + 3 + 15 + 2)), some (Lin.comb [(1, Lin.single 0), (1, exP)]))) :=
  C30_fsum (args := [.ref 0, .ref 2, .const (.flt (fin 2))])
    (av := [(fin 3, some (Lin.single 0)), (fin 15, some exP), (fin 2, none)]) (ex_fn _)
    ⟨ex_x_seen _, ex_p_seen _, (ex_wrap _).seenAs (x := .const (.flt (fin 2))) (v := .plain (.flt (fin 2))) rfl,
      trivial⟩ ⟨_, List.mem_cons_self, by simp⟩ rfl

/-- `fsum([x, 'a', x*y])` raises a `TypeError`. -/
example : Results (exCs ++ [.wrap fsumWrapDef]) (.call 18 [.ref 0, .const (.other 7), .ref 2] []) (.error .typeError) :=
  C30_fsum_invalid (args := [.ref 0, .const (.other 7), .ref 2])
    (av := [(.flt (fin 3), some (Lin.single 0)), (.other 7, none), (.flt (fin 15), some exP)]) (ex_fn _)
    ⟨ex_x_seen _, (ex_wrap _).seenAs (x := .const (.other 7)) (v := .plain (.other 7)) rfl, ex_p_seen _, trivial⟩
    ⟨(.other 7, none), by simp, fun x h => by cases h⟩

/-- `modf(x*y)` and `ldexp(x*y, 3)`. -/
example (df : WrapDef NR) : sees (exCs ++ [.wrap df]) (.modf (.ref 2)) = .done ∧
    Results (exCs ++ [.wrap df]) (.ldexp (.ref 2) 3)
      (.ok (.flt (fin (15 * 2 ^ (3:ℤ))), some (Lin.comb [(fin (2 ^ (3:ℤ)), exP)]))) :=
  ⟨(C30_modf_partial (ex_p_seen df) (fun _ e => by cases e; exact ⟨0, by simp [exP]⟩)).1,
    C30_ldexp_partial (ex_p_seen df) ⟨0, by simp [exP]⟩ rfl⟩

/-- The program `z = AffineScalarFunc(3, LinearCombination({})); y = -z`. Such numbers without variables
are also built by the functions of `unumpy` (an element of the inverse of a matrix that has null
derivatives, for example). -/
def exConst : List (Cmd ZN) := [.affine (.fin 3) [], .unop .neg (.ref 0)]

/-- **C30** fails for numbers with uncertainty that depend on no variable: `umath.ldexp(z, 1)` raises
`TypeError`, `umath.ldexp(y, 1)` has a result, but it also raises `TypeError` after
`y.derivatives` has been read; similarly, `umath.modf(y)` gives a number with uncertainty, and then a plain
float. -/
theorem C30_fails_constant :
    ∃ z y, (after exConst).env = [some (.unc z), some (.unc y)] ∧
      ((after exConst).w.ldexp (.unc z) 1).2 = .error .typeError ∧
      (∃ r, ((after exConst).w.ldexp (.unc y) 1).2 = .ok (.unc r) ∧ r.nom = .fin (-6)) ∧
      (((after exConst).w.derivatives y).1.ldexp (.unc y) 1).2 = .error .typeError ∧
      (∃ r, ((after exConst).w.modf (.unc y)).2 = .ok (.unc r, .fin (-3))) ∧
      (((after exConst).w.derivatives y).1.modf (.unc y)).2 = .ok (.plain (.flt 0), .fin (-3)) :=
  ⟨_, _, rfl, rfl, ⟨_, rfl, rfl⟩, rfl, ⟨_, rfl⟩, rfl⟩

end Unc
