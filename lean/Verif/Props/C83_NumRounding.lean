import Verif.Lemmas.NumRounding
import Verif.Props.C19_Wrap
import Verif.Props.C71_Rounding

/-
C83: numerical derivatives with floating-point arithmetic. The bounds are defined in `Spec/NumRounding.lean`.
`df.specPos i` and `df.specKw name` (`Spec/Wrap.lean`) are the derivative functions that the documentation of `wrap()` announces:
C19 shows that they are those which are used.
-/

set_option autoImplicit false

namespace Unc

section
variable {F : Type} [PyFloat F] [RoundedStep F]

/-- **C83**: the step is a positive number: `STEP_SIZE`, or `STEP_SIZE*|x|` up to rounding. -/
theorem C83_step (x : F) (h : Rounded.Fin (derivStep x)) : 0 < Rounded.val (derivStep x) ∧
    (Rounded.val (derivStep x) = (2 : ℝ)⁻¹ ^ 26 ∨
      |Rounded.val (derivStep x) - (2 : ℝ)⁻¹ ^ 26 * (|Rounded.val x|)| ≤
        Rounded.u F * ((2 : ℝ)⁻¹ ^ 26 * |Rounded.val x|) + Rounded.η F) :=
  derivStep_pos h

/-- **C83**: error of the derivative calculated numerically with respect to a positional argument. `x` is the value of the
argument, `h` the step; `f` calculates the function `g` of this argument with the error `ε`; `G` and `M` are bounds of the first
and third derivatives of `g`. If the calculation does not overflow, the result is the derivative of `g`, up to the bound. -/
theorem C83_bound (f : PyFn F) (args : List (PyVal F)) (kw : KwArgs F) (i : Nat) (x d : F) (hx : args[i]? = some (.flt x))
    (h : ℝ) (hh : Rounded.val (derivStep x) = h) (g g' g'' g''' : ℝ → ℝ) (ε G M r : ℝ)
    (hr : r = h + shiftError (Rounded.u F) (Rounded.η F) (Rounded.val x) h)
    (hf : ∀ t y : F, Rounded.Fin t → |Rounded.val t - Rounded.val x| ≤ r → f (args.set i (.flt t)) kw = .ok (.flt y) →
      Rounded.Fin y → |Rounded.val y - g (Rounded.val t)| ≤ ε)
    (h1 : ∀ t, |t - Rounded.val x| ≤ r → HasDerivAt g (g' t) t) (hG : ∀ t, |t - Rounded.val x| ≤ r → |g' t| ≤ G)
    (h2 : ∀ t, |t - Rounded.val x| ≤ h → HasDerivAt g' (g'' t) t)
    (h3 : ∀ t, |t - Rounded.val x| ≤ h → HasDerivAt g'' (g''' t) t) (hM : ∀ t, |t - Rounded.val x| ≤ h → |g''' t| ≤ M)
    (hfin : Rounded.Fin (x + derivStep x - PyFloat.two * derivStep x))
    (hd : partialDerivative f (.pos i) args kw = .ok d) (hdf : Rounded.Fin d) :
    |Rounded.val d - g' (Rounded.val x)| ≤
      numDerivBound (Rounded.u F) (Rounded.η F) (Rounded.val x) h ε G M (g' (Rounded.val x)) := by
  obtain ⟨p1, p2, p3⟩ := RoundedStep.sub _ _ hfin
  obtain ⟨-, m2, m3⟩ := Rounded.mul _ _ p2
  obtain ⟨-, -, a3⟩ := Rounded.add _ _ p1
  rw [RoundedStep.val_two] at m3
  have hpos := (C83_step x m2).1
  rw [hh] at hpos m3 a3
  subst hr
  simp only [partialDerivative, hx] at hd
  split at hd
  · cases hd
  · rename_i vp hvp
    split at hd
    · cases hd
    · rename_i vm hvm
      obtain ⟨p, m, s, q, rfl, rfl, c3, c4, c5, c6, c7⟩ := centralDiff_rounded hd hdf m2
      rw [hh] at c7
      exact numDeriv_real Rounded.u_nonneg Rounded.η_nonneg hpos a3 m3 p3 h1 hG h2 h3 hM
        (fun hn => hf _ _ p1 hn hvp c3) (fun hn => hf _ _ hfin hn hvm c4) c5 c6 c7

/-- **C83**: idem for an argument given by keyword. -/
theorem C83_bound_kw (f : PyFn F) (args : List (PyVal F)) (kw : KwArgs F) (name : String) (x d : F)
    (hx : kw.lookup name = some (.flt x))
    (h : ℝ) (hh : Rounded.val (derivStep x) = h) (g g' g'' g''' : ℝ → ℝ) (ε G M r : ℝ)
    (hr : r = h + shiftError (Rounded.u F) (Rounded.η F) (Rounded.val x) h)
    (hf : ∀ t y : F, Rounded.Fin t → |Rounded.val t - Rounded.val x| ≤ r → f args (setKw kw name (.flt t)) = .ok (.flt y) →
      Rounded.Fin y → |Rounded.val y - g (Rounded.val t)| ≤ ε)
    (h1 : ∀ t, |t - Rounded.val x| ≤ r → HasDerivAt g (g' t) t) (hG : ∀ t, |t - Rounded.val x| ≤ r → |g' t| ≤ G)
    (h2 : ∀ t, |t - Rounded.val x| ≤ h → HasDerivAt g' (g'' t) t)
    (h3 : ∀ t, |t - Rounded.val x| ≤ h → HasDerivAt g'' (g''' t) t) (hM : ∀ t, |t - Rounded.val x| ≤ h → |g''' t| ≤ M)
    (hfin : Rounded.Fin (x + derivStep x - PyFloat.two * derivStep x))
    (hd : partialDerivative f (.kw name) args kw = .ok d) (hdf : Rounded.Fin d) :
    |Rounded.val d - g' (Rounded.val x)| ≤
      numDerivBound (Rounded.u F) (Rounded.η F) (Rounded.val x) h ε G M (g' (Rounded.val x)) := by
  obtain ⟨p1, p2, p3⟩ := RoundedStep.sub _ _ hfin
  obtain ⟨-, m2, m3⟩ := Rounded.mul _ _ p2
  obtain ⟨-, -, a3⟩ := Rounded.add _ _ p1
  rw [RoundedStep.val_two] at m3
  have hpos := (C83_step x m2).1
  rw [hh] at hpos m3 a3
  subst hr
  simp only [partialDerivative, hx] at hd
  split at hd
  · cases hd
  · rename_i vp hvp
    split at hd
    · cases hd
    · rename_i vm hvm
      obtain ⟨p, m, s, q, rfl, rfl, c3, c4, c5, c6, c7⟩ := centralDiff_rounded hd hdf m2
      rw [hh] at c7
      exact numDeriv_real Rounded.u_nonneg Rounded.η_nonneg hpos a3 m3 p3 h1 hG h2 h3 hM
        (fun hn => hf _ _ p1 hn hvp c3) (fun hn => hf _ _ hfin hn hvm c4) c5 c6 c7

end

/-- **C83**, for functions wrapped by `wrap(f)` (without any derivative): after any history, and whatever the calls made before,
the derivative function that is used for the positional argument `i` satisfies the bound. -/
theorem C83_wrapped {F : Type} [PyMath F] [Halts F] [RoundedStep F] (cs : List (Cmd F)) (k : Nat) (df : WrapDef F)
    (hk : (fnsOf cs)[k]? = some df) (hdf : df.derivativesArgs = .finite []) (i : Nat) :
    ∃ (wf : Wrapped F) (D : DerivFn F), (after cs).w.wraps[k]? = some wf ∧ (wf.posDeriv i).2 = .ok D ∧
      ∀ (args : List (PyVal F)) (kw : KwArgs F) (x d : F), args[i]? = some (.flt x) →
        Rounded.Fin (x + derivStep x - PyFloat.two * derivStep x) → D args kw = .ok d → Rounded.Fin d →
      ∀ (g g' g'' g''' : ℝ → ℝ) (ε G M h r : ℝ), h = Rounded.val (derivStep x) →
        r = h + shiftError (Rounded.u F) (Rounded.η F) (Rounded.val x) h →
        (∀ t y : F, Rounded.Fin t → |Rounded.val t - Rounded.val x| ≤ r →
          df.f (args.set i (.flt t)) kw = .ok (.flt y) → Rounded.Fin y → |Rounded.val y - g (Rounded.val t)| ≤ ε) →
        (∀ t, |t - Rounded.val x| ≤ r → HasDerivAt g (g' t) t ∧ |g' t| ≤ G) →
        (∀ t, |t - Rounded.val x| ≤ h → HasDerivAt g' (g'' t) t ∧ HasDerivAt g'' (g''' t) t ∧ |g''' t| ≤ M) →
        |Rounded.val d - g' (Rounded.val x)| ≤
          numDerivBound (Rounded.u F) (Rounded.η F) (Rounded.val x) h ε G M (g' (Rounded.val x)) := by
  obtain ⟨wf, h1, h2, -⟩ := C19_derivative_functions cs k df hk i ""
  refine ⟨wf, _, h1, h2, ?_⟩
  intro args kw x d hx hfin hd hdf' g g' g'' g''' ε G M h r hh hr hf hg hg'
  have e : df.specPos i = partialDerivative df.f (.pos i) := by
    unfold WrapDef.specPos
    rw [hdf]
    simp
  rw [e] at hd
  exact C83_bound df.f args kw i x d hx h hh.symm g g' g'' g''' ε G M r hr hf (fun t ht => (hg t ht).1)
    (fun t ht => (hg t ht).2) (fun t ht => (hg' t ht).1) (fun t ht => (hg' t ht).2.1) (fun t ht => (hg' t ht).2.2)
    hfin hd hdf'

/-! ### Example: the derivative of `t*t` at 3, in double precision -/

theorem B64.isNumber_some {y : B64} (h : B64.isNumber (some y) = true) : Rounded.Fin y := by
  obtain ⟨z, h1, h2, -⟩ := B64.isNumber_fin h
  cases h1
  exact h2

/-- `lambda t: t*t` -/
def exSquare : PyFn B64 := fun args _ =>
  match args with
  | [.flt t] => .ok (.flt (t * t))
  | _ => .error .typeError

def exThree : B64 := .fin (3 * 2 ^ 1074)

theorem exSquare_bound (exThree : B64)
    (hn : B64.isNumber (partialDerivative exSquare (.pos 0) [.flt exThree] []).toOption = true)
    (hfin : B64.isNumber (some (exThree + derivStep exThree - PyFloat.two * derivStep exThree)) = true) :
    ∃ (d : B64) (h r : ℝ), partialDerivative exSquare (.pos 0) [.flt exThree] [] = .ok d ∧ 0 < h ∧
    r = h + shiftError (Rounded.u B64) (Rounded.η B64) (Rounded.val exThree) h ∧
    |Rounded.val d - 2 * Rounded.val exThree| ≤
      numDerivBound (Rounded.u B64) (Rounded.η B64) (Rounded.val exThree) h
        (Rounded.u B64 * (|Rounded.val exThree| + r) ^ 2 + Rounded.η B64) (2 * (|Rounded.val exThree| + r)) 0
        (2 * Rounded.val exThree) := by
  obtain ⟨d, h1, h2, -⟩ := B64.isNumber_fin hn
  have k2 := B64.isNumber_some hfin
  have hd : partialDerivative exSquare (.pos 0) [.flt exThree] [] = .ok d := by
    generalize partialDerivative exSquare (.pos 0) [.flt exThree] [] = o at h1
    cases o with
    | error e => cases h1
    | ok y => cases h1; rfl
  have near : ∀ {t x r : ℝ}, |t - x| ≤ r → |t| ≤ |x| + r := fun {t x r} h => by
    linarith [abs_sub_abs_le_abs_sub t x]
  generalize exThree = x at *
  obtain ⟨hpos, -⟩ := C83_step x (Rounded.mul _ _ (RoundedStep.sub _ _ k2).2.1).2.1
  refine ⟨d, _, _, hd, hpos, rfl, ?_⟩
  refine C83_bound exSquare [.flt x] [] 0 x d rfl _ rfl (fun t => t ^ 2) (fun t => 2 * t) (fun _ => 2) (fun _ => 0) _ _ _ _ rfl
    ?_ ?_ ?_ ?_ ?_ ?_ k2 hd h2
  · intro t y ft hr hy fy
    have hy' : t * t = y := by
      have : exSquare [.flt t] [] = .ok (.flt y) := hy
      simp only [exSquare, Except.ok.injEq, PyVal.flt.injEq] at this
      exact this
    subst hy'
    have hm := (Rounded.mul t t fy).2.2
    have ht := near hr
    rw [abs_mul_self] at hm
    rw [sq]
    refine hm.trans ?_
    have : Rounded.val t * Rounded.val t ≤ (|Rounded.val x| +
        (Rounded.val (derivStep x) + shiftError (Rounded.u B64) (Rounded.η B64) (Rounded.val x)
          (Rounded.val (derivStep x)))) ^ 2 := by
      rw [← sq, ← sq_abs]
      exact pow_le_pow_left₀ (abs_nonneg _) ht 2
    have := mul_le_mul_of_nonneg_left this (Rounded.u_nonneg (F := B64))
    linarith
  · intro t _
    simpa using hasDerivAt_pow 2 t
  · intro t ht
    rw [abs_mul, abs_of_pos (by norm_num : (0 : ℝ) < 2)]
    have := near ht
    linarith
  · intro t _
    simpa using (hasDerivAt_id t).const_mul (2 : ℝ)
  · intro t _
    exact hasDerivAt_const t (2 : ℝ)
  · intro t _
    simp

/-- All the hypotheses of `C83_bound` are satisfied. -/
example : ∃ (d : B64) (h r : ℝ), partialDerivative exSquare (.pos 0) [.flt exThree] [] = .ok d ∧ 0 < h ∧
    r = h + shiftError (Rounded.u B64) (Rounded.η B64) (Rounded.val exThree) h ∧
    |Rounded.val d - 2 * Rounded.val exThree| ≤
      numDerivBound (Rounded.u B64) (Rounded.η B64) (Rounded.val exThree) h
        (Rounded.u B64 * (|Rounded.val exThree| + r) ^ 2 + Rounded.η B64) (2 * (|Rounded.val exThree| + r)) 0
        (2 * Rounded.val exThree) :=
  exSquare_bound exThree (by decide +kernel) (by decide +kernel)

/-- `lambda *, t: t*t`. -/
def exSquareKw : PyFn B64 := fun _ kw =>
  match kw with
  | [("t", .flt t)] => .ok (.flt (t * t))
  | _ => .error .typeError

theorem exSquareKw_bound (exThree : B64)
    (hn : B64.isNumber (partialDerivative exSquareKw (.kw "t") [] [("t", .flt exThree)]).toOption = true)
    (hfin : B64.isNumber (some (exThree + derivStep exThree - PyFloat.two * derivStep exThree)) = true) :
    ∃ (d : B64) (h r : ℝ), partialDerivative exSquareKw (.kw "t") [] [("t", .flt exThree)] = .ok d ∧ 0 < h ∧
    r = h + shiftError (Rounded.u B64) (Rounded.η B64) (Rounded.val exThree) h ∧
    |Rounded.val d - 2 * Rounded.val exThree| ≤
      numDerivBound (Rounded.u B64) (Rounded.η B64) (Rounded.val exThree) h
        (Rounded.u B64 * (|Rounded.val exThree| + r) ^ 2 + Rounded.η B64) (2 * (|Rounded.val exThree| + r)) 0
        (2 * Rounded.val exThree) := by
  obtain ⟨d, h1, h2, -⟩ := B64.isNumber_fin hn
  have k2 := B64.isNumber_some hfin
  have hd : partialDerivative exSquareKw (.kw "t") [] [("t", .flt exThree)] = .ok d := by
    generalize partialDerivative exSquareKw (.kw "t") [] [("t", .flt exThree)] = o at h1
    cases o with
    | error e => cases h1
    | ok y => cases h1; rfl
  have near : ∀ {t x r : ℝ}, |t - x| ≤ r → |t| ≤ |x| + r := fun {t x r} h => by
    linarith [abs_sub_abs_le_abs_sub t x]
  generalize exThree = x at *
  obtain ⟨hpos, -⟩ := C83_step x (Rounded.mul _ _ (RoundedStep.sub _ _ k2).2.1).2.1
  refine ⟨d, _, _, hd, hpos, rfl, ?_⟩
  refine C83_bound_kw exSquareKw [] [("t", .flt x)] "t" x d rfl _ rfl (fun t => t ^ 2) (fun t => 2 * t) (fun _ => 2) (fun _ => 0) _ _ _ _ rfl
    ?_ ?_ ?_ ?_ ?_ ?_ k2 hd h2
  · intro t y ft hr hy fy
    have hy' : t * t = y := by
      have : exSquareKw [] [("t", .flt t)] = .ok (.flt y) := hy
      simp only [exSquareKw, Except.ok.injEq, PyVal.flt.injEq] at this
      exact this
    subst hy'
    have hm := (Rounded.mul t t fy).2.2
    have ht := near hr
    rw [abs_mul_self] at hm
    rw [sq]
    refine hm.trans ?_
    have : Rounded.val t * Rounded.val t ≤ (|Rounded.val x| +
        (Rounded.val (derivStep x) + shiftError (Rounded.u B64) (Rounded.η B64) (Rounded.val x)
          (Rounded.val (derivStep x)))) ^ 2 := by
      rw [← sq, ← sq_abs]
      exact pow_le_pow_left₀ (abs_nonneg _) ht 2
    have := mul_le_mul_of_nonneg_left this (Rounded.u_nonneg (F := B64))
    linarith
  · intro t _
    simpa using hasDerivAt_pow 2 t
  · intro t ht
    rw [abs_mul, abs_of_pos (by norm_num : (0 : ℝ) < 2)]
    have := near ht
    linarith
  · intro t _
    simpa using (hasDerivAt_id t).const_mul (2 : ℝ)
  · intro t _
    exact hasDerivAt_const t (2 : ℝ)
  · intro t _
    simp

/-- All the hypotheses of `C83_bound_kw` are satisfied. -/
example : ∃ (d : B64) (h r : ℝ), partialDerivative exSquareKw (.kw "t") [] [("t", .flt exThree)] = .ok d ∧ 0 < h ∧
    r = h + shiftError (Rounded.u B64) (Rounded.η B64) (Rounded.val exThree) h ∧
    |Rounded.val d - 2 * Rounded.val exThree| ≤
      numDerivBound (Rounded.u B64) (Rounded.η B64) (Rounded.val exThree) h
        (Rounded.u B64 * (|Rounded.val exThree| + r) ^ 2 + Rounded.η B64) (2 * (|Rounded.val exThree| + r)) 0
        (2 * Rounded.val exThree) :=
  exSquareKw_bound exThree (by decide +kernel) (by decide +kernel)

/-- `lambda t: t*t`, with no given derivative. -/
def exSquareDef : WrapDef B64 where
  f := exSquare
  derivativesArgs := .finite []
  derivativesKwargs := []
  argspec := none

/-- The hypotheses of `C83_wrapped`: `f = wrap(lambda t: t*t)`, after a variable. -/
example : (fnsOf [.ufloat exThree 1 none, .wrap exSquareDef])[18]? = some exSquareDef ∧ exSquareDef.derivativesArgs = .finite [] :=
  ⟨rfl, rfl⟩

end Unc
