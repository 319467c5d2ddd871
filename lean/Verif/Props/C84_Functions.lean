import Verif.Props.C84_Formula
import Verif.Props.C83_NumRounding
import Mathlib.Analysis.SpecialFunctions.Sqrt

/-
C84: functions that satisfy the hypotheses of the theorems on calculations: `umath.sqrt`, whose derivative is given by a
formula; and any function of the user, whose derivative is calculated numerically by the package.
-/

namespace Unc

set_option autoImplicit false

/-- Description of the square root between `a` and `b`, with the rounding errors of `umath.sqrt`. -/
noncomputable def sqrtSpec (u η a b : ℝ) : FnSpec1 where
  g := Real.sqrt
  d := fun x => 1 / (2 * √x)
  dom := fun x => a ≤ x ∧ x ≤ b
  lip := 1 / (2 * √a)
  dlip := 1 / (4 * a * √a)
  acc := u * √b
  dacc := u / ((1 - u) * √a) + η

theorem sqrtSpec_smooth {u η a b : ℝ} (hu : 0 ≤ u) (hu1 : u < 1) (hη : 0 ≤ η) (ha : 0 < a) : (sqrtSpec u η a b).Smooth := by
  have ha' : 0 < √a := Real.sqrt_pos.2 ha
  have hlip : ∀ x y, a ≤ x → a ≤ y → |√x - √y| ≤ 1 / (2 * √a) * |x - y| := by
    intro x y hx hy
    have hx' : √a ≤ √x := Real.sqrt_le_sqrt hx
    have hy' : √a ≤ √y := Real.sqrt_le_sqrt hy
    have e : x - y = (√x - √y) * (√x + √y) := by
      have h1 := Real.mul_self_sqrt (ha.le.trans hx)
      have h2 := Real.mul_self_sqrt (ha.le.trans hy)
      linear_combination h2 - h1
    rw [e, abs_mul, abs_of_pos (by linarith : 0 < √x + √y), div_mul_eq_mul_div, le_div_iff₀ (by positivity), one_mul]
    exact mul_le_mul_of_nonneg_left (by linarith) (abs_nonneg _)
  refine ⟨?_, ?_, ?_, ?_, ?_, ?_, ?_⟩
  · intro x hx
    exact (Real.hasDerivAt_sqrt (ha.trans_le hx.1).ne')
  · exact fun x y hx hy => hlip x y hx.1 hy.1
  · intro x y hx hy
    have hx' : √a ≤ √x := Real.sqrt_le_sqrt hx.1
    have hy' : √a ≤ √y := Real.sqrt_le_sqrt hy.1
    have px : 0 < √x := ha'.trans_le hx'
    have py : 0 < √y := ha'.trans_le hy'
    have e : (1 : ℝ) / (2 * √x) - 1 / (2 * √y) = (√y - √x) / (2 * (√x * √y)) := by
      field_simp
    have hprod : a ≤ √x * √y := by
      calc a = √a * √a := (Real.mul_self_sqrt ha.le).symm
        _ ≤ √x * √y := mul_le_mul hx' hy' ha'.le px.le
    show |1 / (2 * √x) - 1 / (2 * √y)| ≤ 1 / (4 * a * √a) * |x - y|
    rw [e, abs_div, abs_of_pos (by positivity : 0 < 2 * (√x * √y)), abs_sub_comm]
    have h1 := hlip x y hx.1 hy.1
    calc |√x - √y| / (2 * (√x * √y)) ≤ |√x - √y| / (2 * a) :=
          div_le_div_of_nonneg_left (abs_nonneg _) (by positivity) (by linarith)
      _ ≤ (1 / (2 * √a) * |x - y|) / (2 * a) := div_le_div_of_nonneg_right h1 (by positivity)
      _ = 1 / (4 * a * √a) * |x - y| := by field_simp; ring
  · exact (by positivity : (0 : ℝ) ≤ 1 / (2 * √a))
  · exact (by positivity : (0 : ℝ) ≤ 1 / (4 * a * √a))
  · exact mul_nonneg hu (Real.sqrt_nonneg b)
  · have : 0 < 1 - u := by linarith
    exact (by positivity : (0 : ℝ) ≤ u / ((1 - u) * √a) + η)

section
variable {F : Type} [PyMath F] [RoundedOps F]

/-- **C84**: `umath.sqrt` satisfies the description of the square root on any interval of positive numbers, if `math.sqrt` is
correctly rounded. -/
theorem C84_sqrt (hfn : ∀ x : F, PyMath.fn1 .sqrt x = PyFloat.sqrt x) (hhalf : Rounded.val (PyMath.half : F) = 1 / 2)
    (hu1 : Rounded.u F < 1) {a b : ℝ} (ha : 0 < a) :
    Implements1 (MF1.wrapDef .sqrt : WrapDef F) (sqrtSpec (Rounded.u F) (Rounded.η F) a b) := by
  have hu : 0 ≤ Rounded.u F := Rounded.u_nonneg
  have ha' : 0 < √a := Real.sqrt_pos.2 ha
  refine ⟨?_, ?_⟩
  · intro x y hx hd hy hfy
    have hy' : PyFloat.sqrt x = .ok y := by
      have : (MF1.wrapDef .sqrt : WrapDef F).f [.flt x] [] = (PyFloat.sqrt x).map .flt := by rw [← hfn]; rfl
      rw [this] at hy
      cases hs : PyFloat.sqrt x with
      | error e => rw [hs] at hy; cases hy
      | ok z => rw [hs] at hy; cases hy; rfl
    obtain ⟨-, -, h3⟩ := Rounded.sqrt x y hy' hfy
    exact h3.trans (mul_le_mul_of_nonneg_left (Real.sqrt_le_sqrt hd.2) hu)
  · intro x c hx hd hc hfc
    have hc' : nanIfException (do let s ← PyFloat.sqrt x; PyFloat.truediv PyMath.half s) = .ok c := hc
    have hpos : 0 < Rounded.val x := ha.trans_le hd.1
    obtain ⟨s, hs, hfs⟩ := RoundedDiv.sqrt_ok x hx hpos.le
    obtain ⟨-, -, h3⟩ := Rounded.sqrt x s hs hfs
    have hdiv : PyFloat.truediv PyMath.half s = .ok c := by
      rw [hs] at hc'
      change nanIfException (PyFloat.truediv PyMath.half s) = .ok c at hc'
      cases ht : PyFloat.truediv (PyMath.half : F) s with
      | ok z =>
        rw [ht] at hc'
        exact hc'
      | error e =>
        rw [ht] at hc'
        cases e <;> first | (cases hc'; done) | (cases hc'; exact absurd hfc RoundedDiv.not_fin_nan)
    obtain ⟨-, h5, h6⟩ := RoundedDiv.div _ _ _ hdiv hfc hfs
    rw [hhalf] at h6
    have hr : √a ≤ √(Rounded.val x) := Real.sqrt_le_sqrt hd.1
    show |Rounded.val c - 1 / (2 * √(Rounded.val x))| ≤ Rounded.u F / ((1 - Rounded.u F) * √a) + Rounded.η F
    generalize √(Rounded.val x) = r at *
    generalize Rounded.val s = σ at *
    generalize Rounded.u F = u at *
    have pr : 0 < r := ha'.trans_le hr
    have h1u : 0 < 1 - u := by linarith
    have hσ : (1 - u) * r ≤ σ := by
      have := (abs_le.1 h3).1
      linarith
    have pσ : 0 < σ := (mul_pos h1u pr).trans_le hσ
    have i1 : |1 / 2 / σ| ≤ 1 / (2 * ((1 - u) * r)) := by
      rw [abs_of_pos (by positivity), div_div]
      exact one_div_le_one_div_of_le (by positivity) (by linarith)
    have i2 : |1 / 2 / σ - 1 / (2 * r)| ≤ u / (2 * ((1 - u) * r)) := by
      have e : (1 : ℝ) / 2 / σ - 1 / (2 * r) = (r - σ) / r * (1 / 2 / σ) := by field_simp
      rw [e, abs_mul, abs_div, abs_of_pos pr, abs_sub_comm]
      have : |σ - r| / r ≤ u := by
        rw [div_le_iff₀ pr]
        exact h3
      calc |σ - r| / r * |1 / 2 / σ| ≤ u * (1 / (2 * ((1 - u) * r))) := mul_le_mul this i1 (abs_nonneg _) hu
        _ = u / (2 * ((1 - u) * r)) := by ring
    have i3 : u / (2 * ((1 - u) * r)) ≤ u / (2 * ((1 - u) * √a)) :=
      div_le_div_of_nonneg_left hu (by positivity) (by nlinarith)
    have e : Rounded.val c - 1 / (2 * r) = (Rounded.val c - 1 / 2 / σ) + (1 / 2 / σ - 1 / (2 * r)) := by ring
    rw [e]
    refine (abs_add_le _ _).trans ?_
    have i4 : u * |1 / 2 / σ| ≤ u / (2 * ((1 - u) * √a)) := by
      refine le_trans (mul_le_mul_of_nonneg_left i1 hu) ?_
      rw [mul_one_div]
      exact i3
    have e5 : u / ((1 - u) * √a) = u / (2 * ((1 - u) * √a)) + u / (2 * ((1 - u) * √a)) := by field_simp; ring
    rw [e5]
    linarith

/-- **C84** and C83: functions of the user, wrapped without derivatives. `f` calculates `s.g` with the accuracy `s.acc`; the
accuracy `s.dacc` of the numerical derivative is the bound of C83. -/
theorem C84_numerical (df : WrapDef F) (hdf : df.derivativesArgs = .finite []) (s : FnSpec1) (ext : ℝ → Prop)
    (d2 d3 : ℝ → ℝ) (G M : ℝ)
    (hext : ∀ x : F, Rounded.Fin x → s.dom (Rounded.val x) →
      Rounded.Fin (x + derivStep x - PyFloat.two * derivStep x) ∧ Rounded.Fin (derivStep x) ∧
      ∀ t, |t - Rounded.val x| ≤ Rounded.val (derivStep x) +
        shiftError (Rounded.u F) (Rounded.η F) (Rounded.val x) (Rounded.val (derivStep x)) → ext t)
    (hf : ∀ x y : F, Rounded.Fin x → ext (Rounded.val x) → df.f [.flt x] [] = .ok (.flt y) → Rounded.Fin y →
      |Rounded.val y - s.g (Rounded.val x)| ≤ s.acc)
    (h1 : ∀ t, ext t → HasDerivAt s.g (s.d t) t ∧ HasDerivAt s.d (d2 t) t ∧ HasDerivAt d2 (d3 t) t)
    (hG : ∀ t, ext t → |s.d t| ≤ G) (hM : ∀ t, ext t → |d3 t| ≤ M)
    (hb : ∀ x : F, Rounded.Fin x → s.dom (Rounded.val x) →
      numDerivBound (Rounded.u F) (Rounded.η F) (Rounded.val x) (Rounded.val (derivStep x)) s.acc G M (s.d (Rounded.val x)) ≤
        s.dacc) :
    Implements1 df s := by
  have hpos : ∀ x : F, Rounded.Fin (derivStep x) → 0 < Rounded.val (derivStep x) ∧
      0 ≤ shiftError (Rounded.u F) (Rounded.η F) (Rounded.val x) (Rounded.val (derivStep x)) := by
    intro x hx
    have h0 := (C83_step x hx).1
    refine ⟨h0, ?_⟩
    have hu : 0 ≤ Rounded.u F := Rounded.u_nonneg
    have hη : 0 ≤ Rounded.η F := Rounded.η_nonneg
    unfold shiftError
    positivity
  refine ⟨?_, ?_⟩
  · intro x y hx hd hy hfy
    obtain ⟨-, e2, e3⟩ := hext x hx hd
    obtain ⟨p1, p2⟩ := hpos x e2
    exact hf x y hx (e3 _ (by rw [sub_self, abs_zero]; linarith)) hy hfy
  · intro x c hx hd hc hfc
    obtain ⟨e1, e2, e3⟩ := hext x hx hd
    obtain ⟨p1, p2⟩ := hpos x e2
    have hc' : partialDerivative df.f (.pos 0) [.flt x] [] = .ok c := by
      simpa [WrapDef.specPos, hdf] using hc
    refine (C83_bound df.f [.flt x] [] 0 x c rfl _ rfl s.g s.d d2 d3 s.acc G M _ rfl ?_ ?_ ?_ ?_ ?_ ?_ e1 hc' hfc).trans (hb x hx hd)
    · intro t y ht htr hy hfy
      exact hf t y ht (e3 _ htr) hy hfy
    · exact fun t ht => (h1 t (e3 t ht)).1
    · exact fun t ht => hG t (e3 t ht)
    · exact fun t ht => (h1 t (e3 t (by linarith))).2.1
    · exact fun t ht => (h1 t (e3 t (by linarith))).2.2
    · exact fun t ht => hM t (e3 t (by linarith))

end

/-! ### Examples -/

theorem B64.u_lt_one : Rounded.u B64 < 1 := by
  change (2 : ℝ)⁻¹ ^ 53 < 1
  norm_num

theorem B64.half_val : Rounded.val (PyMath.half : B64) = 1 / 2 := by
  have key : ∀ N : ℕ, ((2 ^ N : ℤ) : ℝ) * (2 : ℝ)⁻¹ ^ (N + 1) = 1 / 2 := by
    intro N
    push_cast
    rw [pow_succ, ← mul_assoc, ← mul_pow]
    norm_num
  exact key 1073

/-- Hypotheses of `C84_sqrt`: doubles. -/
theorem B64.sqrt_implements {a b : ℝ} (ha : 0 < a) :
    Implements1 (MF1.wrapDef .sqrt : WrapDef B64) (sqrtSpec (Rounded.u B64) (Rounded.η B64) a b) :=
  C84_sqrt (fun _ => rfl) B64.half_val B64.u_lt_one ha

/-- `x = ufloat(2, 0.5); y = umath.sqrt(x); z = y*x` -/
def exSqrt : List (Cmd B64) :=
  [.wrap (MF1.wrapDef .sqrt), .ufloat (.fin (2 ^ 1075)) (.fin (2 ^ 1073)) none,
   .call (opDefs (F := B64)).length [.ref 0] [], .binop .mul (.ref 1) (.ref 0)]

/-- Description of the function number `opDefs.length`, i.e. the first function that is wrapped. -/
noncomputable def exSqrtSpecs : FnSpecs where
  one f := if f = (opDefs (F := B64)).length then some (sqrtSpec (Rounded.u B64) (Rounded.η B64) 1 4) else none
  two _ := none

/-- `C84` applies to the calculation of `sqrt(x)*x`. -/
example : exSqrtSpecs.Right (fnsOf exSqrt) ∧ (∀ c ∈ exSqrt, c.IsCalc exSqrtSpecs) ∧
    (∀ (k : ℕ) (y : B64), sees exSqrt (.nominal (.ref k)) = .val (.flt y) → Rounded.Fin y) ∧
    ∃ φ, (formulas exSqrtSpecs exSqrt).env[2]? = some (some φ) ∧
      (∀ n, φ.eval n = √(n 0) * n 0) ∧
      φ.Safe (Rounded.u B64) (Rounded.η B64) (formulas exSqrtSpecs exSqrt).point ∧
      ∃ y, sees exSqrt (.stdDev (.ref 2)) = .val (.flt y) ∧ Rounded.Fin y := by
  have hone : exSqrtSpecs.one (opDefs (F := B64)).length = some (sqrtSpec (Rounded.u B64) (Rounded.η B64) 1 4) := by
    simp [exSqrtSpecs]
  have hbad : specBadStd (.fin (2 ^ 1073) : B64) = false := by decide +kernel
  refine ⟨⟨?_, fun f s df h => (by cases h), fun c s _ h => (by cases h), fun s h => (by cases h)⟩, ?_, ?_, .mul (.fn1 (sqrtSpec (Rounded.u B64) (Rounded.η B64) 1 4) (.var 0)) (.var 0),
    ?_, fun n => rfl, ?_, ?_⟩
  · intro f s df h hf
    by_cases e : f = (opDefs (F := B64)).length
    · subst e
      rw [hone] at h
      cases h
      have : (fnsOf exSqrt)[(opDefs (F := B64)).length]? = some (MF1.wrapDef .sqrt) := by
        simp [fnsOf, exSqrt, Cmd.defs]
      rw [this] at hf
      cases hf
      exact B64.sqrt_implements one_pos
    · simp [exSqrtSpecs, e] at h
  · intro c hc
    simp only [exSqrt, List.mem_cons, List.not_mem_nil, or_false] at hc
    rcases hc with rfl | rfl | rfl | rfl
    · trivial
    · trivial
    · exact ⟨rfl, Or.inl ⟨_, rfl, trivial, by rw [hone]; rfl⟩⟩
    · exact ⟨by simp, trivial, trivial⟩
  · intro k y h
    by_cases hk : k < 3
    · have h1 : ((List.range 3).all fun k => (sees exSqrt (.nominal (.ref k))).isFinite) = true := by decide +kernel
      exact Out.isFinite_fin (List.all_eq_true.mp h1 k (List.mem_range.mpr hk)) h
    · have h1 : (after exSqrt).env.length = 3 := by decide +kernel
      have h2 : (after exSqrt).env[k]? = none := List.getElem?_eq_none (by omega)
      simp only [sees, Machine.step, Arg.eval, h2] at h
      cases h
  · simp only [formulas, exSqrt, FState.step, hbad, Arg.formula, FnSpecs.binop, BinOp.formula, List.foldl, hone]
    rfl
  · have hp : (formulas exSqrtSpecs exSqrt).point 0 = 2 := by
      have : (formulas exSqrtSpecs exSqrt).vars = [⟨.fin (2 ^ 1075), .fin (2 ^ 1073)⟩] := by
        simp [formulas, exSqrt, FState.step, hbad]
      simp only [FState.point, this, List.getElem?_cons_zero]
      change ((2 ^ 1075 : ℤ) : ℝ) * (2 : ℝ)⁻¹ ^ 1074 = 2
      rw [pow_succ]
      generalize 1074 = N
      push_cast
      rw [mul_right_comm, ← mul_pow]
      norm_num
    refine ⟨⟨trivial, sqrtSpec_smooth Rounded.u_nonneg B64.u_lt_one Rounded.η_nonneg one_pos, ?_⟩, trivial⟩
    intro x hx
    simp only [Formula.eval, Formula.err, hp] at hx
    have : x = 2 := by linarith [abs_le.1 hx]
    subst this
    exact ⟨by norm_num, by norm_num⟩
  · have h1 : (sees exSqrt (.stdDev (.ref 2))).isFinite = true := by decide +kernel
    generalize sees exSqrt (.stdDev (.ref 2)) = o at h1
    unfold Out.isFinite at h1
    split at h1
    · exact ⟨_, rfl, trivial⟩
    · cases h1

/-- `wrap(lambda x: x*x)` -/
def exUser : WrapDef B64 where
  f := fun
    | [.flt x], [] => .ok (.flt (x * x))
    | _, _ => .error .typeError
  derivativesArgs := .finite []
  derivativesKwargs := []
  argspec := none

/-- Description of this function at the point 3. -/
noncomputable def exUserSpec : FnSpec1 where
  g := fun x => x * x
  d := fun x => 2 * x
  dom := fun x => x = 3
  lip := 0
  dlip := 0
  acc := Rounded.u B64 * 16 + Rounded.η B64
  dacc := numDerivBound (Rounded.u B64) (Rounded.η B64) 3 (Rounded.val (.fin (3 * 2 ^ 1048) : B64))
    (Rounded.u B64 * 16 + Rounded.η B64) 8 0 6

/-- Hypotheses of `C84_numerical`. -/
example : Implements1 exUser exUserSpec := by
  have hu0 : 0 ≤ Rounded.u B64 := Rounded.u_nonneg
  have hη0 : 0 ≤ Rounded.η B64 := Rounded.η_nonneg
  have hu : Rounded.u B64 ≤ 1 / 100 := by
    change (2 : ℝ)⁻¹ ^ 53 ≤ _
    norm_num
  have hη : Rounded.η B64 ≤ 1 / 100 := by
    change (2 : ℝ)⁻¹ ^ 1075 ≤ _
    have : (2 : ℝ)⁻¹ ^ 1075 ≤ (2 : ℝ)⁻¹ ^ 7 := pow_le_pow_of_le_one (by norm_num) (by norm_num) (by norm_num)
    exact this.trans (by norm_num)
  have hthree : ∀ x : B64, Rounded.Fin x → Rounded.val x = 3 → x = .fin (3 * 2 ^ 1074) := by
    intro x hx hv
    cases x with
    | nan => exact hx.elim
    | inf s => exact hx.elim
    | fin m =>
      change (m : ℝ) * (2 : ℝ)⁻¹ ^ 1074 = 3 at hv
      generalize 1074 = N at hv ⊢
      have : (m : ℝ) = 3 * 2 ^ N := by
        rw [← hv, mul_assoc, ← mul_pow]
        norm_num
      congr 1
      exact_mod_cast this
  have hstep : derivStep (.fin (3 * 2 ^ 1074) : B64) = .fin (3 * 2 ^ 1048) := by decide +kernel
  have hstep' : ((.fin (3 * 2 ^ 1074) : B64) + .fin (3 * 2 ^ 1048) - PyFloat.two * .fin (3 * 2 ^ 1048)) =
      .fin (3 * 2 ^ 1074 - 3 * 2 ^ 1048) := by decide +kernel
  have hv : Rounded.val (.fin (3 * 2 ^ 1048) : B64) = 3 * (2 : ℝ)⁻¹ ^ 26 := by
    have key : ∀ N : ℕ, ((3 * 2 ^ N : ℤ) : ℝ) * (2 : ℝ)⁻¹ ^ (N + 26) = 3 * (2 : ℝ)⁻¹ ^ 26 := by
      intro N
      push_cast
      rw [pow_add, ← mul_assoc, mul_assoc 3, ← mul_pow]
      norm_num
    exact key 1048
  refine C84_numerical exUser rfl exUserSpec (fun t => |t - 3| ≤ 1 / 2) (fun _ => 2) (fun _ => 0) 8 0 ?_ ?_ ?_ ?_ ?_ ?_
  · intro x hx hd
    obtain rfl := hthree x hx hd
    rw [hstep, hstep']
    refine ⟨trivial, trivial, fun t ht => ?_⟩
    change Rounded.val (.fin (3 * 2 ^ 1074) : B64) = 3 at hd
    rw [hd, hv] at ht
    refine ht.trans ?_
    have hh : 3 * (2 : ℝ)⁻¹ ^ 26 ≤ 1 / 100 := by norm_num
    have hh0 : 0 ≤ 3 * (2 : ℝ)⁻¹ ^ 26 := by positivity
    generalize 3 * (2 : ℝ)⁻¹ ^ 26 = h at hh hh0
    generalize Rounded.u B64 = u at hu hu0
    generalize Rounded.η B64 = η at hη hη0
    have e : |(3 : ℝ)| = 3 := abs_of_pos (by norm_num)
    unfold shiftError
    rw [e]
    have a1 : u * (3 + h) ≤ 1 / 100 * (3 + 1 / 100) := mul_le_mul hu (by linarith) (by linarith) (by norm_num)
    have a2 : 2 * u * h ≤ 2 * (1 / 100) * (1 / 100) := mul_le_mul (by linarith) hh hh0 (by norm_num)
    have a3 : 0 ≤ u * (3 + h) := mul_nonneg hu0 (by linarith)
    have a4 : 0 ≤ 2 * u * h := mul_nonneg (by linarith) hh0
    have a5 : (1 + u) * (u * (3 + h) + 2 * u * h + η) ≤
        (1 + 1 / 100) * (1 / 100 * (3 + 1 / 100) + 2 * (1 / 100) * (1 / 100) + 1 / 100) :=
      mul_le_mul (by linarith) (by linarith) (by linarith) (by norm_num)
    linarith
  · intro x y hx he hy hfy
    cases hy
    have h1 := (Rounded.mul x x hfy).2.2
    have h2 := abs_le.1 he
    have h3 : |Rounded.val x * Rounded.val x| ≤ 16 := by
      rw [abs_of_nonneg (mul_self_nonneg _)]
      nlinarith
    exact h1.trans (by
      have := mul_le_mul_of_nonneg_left h3 hu0
      exact add_le_add this le_rfl)
  · intro t _
    refine ⟨?_, ?_, hasDerivAt_const _ _⟩
    · have := (hasDerivAt_id t).mul (hasDerivAt_id t)
      refine this.congr_deriv ?_
      simp [exUserSpec]
      ring
    · have this : HasDerivAt (fun y : ℝ => 2 * y) 2 t := by
        simpa using (hasDerivAt_id t).const_mul (2 : ℝ)
      exact this
  · intro t ht
    have h2 := abs_le.1 ht
    show |2 * t| ≤ 8
    rw [abs_le]
    constructor <;> linarith
  · intro t _
    simp
  · intro x hx hd
    obtain rfl := hthree x hx hd
    rw [hstep]
    change Rounded.val (.fin (3 * 2 ^ 1074) : B64) = 3 at hd
    rw [hd]
    show numDerivBound _ _ 3 _ (Rounded.u B64 * 16 + Rounded.η B64) 8 0 (2 * 3) ≤ numDerivBound _ _ 3 _ _ 8 0 6
    rw [show (2 : ℝ) * 3 = 6 by norm_num]

end Unc
