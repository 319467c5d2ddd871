import Verif.Lemmas.IntExpand
import Verif.Props.C01_Nominal
import Verif.Props.C84_Covariance

/-
C94: calculations with Python integers (`2*x`, `x/3`, `x - 1`), which the package uses as they are: the coefficients of the
linear combinations are then integers.
-/

namespace Unc

set_option autoImplicit false

/-! ### Nominal values -/

/-- C94. Integer constants: the nominal values are exactly those of the same program in which the integers are replaced by
floats, calculated with plain floats. -/
theorem C94_nominal (cs : List (Cmd Num)) (cs' : List (Cmd B64)) (h : SameProgram cs cs') (k : ℕ) (y : Num)
    (hk : sees cs (.nominal (.ref k)) = .val (.flt y)) :
    ∃ z, y = .flt z ∧ (plainly cs').env[k]? = some (some (.flt z)) := by
  have h1 := C01_whole_calculation cs h.not_variable.1 k _ hk
  have h2 : SameEnv (plainly cs) (plainly cs') := SameEnv.run h rfl
  rw [h2, List.getElem?_map] at h1
  cases hq : (plainly cs').env[k]? with
  | none => rw [hq] at h1; cases h1
  | some o =>
    rw [hq] at h1
    cases o with
    | none => cases h1
    | some w =>
      cases w with
      | flt z => cases h1; exact ⟨z, rfl, rfl⟩
      | cplx => cases h1
      | notImpl => cases h1
      | other n => cases h1

/-- C94. The nominal values are the same with integers and with floats. -/
theorem C94_nominal_floats (cs : List (Cmd Num)) (cs' : List (Cmd B64)) (h : SameProgram cs cs') (k : ℕ) (y : Num) (z : B64)
    (hk : sees cs (.nominal (.ref k)) = .val (.flt y)) (hz : sees cs' (.nominal (.ref k)) = .val (.flt z)) : y = .flt z := by
  obtain ⟨w, rfl, h1⟩ := C94_nominal cs cs' h k y hk
  have h2 := C01_whole_calculation cs' h.not_variable.2 k _ hz
  rw [h1] at h2
  cases h2
  rfl

/-! ### Accuracy -/

/-- C94. The derivatives of a calculation with integers are those of the formula, up to the rounding errors (of relative size
2**-51 for each operation). -/
theorem C94_derivatives (cs : List (Cmd Num)) (hc : ∀ c ∈ cs, c.IsCalc .none)
    (hfin : ∀ (k : ℕ) (y : Num), sees cs (.nominal (.ref k)) = .val (.flt y) → Rounded.Fin y)
    (k : ℕ) (φ : Formula) (hk : (formulas .none cs).env[k]? = some (some φ))
    (hs : φ.Safe ((2 : ℝ)⁻¹ ^ 51) ((2 : ℝ)⁻¹ ^ 1075) (formulas .none cs).point) (D : VarId → Option Num)
    (h : sees cs (.derivatives (.ref k)) = .dict D) (v : VarId) :
    ((D v).isSome ↔ φ.count v ≠ 0) ∧
    HasDerivAt (fun t => φ.eval (Function.update (formulas .none cs).point v t)) (φ.partialAt (formulas .none cs).point v)
      ((formulas .none cs).point v) ∧
    ∀ y, D v = some y → Rounded.Fin y →
      |Rounded.val y - φ.partialAt (formulas .none cs).point v| ≤
        φ.derivBound ((2 : ℝ)⁻¹ ^ 51) ((2 : ℝ)⁻¹ ^ 1075) (formulas .none cs).point v :=
  C84_derivatives .none cs (FnSpecs.none_right _) hc hfin k φ hk hs D h v

/-- C94. Idem for the standard deviations. -/
theorem C94_std_dev (cs : List (Cmd Num)) (hc : ∀ c ∈ cs, c.IsCalc .none)
    (hfin : ∀ (k : ℕ) (y : Num), sees cs (.nominal (.ref k)) = .val (.flt y) → Rounded.Fin y)
    (k : ℕ) (φ : Formula) (hk : (formulas .none cs).env[k]? = some (some φ))
    (hs : φ.Safe ((2 : ℝ)⁻¹ ^ 51) ((2 : ℝ)⁻¹ ^ 1075) (formulas .none cs).point) (y : Num)
    (h : sees cs (.stdDev (.ref k)) = .val (.flt y) ∨ sees cs (.s (.ref k)) = .val (.flt y)) (hf : Rounded.Fin y) :
    |Rounded.val y - φ.std (formulas .none cs).point (formulas .none cs).vars| ≤
      φ.stdBound (formulas .none cs).point (formulas .none cs).vars :=
  C84_std_dev .none cs (FnSpecs.none_right _) hc hfin k φ hk hs y h hf

/-- C94. Idem for the covariances. -/
theorem C94_covariance (cs : List (Cmd Num)) (hc : ∀ c ∈ cs, c.IsCalc .none)
    (hfin : ∀ (k : ℕ) (y : Num), sees cs (.nominal (.ref k)) = .val (.flt y) → Rounded.Fin y)
    (xs : List (Arg Num)) (M : List (List Num)) (h : sees cs (.covarianceMatrix xs) = .matrix M) (i j k l : ℕ)
    (hi : xs[i]? = some (.ref k)) (hj : xs[j]? = some (.ref l)) (φ ψ : Formula)
    (hk : (formulas .none cs).env[k]? = some (some φ)) (hl : (formulas .none cs).env[l]? = some (some ψ))
    (hsφ : φ.Safe ((2 : ℝ)⁻¹ ^ 51) ((2 : ℝ)⁻¹ ^ 1075) (formulas .none cs).point)
    (hsψ : ψ.Safe ((2 : ℝ)⁻¹ ^ 51) ((2 : ℝ)⁻¹ ^ 1075) (formulas .none cs).point) (y : Num) (hy : entry M i j = some y)
    (hf : Rounded.Fin y) :
    |Rounded.val y - φ.cov ψ (formulas .none cs).point (formulas .none cs).vars| ≤
      φ.covBound ψ (formulas .none cs).point (formulas .none cs).vars :=
  C84_covariance .none cs (FnSpecs.none_right _) hc hfin xs M h i j k l hi hj φ ψ hk hl hsφ hsψ y hy hf

/-- x = ufloat(3, 0.5); y = 2*x; z = y*x; t = z/3; u = t - 7 -/
def exInts : List (Cmd Num) :=
  [.ufloat (.flt (.fin (3 * 2 ^ 1074))) (.flt (.fin (2 ^ 1073))) none, .binop .mul (.const (.flt (.int 2))) (.ref 0),
   .binop .mul (.ref 1) (.ref 0), .binop .truediv (.ref 2) (.const (.flt (.int 3))),
   .binop .sub (.ref 3) (.const (.flt (.int 7)))]

/-- x = ufloat(3, 0.5); y = 2.0*x; z = y*x; t = z/3.0; u = t - 7.0 -/
def exFloats : List (Cmd B64) :=
  [.ufloat (.fin (3 * 2 ^ 1074)) (.fin (2 ^ 1073)) none, .binop .mul (.const (.flt (.fin (2 * 2 ^ 1074)))) (.ref 0),
   .binop .mul (.ref 1) (.ref 0), .binop .truediv (.ref 2) (.const (.flt (.fin (3 * 2 ^ 1074)))),
   .binop .sub (.ref 3) (.const (.flt (.fin (7 * 2 ^ 1074))))]

theorem exInts_same : SameProgram exInts exFloats := by
  have h2 : (2 : ℤ).natAbs ≤ 2 ^ 53 := by norm_num
  have h3 : (3 : ℤ).natAbs ≤ 2 ^ 53 := by norm_num
  have h7 : (7 : ℤ).natAbs ≤ 2 ^ 53 := by norm_num
  exact .cons (.ufloat _ _ _) (.cons (.right _ _ (.int 2 h2)) (.cons (.right _ _ (.ref 1)) (.cons (.left _ _ (.int 3 h3))
    (.cons (.left _ _ (.int 7 h7)) .nil))))

/-- A float. -/
def Num.isFloat : Num → Bool
  | .flt (.fin _) => true
  | _ => false

/-- A finite float. -/
def Out.isFloat : Out Num → Bool
  | .val (.flt y) => y.isFloat
  | _ => false

theorem Num.isFloat_fin {y : Num} (h : y.isFloat = true) : Rounded.Fin y := by
  unfold Num.isFloat at h
  split at h
  · trivial
  · cases h

theorem Out.isFloat_fin {o : Out Num} (h : o.isFloat = true) : ∃ y, o = .val (.flt y) ∧ Rounded.Fin y := by
  unfold Out.isFloat at h
  split at h
  · exact ⟨_, rfl, Num.isFloat_fin h⟩
  · cases h

-- the two programs of `C94_nominal` and `C94_nominal_floats`, whose results are both known
example : SameProgram exInts exFloats ∧ (∃ y, sees exInts (.nominal (.ref 4)) = .val (.flt y)) ∧
    ∃ z, sees exFloats (.nominal (.ref 4)) = .val (.flt z) := by
  refine ⟨exInts_same, ?_, ?_⟩
  · obtain ⟨y, h, -⟩ := Out.isFloat_fin (o := sees exInts (.nominal (.ref 4))) (by decide +kernel)
    exact ⟨y, h⟩
  · have h : (sees exFloats (.nominal (.ref 4))).isFinite = true := by decide +kernel
    generalize sees exFloats (.nominal (.ref 4)) = o at h
    unfold Out.isFinite at h
    split at h
    · exact ⟨_, rfl⟩
    · cases h

theorem exInts_finite (k : ℕ) (y : Num) (h : sees exInts (.nominal (.ref k)) = .val (.flt y)) : Rounded.Fin y := by
  by_cases hk : k < 5
  · have h1 : ((List.range 5).all fun k => (sees exInts (.nominal (.ref k))).isFloat) = true := by decide +kernel
    obtain ⟨y', h2, h3⟩ := Out.isFloat_fin (List.all_eq_true.mp h1 k (List.mem_range.mpr hk))
    rw [h] at h2
    cases h2
    exact h3
  · have h1 : (after exInts).env.length = 5 := by decide +kernel
    have h2 : (after exInts).env[k]? = none := List.getElem?_eq_none (by omega)
    simp only [sees, Machine.step, Arg.eval, h2] at h
    cases h

/-- ((2*x)*x)/3 - 7 -/
noncomputable def exIntFormula : Formula :=
  .sub (.div (.mul (.mul (.const 2) (.var 0)) (.var 0)) (.const 3)) (.const 7)

theorem exInts_formula : (formulas .none exInts).env[4]? = some (some exIntFormula) := by
  have h1 : specBadStd (.flt (.fin (2 ^ 1073)) : Num) = false := by decide +kernel
  have e2 : Rounded.val (.int 2 : Num) = 2 := by change ((2 : ℤ) : ℝ) = 2; norm_num
  have e3 : Rounded.val (.int 3 : Num) = 3 := by change ((3 : ℤ) : ℝ) = 3; norm_num
  have e7 : Rounded.val (.int 7 : Num) = 7 := by change ((7 : ℤ) : ℝ) = 7; norm_num
  simp only [formulas, exInts, FState.step, h1, Arg.formula, BinOp.formula, exIntFormula, List.foldl]
  simp [e2, e3, e7]
  rfl

theorem exInts_safe (n : VarId → ℝ) : exIntFormula.Safe ((2 : ℝ)⁻¹ ^ 51) ((2 : ℝ)⁻¹ ^ 1075) n := by
  generalize (2 : ℝ)⁻¹ ^ 51 = u
  generalize (2 : ℝ)⁻¹ ^ 1075 = η
  refine ⟨⟨⟨⟨trivial, trivial⟩, trivial⟩, trivial, ?_, fun h => ?_⟩, trivial⟩
  · simp [Formula.err, Formula.eval]
  · cases h

theorem exInts_calc : ∀ c ∈ exInts, c.IsCalc .none := by
  intro c hc
  have h2 : (Num.int 2).Fin := Num.fits_small (by norm_num)
  have h3 : (Num.int 3).Fin := Num.fits_small (by norm_num)
  have h7 : (Num.int 7).Fin := Num.fits_small (by norm_num)
  simp only [exInts, List.mem_cons, List.not_mem_nil, or_false] at hc
  rcases hc with rfl | rfl | rfl | rfl | rfl <;> simp only [Cmd.IsCalc, Arg.IsOperand, true_or, or_true, and_self]
  · exact ⟨trivial, h2, trivial⟩
  · exact ⟨trivial, trivial, h3⟩
  · exact ⟨trivial, trivial, h7⟩

/-- The value for the variable 0 is a finite float. -/
def Out.floatAt : Out Num → Bool
  | .dict D => (match D 0 with | some y => y.isFloat | none => false)
  | _ => false

/-- The element is a finite float. -/
def Out.floatEntry (i j : ℕ) : Out Num → Bool
  | .matrix M => (match entry M i j with | some y => y.isFloat | none => false)
  | _ => false

/-- Hypotheses of the theorems on accuracy: ((2*x)*x)/3 - 7, at x = 3±0.5. -/
example : (∀ c ∈ exInts, c.IsCalc .none) ∧
    (∀ (k : ℕ) (y : Num), sees exInts (.nominal (.ref k)) = .val (.flt y) → Rounded.Fin y) ∧
    (formulas .none exInts).env[4]? = some (some exIntFormula) ∧
    exIntFormula.Safe ((2 : ℝ)⁻¹ ^ 51) ((2 : ℝ)⁻¹ ^ 1075) (formulas .none exInts).point ∧
    (∃ D y, sees exInts (.derivatives (.ref 4)) = .dict D ∧ D 0 = some y ∧ Rounded.Fin y) ∧
    (∃ y, sees exInts (.stdDev (.ref 4)) = .val (.flt y) ∧ Rounded.Fin y) ∧
    ∃ M y, sees exInts (.covarianceMatrix [.ref 4, .ref 4]) = .matrix M ∧ entry M 0 1 = some y ∧ Rounded.Fin y := by
  refine ⟨exInts_calc, exInts_finite, exInts_formula, exInts_safe _, ?_, Out.isFloat_fin (by decide +kernel), ?_⟩
  · have h : (sees exInts (.derivatives (.ref 4))).floatAt = true := by decide +kernel
    generalize sees exInts (.derivatives (.ref 4)) = o at h
    unfold Out.floatAt at h
    split at h
    · split at h
      · rename_i y hy
        exact ⟨_, y, rfl, hy, Num.isFloat_fin h⟩
      · cases h
    · cases h
  · have h : (sees exInts (.covarianceMatrix [.ref 4, .ref 4])).floatEntry 0 1 = true := by decide +kernel
    generalize sees exInts (.covarianceMatrix [.ref 4, .ref 4]) = o at h
    unfold Out.floatEntry at h
    split at h
    · split at h
      · rename_i y hy
        exact ⟨_, y, rfl, hy, Num.isFloat_fin h⟩
      · cases h
    · cases h

/-! ### Exceptions -/

/-- C94. The theorems above are about operations without exceptions. Objects with the same coefficients as in the program `cs`,
and Python operations with exceptions: if reading the derivatives of an object (number `i`) does not raise any exception,
then the derivatives are those above (or there is nothing in the theorems above about them: `raised` is not finite). -/
theorem C94_reading (cs : List (Cmd Num)) (objects : Heap Coef) (h : HRel Coef.Is objects (after cs).w.nodes) (i : NodeId)
    (objects' : Heap Coef) (D : Derivs Coef) (hr : readDerivsF pythonOps objects i = (objects', .ok D)) :
    ∃ nodes' D', readDerivs (after cs).w.nodes i = (nodes', .ok D') ∧ HRel Coef.Is objects' nodes' ∧
      List.Forall₂ (fun p q => p.1 = q.1 ∧ (q.2 = .raised ∨ (∃ n, p.2 = .int n ∧ q.2 = .int n) ∨ ∃ x, p.2 = .flt x ∧ q.2 = .flt x)) D D' := by
  obtain ⟨g, D', h1, h2, h3⟩ := readDerivsF_rel pythonOps_rel h i hr
  refine ⟨g, D', h1, h2, h3.imp ?_⟩
  exact fun p q hp => ⟨hp.1, Coef.is_cases hp.2⟩

/-- C94 (negation). An object whose coefficient is an integer `c` that is too large for a float: the first reading of the
derivatives raises `OverflowError`, and the term is lost: the next reading returns an empty dictionary (the standard
deviation is 0). -/
theorem C94_fails_overflow (c : ℤ) (hc : Num.ofInt c = none) :
    let first := readDerivsF pythonOps [.dict [(0, .flt 1)], .terms [.pair (.int c) 0]] 1
    first.2 = .error .overflowError ∧ (readDerivsF pythonOps first.1 1).2 = .ok [] := by
  generalize (1 : B64) = one
  have h2 : readDerivsF pythonOps [.dict [(0, .flt one)], .terms [.pair (.int c) 0]] 1 =
      ([.dict [(0, .flt one)], .terms []], .error .overflowError) := by
    have e' := addScaled_overflow hc 0 one
    have ef : fuelFor [LC.dict [(0, Coef.flt one)], .terms [.pair (.int c) 0]] 1 = 2 := rfl
    simp only [readDerivsF, List.getElem?_cons_succ, List.getElem?_cons_zero, ef]
    simp only [expandLoopF, expandStepF, List.getElem?_cons_succ, List.getElem?_cons_zero, List.set_cons_succ,
      List.set_cons_zero, e']
  intro first
  have hf : first = ([.dict [(0, .flt one)], .terms []], .error .overflowError) := h2
  rw [hf]
  exact ⟨rfl, rfl⟩

/-- x = ufloat(0, 1), multiplied 20 times by 2**53. -/
def exBig : List (Cmd Num) :=
  .ufloat (.flt 0) (.flt 1) none :: (List.range 20).map fun k => .binop .mul (.ref k) (.const (.flt (.int (2 ^ 53))))

/-- The objects of this program. -/
def exBigObjects : Heap Coef :=
  .dict [(0, .flt 1)] :: (List.range 20).map fun k => .terms [.pair (.int (2 ^ 53)) k]

/-- The same coefficient. -/
def Coef.num : Coef → Num
  | .int n => .int n
  | .flt x => .flt x

/-- The same coefficients. -/
def LC.num : LC Coef → LC Num
  | .dict d => .dict (d.map fun p => (p.1, p.2.num))
  | .terms ts => .terms (ts.map fun t => match t with | .pair c n => .pair c.num n | .junk => .junk)

/-- C94 (negation). The product of `ufloat(0, 1)` and 20 integers: no operation raises an exception, the nominal value is 0,
but the first reading of the derivatives raises `OverflowError`, and then the result has no derivatives (its standard
deviation is 0). -/
theorem C94_fails : (after exBig).w.nodes = exBigObjects.map LC.num ∧
    sees exBig (.nominal (.ref 20)) = .val (.flt (.flt 0)) ∧
    (let first := readDerivsF pythonOps exBigObjects 20
     first.2 = .error .overflowError ∧ (readDerivsF pythonOps first.1 20).2 = .ok []) := by
  refine ⟨by decide +kernel, ?_, by decide +kernel⟩
  have h : (match sees exBig (.nominal (.ref 20)) with | .val (.flt y) => decide (y = .flt 0) | _ => false) = true := by
    decide +kernel
  generalize sees exBig (.nominal (.ref 20)) = o at h
  split at h
  · rw [of_decide_eq_true h]
  · cases h

theorem HRel.of_num (objects : Heap Coef) : HRel Coef.Is objects (objects.map LC.num) := by
  have hc : ∀ c : Coef, c.Is c.num := by intro c; cases c <;> exact rfl
  have hd : ∀ d : Derivs Coef, DRel Coef.Is d (d.map fun p => (p.1, p.2.num)) := by
    intro d
    induction d with
    | nil => exact .nil
    | cons p d ih => exact .cons ⟨rfl, hc _⟩ ih
  have ht : ∀ ts : List (Item Coef), List.Forall₂ (IRel Coef.Is) ts
      (ts.map fun t => match t with | .pair c n => .pair c.num n | .junk => .junk) := by
    intro ts
    induction ts with
    | nil => exact .nil
    | cons t ts ih =>
      cases t with
      | pair c n => exact .cons (.pair n (hc c)) ih
      | junk => exact .cons .junk ih
  induction objects with
  | nil => exact .nil
  | cons a l ih =>
    cases a with
    | dict d => exact .cons (.dict (hd d)) ih
    | terms ts => exact .cons (.terms (ht ts)) ih

/-- Hypotheses of `C94_reading`: the derivative of (x*2**53)*2**53 is read, and it is the float 2**106. -/
example : HRel Coef.Is (exBigObjects.take 3) (after (exBig.take 3)).w.nodes ∧
    ∃ objects', readDerivsF pythonOps (exBigObjects.take 3) 2 = (objects', .ok [(0, .flt (.fin (2 ^ 1180)))]) := by
  constructor
  · have h : (after (exBig.take 3)).w.nodes = (exBigObjects.take 3).map LC.num := by decide +kernel
    rw [h]
    exact HRel.of_num _
  · have h : (readDerivsF pythonOps (exBigObjects.take 3) 2).2 = .ok [(0, .flt (.fin (2 ^ 1180)))] := by decide +kernel
    generalize readDerivsF pythonOps (exBigObjects.take 3) 2 = r at h
    obtain ⟨a, b⟩ := r
    exact ⟨a, by rw [show b = _ from h]⟩

/-- Hypothesis of `C94_fails_overflow`: 2**1024 (`umath.ldexp(x, 1024)`) is too large for a float, 2**1023 is not. -/
example : Num.ofInt (2 ^ 1024) = none ∧ Num.ofInt (2 ^ 1023) ≠ none := by decide +kernel

end Unc
