import Verif.Lemmas.FormulaMachine
import Verif.Props.C71_Rounding

/-
C84: calculations with +, -, *, /, abs(), functions and floating-point numbers, compared to the mathematical formula that the program
calculates: the nominal value is close to the value of the formula, the derivatives to its partial derivatives, and the
standard deviation to the one given by the linear theory of error propagation, within explicit bounds. Formulas and bounds are
defined in `Spec/Formula.lean`. (In C71, exact values are defined with partial derivatives of operations *calculated with
floats*.)
-/

namespace Unc

set_option autoImplicit false

section
variable {F : Type} [PyMath F] [Halts F] [RoundedOps F]

/-- The bound on the sum of products of partial derivatives. -/
theorem InfoNear.bound {I : Info} {s : Sens} {d : ℝ} {cnt dep : ℕ} (h : InfoNear (some I) s d cnt dep) (hf : I.fin)
    (hs : 0 ≤ I.scale) {x : ℝ} (hx : |x - I.exact| ≤ I.bound F) :
    |x - d| ≤ ((1 + Rounded.u F) ^ (dep + cnt - 1) - 1) * (s.mag + s.magErr) +
      (1 + Rounded.u F) ^ (dep + cnt - 1) * ((1 + Rounded.η F) ^ dep - 1) * (s.scale + s.scaleErr) + s.magErr := by
  obtain ⟨h1, h2, h3, h4, h5⟩ := h
  obtain ⟨a1, a2, a3⟩ := h5 hf
  have hu : (1 : ℝ) ≤ 1 + Rounded.u F := U_one
  have hη : (1 : ℝ) ≤ 1 + Rounded.η F := by linarith [Rounded.η_nonneg (F := F)]
  have p1 : (1 + Rounded.u F) ^ (I.depth + I.uses - 1) ≤ (1 + Rounded.u F) ^ (dep + cnt - 1) :=
    pow_le_pow_right₀ hu (by omega)
  have p2 : (1 + Rounded.η F) ^ I.depth ≤ (1 + Rounded.η F) ^ dep := pow_le_pow_right₀ hη h3
  have p3 : (1 : ℝ) ≤ (1 + Rounded.u F) ^ (I.depth + I.uses - 1) := one_le_pow₀ hu
  have p4 : (1 : ℝ) ≤ (1 + Rounded.η F) ^ I.depth := one_le_pow₀ hη
  have q1 := h4.mag_nonneg
  have q2 := h4.magErr
  have q3 := h4.scale
  have q4 := h4.scaleErr
  have e : x - d = (x - I.exact) + (I.exact - d) := by ring
  rw [e]
  refine (abs_add_le _ _).trans (add_le_add (hx.trans ?_) a1)
  simp only [Info.bound]
  generalize (1 + Rounded.u F) ^ (I.depth + I.uses - 1) = A at *
  generalize (1 + Rounded.u F) ^ (dep + cnt - 1) = A' at *
  generalize (1 + Rounded.η F) ^ I.depth = B at *
  generalize (1 + Rounded.η F) ^ dep = B' at *
  have r1 : (A - 1) * I.mag ≤ (A' - 1) * (s.mag + s.magErr) :=
    (mul_le_mul_of_nonneg_left a2 (by linarith)).trans (mul_le_mul_of_nonneg_right (by linarith) (by linarith))
  have r2 : A * (B - 1) * I.scale ≤ A' * (B' - 1) * (s.scale + s.scaleErr) := by
    refine mul_le_mul (mul_le_mul p1 (by linarith) (by linarith) (by linarith)) a3 hs ?_
    exact mul_nonneg (by linarith) (by linarith)
  linarith

/-- What is known of the result of a command. -/
theorem formula_near (S : FnSpecs) (cs : List (Cmd F)) (hS : S.Right (fnsOf cs)) (hc : ∀ c ∈ cs, c.IsCalc S)
    (hfin : ∀ (k : ℕ) (y : F), sees cs (.nominal (.ref k)) = .val (.flt y) → Rounded.Fin y)
    {g : NodeId → Grad} (hg : RRel g (after cs) (exactly cs)) {k : ℕ} {φ : Formula}
    (hk : (formulas S cs).env[k]? = some (some φ)) (hs : φ.Safe (Rounded.u F) (Rounded.η F) (formulas S cs).point)
    {u : UF F} (hu : (Arg.ref k : Arg F).evalUnc (after cs).env = some u) :
    FNear (formulas S cs).point u.nom (g u.lin) φ ∧ ∀ v, u.var = some v → φ = .var v := by
  have hF := FRel.exactly cs hS hc
  have hq : (Arg.ref k : Arg F).revalUnc (exactly cs).env = some (u.rabs g) := by rw [hg.evalUnc, hu]; rfl
  have hq' : (exactly cs).env[k]? = some (some (RVal.unc (u.rabs g))) := by
    simp only [Arg.revalUnc, Arg.reval] at hq
    split at hq
    · rename_i h1
      cases hq
      exact Option.join_eq_some_iff.mp h1
    · cases hq
  obtain ⟨q, φ', h1, h2, h3⟩ := hF.ok k _ hq'
  cases h1
  rw [hk] at h2
  cases h2
  have hall : (exactly cs).AllFin := by
    intro j q hj
    rw [hg.env, List.getElem?_map, Option.map_eq_some_iff] at hj
    obtain ⟨o, o1, o2⟩ := hj
    rw [Option.map_eq_some_iff] at o2
    obtain ⟨a, rfl, o3⟩ := o2
    cases a with
    | plain p => cases o3
    | unc u' =>
      cases o3
      refine hfin j _ ?_
      simp only [sees, Machine.step, Arg.eval, o1]
      rfl
  have hpt : PointOf (formulas S cs).point (exactly cs).vars := by
    intro v cell hv
    simp only [FState.point, hF.vars, hv]
  exact ⟨h3.near hall _ hpt hs, h3.var⟩

/-- **C84**, nominal values. `cs` is any program that does calculations with +, -, *, /, abs() and functions on variables,
floats and previous results, and in which the results are finite. A nominal value is within the bound of the value of the
formula, if the rounding errors are too small to make a divisor vanish, to change the sign of the argument of an `abs()` or to
put the argument of a function out of its domain (`Formula.Safe`). The functions are described by `S`: they are any
differentiable functions, calculated with any accuracy (`FnSpecs.Right`). -/
theorem C84_nominal (S : FnSpecs) (cs : List (Cmd F)) (hS : S.Right (fnsOf cs)) (hc : ∀ c ∈ cs, c.IsCalc S)
    (hfin : ∀ (k : ℕ) (y : F), sees cs (.nominal (.ref k)) = .val (.flt y) → Rounded.Fin y)
    (k : ℕ) (φ : Formula) (hk : (formulas S cs).env[k]? = some (some φ))
    (hs : φ.Safe (Rounded.u F) (Rounded.η F) (formulas S cs).point) (y : F)
    (h : sees cs (.nominal (.ref k)) = .val (.flt y)) :
    |Rounded.val y - φ.eval (formulas S cs).point| ≤ φ.err (Rounded.u F) (Rounded.η F) (formulas S cs).point := by
  obtain ⟨g, hg⟩ := RRel.after cs fun c hcc => (hc c hcc).notCopy
  have hF := FRel.exactly cs hS hc
  simp only [sees, Machine.step] at h
  cases ha : (Arg.ref k : Arg F).eval (after cs).env with
  | none => rw [ha] at h; cases h
  | some a =>
    rw [ha] at h
    cases a with
    | plain p =>
      have : (exactly cs).env[k]? = some (some (RVal.plain p)) := by
        simp only [Arg.eval] at ha
        rw [hg.env, List.getElem?_map, Option.join_eq_some_iff.mp ha]
        rfl
      obtain ⟨q, φ', h1, -⟩ := hF.ok k _ this
      cases h1
    | unc u =>
      have hu : (Arg.ref k : Arg F).evalUnc (after cs).env = some u := by simp only [Arg.evalUnc, ha]
      have := (formula_near S cs hS hc hfin hg hk hs hu).1.nom
      simp only [Val.nominal, Out.val.injEq, PyVal.flt.injEq] at h
      rw [← h]
      exact this

/-- **C84**, derivatives. The derivatives of a result are given with respect to the variables of its formula. The formula has
a derivative with respect to each of them, and `x.derivatives` is within the bound of it. -/
theorem C84_derivatives (S : FnSpecs) (cs : List (Cmd F)) (hS : S.Right (fnsOf cs)) (hc : ∀ c ∈ cs, c.IsCalc S)
    (hfin : ∀ (k : ℕ) (y : F), sees cs (.nominal (.ref k)) = .val (.flt y) → Rounded.Fin y)
    (k : ℕ) (φ : Formula) (hk : (formulas S cs).env[k]? = some (some φ))
    (hs : φ.Safe (Rounded.u F) (Rounded.η F) (formulas S cs).point) (D : VarId → Option F)
    (h : sees cs (.derivatives (.ref k)) = .dict D) (v : VarId) :
    ((D v).isSome ↔ φ.count v ≠ 0) ∧
    HasDerivAt (fun t => φ.eval (Function.update (formulas S cs).point v t)) (φ.partialAt (formulas S cs).point v)
      ((formulas S cs).point v) ∧
    ∀ y, D v = some y → Rounded.Fin y →
      |Rounded.val y - φ.partialAt (formulas S cs).point v| ≤
        φ.derivBound (Rounded.u F) (Rounded.η F) (formulas S cs).point v := by
  obtain ⟨g, hg⟩ := RRel.after cs fun c hcc => (hc c hcc).notCopy
  obtain ⟨u, hu, hr⟩ := RRel.read_ok h (by simp) (by simp)
  obtain ⟨d, hd, hD⟩ := mapRes_ok hr
  obtain ⟨w', d', a1, _, a3, a4, _⟩ := World.derivatives_rounded hg.inv (hg.mshape.evalUnc hu)
  rw [a1] at hd
  simp only [Except.ok.injEq] at hd
  subst hd
  simp only [Out.dict.injEq] at hD
  subst hD
  have hn := (formula_near S cs hS hc hfin hg hk hs hu).1.grad v
  have hU : (0 : ℝ) ≤ Rounded.u F := Rounded.u_nonneg
  have hH : (0 : ℝ) ≤ Rounded.η F := Rounded.η_nonneg
  have hp := Formula.partialAt_eq hU hH φ hs v
  have h4 := a4 v
  refine ⟨?_, by rw [hp]; exact Formula.hasDerivAt hU hH φ hs v, ?_⟩
  · rw [h4.isSome]
    cases hgv : g u.lin v with
    | none => rw [hgv] at hn; simp [hn.1]
    | some I =>
      rw [hgv] at hn
      simp only [Option.isSome_some, true_iff, ne_eq]
      have h1 := hn.1
      have h2 := hn.2.1
      omega
  · intro y hy hf
    simp only at hy
    rw [hy] at h4
    cases hgv : g u.lin v with
    | none => rw [hgv] at h4; cases h4
    | some I =>
      rw [hgv] at h4 hn
      rw [hp]
      exact hn.bound (h4.fin hf) (zero_le_one.trans (hg.inv.den.ok u.lin v I hgv).one) (h4.near hf)

/-- An error component. -/
theorem formula_component {w : World F} {g : NodeId → Grad} (h : RndInv w g) {u : UF F} {φ : Formula} {n : VarId → ℝ}
    (hn : FNear n u.nom (g u.lin) φ) (hs : φ.Safe (Rounded.u F) (Rounded.η F) n) {d : Derivs F}
    (hk : ∀ v ∈ d.map Prod.fst, v < w.vars.length) (hd : ∀ v, DictOK (d.lookup v) (g u.lin v)) (v : VarId)
    (hf : ∀ x, d.lookup v = some x → Rounded.Fin (roundedComp w.vars v x)) :
    |(d.lookup v).elim 0 (fun x => Rounded.val (roundedComp w.vars v x)) -
        abs (φ.term n (w.vars.map VarCell.rabs) v)| ≤ φ.termBound n (w.vars.map VarCell.rabs) v := by
  have hU : (0 : ℝ) ≤ Rounded.u F := Rounded.u_nonneg
  have hH : (0 : ℝ) ≤ Rounded.η F := Rounded.η_nonneg
  have hp := Formula.partialAt_eq hU hH φ hs v
  have hn := hn.grad v
  have h4 := hd v
  cases hl : d.lookup v with
  | none =>
    rw [hl] at h4
    cases hgv : g u.lin v with
    | some I => rw [hgv] at h4; cases h4
    | none =>
      rw [hgv] at hn
      obtain ⟨h1, -, h3⟩ := hn
      simp [Formula.term, Formula.termBound, h1, hp, h3]
  | some x =>
    rw [hl] at h4
    cases hgv : g u.lin v with
    | none => rw [hgv] at h4; cases h4
    | some I =>
      rw [hgv] at h4 hn
      have hlt := hk v (mem_keys_of_lookup hl)
      have hc : w.vars[v]? = some w.vars[v] := List.getElem?_eq_getElem hlt
      have h5 : φ.count v ≠ 0 := by
        have h1 := hn.1
        have h2 := hn.2.1
        omega
      have := roundedComp_near hc (t := φ.partialAt n v) (B := φ.derivBound (Rounded.u F) (Rounded.η F) n v)
        (fun f3 => by
          rw [hp]
          exact hn.bound (h4.fin f3) (zero_le_one.trans (h.den.ok u.lin v I hgv).one) (h4.near f3)) (hf x hl)
      simp only [Formula.term, Formula.termBound, stdOf, if_neg h5, List.getElem?_map, hc, Option.map_some, VarCell.rabs,
        Option.elim_some]
      exact this

theorem FNear.count {n : VarId → ℝ} {x : F} {g : Grad} {φ : Formula} (hn : FNear n x g φ) (N : ℕ) : g.count N = φ.nVars N := by
  unfold Grad.count Formula.nVars
  congr 1
  refine List.filter_congr fun v _ => ?_
  have := hn.grad v
  cases hgv : g v with
  | none => rw [hgv] at this; simp [this.1]
  | some I =>
    rw [hgv] at this
    have h1 := this.1
    have h2 := this.2.1
    simp
    omega

/-- A standard deviation. -/
theorem formula_affStdDev {w : World F} {g : NodeId → Grad} (h : RndInv w g) {u : UF F} (hu : u.Valid w) {φ : Formula}
    {n : VarId → ℝ} (hn : FNear n u.nom (g u.lin) φ) (hs : φ.Safe (Rounded.u F) (Rounded.η F) n) {y : F}
    (hy : (w.affStdDev u).2 = .ok y) (hf : Rounded.Fin y) :
    |Rounded.val y - φ.std n (w.vars.map VarCell.rabs)| ≤ φ.stdBound n (w.vars.map VarCell.rabs) := by
  have := World.affStdDev_near h hu hy hf (φ.term n (w.vars.map VarCell.rabs)) (φ.termBound n (w.vars.map VarCell.rabs))
    fun d a5 a4 v _ hx => formula_component h hn hs a5 a4 v hx
  simp only [Formula.stdBound, Formula.std, List.length_map]
  rw [hn.count] at this
  exact this

theorem formula_stdDev {w : World F} {g : NodeId → Grad} (h : RndInv w g) {u : UF F} (hu : u.Valid w) {φ : Formula}
    {n : VarId → ℝ} (hn : FNear n u.nom (g u.lin) φ) (hs : φ.Safe (Rounded.u F) (Rounded.η F) n)
    (hvar : ∀ v, u.var = some v → φ = .var v) {y : F} (hy : (w.stdDev u).2 = .ok y) (hf : Rounded.Fin y) :
    |Rounded.val y - φ.std n (w.vars.map VarCell.rabs)| ≤ φ.stdBound n (w.vars.map VarCell.rabs) := by
  simp only [World.stdDev] at hy
  cases huv : u.var with
  | none => rw [huv] at hy; exact formula_affStdDev h hu hn hs hy hf
  | some v =>
    obtain ⟨cell, k1, k2, k3⟩ := hu.2 v huv
    rw [huv] at hy
    simp only [k1, Except.ok.injEq] at hy
    subst hy
    obtain rfl := hvar v huv
    have hlt := (List.getElem?_eq_some_iff.mp k1).1
    have hb := h.shape.std v cell k1
    have hpos : 0 ≤ Rounded.val cell.std := by
      refine Rounded.ltb_zero _ hf ?_
      simp only [specBadStd, Rounded.isInf _ hf, Bool.not_false, Bool.and_true] at hb
      exact hb
    have hU : (0 : ℝ) ≤ Rounded.u F := Rounded.u_nonneg
    have hH : (0 : ℝ) ≤ Rounded.η F := Rounded.η_nonneg
    have hstd : (Formula.var v).std n (w.vars.map VarCell.rabs) = Rounded.val cell.std := by
      simp only [Formula.std, l2norm, List.length_map, Formula.term, Formula.partialAt_eq hU hH _ hs, Formula.grad]
      rw [Finset.sum_eq_single v]
      · simp only [stdOf, if_true, List.getElem?_map, k1, Option.map, VarCell.rabs, one_mul]
        exact Real.sqrt_sq hpos
      · intro b _ hb
        simp [hb.symm]
      · intro hn
        exact absurd (Finset.mem_range.mpr hlt) hn
    rw [hstd, sub_self, abs_zero]
    simp only [Formula.stdBound, hstd]
    have hU1 : (1 : ℝ) ≤ 1 + Rounded.u F := U_one
    have hA : (1 : ℝ) ≤ (1 + Rounded.u F) ^ ((Formula.var v).nVars (w.vars.map VarCell.rabs).length + 1) := one_le_pow₀ hU1
    have n1 := l2norm_nonneg ((Formula.var v).termBound n (w.vars.map VarCell.rabs)) (w.vars.map VarCell.rabs).length
    have n2 := Real.sqrt_nonneg ((Formula.var v).nVars (w.vars.map VarCell.rabs).length * Rounded.η F)
    nlinarith

/-- **C84**, error components: they are close to the partial derivatives multiplied by the standard deviations. -/
theorem C84_error_components (S : FnSpecs) (cs : List (Cmd F)) (hS : S.Right (fnsOf cs)) (hc : ∀ c ∈ cs, c.IsCalc S)
    (hfin : ∀ (k : ℕ) (y : F), sees cs (.nominal (.ref k)) = .val (.flt y) → Rounded.Fin y)
    (k : ℕ) (φ : Formula) (hk : (formulas S cs).env[k]? = some (some φ))
    (hs : φ.Safe (Rounded.u F) (Rounded.η F) (formulas S cs).point) (E : VarId → Option F)
    (h : sees cs (.errorComponents (.ref k)) = .dict E) (v : VarId) (y : F) (hy : E v = some y) (hf : Rounded.Fin y) :
    |Rounded.val y - abs (φ.partialAt (formulas S cs).point v * stdOf (formulas S cs).vars v)| ≤
      φ.termBound (formulas S cs).point (formulas S cs).vars v := by
  obtain ⟨g, hg⟩ := RRel.after cs fun c hcc => (hc c hcc).notCopy
  obtain ⟨u, hu, hr⟩ := RRel.read_ok h (by simp) (by simp)
  have hv := hg.mshape.evalUnc hu
  obtain ⟨d, hd, hD⟩ := mapRes_ok hr
  obtain ⟨w', d', a1, a2, a3, a4, a5⟩ := World.derivatives_rounded hg.inv hv
  have hloop := errorLoop_rounded (Unc.after cs).w.vars d' a5
  simp only [World.errorComponents, a1, a2.reads.vars, hloop, Except.ok.injEq] at hd
  subst hd
  simp only [Out.dict.injEq] at hD
  subst hD
  simp only at hy
  rw [lookup_comps, Option.map_eq_some_iff] at hy
  obtain ⟨z, hz, rfl⟩ := hy
  have := formula_component hg.inv (formula_near S cs hS hc hfin hg hk hs hu).1 hs a5 a4 v
    (fun z' hz' => by rw [hz] at hz'; cases hz'; exact hf)
  rw [hz, ← hg.vars, ← (FRel.exactly cs hS hc).vars] at this
  exact this

/-- **C84**, standard deviations: `x.std_dev` is close to the square root of the sum of the squares of the partial derivatives
multiplied by the standard deviations of the variables. -/
theorem C84_std_dev (S : FnSpecs) (cs : List (Cmd F)) (hS : S.Right (fnsOf cs)) (hc : ∀ c ∈ cs, c.IsCalc S)
    (hfin : ∀ (k : ℕ) (y : F), sees cs (.nominal (.ref k)) = .val (.flt y) → Rounded.Fin y)
    (k : ℕ) (φ : Formula) (hk : (formulas S cs).env[k]? = some (some φ))
    (hs : φ.Safe (Rounded.u F) (Rounded.η F) (formulas S cs).point) (y : F)
    (h : sees cs (.stdDev (.ref k)) = .val (.flt y) ∨ sees cs (.s (.ref k)) = .val (.flt y)) (hf : Rounded.Fin y) :
    |Rounded.val y - φ.std (formulas S cs).point (formulas S cs).vars| ≤
      φ.stdBound (formulas S cs).point (formulas S cs).vars := by
  obtain ⟨g, hg⟩ := RRel.after cs fun c hcc => (hc c hcc).notCopy
  rw [(FRel.exactly cs hS hc).vars, hg.vars]
  have hF := FRel.exactly cs hS hc
  rcases h with h | h
  · simp only [sees, Machine.step] at h
    cases ha : (Arg.ref k : Arg F).eval (after cs).env with
    | none => rw [ha] at h; cases h
    | some a =>
      rw [ha] at h
      cases a with
      | plain p =>
        have : (exactly cs).env[k]? = some (some (RVal.plain p)) := by
          simp only [Arg.eval] at ha
          rw [hg.env, List.getElem?_map, Option.join_eq_some_iff.mp ha]
          rfl
        obtain ⟨q, φ', h1, -⟩ := hF.ok k _ this
        cases h1
      | unc u =>
        have hu : (Arg.ref k : Arg F).evalUnc (after cs).env = some u := by simp only [Arg.evalUnc, ha]
        obtain ⟨n1, n2⟩ := formula_near S cs hS hc hfin hg hk hs hu
        refine formula_stdDev hg.inv (hg.mshape.evalUnc hu) n1 hs n2 ?_ hf
        simp only [World.stdDevOf] at h
        generalize (Unc.after cs).w.stdDev u = r at h ⊢
        obtain ⟨w, r⟩ := r
        cases r with
        | error e => cases h
        | ok z => simp only [Out.val.injEq, PyVal.flt.injEq] at h; rw [h]
  · obtain ⟨u, hu, hr⟩ := RRel.read_ok h (by simp) (by simp)
    obtain ⟨z, hz, e⟩ := mapRes_ok hr
    simp only [Out.val.injEq, PyVal.flt.injEq] at e
    subst e
    obtain ⟨n1, n2⟩ := formula_near S cs hS hc hfin hg hk hs hu
    exact formula_affStdDev hg.inv (hg.mshape.evalUnc hu) n1 hs hz hf

end

/-! ### A calculation -/

/-- `x = ufloat(1, 0.5); y = ufloat(3, 0.25); z = x/y; t = abs(z - 1)*x` -/
def exC84 : List (Cmd B64) :=
  [.ufloat (.fin (2 ^ 1074)) (.fin (2 ^ 1073)) none, .ufloat (.fin (3 * 2 ^ 1074)) (.fin (2 ^ 1072)) none,
   .binop .truediv (.ref 0) (.ref 1), .binop .sub (.ref 2) (.const (.flt (.fin (2 ^ 1074)))),
   .unop .abs (.ref 3), .binop .mul (.ref 4) (.ref 0)]

/-- `abs(x/y - 1)*x` -/
noncomputable def exFormula : Formula :=
  .mul (.abs (.sub (.div (.var 0) (.var 1)) (.const (Rounded.val (.fin (2 ^ 1074) : B64))))) (.var 0)

def Out.isFinite : Out B64 → Bool
  | .val (.flt (.fin _)) => true
  | _ => false

theorem Out.isFinite_fin {o : Out B64} (h : o.isFinite = true) {y : B64} (hy : o = .val (.flt y)) : Rounded.Fin y := by
  subst hy
  cases y with
  | fin m => trivial
  | inf s => cases h
  | nan => cases h

theorem exC84_finite (k : ℕ) (y : B64) (h : sees exC84 (.nominal (.ref k)) = .val (.flt y)) : Rounded.Fin y := by
  by_cases hk : k < 6
  · have h1 : ((List.range 6).all fun k => (sees exC84 (.nominal (.ref k))).isFinite) = true := by decide +kernel
    exact Out.isFinite_fin (List.all_eq_true.mp h1 k (List.mem_range.mpr hk)) h
  · have h1 : (after exC84).env.length = 6 := by decide +kernel
    have h2 : (after exC84).env[k]? = none := List.getElem?_eq_none (by omega)
    simp only [sees, Machine.step, Arg.eval, h2] at h
    cases h

theorem exC84_vars : (formulas .none exC84).vars = [⟨.fin (2 ^ 1074), .fin (2 ^ 1073)⟩, ⟨.fin (3 * 2 ^ 1074), .fin (2 ^ 1072)⟩] := by
  have h1 : specBadStd (.fin (2 ^ 1073) : B64) = false := by decide +kernel
  have h2 : specBadStd (.fin (2 ^ 1072) : B64) = false := by decide +kernel
  simp [formulas, exC84, FState.step, h1, h2]

theorem exC84_point : (formulas .none exC84).point 0 = 1 ∧ (formulas .none exC84).point 1 = 3 := by
  simp only [FState.point, exC84_vars, List.getElem?_cons_zero, List.getElem?_cons_succ]
  change ((2 ^ 1074 : ℤ) : ℝ) * (2 : ℝ)⁻¹ ^ 1074 = 1 ∧ ((3 * 2 ^ 1074 : ℤ) : ℝ) * (2 : ℝ)⁻¹ ^ 1074 = 3
  generalize 1074 = N
  push_cast
  constructor
  · rw [← mul_pow]; norm_num
  · rw [mul_assoc, ← mul_pow]; norm_num

/-- `C84` applies to this calculation. -/
theorem exC84_safe : (∀ c ∈ exC84, c.IsCalc .none) ∧ (formulas .none exC84).env[5]? = some (some exFormula) ∧
    exFormula.Safe (Rounded.u B64) (Rounded.η B64) (formulas .none exC84).point := by
  refine ⟨?_, ?_, ?_⟩
  · intro c hc
    simp only [exC84, List.mem_cons, List.not_mem_nil, or_false] at hc
    rcases hc with rfl | rfl | rfl | rfl | rfl | rfl <;> simp only [Cmd.IsCalc, Arg.IsOperand, true_or, or_true, and_self] <;>
      exact ⟨trivial, trivial, trivial⟩
  · have h1 : specBadStd (.fin (2 ^ 1073) : B64) = false := by decide +kernel
    have h2 : specBadStd (.fin (2 ^ 1072) : B64) = false := by decide +kernel
    simp only [formulas, exC84, FState.step, h1, h2, Arg.formula, BinOp.formula, UnOp.formula, exFormula, List.foldl]
    rfl
  · obtain ⟨p0, p1⟩ := exC84_point
    have hc : Rounded.val (.fin (2 ^ 1074) : B64) = 1 := by
      have := p0
      simp only [FState.point, exC84_vars, List.getElem?_cons_zero] at this
      exact this
    have hu0 : 0 ≤ Rounded.u B64 := Rounded.u_nonneg
    have hη0 : 0 ≤ Rounded.η B64 := Rounded.η_nonneg
    have hu : Rounded.u B64 ≤ 1 / 100 := by
      change (2 : ℝ)⁻¹ ^ 53 ≤ _
      norm_num
    have hη : Rounded.η B64 ≤ 1 / 100 := by
      change (2 : ℝ)⁻¹ ^ 1075 ≤ _
      have : (2 : ℝ)⁻¹ ^ 1075 ≤ (2 : ℝ)⁻¹ ^ 7 := pow_le_pow_of_le_one (by norm_num) (by norm_num) (by norm_num)
      exact this.trans (by norm_num)
    generalize Rounded.u B64 = u at *
    generalize Rounded.η B64 = η at *
    simp only [exFormula, Formula.Safe, Formula.err, Formula.eval, p0, p1, hc, Formula.isConst]
    refine ⟨⟨⟨⟨trivial, trivial, by norm_num, fun _ => ?_⟩, trivial⟩, ?_⟩, trivial⟩
    · simp only [squareError, roundingError, productError]
      norm_num
      linarith
    · have e : |(1 : ℝ) / 3 - 1| = 2 / 3 := by rw [abs_of_neg (by norm_num)]; norm_num
      rw [e]
      simp only [roundingError, quotientError, e]
      have e' : |(1 : ℝ) / 3| = 1 / 3 := abs_of_pos (by norm_num)
      rw [e']
      norm_num
      nlinarith

theorem FnSpecs.none_right {F : Type} [PyMath F] [Rounded F] (fns : List (WrapDef F)) : FnSpecs.none.Right fns :=
  ⟨fun f s df h => (by cases h), fun f s df h => (by cases h), fun c s _ h => (by cases h), fun s h => (by cases h)⟩

/-- Hypotheses of `C84_nominal`. -/
example : FnSpecs.none.Right (fnsOf exC84) ∧ (∀ c ∈ exC84, c.IsCalc .none) ∧
    (∀ (k : ℕ) (y : B64), sees exC84 (.nominal (.ref k)) = .val (.flt y) → Rounded.Fin y) ∧
    ∃ φ, (formulas .none exC84).env[5]? = some (some φ) ∧ φ.Safe (Rounded.u B64) (Rounded.η B64) (formulas .none exC84).point ∧
      ∃ y, sees exC84 (.nominal (.ref 5)) = .val (.flt y) ∧ Rounded.Fin y := by
  refine ⟨FnSpecs.none_right _, exC84_safe.1, exC84_finite, _, exC84_safe.2.1, exC84_safe.2.2, ?_⟩
  have h1 : (sees exC84 (.nominal (.ref 5))).isFinite = true := by decide +kernel
  generalize sees exC84 (.nominal (.ref 5)) = o at h1
  unfold Out.isFinite at h1
  split at h1
  · exact ⟨_, rfl, trivial⟩
  · cases h1

/-- Hypotheses of `C84_std_dev`: the standard deviation is a finite number. -/
example : ∃ y, sees exC84 (.stdDev (.ref 5)) = .val (.flt y) ∧ Rounded.Fin y := by
  have h1 : (sees exC84 (.stdDev (.ref 5))).isFinite = true := by decide +kernel
  generalize sees exC84 (.stdDev (.ref 5)) = o at h1
  unfold Out.isFinite at h1
  split at h1
  · exact ⟨_, rfl, trivial⟩
  · cases h1

def Out.finiteAt (o : Out B64) (v : VarId) : Bool :=
  match o with
  | .dict D => match D v with
    | some (.fin _) => true
    | _ => false
  | _ => false

def Out.entryAt (o : Out B64) (v : VarId) : Option ℤ :=
  match o with
  | .dict D => match D v with
    | some (.fin m) => some m
    | _ => none
  | _ => none

theorem Out.entryAt_some {o : Out B64} {v : VarId} {m : ℤ} (h : o.entryAt v = some m) :
    ∃ D, o = .dict D ∧ D v = some (.fin m) := by
  unfold Out.entryAt at h
  split at h
  · split at h
    · rename_i hm
      cases h
      exact ⟨_, rfl, hm⟩
    · cases h
  · cases h

/-- Hypotheses of `C84_derivatives` and `C84_error_components`, for the variable that appears twice in the formula. -/
example : exFormula.count 0 = 2 ∧
    (∃ D y, sees exC84 (.derivatives (.ref 5)) = .dict D ∧ D 0 = some y ∧ Rounded.Fin y) ∧
    ∃ E y, sees exC84 (.errorComponents (.ref 5)) = .dict E ∧ E 0 = some y ∧ Rounded.Fin y := by
  have key : ∀ o : Out B64, o.finiteAt 0 = true → ∃ D y, o = .dict D ∧ D 0 = some y ∧ Rounded.Fin y := by
    intro o h
    unfold Out.finiteAt at h
    split at h
    · split at h
      · rename_i m hm
        exact ⟨_, _, rfl, hm, trivial⟩
      · cases h
    · cases h
  refine ⟨by simp [exFormula, Formula.count], key _ ?_, key _ ?_⟩
  · decide +kernel
  · decide +kernel

/-! ### When rounding errors matter -/

/-- `x = ufloat(2**53, 1); t = abs(x - 0.25 - 2**53)` -/
def exUnsafe : List (Cmd B64) :=
  [.ufloat (.fin (2 ^ 1127)) (.fin (2 ^ 1074)) none,
   .binop .sub (.ref 0) (.const (.flt (.fin (2 ^ 1072)))),
   .binop .sub (.ref 1) (.const (.flt (.fin (2 ^ 1127)))),
   .unop .abs (.ref 2)]

/-- **C84**: the hypothesis on rounding errors is necessary. With `x = ufloat(2**53, 1)`, `abs(x - 0.25 - 2**53)` has the
derivative -1 with respect to `x`, but the package gives 1, because the argument of `abs()` is rounded to 0. -/
theorem C84_fails_unsafe : ∃ (φ : Formula) (D : VarId → Option B64) (y : B64),
    (∀ c ∈ exUnsafe, c.IsCalc .none) ∧ (formulas .none exUnsafe).env[3]? = some (some φ) ∧
    sees exUnsafe (.derivatives (.ref 3)) = .dict D ∧ D 0 = some y ∧ Rounded.val y = 1 ∧
    φ.partialAt (formulas .none exUnsafe).point 0 = -1 := by
  have h1 : specBadStd (.fin (2 ^ 1074) : B64) = false := by decide +kernel
  have hform : (formulas .none exUnsafe).env[3]? = some (some (.abs (.sub (.sub (.var 0)
      (.const (Rounded.val (.fin (2 ^ 1072) : B64)))) (.const (Rounded.val (.fin (2 ^ 1127) : B64)))))) := by
    simp only [formulas, exUnsafe, FState.step, h1, Arg.formula, BinOp.formula, UnOp.formula, List.foldl]
    rfl
  have hp : (formulas .none exUnsafe).point 0 = Rounded.val (.fin (2 ^ 1127) : B64) := by
    have : (formulas .none exUnsafe).vars = [⟨.fin (2 ^ 1127), .fin (2 ^ 1074)⟩] := by
      simp [formulas, exUnsafe, FState.step, h1]
    simp [FState.point, this]
  have hD : (sees exUnsafe (.derivatives (.ref 3))).entryAt 0 = some (2 ^ 1074) := by decide +kernel
  obtain ⟨D, hD1, hD2⟩ := Out.entryAt_some hD
  refine ⟨_, D, _, ?_, hform, hD1, hD2, ?_, ?_⟩
  · intro c hc
    simp only [exUnsafe, List.mem_cons, List.not_mem_nil, or_false] at hc
    rcases hc with rfl | rfl | rfl | rfl <;> simp only [Cmd.IsCalc, Arg.IsOperand, true_or, or_true, and_self] <;>
      exact ⟨trivial, trivial, trivial⟩
  · change ((2 ^ 1074 : ℤ) : ℝ) * (2 : ℝ)⁻¹ ^ 1074 = 1
    generalize 1074 = N
    push_cast
    rw [← mul_pow]; norm_num
  · have hc : 0 < Rounded.val (.fin (2 ^ 1072) : B64) := by
      change 0 < ((2 ^ 1072 : ℤ) : ℝ) * (2 : ℝ)⁻¹ ^ 1074
      generalize 1072 = N
      generalize 1074 = M
      positivity
    simp only [Formula.partialAt, Formula.eval, Function.update_self, hp]
    generalize Rounded.val (.fin (2 ^ 1072) : B64) = c at hc
    generalize Rounded.val (.fin (2 ^ 1127) : B64) = a
    have h2 : HasDerivAt (fun t : ℝ => t - c - a) 1 a := ((hasDerivAt_id a).sub_const c).sub_const a
    have h3 : a - c - a < 0 := by linarith
    have h4 : HasDerivAt (fun t : ℝ => |t - c - a|) (-1 * 1) a :=
      HasDerivAt.comp (h₂ := fun s : ℝ => |s|) (h := fun t : ℝ => t - c - a) a (hasDerivAt_abs_neg h3) h2
    rw [mul_one] at h4
    exact h4.deriv

end Unc
