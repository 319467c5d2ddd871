import Verif.Lemmas.FormulaCov
import Verif.Props.C80_CovRounding
import Verif.Props.C84_Formula

/-
C84: covariances of the results of calculations with floats.
-/

namespace Unc

set_option autoImplicit false

section
variable {F : Type} [PyMath F] [Halts F] [RoundedOps F]

/-- A derivative that is close to that of a formula. -/
theorem formula_deriv {w : World F} {g : NodeId → Grad} (h : RndInv w g) {u : UF F} {φ : Formula} {n : VarId → ℝ}
    (hn : FNear n u.nom (g u.lin) φ) (hs : φ.Safe (Rounded.u F) (Rounded.η F) n) {x : Option F} {v : VarId}
    (hd : DictOK x (g u.lin v)) : (x.isSome ↔ φ.count v ≠ 0) ∧ (x = none → φ.partialAt n v = 0) ∧
      ∀ a, x = some a → Rounded.Fin a →
        |Rounded.val a - φ.partialAt n v| ≤ φ.derivBound (Rounded.u F) (Rounded.η F) n v := by
  have hU : (0 : ℝ) ≤ Rounded.u F := Rounded.u_nonneg
  have hH : (0 : ℝ) ≤ Rounded.η F := Rounded.η_nonneg
  have hp := Formula.partialAt_eq hU hH φ hs v
  have hn := hn.grad v
  cases x with
  | none =>
    cases hgv : g u.lin v with
    | some I => rw [hgv] at hd; cases hd
    | none =>
      rw [hgv] at hn
      obtain ⟨h1, -, h3⟩ := hn
      exact ⟨by simp [h1], fun _ => by rw [hp, h3], by simp⟩
  | some a =>
    cases hgv : g u.lin v with
    | none => rw [hgv] at hd; cases hd
    | some I =>
      rw [hgv] at hd hn
      have h1 := hn.1
      have h2 := hn.2.1
      refine ⟨by simp only [Option.isSome_some, true_iff]; omega, (by simp), ?_⟩
      intro b hb hf
      cases hb
      rw [hp]
      exact hn.bound (hd.fin hf) (zero_le_one.trans (h.den.ok u.lin v I hgv).one) (hd.near hf)

theorem IsCovSum.formula {w : World F} {g : NodeId → Grad} (h : RndInv w g) {u1 u2 : UF F} {φ ψ : Formula} {n : VarId → ℝ}
    (hn1 : FNear n u1.nom (g u1.lin) φ) (hs1 : φ.Safe (Rounded.u F) (Rounded.η F) n)
    (hn2 : FNear n u2.nom (g u2.lin) ψ) (hs2 : ψ.Safe (Rounded.u F) (Rounded.η F) n) {y : F}
    (hy : IsCovSum g w.vars u1 u2 y) (hf : Rounded.Fin y) :
    |Rounded.val y - φ.cov ψ n (w.vars.map VarCell.rabs)| ≤ φ.covBound ψ n (w.vars.map VarCell.rabs) := by
  obtain ⟨D1, D2, vs, h1, h2, h3, h4, h5, h6⟩ := hy
  have k1 := fun v => formula_deriv h hn1 hs1 (h1 v)
  have k2 := fun v => formula_deriv h hn2 hs2 (h2 v)
  have hmem : ∀ v, v ∈ vs ↔ φ.count v ≠ 0 ∧ ψ.count v ≠ 0 := fun v => by rw [h4, (k1 v).1, (k2 v).1]
  generalize w.vars.map VarCell.rabs = vars at *
  have key := (covSum_terms (φ.covTerm ψ n vars) (φ.covTermMax ψ n vars) vs (fun v hv a b s s2 ha hb hs hsq hf' => by
    have hst : stdOf vars v = Rounded.val s := by
      obtain ⟨cell, c1, c2⟩ := Option.map_eq_some_iff.mp hs
      simp only [stdOf, c1, c2]
    have hne : ¬ (φ.count v = 0 ∨ ψ.count v = 0) := by
      have := (hmem v).mp hv
      tauto
    simp only [Formula.covTerm, Formula.covTermMax, if_neg hne, hst]
    exact covProd_majorized (fun f => (k1 v).2.2 a ha f) (fun f => (k2 v).2.2 b hb f) hsq hf') 0 y 0 0 0 0
    (fun _ => by simp [Majorized, Rounded.val_zero]) h6 hf).2
  have hz : ∀ v, v ∉ vs → φ.covTerm ψ n vars v = 0 ∧ φ.covTermMax ψ n vars v = 0 := by
    intro v hv
    have hv' : φ.count v = 0 ∨ ψ.count v = 0 := by
      by_contra hc
      exact hv ((hmem v).mpr ⟨fun h => hc (.inl h), fun h => hc (.inr h)⟩)
    refine ⟨?_, by simp only [Formula.covTermMax, if_pos hv']⟩
    unfold Formula.covTerm
    rcases hv' with hv' | hv'
    · have : D1 v = none := by
        have := (k1 v).1.not.mpr (by simp [hv'])
        simpa using this
      rw [(k1 v).2.1 this]; ring
    · have : D2 v = none := by
        have := (k2 v).1.not.mpr (by simp [hv'])
        simpa using this
      rw [(k2 v).2.1 this]; ring
  rw [list_sum_range (φ.covTerm ψ n vars) vars.length vs h3 h5 (fun v hm => (hz v hm).1),
    list_sum_range (φ.covTermMax ψ n vars) vars.length vs h3 h5 (fun v hm => (hz v hm).2),
    list_sum_range (fun v => |φ.covTerm ψ n vars v|) vars.length vs h3 h5
      (fun v hm => by rw [(hz v hm).1, abs_zero])] at key
  simp only [zero_add] at key
  have hc : φ.covCount ψ vars.length = vs.length := by
    refine List.Perm.length_eq ((List.perm_ext_iff_of_nodup (List.nodup_range.filter _) h3).mpr fun v => ?_)
    simp only [List.mem_filter, List.mem_range, Bool.and_eq_true, hmem, decide_eq_true_eq]
    exact ⟨fun k => k.2, fun k => ⟨h5 v ((hmem v).mpr k), k⟩⟩
  rw [Formula.covBound, hc]
  exact key.2

/-- **C84**, covariances. The elements of `covariance_matrix()` are close to the covariances of the linear theory of error
propagation: the sums, over the variables, of the products of the partial derivatives of the two formulas and of the variance. -/
theorem C84_covariance (S : FnSpecs) (cs : List (Cmd F)) (hS : S.Right (fnsOf cs)) (hc : ∀ c ∈ cs, c.IsCalc S)
    (hfin : ∀ (k : ℕ) (y : F), sees cs (.nominal (.ref k)) = .val (.flt y) → Rounded.Fin y)
    (xs : List (Arg F)) (M : List (List F)) (h : sees cs (.covarianceMatrix xs) = .matrix M) (i j k l : ℕ)
    (hi : xs[i]? = some (.ref k)) (hj : xs[j]? = some (.ref l)) (φ ψ : Formula)
    (hk : (formulas S cs).env[k]? = some (some φ)) (hl : (formulas S cs).env[l]? = some (some ψ))
    (hsφ : φ.Safe (Rounded.u F) (Rounded.η F) (formulas S cs).point)
    (hsψ : ψ.Safe (Rounded.u F) (Rounded.η F) (formulas S cs).point) (y : F) (hy : entry M i j = some y) (hf : Rounded.Fin y) :
    |Rounded.val y - φ.cov ψ (formulas S cs).point (formulas S cs).vars| ≤
      φ.covBound ψ (formulas S cs).point (formulas S cs).vars := by
  obtain ⟨g, hg⟩ := RRel.after cs fun c hcc => (hc c hcc).notCopy
  rw [(FRel.exactly cs hS hc).vars, hg.vars]
  obtain ⟨x1, x2, u1, u2, m1, m2, n1, n2, hsum⟩ := RRel.sees_covSum cs hg xs M h i j y hy
  rw [hi] at m1
  rw [hj] at m2
  cases m1
  cases m2
  have f1 := (formula_near S cs hS hc hfin hg hk hsφ n1).1
  have f2 := (formula_near S cs hS hc hfin hg hl hsψ n2).1
  rcases hsum with hsum | hsum
  · exact hsum.formula hg.inv f1 hsφ f2 hsψ hf
  · rw [Formula.cov_comm, Formula.covBound_comm]
    exact hsum.formula hg.inv f2 hsψ f1 hsφ hf

/-- The variance of the theory is the square of its standard deviation (`C84_std_dev`). -/
theorem C84_variance {F : Type} [PyFloat F] [Rounded F] (φ : Formula) (n : VarId → ℝ) (vars : List (RVar F)) :
    φ.cov φ n vars = φ.std n vars ^ 2 := by
  unfold Formula.cov Formula.std l2norm
  rw [Real.sq_sqrt (Finset.sum_nonneg fun v _ => sq_nonneg _)]
  refine Finset.sum_congr rfl fun v _ => ?_
  simp only [Formula.covTerm, Formula.term]
  ring

end

/-! ### A calculation -/

def Out.finiteEntry (o : Out B64) (i j : ℕ) : Bool :=
  match o with
  | .matrix M => match entry M i j with
    | some (.fin _) => true
    | _ => false
  | _ => false

/-- Hypotheses of `C84_covariance`, for the calculation `exC84` of the other theorems: covariance of `x` and of `abs(x/y - 1)*x`. -/
example : FnSpecs.none.Right (fnsOf exC84) ∧ (∀ c ∈ exC84, c.IsCalc .none) ∧
    (∀ (k : ℕ) (y : B64), sees exC84 (.nominal (.ref k)) = .val (.flt y) → Rounded.Fin y) ∧
    (formulas .none exC84).env[0]? = some (some (.var 0)) ∧ (formulas .none exC84).env[5]? = some (some exFormula) ∧
    (Formula.var 0).Safe (Rounded.u B64) (Rounded.η B64) (formulas .none exC84).point ∧
    exFormula.Safe (Rounded.u B64) (Rounded.η B64) (formulas .none exC84).point ∧
    (Formula.var 0).covCount exFormula 2 = 1 ∧
    ∃ M y, sees exC84 (.covarianceMatrix [.ref 0, .ref 5]) = .matrix M ∧ entry M 0 1 = some y ∧ Rounded.Fin y := by
  refine ⟨FnSpecs.none_right _, exC84_safe.1, exC84_finite, ?_, exC84_safe.2.1, trivial, exC84_safe.2.2, ?_, ?_⟩
  · have h1 : specBadStd (.fin (2 ^ 1073) : B64) = false := by decide +kernel
    have h2 : specBadStd (.fin (2 ^ 1072) : B64) = false := by decide +kernel
    simp only [formulas, exC84, FState.step, h1, h2, Arg.formula, BinOp.formula, UnOp.formula, List.foldl]
    rfl
  · simp [Formula.covCount, exFormula, Formula.count, List.range_succ]
  · have h1 : (sees exC84 (.covarianceMatrix [.ref 0, .ref 5])).finiteEntry 0 1 = true := by decide +kernel
    generalize sees exC84 (.covarianceMatrix [.ref 0, .ref 5]) = o at h1
    unfold Out.finiteEntry at h1
    split at h1
    · split at h1
      · rename_i hm
        exact ⟨_, _, rfl, hm, trivial⟩
      · cases h1
    · cases h1

end Unc
