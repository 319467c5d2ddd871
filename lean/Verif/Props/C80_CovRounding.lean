import Verif.Lemmas.RoundingCov
import Verif.Props.C71_Rounding

/-
C80: covariance matrices calculated with floating-point arithmetic. Exact values and bounds are defined in
`Spec/Rounding.lean` and `Spec/RoundingCov.lean`.
-/

namespace Unc

set_option autoImplicit false

section any
variable {F : Type} [PyMath F]

theorem sees_covarianceMatrix {cs : List (Cmd F)} {xs : List (Arg F)} {M : List (List F)}
    (h : sees cs (.covarianceMatrix xs) = .matrix M) :
    ∃ us w rows, evalArgs (Arg.evalUnc (after cs).env) xs = some us ∧
      World.covRows [] us (after cs).w = (w, .ok rows) ∧ symmetrize 0 rows = .ok M := by
  simp only [sees, Machine.step, World.covarianceMatrix] at h
  cases hus : evalArgs (Arg.evalUnc (after cs).env) xs with
  | none => rw [hus] at h; simp [Machine.invalid] at h
  | some us =>
    rw [hus] at h
    simp only at h
    generalize hr : World.covRows [] us (after cs).w = r at h
    obtain ⟨w, r⟩ := r
    cases r with
    | error e => simp at h
    | ok rows =>
      simp only at h
      cases hs : symmetrize 0 rows with
      | error e => rw [hs] at h; simp at h
      | ok M' =>
        rw [hs] at h
        simp only [Out.matrix.injEq] at h
        subst h
        exact ⟨us, w, rows, rfl, hr, hs⟩

theorem evalArgs_eachArg {α β : Type} {ev : α → Option β} {l : List α} {l' : List β}
    (h : evalArgs ev l = some l') : l'.length = l.length ∧
      ∀ (i : Nat) (y : β), l'[i]? = some y → ∃ x, l[i]? = some x ∧ ev x = some y := by
  induction l generalizing l' with
  | nil => simp only [evalArgs, Option.some.injEq] at h; subst h; simp
  | cons a l ih =>
    simp only [evalArgs] at h
    split at h
    · cases h
    · rename_i v hv
      split at h
      · cases h
      · rename_i vs hvs
        simp only [Option.some.injEq] at h
        subst h
        obtain ⟨a1, a2⟩ := ih hvs
        refine ⟨by simp [a1], fun i y hi => ?_⟩
        cases i with
        | zero => simp only [List.getElem?_cons_zero, Option.some.injEq] at hi; subst hi; exact ⟨a, rfl, hv⟩
        | succ i => simpa using a2 i y (by simpa using hi)

/-- **C80**: after any history, and whatever the floating-point arithmetic is (NaN and infinite values included), the
covariance matrix of `n` numbers is an n×n matrix which is exactly symmetric. -/
theorem C80_symmetric (cs : List (Cmd F)) (xs : List (Arg F)) (M : List (List F))
    (h : sees cs (.covarianceMatrix xs) = .matrix M) :
    M.length = xs.length ∧ (∀ row ∈ M, row.length = xs.length) ∧ ∀ i j, entry M i j = entry M j i := by
  obtain ⟨us, w, rows, h1, h2, h3⟩ := sees_covarianceMatrix h
  obtain ⟨b1, b2⟩ := covRows_length _ _ h2
  obtain ⟨c1, c2, c3⟩ := symmetrize_entry h3 (fun k row hk => by simpa using b2 k row hk)
  have hl := (evalArgs_eachArg h1).1
  rw [b1, hl] at c1 c2
  refine ⟨c1, c2, fun i j => ?_⟩
  by_cases hi : i < rows.length
  · by_cases hj : j < rows.length
    · rcases Nat.le_total i j with hij | hij
      · rw [(c3 i j hi hj).1 hij, (c3 j i hj hi).2 hij]
      · rw [(c3 i j hi hj).2 hij, (c3 j i hj hi).1 hij]
    · have e1 : entry M j i = none := by
        simp only [entry]
        rw [List.getElem?_eq_none (by omega)]; rfl
      rw [e1]
      simp only [entry]
      cases hr : M[i]? with
      | none => rfl
      | some row =>
        have := c2 row (List.mem_of_getElem? hr)
        simp only [Option.bind_some]
        exact List.getElem?_eq_none (by omega)
  · have e1 : entry M i j = none := by
      simp only [entry]
      rw [List.getElem?_eq_none (by omega)]; rfl
    rw [e1]
    simp only [entry]
    cases hr : M[j]? with
    | none => rfl
    | some row =>
      have := c2 row (List.mem_of_getElem? hr)
      simp only [Option.bind_some]
      exact (List.getElem?_eq_none (by omega)).symm

end any

section
variable {F : Type} [PyMath F] [Halts F] [Rounded F]

omit [Halts F] in
theorem Grad.covTerm_comm (g h : Grad) (vars : List (RVar F)) (v : VarId) :
    g.covTerm h vars v = h.covTerm g vars v := by
  unfold Grad.covTerm
  cases g v <;> cases h v <;> cases vars[v]? <;> simp [mul_comm]

omit [Halts F] in
theorem Grad.covTermMax_comm (g h : Grad) (vars : List (RVar F)) (v : VarId) :
    g.covTermMax h vars v = h.covTermMax g vars v := by
  unfold Grad.covTermMax
  cases g v with
  | none => cases h v <;> rfl
  | some I =>
    cases h v with
    | none => rfl
    | some J =>
      cases vars[v]? with
      | none => rfl
      | some cell => simp only; rw [mul_comm (|I.exact| + _)]

omit [Halts F] in
theorem Grad.cov_comm (g h : Grad) (vars : List (RVar F)) : g.cov h vars = h.cov g vars :=
  Finset.sum_congr rfl fun v _ => g.covTerm_comm h vars v

omit [Halts F] in
theorem Grad.covBound_comm (g h : Grad) (vars : List (RVar F)) : g.covBound h vars = h.covBound g vars := by
  unfold Grad.covBound Grad.covCount
  rw [Finset.sum_congr rfl fun v _ => g.covTermMax_comm h vars v,
    Finset.sum_congr rfl fun v _ => congrArg abs (g.covTerm_comm h vars v)]
  simp only [Bool.and_comm]

theorem RRel.sees_covSum {g : NodeId → Grad} {s : RState F} (cs : List (Cmd F)) (hg : RRel g (Unc.after cs) s) (xs : List (Arg F))
    (M : List (List F)) (h : sees cs (.covarianceMatrix xs) = .matrix M) (i j : ℕ) (y : F) (hy : entry M i j = some y) :
    ∃ x1 x2 u1 u2, xs[i]? = some x1 ∧ xs[j]? = some x2 ∧
      x1.evalUnc (Unc.after cs).env = some u1 ∧ x2.evalUnc (Unc.after cs).env = some u2 ∧
      (IsCovSum g (Unc.after cs).w.vars u1 u2 y ∨ IsCovSum g (Unc.after cs).w.vars u2 u1 y) := by
  obtain ⟨us, w, rows, h1, h2, h3⟩ := sees_covarianceMatrix h
  obtain ⟨b1, b2⟩ := covRows_length _ _ h2
  obtain ⟨c1, c2, c3⟩ := symmetrize_entry h3 (fun k row hk => by simpa using b2 k row hk)
  obtain ⟨l1, l2⟩ := evalArgs_eachArg h1
  have hus : ∀ u ∈ us, u.Valid (Unc.after cs).w := by
    intro u hu
    obtain ⟨k, hk⟩ := List.getElem?_of_mem hu
    obtain ⟨x, -, hx⟩ := l2 k u hk
    exact hg.mshape.evalUnc hx
  have key := covRows_sums us [] hg.inv hus (by simp) h2
  have hi : i < rows.length := by
    simp only [entry] at hy
    cases hr : M[i]? with
    | none => rw [hr] at hy; cases hy
    | some row => rw [← c1]; exact (List.getElem?_eq_some_iff.mp hr).1
  have hj : j < rows.length := by
    simp only [entry] at hy
    cases hr : M[i]? with
    | none => rw [hr] at hy; cases hy
    | some row =>
      rw [hr] at hy
      rw [← c2 row (List.mem_of_getElem? hr)]
      exact (List.getElem?_eq_some_iff.mp hy).1
  have ei : us[i]? = some (us[i]'(by omega)) := List.getElem?_eq_getElem _
  have ej : us[j]? = some (us[j]'(by omega)) := List.getElem?_eq_getElem _
  obtain ⟨x1, m1, n1⟩ := l2 i _ ei
  obtain ⟨x2, m2, n2⟩ := l2 j _ ej
  refine ⟨x1, x2, _, _, m1, m2, n1, n2, ?_⟩
  rcases Nat.le_total i j with hij | hij
  · rw [(c3 i j hi hj).1 hij] at hy
    exact .inr (key j i _ _ y ej ei hy)
  · rw [(c3 i j hi hj).2 hij] at hy
    exact .inl (key i j _ _ y ei ej hy)

theorem RRel.sees_covariance {g : NodeId → Grad} {s : RState F} (cs : List (Cmd F)) (hg : RRel g (Unc.after cs) s) (xs : List (Arg F))
    (M : List (List F)) (h : sees cs (.covarianceMatrix xs) = .matrix M) (i j : ℕ) (y : F)
    (hy : entry M i j = some y) (hf : Rounded.Fin y) :
    ∃ x1 x2 q1 q2, xs[i]? = some x1 ∧ xs[j]? = some x2 ∧
      x1.revalUnc s.env = some q1 ∧ x2.revalUnc s.env = some q2 ∧
      |Rounded.val y - q1.grad.cov q2.grad s.vars| ≤ q1.grad.covBound q2.grad s.vars := by
  obtain ⟨x1, x2, u1, u2, m1, m2, n1, n2, hs⟩ := RRel.sees_covSum cs hg xs M h i j y hy
  refine ⟨x1, x2, _, _, m1, m2, by rw [hg.evalUnc x1, n1]; rfl, by rw [hg.evalUnc x2, n2]; rfl, ?_⟩
  rw [hg.vars]
  rcases hs with hs | hs
  · exact hs.near hg.inv hf
  · rw [Grad.cov_comm, Grad.covBound_comm]
    exact hs.near hg.inv hf

/-- **C80**: after any history `cs` of commands (without copies), each element of the covariance matrix that is finite differs
from the exact covariance (the sum of the products of the exact derivatives and of the variances of the variables) by no more
than the bound. -/
theorem C80_covariance (cs : List (Cmd F)) (hc : ∀ c ∈ cs, c.isCopy = false) (xs : List (Arg F))
    (M : List (List F)) (h : sees cs (.covarianceMatrix xs) = .matrix M) (i j : ℕ) (y : F)
    (hy : entry M i j = some y) (hf : Rounded.Fin y) :
    ∃ x1 x2 q1 q2, xs[i]? = some x1 ∧ xs[j]? = some x2 ∧
      x1.revalUnc (exactly cs).env = some q1 ∧ x2.revalUnc (exactly cs).env = some q2 ∧
      |Rounded.val y - q1.grad.cov q2.grad (exactly cs).vars| ≤ q1.grad.covBound q2.grad (exactly cs).vars := by
  obtain ⟨g, hg⟩ := RRel.after cs hc
  exact RRel.sees_covariance cs hg xs M h i j y hy hf

/-- **C80**, with copies: the same bound holds after any history `cs` of commands; the exact state `s` is determined up to the
identities of the variables of the copies. -/
theorem C80_copies (cs : List (Cmd F)) :
    ∃ s, ExactlyRuns cs s ∧ ∀ (xs : List (Arg F)) (M : List (List F)), sees cs (.covarianceMatrix xs) = .matrix M →
      ∀ (i j : ℕ) (y : F), entry M i j = some y → Rounded.Fin y →
        ∃ x1 x2 q1 q2, xs[i]? = some x1 ∧ xs[j]? = some x2 ∧
          x1.revalUnc s.env = some q1 ∧ x2.revalUnc s.env = some q2 ∧
          |Rounded.val y - q1.grad.cov q2.grad s.vars| ≤ q1.grad.covBound q2.grad s.vars := by
  obtain ⟨g, s, hg, hs⟩ := RRel.afterAll cs
  exact ⟨s, hs, fun xs M h i j y hy hf => RRel.sees_covariance cs hg xs M h i j y hy hf⟩

/-- **C80**: the order in which Python iterates over the set of the variables that two numbers have in common is not specified;
the bound holds for all the orders. -/
theorem C80_any_order (cs : List (Cmd F)) (hc : ∀ c ∈ cs, c.isCopy = false) (x1 x2 : Arg F)
    (D1 D2 : VarId → Option F) (h1 : sees cs (.derivatives x1) = .dict D1)
    (h2 : sees cs (.derivatives x2) = .dict D2) (order : List VarId) (hn : order.Nodup)
    (hall : ∀ v, v ∈ order ↔ (D1 v).isSome ∧ (D2 v).isSome) (y : F)
    (hy : covSum (fun v => ((exactly cs).vars[v]?).map RVar.std) D1 D2 order 0 = .ok y) (hf : Rounded.Fin y) :
    ∃ q1 q2, x1.revalUnc (exactly cs).env = some q1 ∧ x2.revalUnc (exactly cs).env = some q2 ∧
      |Rounded.val y - q1.grad.cov q2.grad (exactly cs).vars| ≤ q1.grad.covBound q2.grad (exactly cs).vars := by
  obtain ⟨g, hg⟩ := RRel.after cs hc
  have read : ∀ (x : Arg F) (D : VarId → Option F), sees cs (.derivatives x) = .dict D →
      ∃ u, x.evalUnc (after cs).env = some u ∧ (∀ v, DictOK (D v) (g u.lin v)) ∧
        ∀ v, (D v).isSome → v < (exactly cs).vars.length := by
    intro x D h
    obtain ⟨u, hu, hr⟩ := RRel.read_ok h (by simp) (by simp)
    obtain ⟨d, hd, hD⟩ := mapRes_ok hr
    obtain ⟨w', d', a1, _, a3, a4, a5⟩ := World.derivatives_rounded hg.inv (hg.mshape.evalUnc hu)
    rw [a1] at hd
    simp only [Except.ok.injEq] at hd
    subst hd
    simp only [Out.dict.injEq] at hD
    subst hD
    refine ⟨u, hu, a4, fun v hv => ?_⟩
    obtain ⟨z, hz⟩ := Option.isSome_iff_exists.mp hv
    rw [hg.vars, List.length_map]
    exact a5 v (mem_keys_of_lookup hz)
  obtain ⟨u1, a1, a2, a3⟩ := read x1 D1 h1
  obtain ⟨u2, b1, b2, -⟩ := read x2 D2 h2
  refine ⟨_, _, by rw [hg.evalUnc x1, a1]; rfl, by rw [hg.evalUnc x2, b1]; rfl, ?_⟩
  exact covSum_near a2 b2 (hg.inv.den.ok _) (hg.inv.den.ok _) order hn hall
    (fun v hv => a3 v ((hall v).mp hv).1) hy hf

omit [Halts F] in
/-- **C80**: the exact variance is the square of the exact standard deviation, so that the diagonal of the covariance matrix and
the standard deviations (`C71_std_dev`) approximate the same numbers. -/
theorem C80_diagonal (g : Grad) (vars : List (RVar F)) : g.cov g vars = g.std vars ^ 2 := by
  unfold Grad.cov Grad.std l2norm
  rw [Real.sq_sqrt (Finset.sum_nonneg fun v _ => sq_nonneg _)]
  refine Finset.sum_congr rfl fun v _ => ?_
  unfold Grad.covTerm Grad.term
  cases g v <;> cases vars[v]? <;> simp
  ring

end

/-! ### Rounding can make a matrix that is not a covariance matrix -/

/-- `x = ufloat(1, 1); y = 0.7*x` -/
def exC80 : List (Cmd B64) :=
  [.ufloat (.fin (2 ^ 1074)) (.fin (2 ^ 1074)) none,
   .binop .mul (.const (.flt (.fin (6305039478318694 * 2 ^ 1021)))) (.ref 0)]

def Out.two : Out B64 → Option (ℤ × ℤ × ℤ)
  | .matrix [[.fin a, .fin b], [_, .fin c]] => some (a, b, c)
  | _ => none

theorem Out.two_some {o : Out B64} {a b c : ℤ} (h : o.two = some (a, b, c)) :
    ∃ M, o = .matrix M ∧ entry M 0 0 = some (.fin a) ∧ entry M 0 1 = some (.fin b) ∧
      entry M 1 1 = some (.fin c) := by
  unfold Out.two at h
  split at h
  · simp only [Option.some.injEq, Prod.mk.injEq] at h
    obtain ⟨rfl, rfl, rfl⟩ := h
    exact ⟨_, rfl, rfl, rfl, rfl⟩
  · cases h

/-- **C80**: because of rounding, the matrix is not always positive semi-definite: with `x = ufloat(1, 1)` and `y = 0.7*x`,
`covariance_matrix([x, y])` is `[[1, 0.7], [0.7, 0.48999999999999994]]`, whose determinant is negative. -/
theorem C80_fails_positive : ∃ (M : List (List B64)) (a b c : B64),
    sees exC80 (.covarianceMatrix [.ref 0, .ref 1]) = .matrix M ∧ entry M 0 0 = some a ∧ entry M 0 1 = some b ∧
      entry M 1 1 = some c ∧ Rounded.Fin a ∧ Rounded.Fin b ∧ Rounded.Fin c ∧
      Rounded.val a * Rounded.val c - Rounded.val b ^ 2 < 0 := by
  have h : ∃ a b c, (sees exC80 (.covarianceMatrix [.ref 0, .ref 1])).two = some (a, b, c) ∧ a * c < b ^ 2 := by
    refine ⟨2 ^ 1074, 6305039478318694 * 2 ^ 1021, 8827055269646171 * 2 ^ 1020, ?_, ?_⟩
    · decide +kernel
    · decide +kernel
  obtain ⟨a, b, c, h1, h2⟩ := h
  obtain ⟨M, m1, m2, m3, m4⟩ := Out.two_some h1
  refine ⟨M, _, _, _, m1, m2, m3, m4, trivial, trivial, trivial, ?_⟩
  change (a : ℝ) * (2 : ℝ)⁻¹ ^ 1074 * ((c : ℝ) * (2 : ℝ)⁻¹ ^ 1074) - ((b : ℝ) * (2 : ℝ)⁻¹ ^ 1074) ^ 2 < 0
  have h3 : (a : ℝ) * c < (b : ℝ) ^ 2 := by exact_mod_cast h2
  have h4 : (0 : ℝ) < (2 : ℝ)⁻¹ ^ 1074 := by positivity
  generalize (2 : ℝ)⁻¹ ^ 1074 = t at h4
  have : (a : ℝ) * t * (c * t) - (b * t) ^ 2 = (a * c - b ^ 2) * t ^ 2 := by ring
  rw [this]
  exact mul_neg_of_neg_of_pos (by linarith) (by positivity)

/-- The hypotheses of `C80_covariance` (and of `C80_symmetric`) are satisfied, with an element that is not zero. -/
example : (∀ c ∈ exC80, c.isCopy = false) ∧ ∃ M y, sees exC80 (.covarianceMatrix [.ref 0, .ref 1]) = .matrix M ∧
    entry M 0 1 = some y ∧ Rounded.Fin y ∧ Rounded.val y ≠ 0 := by
  refine ⟨by simp [exC80, Cmd.isCopy], ?_⟩
  have h : (sees exC80 (.covarianceMatrix [.ref 0, .ref 1])).two =
      some (2 ^ 1074, 6305039478318694 * 2 ^ 1021, 8827055269646171 * 2 ^ 1020) := by decide +kernel
  obtain ⟨M, m1, -, m3, -⟩ := Out.two_some h
  refine ⟨M, _, m1, m3, trivial, ?_⟩
  change ((6305039478318694 * 2 ^ 1021 : ℤ) : ℝ) * (2 : ℝ)⁻¹ ^ 1074 ≠ 0
  exact mul_ne_zero (Int.cast_ne_zero.mpr (mul_ne_zero (by norm_num) (pow_ne_zero _ (by norm_num)))) (by positivity)

/-- `C80_copies` applies to copies: two numbers that are pickled together stay correlated. -/
example : ∃ M y, sees (exC80 ++ [.pickle [.ref 0, .ref 1]]) (.covarianceMatrix [.ref (exC80.length), .ref (exC80.length + 1)]) =
    .matrix M ∧ entry M 0 1 = some y ∧ Rounded.Fin y ∧ Rounded.val y ≠ 0 := by
  have h : (sees (exC80 ++ [.pickle [.ref 0, .ref 1]]) (.covarianceMatrix [.ref (exC80.length), .ref (exC80.length + 1)])).two =
      some (2 ^ 1074, 6305039478318694 * 2 ^ 1021, 8827055269646171 * 2 ^ 1020) := by decide +kernel
  obtain ⟨M, m1, -, m3, -⟩ := Out.two_some h
  refine ⟨M, _, m1, m3, trivial, ?_⟩
  change ((6305039478318694 * 2 ^ 1021 : ℤ) : ℝ) * (2 : ℝ)⁻¹ ^ 1074 ≠ 0
  exact mul_ne_zero (Int.cast_ne_zero.mpr (mul_ne_zero (by norm_num) (pow_ne_zero _ (by norm_num)))) (by positivity)

/-- `x = ufloat(1, 0.1); y = ufloat(1, 0.2); p = x*y; s = x + y` -/
def exC80b : List (Cmd B64) :=
  [.ufloat (.fin (2 ^ 1074)) exTenth none, .ufloat (.fin (2 ^ 1074)) exFifth none,
   .binop .mul (.ref 0) (.ref 1), .binop .add (.ref 0) (.ref 1)]

/-- Sum of the covariance of two results of `exC80b`. -/
def exC80sum (order : List VarId) : Option B64 :=
  match sees exC80b (.derivatives (.ref 2)), sees exC80b (.derivatives (.ref 3)) with
  | .dict D1, .dict D2 =>
    if (D1 0).isSome && (D1 1).isSome && (D2 0).isSome && (D2 1).isSome then
      (covSum (fun v => ([exTenth, exFifth] : List B64)[v]?) D1 D2 order 0).toOption
    else none
  | _, _ => none

/-- The hypotheses of `C80_any_order` are satisfied, for both orders. -/
example : B64.isNumber (exC80sum [0, 1]) = true ∧ B64.isNumber (exC80sum [1, 0]) = true ∧
    (exactly exC80b).vars.map RVar.std = [exTenth, exFifth] ∧ ∀ c ∈ exC80b, c.isCopy = false := by
  refine ⟨by decide +kernel, by decide +kernel, ?_, by simp [exC80b, Cmd.isCopy]⟩
  have h1 : specBadStd exTenth = false := by decide +kernel
  have h2 : specBadStd exFifth = false := by decide +kernel
  have h3 : ∀ (s : RState B64) (op : BinOp) (x y : Arg B64), (s.step (.binop op x y)).vars = s.vars := by
    intro s op x y
    have hb : ∀ r, (s.bind r).vars = s.vars := by
      intro r
      unfold RState.bind
      split <;> rfl
    simp only [RState.step]
    split
    · split
      · exact hb _
      · rfl
    · rfl
  have h4 : ∀ (s : RState B64) (n a : B64), specBadStd a = false →
      (s.step (.ufloat n a none)).vars = s.vars ++ [⟨n, a⟩] := by
    intro s n a ha
    simp only [RState.step, ha, Bool.false_eq_true, if_false]
  simp only [exactly, exC80b, List.foldl_cons, List.foldl_nil]
  rw [h3, h3, h4 _ _ _ h2, h4 _ _ _ h1]
  rfl

end Unc
